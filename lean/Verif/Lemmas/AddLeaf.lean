import Verif.Lemmas.Build

/-!
# One new node below `cur`

`AddLeaf h h' cur c`: the only difference between the heaps is a new last child of `cur` with content `c`. This is what
one token does in `new_document`.
-/

namespace Amxml
open Spec

structure AddLeaf (h h' : Heap) (cur : NodeId) (c : Content) : Prop where
  size : h'.size = h.size + 1 + c.attrs.length
  new : h'.node h.size =
    { mkNode c.ntype (some cur) c.name c.value with attributes := List.range' (h.size + 1) c.attrs.length }
  attr : ∀ k a, c.attrs[k]? = some a → h'.node (h.size + 1 + k) = mkNode .attribute (some h.size) a.1 a.2
  atCur : h'.node cur = { h.node cur with children := (h.node cur).children ++ [h.size] }
  other : ∀ j, j ≠ cur → j < h.size ∨ h'.size ≤ j → h'.node j = h.node j

theorem pushAttrs_closed (as : List (Str × Str)) (h : Heap) (i : NodeId) (hi : i < h.size) :
    let h' := as.foldl (fun h' a => h'.pushAttr i a) h
    h'.size = h.size + as.length ∧
    h'.node i = { h.node i with attributes := (h.node i).attributes ++ List.range' h.size as.length } ∧
    (∀ k a, as[k]? = some a → h'.node (h.size + k) = mkNode .attribute (some i) a.1 a.2) ∧
    (∀ j, j ≠ i → j < h.size ∨ h'.size ≤ j → h'.node j = h.node j) := by
  induction as generalizing h with
  | nil => simp
  | cons a as ih =>
    have hs : (h.pushAttr i a).size = h.size + 1 := by simp [Heap.pushAttr]
    obtain ⟨h1, h2, h3, h4⟩ := ih (h.pushAttr i a) (by omega)
    have hni : i ≠ h.size := by omega
    have e1 : (h.pushAttr i a).node i = { h.node i with attributes := (h.node i).attributes ++ [h.size] } := by
      simp [Heap.pushAttr, hni]
    have e2 : ∀ j, j ≠ i → j ≠ h.size → (h.pushAttr i a).node j = h.node j := by
      intro j hj hj'; simp [Heap.pushAttr, hj, hj']
    have e3 : (h.pushAttr i a).node h.size = mkNode .attribute (some i) a.1 a.2 := by
      simp [Heap.pushAttr, Ne.symm hni]
    refine ⟨by simp only [List.foldl_cons, List.length_cons]; omega, ?_, ?_, ?_⟩
    · simp only [List.foldl_cons, h2, e1, hs, List.length_cons]
      simp [List.range'_succ]
    · intro k b hk
      cases k with
      | zero =>
        simp at hk; subst hk
        simp only [List.foldl_cons, Nat.add_zero]
        rw [h4 h.size (Ne.symm hni) (.inl (by omega)), e3]
      | succ k =>
        simp at hk
        have := h3 k b hk
        simp only [List.foldl_cons]
        rw [← this, hs]; congr 1; omega
    · intro j hj hb
      simp only [List.foldl_cons] at hb ⊢
      rw [h4 j hj (by omega), e2 j hj (by omega)]

theorem addLeaf_makeChild {h : Heap} {cur : NodeId} (hc : cur < h.size) (t : NodeType) (n v : Str) :
    AddLeaf h (h.makeChild t cur n v none) cur ⟨t, n, v, []⟩ := by
  have hne : cur ≠ h.size := by omega
  refine ⟨by simp [Heap.makeChild], ?_, by simp, ?_, ?_⟩
  · simp [Heap.makeChild, Ne.symm hne, mkNode]
  · simp [Heap.makeChild, hne, insertHint]
  · intro j hj hb
    have : j ≠ h.size := by simp [Heap.makeChild] at hb; omega
    simp [Heap.makeChild, hj, this]

theorem addLeaf_element {h : Heap} {cur : NodeId} (hc : cur < h.size) (n : Str) (as : List (Str × Str)) :
    AddLeaf h (as.foldl (fun h' a => h'.pushAttr h.size a) (h.makeChild .element cur n [] none)) cur
      ⟨.element, n, [], as⟩ := by
  have hl := addLeaf_makeChild hc .element n []
  have hs := hl.size
  simp only [List.length_nil, Nat.add_zero] at hs
  obtain ⟨h1, h2, h3, h4⟩ := pushAttrs_closed as (h.makeChild .element cur n [] none) h.size (by omega)
  refine ⟨by rw [h1, hs], ?_, ?_, ?_, ?_⟩
  · rw [h2, hl.new, hs]; simp [mkNode]
  · intro k a hk; rw [hs] at h3; exact h3 k a hk
  · rw [h4 cur (by omega) (.inl (by omega)), hl.atCur]
  · intro j hj hb
    rw [h4 j (by omega) (by omega), hl.other j hj (by omega)]

/-- The content a token adds, if any. -/
def tokContent : Token → Option Content
  | .startElement n as => some ⟨.element, n, [], as⟩
  | .charData s => some ⟨.text, [], s, []⟩
  | .procInst t s => some (if t = S "xml" then ⟨.xmlDecl, S "xml", s, []⟩ else ⟨.instruction, t, s, []⟩)
  | .comment s => some ⟨.comment, [], s, []⟩
  | _ => none

/-- Effect of a token. -/
theorem stepToken_cases {h h' : Heap} {cur cur' : NodeId} {t : Token} (hc : cur < h.size)
    (hs : stepToken h cur t = .ok (h', cur')) :
    (∃ c, tokContent t = some c ∧ AddLeaf h h' cur c ∧ cur' = if c.ntype = .element then h.size else cur) ∨
    (h' = h ∧ tokContent t = none ∧ (cur' = cur ∨ (h.node cur).parent = some cur')) := by
  cases t with
  | eof => simp [stepToken] at hs; right; simp [hs, tokContent]
  | directive s => simp [stepToken] at hs; right; simp [hs, tokContent]
  | startElement n as =>
    simp [stepToken] at hs; left
    refine ⟨_, rfl, ?_, by simp [hs]⟩
    rw [← hs.1]; exact addLeaf_element hc n as
  | charData s =>
    simp [stepToken] at hs; left
    refine ⟨_, rfl, ?_, by simp [hs]⟩
    rw [← hs.1]; exact addLeaf_makeChild hc _ _ _
  | comment s =>
    simp [stepToken] at hs; left
    refine ⟨_, rfl, ?_, by simp [hs]⟩
    rw [← hs.1]; exact addLeaf_makeChild hc _ _ _
  | procInst t s =>
    left
    simp only [stepToken] at hs
    refine ⟨_, rfl, ?_⟩
    split at hs
    · rename_i e
      simp at hs
      rw [← hs.1, ← hs.2]; simp only [e, if_true]; exact ⟨addLeaf_makeChild hc _ _ _, by simp⟩
    · rename_i e
      simp at hs
      rw [← hs.1, ← hs.2]; simp only [e, if_false]; exact ⟨addLeaf_makeChild hc _ _ _, by simp⟩
  | endElement n =>
    right
    simp only [stepToken] at hs
    split at hs
    · simp at hs
    · simp at hs
      refine ⟨hs.1.symm, rfl, ?_⟩
      cases hp : (h.node cur).parent with
      | none => rw [hp] at hs; left; simpa using hs.2.symm
      | some p => rw [hp] at hs; right; simpa using hs.2

theorem AddLeaf.heapWF {h h' : Heap} {cur : NodeId} {c : Content} (hl : AddLeaf h h' cur c) (hw : HeapWF h)
    (hc : cur < h.size) : HeapWF h' := by
  have hs := hl.size
  -- every node is the current one, an old one, the new one, an attribute, or beyond
  have cases : ∀ i, i = cur ∨ (i ≠ cur ∧ h'.node i = h.node i ∧ (i < h.size ∨ h'.size ≤ i)) ∨ i = h.size ∨
      (h.size < i ∧ ∃ a : Str × Str, h'.node i = mkNode .attribute (some h.size) a.1 a.2) := by
    intro i
    by_cases e : i = cur
    · exact .inl e
    · by_cases e1 : i < h.size ∨ h'.size ≤ i
      · exact .inr (.inl ⟨e, hl.other i e e1, e1⟩)
      · by_cases e2 : i = h.size
        · exact .inr (.inr (.inl e2))
        · right; right; right
          have hk : i - (h.size + 1) < c.attrs.length := by omega
          refine ⟨by omega, c.attrs[i - (h.size + 1)], ?_⟩
          rw [← hl.attr (i - (h.size + 1)) _ (List.getElem?_eq_getElem hk)]
          congr 1; omega
  refine ⟨?_, ?_, ?_⟩
  · intro i p hp
    rcases cases i with rfl | ⟨_, e, _⟩ | rfl | ⟨hi, a, e⟩
    · rw [hl.atCur] at hp; exact hw.parent_lt _ _ hp
    · rw [e] at hp; exact hw.parent_lt _ _ hp
    · rw [hl.new] at hp; simp [mkNode] at hp; omega
    · rw [e] at hp; simp [mkNode] at hp; omega
  · intro i hi
    rw [hl.other i (by omega) (.inr hi)]
    exact hw.fresh i (by omega)
  · intro i j hj
    rcases cases i with rfl | ⟨_, e, _⟩ | rfl | ⟨hi, a, e⟩
    · rw [hl.atCur] at hj
      simp only [List.mem_append, List.mem_singleton] at hj
      rcases hj with (hj | hj) | hj
      · have := hw.closed i j (.inl hj); omega
      · omega
      · have := hw.closed i j (.inr hj); omega
    · rw [e] at hj
      have := hw.closed i j hj; omega
    · rw [hl.new] at hj
      simp [mkNode, List.mem_range'_1] at hj; omega
    · rw [e] at hj; simp [mkNode] at hj

/-! ### effect on forests -/

theorem modifyKids_toList_mem {α : Type} [DecidableEq α] {i j : α} {G F : Forest α} (hi : i ∈ F.toList) :
    j ∈ (F.modifyKids i (· ++ G)).toList ↔ j ∈ F.toList ∨ j ∈ G.toList := by
  have h1 : ∀ F : Forest α, j ∈ (F.modifyKids i (· ++ G)).toList → j ∈ F.toList ∨ j ∈ G.toList := by
    intro F
    induction F with
    | nil => simp [Forest.modifyKids, Forest.toList]
    | cons a k r ih1 ih2 =>
      simp only [Forest.modifyKids]
      split
      · simp only [Forest.toList, List.mem_cons, List.mem_append, Forest.toList_append]
        rintro (h | (h | h) | h) <;> simp [h]
      · simp only [Forest.toList, List.mem_cons, List.mem_append]
        rintro (h | h | h)
        · simp [h]
        · rcases ih1 h with h | h <;> simp [h]
        · rcases ih2 h with h | h <;> simp [h]
  have h2 : ∀ F : Forest α, j ∈ F.toList → j ∈ (F.modifyKids i (· ++ G)).toList := by
    intro F
    induction F with
    | nil => simp [Forest.toList]
    | cons a k r ih1 ih2 =>
      simp only [Forest.modifyKids]
      split
      · simp only [Forest.toList, List.mem_cons, List.mem_append, Forest.toList_append]
        rintro (h | h | h) <;> simp [h]
      · simp only [Forest.toList, List.mem_cons, List.mem_append]
        rintro (h | h | h)
        · simp [h]
        · simp [ih1 h]
        · simp [ih2 h]
  have h3 : ∀ F : Forest α, i ∈ F.toList → j ∈ G.toList → j ∈ (F.modifyKids i (· ++ G)).toList := by
    intro F
    induction F with
    | nil => simp [Forest.toList]
    | cons a k r ih1 ih2 =>
      intro hi hj
      simp only [Forest.modifyKids]
      split
      · simp [Forest.toList, hj]
      · rename_i hne
        simp only [Forest.toList, List.mem_cons, List.mem_append] at hi ⊢
        rcases hi with h | h | h
        · exact absurd h.symm hne
        · simp [ih1 h hj]
        · simp [ih2 h hj]
  exact ⟨h1 F, fun h => h.elim (h2 F) (h3 F hi)⟩

/-- The forest of the document after adding a leaf. -/
def addLeafForest (r cur n : NodeId) (F : Forest NodeId) : Forest NodeId :=
  if r = cur then F ++ .cons n .nil .nil else F.modifyKids cur (· ++ .cons n .nil .nil)

theorem addLeafForest_eq (r cur n : NodeId) (F : Forest NodeId) :
    (Forest.cons r F .nil).modifyKids cur (· ++ .cons n .nil .nil) = .cons r (addLeafForest r cur n F) .nil := by
  unfold addLeafForest
  simp only [Forest.modifyKids]
  split <;> rfl

theorem nodup_insert_mid {α : Type} {A B N P : List α} (h : (A ++ B ++ P).Nodup) (hN : N.Nodup)
    (hd : ∀ x ∈ N, x ∉ A ++ B ++ P) : (A ++ (B ++ N) ++ P).Nodup := by
  have hp : (A ++ (B ++ N) ++ P).Perm ((A ++ B ++ P) ++ N) := by
    simp only [List.append_assoc]
    exact (List.perm_append_comm.append_left _ |>.append_left _)
  rw [hp.nodup_iff, List.nodup_append]
  exact ⟨h, hN, fun a ha b hb e => hd b hb (e ▸ ha)⟩

theorem AddLeaf.docTree {h h' : Heap} {r cur : NodeId} {c : Content} {F : Forest NodeId} (hl : AddLeaf h h' cur c)
    (hd : DocTree h r F) (hcur : cur ∈ (Forest.cons r F .nil).toList) :
    DocTree h' r (addLeafForest r cur h.size F) ∧
    (∀ i ∈ docIds h (.cons r F .nil), i ≠ cur → h'.node i = h.node i) := by
  have hlt : ∀ i ∈ docIds h (.cons r F .nil), i < h.size := hd.bound
  have hcl := hlt cur (mem_docIds_of_mem hcur)
  have hsame : ∀ i ∈ docIds h (.cons r F .nil), i ≠ cur → h'.node i = h.node i :=
    fun i hi hne => hl.other i hne (.inl (hlt i hi))
  refine ⟨?_, hsame⟩
  obtain ⟨k, hk⟩ := kidsOf_isSome hcur
  obtain ⟨_, hkl, hkc⟩ := kidsOf_spec hd.linked hk
  have hsz := hl.size
  have hkids : ∀ j ∈ docIds h k, j ∈ docIds h (.cons r F .nil) := by
    obtain ⟨_, pre, post, e, _⟩ := modifyKids_linked hd.linked hd.nodup hk id (h' := h)
      (fun j _ _ => .refl _ _) rfl rfl hkc hkl
    rw [e]; intro j hj; simp [hj]
  have hcnk : cur ∉ docIds h k := by
    obtain ⟨_, pre, post, e, _⟩ := modifyKids_linked hd.linked hd.nodup hk id (h' := h)
      (fun j _ _ => .refl _ _) rfl rfl hkc hkl
    have hn := hd.nodup
    rw [e] at hn
    simp only [List.append_assoc, List.nodup_append, List.cons_append, List.nodup_cons, List.mem_append, not_or] at hn
    exact hn.2.1.1.2.1
  have hleaf : Linked h' (some cur) (Forest.cons h.size .nil .nil) := by
    refine ⟨by rw [hl.new]; rfl, ?_, by rw [hl.new]; rfl, trivial, trivial⟩
    intro a ha
    rw [hl.new] at ha
    simp only [mkNode, List.mem_range'_1] at ha
    have hka : a - (h.size + 1) < c.attrs.length := by omega
    have := hl.attr _ _ (List.getElem?_eq_getElem hka)
    rw [show h.size + 1 + (a - (h.size + 1)) = a by omega] at this
    rw [this]; rfl
  have hkl' : Linked h' (some cur) (k ++ .cons h.size .nil .nil) := by
    rw [linked_append]
    exact ⟨linked_congr hkl fun j hj => .of_eq (hsame j (hkids j hj) (fun e => hcnk (e ▸ hj))), hleaf⟩
  obtain ⟨hL, pre, post, e1, e2⟩ := modifyKids_linked hd.linked hd.nodup hk (· ++ .cons h.size .nil .nil) (h' := h')
    (fun j hj hne => .of_eq (hsame j hj hne)) (by rw [hl.atCur]) (by rw [hl.atCur])
    (by rw [hl.atCur, Forest.roots_append, ← hkc]; rfl) hkl'
  rw [addLeafForest_eq] at hL e2
  have hdk : docIds h' k = docIds h k := docIds_congr fun i hi => by
    have hm := mem_docIds_of_mem (h := h) hi
    rw [hsame i (hkids i hm) (fun e => hcnk (e ▸ hm))]
  rw [docIds_append, hdk] at e2
  have hnew : docIds h' (Forest.cons h.size .nil .nil) = h.size :: List.range' (h.size + 1) c.attrs.length := by
    simp [docIds, hl.new, mkNode]
  rw [hnew] at e2
  have hnl : ∀ x ∈ h.size :: List.range' (h.size + 1) c.attrs.length, h.size ≤ x ∧ x < h'.size := by
    intro x hx
    simp only [List.mem_cons, List.mem_range'_1] at hx; omega
  have hold := hd.nodup
  refine ⟨hL, ?_, ?_⟩
  · rw [e2]
    rw [e1] at hold
    refine nodup_insert_mid hold ?_ ?_
    · rw [← List.range'_succ]; exact List.nodup_range' 
    · intro x hx hm
      rw [← e1] at hm
      have := hlt x hm; have := hnl x hx; omega
  · intro i hi
    rw [e2] at hi
    have : i ∈ docIds h (.cons r F .nil) ∨ i ∈ h.size :: List.range' (h.size + 1) c.attrs.length := by
      rw [e1]; simp only [List.mem_append] at hi ⊢; tauto
    rcases this with h1 | h1
    · have := hlt i h1; omega
    · exact (hnl i h1).2

theorem AddLeaf.contentOf_new {h h' : Heap} {cur : NodeId} {c : Content} (hl : AddLeaf h h' cur c) :
    contentOf h' h.size = c := by
  unfold contentOf
  rw [hl.new]
  have : (List.range' (h.size + 1) c.attrs.length).map (fun a => ((h'.node a).name, (h'.node a).value)) = c.attrs := by
    apply List.ext_getElem
    · simp
    · intro i h1 h2
      simp only [List.getElem_map, List.getElem_range']
      rw [Nat.one_mul, hl.attr i _ (List.getElem?_eq_getElem h2)]
      rfl
  simp only [mkNode, this]

theorem Spec.DocTree.contentOf_same {h h' : Heap} {r : NodeId} {F : Forest NodeId} (_ : DocTree h r F)
    (hs : ∀ i ∈ docIds h (.cons r F .nil), (h'.node i).ntype = (h.node i).ntype ∧ (h'.node i).name = (h.node i).name ∧
      (h'.node i).value = (h.node i).value ∧ (h'.node i).attributes = (h.node i).attributes) {i : NodeId}
    (hi : i ∈ (Forest.cons r F .nil).toList) : contentOf h' i = contentOf h i := by
  have h1 := hs i (mem_docIds_of_mem hi)
  unfold contentOf
  simp only [h1.1, h1.2.1, h1.2.2.1, h1.2.2.2, Content.mk.injEq, true_and]
  apply List.map_congr_left
  intro a ha
  have := hs a (mem_docIds_attr hi ha)
  rw [this.2.1, this.2.2.1]

/-- Invariant of the loop of `new_document`: a parsed document whose nodes satisfy `P`, and `cur` is its root or an
element in it. -/
structure BuildInv (P : Content → Prop) (h : Heap) (r : NodeId) (F : Forest NodeId) (cur : NodeId) : Prop where
  doc : ParsedDoc h r F
  mem : cur ∈ (Forest.cons r F .nil).toList
  type : cur = r ∨ (h.node cur).ntype = .element
  sat : ∀ i ∈ F.toList, P (contentOf h i)
  wf : HeapWF h

theorem BuildInv.addLeaf {P : Content → Prop} {h h' : Heap} {r cur : NodeId} {F : Forest NodeId} {c : Content}
    (hi : BuildInv P h r F cur) (hl : AddLeaf h h' cur c) (hP : P c)
    (ht : c.ntype ≠ .documentRoot ∧ c.ntype ≠ .attribute ∧ c.ntype ≠ .directive)
    (ha : c.ntype ≠ .element → c.attrs = []) :
    BuildInv P h' r (addLeafForest r cur h.size F) (if c.ntype = .element then h.size else cur) := by
  have hd := hi.doc
  obtain ⟨hdt, hsame⟩ := hl.docTree hd.toDocTree hi.mem
  have hcl := hd.bound _ (mem_docIds_of_mem hi.mem)
  have hrl := hd.bound r (by simp [docIds])
  have hndl : ((Forest.cons r F .nil).toList).Nodup := (toList_sublist_docIds h _).nodup hd.nodup
  have hrF : r ∉ F.toList := by
    intro hm; simp [Forest.toList] at hndl; exact hndl.1 hm
  have hmem : ∀ j, j ∈ (Forest.cons r (addLeafForest r cur h.size F) .nil).toList ↔
      j ∈ (Forest.cons r F .nil).toList ∨ j = h.size := by
    intro j
    rw [← addLeafForest_eq, modifyKids_toList_mem hi.mem]
    simp [Forest.toList]
  have hmemF : ∀ j ∈ (addLeafForest r cur h.size F).toList, j ∈ F.toList ∨ j = h.size := by
    intro j hj
    unfold addLeafForest at hj
    split at hj
    · simpa [Forest.toList] using hj
    · by_cases hc : cur ∈ F.toList
      · rw [modifyKids_toList_mem hc] at hj; simpa [Forest.toList] using hj
      · rw [Forest.modifyKids_of_not_mem hc] at hj; exact .inl hj
  -- types, names, values, attributes of old nodes are unchanged
  have hsame' : ∀ i ∈ docIds h (.cons r F .nil), (h'.node i).ntype = (h.node i).ntype ∧
      (h'.node i).name = (h.node i).name ∧ (h'.node i).value = (h.node i).value ∧
      (h'.node i).attributes = (h.node i).attributes := by
    intro i hm
    by_cases e : i = cur
    · subst e; rw [hl.atCur]; simp
    · rw [hsame i hm e]; simp
  have hFd : ∀ j ∈ F.toList, j ∈ (Forest.cons r F .nil).toList := by intro j hj; simp [Forest.toList, hj]
  refine ⟨⟨hdt, ?_, ?_, ?_⟩, ?_, ?_, ?_, hl.heapWF hi.wf hcl⟩
  · rw [(hsame' r (by simp [docIds])).1]; exact hd.root_type
  · rw [(hsame' r (by simp [docIds])).2.2.2]; exact hd.root_attrs
  · intro j hj
    rcases hmemF j hj with hj | rfl
    · have hjt := hd.typed j hj
      have hjm : j ∈ docIds h (.cons r F .nil) := mem_docIds_of_mem (hFd j hj)
      obtain ⟨s1, s2, s3, s4⟩ := hsame' j hjm
      refine ⟨by rw [s1]; exact hjt.type, ?_, ?_⟩
      · intro hne
        rw [s1] at hne
        have hjc : j ≠ cur := by
          intro e
          rcases hi.type with h1 | h1
          · rw [e, h1] at hj; exact hrF hj
          · rw [e] at hne; exact hne h1
        rw [hsame j hjm hjc]; exact hjt.leaf hne
      · intro a ha
        rw [s4] at ha
        have ham : a ∈ docIds h (.cons r F .nil) := mem_docIds_attr (hFd j hj) ha
        have hac : a ≠ cur := by
          rintro rfl
          have h1 := (hjt.attr a ha).1
          rcases hi.type with h2 | h2
          · rw [h2, hd.root_type] at h1; simp at h1
          · rw [h2] at h1; simp at h1
        rw [hsame a ham hac]; exact hjt.attr a ha
    · refine ⟨by rw [hl.new]; exact ht, ?_, ?_⟩
      · intro hne
        rw [hl.new] at hne ⊢
        simp only [mkNode] at hne
        simp [mkNode, ha hne]
      · intro a hm
        rw [hl.new] at hm
        simp only [mkNode, List.mem_range'_1] at hm
        have hka : a - (h.size + 1) < c.attrs.length := by omega
        have := hl.attr _ _ (List.getElem?_eq_getElem hka)
        rw [show h.size + 1 + (a - (h.size + 1)) = a by omega] at this
        rw [this]; simp [mkNode]
  · rw [hmem]
    split
    · simp
    · exact .inl hi.mem
  · split
    · rename_i e; right; rw [hl.new]; exact e
    · rcases hi.type with h1 | h1
      · exact .inl h1
      · right; rw [(hsame' cur (mem_docIds_of_mem hi.mem)).1]; exact h1
  · intro j hj
    rcases hmemF j hj with hj | rfl
    · rw [DocTree.contentOf_same hd.toDocTree hsame' (hFd j hj)]; exact hi.sat j hj
    · rw [hl.contentOf_new]; exact hP

theorem tokContent_shape {t : Token} {c : Content} (h : tokContent t = some c) :
    (c.ntype ≠ .documentRoot ∧ c.ntype ≠ .attribute ∧ c.ntype ≠ .directive) ∧ (c.ntype ≠ .element → c.attrs = []) := by
  cases t <;> simp [tokContent] at h
  all_goals try (subst h; simp)
  split <;> simp

theorem BuildInv.step {P : Content → Prop} {h h' : Heap} {r cur cur' : NodeId} {F : Forest NodeId} {t : Token}
    (hi : BuildInv P h r F cur) (hs : stepToken h cur t = .ok (h', cur')) (hP : ∀ c, tokContent t = some c → P c) :
    ∃ F', BuildInv P h' r F' cur' := by
  have hcl := hi.doc.bound _ (mem_docIds_of_mem hi.mem)
  rcases stepToken_cases hcl hs with ⟨c, hc, hl, rfl⟩ | ⟨rfl, _, hcur⟩
  · have := tokContent_shape hc
    exact ⟨_, hi.addLeaf hl (hP c hc) this.1 this.2⟩
  · refine ⟨F, hi.doc, ?_, ?_, hi.sat, hi.wf⟩
    · rcases hcur with rfl | hp
      · exact hi.mem
      · rcases linked_parent hi.doc.linked hi.mem with ⟨e, _⟩ | ⟨j, hj, e, _⟩
        · rw [e] at hp; simp at hp
        · rw [e] at hp; simp at hp; exact hp ▸ hj
    · rcases hcur with rfl | hp
      · exact hi.type
      · rcases linked_parent hi.doc.linked hi.mem with ⟨e, _⟩ | ⟨j, hj, e, hch⟩
        · rw [e] at hp; simp at hp
        · rw [e] at hp; simp at hp; subst hp
          simp only [Forest.toList, List.mem_cons, List.append_nil] at hj
          rcases hj with rfl | hj
          · exact .inl rfl
          · right
            by_contra hne
            have := ((hi.doc.typed j hj).leaf hne).1
            rw [this] at hch; simp at hch

theorem BuildInv.run {P : Content → Prop} (ts : List Token) {h h' : Heap} {r cur cur' : NodeId} {F : Forest NodeId}
    (hi : BuildInv P h r F cur) (hs : buildTokens ts h cur = .ok (h', cur'))
    (hP : ∀ t ∈ ts, ∀ c, tokContent t = some c → P c) : ∃ F', BuildInv P h' r F' cur' := by
  induction ts generalizing h cur F with
  | nil => simp [buildTokens] at hs; exact ⟨F, hs.1 ▸ hs.2 ▸ hi⟩
  | cons t ts ih =>
    simp only [buildTokens] at hs
    split at hs
    · simp at hs
    · rename_i h1 c1 e
      obtain ⟨F1, hi1⟩ := hi.step e (hP t (by simp))
      exact ih hi1 hs (fun t ht => hP t (by simp [ht]))

theorem BuildInv.init (P : Content → Prop) (h : Heap) (hw : HeapWF h) :
    BuildInv P (h.alloc (mkNode .documentRoot none [] [])) h.size .nil h.size := by
  refine ⟨⟨⟨⟨?_, ?_, ?_, trivial, trivial⟩, ?_, ?_⟩, ?_, ?_, ?_⟩, ?_, .inl rfl, ?_, ?_, ?_, ?_⟩ <;>
    simp [mkNode, docIds, Forest.roots, Forest.toList]
  · intro i p hp
    by_cases e : i = h.size
    · simp [e] at hp
    · simp [e] at hp; exact hw.parent_lt i p hp
  · intro i hi
    have : i ≠ h.size := by omega
    simp [this]; exact hw.fresh i (by omega)
  · intro i j hj
    by_cases e : i = h.size
    · simp [e] at hj
    · simp [e] at hj
      have := hw.closed i j hj; omega

theorem Spec.HeapWF.empty : HeapWF Heap.empty := by
  refine ⟨?_, ?_, ?_⟩ <;> simp [Heap.empty, mkNode]

/-- Parsing: the document is well linked and typed, its nodes carry the contents of tokens. -/
theorem newDocument_parsed {h h' : Heap} {xml : Str} {r : NodeId} (hw : HeapWF h)
    (hd : newDocument h xml = some (.ok (h', r))) {P : Content → Prop}
    (hP : ∀ ts, Stream (Dec.new xml) ts → ∀ t ∈ ts, ∀ c, tokContent t = some c → P c) :
    ∃ F cur, BuildInv P h' r F cur := by
  obtain ⟨rfl, ts, cur, hs, hb⟩ := newDocument_ok hd
  obtain ⟨F, hF⟩ := (BuildInv.init P h hw).run ts hb (hP ts hs)
  exact ⟨F, cur, hF⟩

end Amxml
