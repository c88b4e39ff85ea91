import Verif.Props.Edit
import Verif.Props.Order
import Verif.Props.XAxes
import Verif.Props.Links
import Verif.Spec.EditText

/-!
# C89: edits show in the text of the document
-/

namespace Amxml
open Spec

/-! ## the text of a node from the texts of its children -/

theorem toStringF_one {n : Nat} {h : Heap} {i : NodeId} :
    toStringF (n + 1) h [i] 0 0 = match (h.node i).ntype with
      | .documentRoot => toStringF n h (h.node i).children 0 0
      | .element => if (h.node i).children = [] then some (nodeText (contentOf h i) []) else
          (toStringF n h (h.node i).children 0 0).map fun inner =>
            S "<" ++ (h.node i).name ++ attrsToString h (h.node i).attributes ++ S ">" ++ inner ++ S "</" ++ (h.node i).name ++ S ">"
      | _ => some (nodeText (contentOf h i) []) := by
  have hnil : toStringF n h [] 0 0 = some [] := by cases n <;> rfl
  have ha : attrsToString h (h.node i).attributes = (contentOf h i).attrs.flatMap fun a =>
      S " " ++ a.1 ++ S "=\"" ++ encodeEntity a.2 ++ S "\"" := by
    simp [attrsToString, contentOf, List.flatMap_map]
  simp only [toStringF, hnil]
  have hc : (contentOf h i).ntype = (h.node i).ntype := rfl
  simp only [nodeText, escape_eq]
  rw [hc]
  cases (h.node i).ntype <;> simp only [nlIfPositive, ha]
  · cases toStringF n h (h.node i).children 0 0 <;> simp
  · cases hch : (h.node i).children with
    | nil => simp [contentOf]
    | cons c cs =>
      simp only [List.length_cons, Nat.add_one_ne_zero, if_false]
      cases toStringF n h (c :: cs) 0 0 <;> simp
  all_goals simp [contentOf]

theorem toStringF_join {n : Nat} {h : Heap} {i : NodeId} {l : List NodeId} {x y : Str} (hx : toStringF (n + 1) h [i] 0 0 = some x)
    (hy : toStringF n h l 0 0 = some y) : toStringF (n + 1) h (i :: l) 0 0 = some (x ++ y) := by
  have hnil : toStringF n h [] 0 0 = some [] := by cases n <;> rfl
  rw [toStringF.eq_def] at hx ⊢
  simp only [hnil] at hx
  simp only [hy]
  split at hx
  · rename_i a b e1 e2
    rw [e1]
    simp at e2 hx
    subst e2
    simpa using hx
  · simp at hx

theorem Spec.Writes.unique {h : Heap} {i : NodeId} {s t : Str} (hs : Writes h i s) (ht : Writes h i t) : s = t := by
  obtain ⟨N, hN⟩ := hs
  obtain ⟨M, hM⟩ := ht
  have := (hN (max N M) (by omega)).symm.trans (hM (max N M) (by omega))
  simpa using this

theorem Spec.Writes.of {h : Heap} {i : NodeId} {s : Str} {n : Nat} (hs : h.toString n i = some s) : Writes h i s :=
  ⟨n, fun m hm => toStringF_mono n _ _ _ _ hs m hm⟩

theorem Spec.WriteAll.run {h : Heap} {l : List NodeId} {ss : List Str} (hl : WriteAll h l ss) :
    ∃ N, ∀ n, N ≤ n → toStringF n h l 0 0 = some ss.flatten := by
  induction hl with
  | nil => exact ⟨0, fun n _ => by cases n <;> rfl⟩
  | @cons i l s ss h1 h2 ih =>
    obtain ⟨N, hN⟩ := h1
    obtain ⟨M, hM⟩ := ih
    refine ⟨max (N + 1) (M + 1), fun n hn => ?_⟩
    obtain ⟨n, rfl⟩ : ∃ k, n = k + 1 := ⟨n - 1, by omega⟩
    have e1 := hN (n + 1) (by omega)
    have e2 := hM n (by omega)
    exact toStringF_join e1 e2

theorem writeAll_of {h : Heap} {l : List NodeId} {n : Nat} {s : Str} (hs : toStringF n h l 0 0 = some s) :
    ∃ ss, WriteAll h l ss ∧ s = ss.flatten := by
  induction l generalizing s with
  | nil => cases n <;> simp [toStringF] at hs <;> exact ⟨[], .nil, by simp [← hs]⟩
  | cons i l ih =>
    obtain ⟨x, y, h1, h2, rfl⟩ := toStringF_cons hs
    obtain ⟨ss, h3, rfl⟩ := ih h2
    exact ⟨x :: ss, .cons (.of h1) h3, by simp⟩

theorem Spec.WriteAll.length {h : Heap} {l : List NodeId} {ss : List Str} (hl : WriteAll h l ss) : l.length = ss.length := by
  induction hl with
  | nil => rfl
  | cons _ _ ih => simp [ih]

theorem Spec.WriteAll.append {h : Heap} {l l' : List NodeId} {ss ss' : List Str} (hl : WriteAll h l ss) (hl' : WriteAll h l' ss') :
    WriteAll h (l ++ l') (ss ++ ss') := by
  induction hl with
  | nil => exact hl'
  | cons h1 _ ih => exact .cons h1 ih

theorem Spec.WriteAll.split {h : Heap} {l l' : List NodeId} {ss : List Str} (hl : WriteAll h (l ++ l') ss) :
    ∃ a b, WriteAll h l a ∧ WriteAll h l' b ∧ ss = a ++ b := by
  induction l generalizing ss with
  | nil => exact ⟨[], ss, .nil, hl, rfl⟩
  | cons i l ih =>
    cases hl with
    | cons h1 h2 =>
      obtain ⟨a, b, h3, h4, rfl⟩ := ih h2
      exact ⟨_ :: a, b, .cons h1 h3, h4, rfl⟩

/-- The text of a node. -/
theorem writes_node {h : Heap} {i : NodeId} {ss : List Str} (hk : WriteAll h (h.node i).children ss) :
    Writes h i (nodeText (contentOf h i) ss) := by
  obtain ⟨N, hN⟩ := hk.run
  have hl := hk.length
  have ha : attrsToString h (h.node i).attributes = (contentOf h i).attrs.flatMap fun a =>
      S " " ++ a.1 ++ S "=\"" ++ encodeEntity a.2 ++ S "\"" := by
    simp [attrsToString, contentOf, List.flatMap_map]
  refine ⟨N + 1, fun n hn => ?_⟩
  obtain ⟨n, rfl⟩ : ∃ k, n = k + 1 := ⟨n - 1, by omega⟩
  unfold Heap.toString
  rw [toStringF_one, hN n (by omega)]
  have hc : (contentOf h i).ntype = (h.node i).ntype := rfl
  have hn : (contentOf h i).name = (h.node i).name := rfl
  simp only [nodeText, escape_eq]
  rw [hc, ha, hn]
  cases (h.node i).ntype <;> simp only
  by_cases he : (h.node i).children = []
  · have : ss = [] := List.length_eq_zero_iff.1 (by rw [← hl, he]; rfl)
    simp [he, this]
  · have : ss ≠ [] := fun e => he (List.length_eq_zero_iff.1 (by rw [hl, e]; rfl))
    simp [he, this]

theorem writesInner {h : Heap} {i : NodeId} {ss : List Str} (hk : WriteAll h (h.node i).children ss) : WritesInner h i ss.flatten := by
  obtain ⟨N, hN⟩ := hk.run
  refine ⟨N, fun n hn => ?_⟩
  have := innerXml_of (acc := []) (hN n hn)
  simpa [Heap.innerXml] using this

/-! ## what does not change -/

theorem Spec.Down.trans {h : Heap} {i j k : NodeId} (h1 : Down h i j) (h2 : Down h j k) : Down h i k := by
  induction h1 with
  | refl => exact h2
  | child hc _ ih => exact .child hc (ih h2)

theorem toStringF_frame {h h' : Heap} (n : Nat) : ∀ (l : List NodeId) (s : Str), toStringF n h l 0 0 = some s →
    (∀ i ∈ l, ∀ j, Down h i j → contentOf h' j = contentOf h j ∧ (h'.node j).children = (h.node j).children) →
    toStringF n h' l 0 0 = some s := by
  induction n with
  | zero => intro l s hs _; cases l <;> simp_all [toStringF]
  | succ n ih =>
    intro l
    induction l with
    | nil => intro s hs _; simpa [toStringF] using hs
    | cons i l ihl =>
      intro s hs hsame
      obtain ⟨x, y, h1, h2, rfl⟩ := toStringF_cons hs
      have hy := ihl y h2 fun i hi j hj => hsame i (by simp [hi]) j hj
      have hi := hsame i (by simp) i .refl
      have hk : ∀ z, toStringF n h (h.node i).children 0 0 = some z → toStringF n h' (h'.node i).children 0 0 = some z := by
        intro z hz
        rw [hi.2]
        exact ih _ z hz fun c hc j hj => hsame i (by simp) j (.child hc hj)
      have ht : (h'.node i).ntype = (h.node i).ntype := congrArg Content.ntype hi.1
      have hn : (h'.node i).name = (h.node i).name := congrArg Content.name hi.1
      have ha : attrsToString h' (h'.node i).attributes = attrsToString h (h.node i).attributes := by
        have := congrArg Content.attrs hi.1
        simp only [contentOf] at this
        have e : ∀ g : Heap, attrsToString g (g.node i).attributes = ((g.node i).attributes.map fun a => ((g.node a).name, (g.node a).value)).flatMap
            fun a => S " " ++ a.1 ++ S "=\"" ++ encodeEntity a.2 ++ S "\"" := by
          intro g; simp [attrsToString, List.flatMap_map]
        rw [e, e, this]
      have hx : toStringF (n + 1) h' [i] 0 0 = some x := by
        rw [toStringF_one] at h1 ⊢
        rw [ht, hi.1, hi.2, hn, ha]
        revert h1
        cases (h.node i).ntype <;> simp only <;> intro h1
        · have := hk x h1; rwa [hi.2] at this
        · by_cases he : (h.node i).children = []
          · simpa [he] using h1
          · simp only [he, if_false, Option.map_eq_some_iff] at h1 ⊢
            obtain ⟨z, hz, rfl⟩ := h1
            have := hk z hz
            rw [hi.2] at this
            exact ⟨z, this, rfl⟩
        all_goals exact h1
      have hyn : toStringF n h' l 0 0 = some y := by
        -- the rest was written with fuel `n`
        simp only [toStringF] at hs
        split at hs
        · rename_i x' y' e1 e2
          have e4 := toStringF_mono _ _ _ _ _ e2 (n + 1) (by omega)
          rw [h2] at e4
          obtain rfl : y = y' := by simpa using e4
          exact ih l y e2 fun i hi j hj => hsame i (by simp [hi]) j hj
        · simp at hs
      exact toStringF_join hx hyn

theorem Spec.Writes.frame {h h' : Heap} {i : NodeId} {s : Str} (hs : Writes h i s)
    (hsame : ∀ j, Down h i j → contentOf h' j = contentOf h j ∧ (h'.node j).children = (h.node j).children) : Writes h' i s := by
  obtain ⟨N, hN⟩ := hs
  exact ⟨N, fun n hn => toStringF_frame n _ _ (hN n hn) (by simpa using hsame)⟩

theorem Spec.WriteAll.frame {h h' : Heap} {l : List NodeId} {ss : List Str} (hs : WriteAll h l ss)
    (hsame : ∀ i ∈ l, ∀ j, Down h i j → contentOf h' j = contentOf h j ∧ (h'.node j).children = (h.node j).children) : WriteAll h' l ss := by
  induction hs with
  | nil => exact .nil
  | cons h1 _ ih => exact .cons (h1.frame (hsame _ (by simp))) (ih fun i hi => hsame i (by simp [hi]))

/-! ## nodes of a document -/

section
variable {h : Heap} (hw : HeapWF h) {r : NodeId} {F : Forest NodeId} (hd : DocTree h r F)
include hw hd

theorem down_doc {i j : NodeId} (hij : Down h i j) (hi : i ∈ r :: F.toList) : j ∈ r :: F.toList ∧ i ≤ j := by
  induction hij with
  | refl => exact ⟨hi, Nat.le_refl _⟩
  | @child i c j hc _ ih =>
    have := linked_child hd.linked (i := i) (c := c) (by simpa [Forest.toList] using hi) hc
    have h1 := ih (by simpa [Forest.toList] using this.1)
    have h2 := hw.parent_lt _ _ this.2
    exact ⟨h1.1, Nat.le_trans (Nat.le_of_lt h2) h1.2⟩

omit hw in
theorem doc_child {i c : NodeId} (hi : i ∈ r :: F.toList) (hc : c ∈ (h.node i).children) :
    c ∈ r :: F.toList ∧ (h.node c).parent = some i := by
  simpa [Forest.toList] using linked_child hd.linked (i := i) (c := c) (by simpa [Forest.toList] using hi) hc

/-- Nothing is below its own children. -/
theorem not_below_child {i c : NodeId} (hi : i ∈ r :: F.toList) (hc : c ∈ (h.node i).children) : ¬ Down h c i := by
  intro hdn
  obtain ⟨h1, h2⟩ := doc_child hd hi hc
  have h3 := hw.parent_lt _ _ h2
  have h4 := (down_doc hw hd hdn h1).2
  omega

omit hw in
theorem down_up {i e : NodeId} (hij : Down h i e) (hi : i ∈ r :: F.toList) (hne : i ≠ e) : ∃ q, Down h i q ∧ (h.node e).parent = some q := by
  induction hij with
  | refl => exact absurd rfl hne
  | @child i c j hc hcj ih =>
    obtain ⟨h1, h2⟩ := doc_child hd hi hc
    by_cases e : c = j
    · subst e; exact ⟨i, .refl, h2⟩
    · obtain ⟨q, h3, h4⟩ := ih h1 e
      exact ⟨q, .child hc h3, h4⟩

/-- Siblings are not below each other. -/
theorem not_below_sibling {q c e : NodeId} (hq : q ∈ r :: F.toList) (hc : c ∈ (h.node q).children) (he : e ∈ (h.node q).children) (hne : c ≠ e) :
    ¬ Down h c e := by
  intro hdn
  obtain ⟨h1, -⟩ := doc_child hd hq hc
  obtain ⟨-, h2⟩ := doc_child hd hq he
  obtain ⟨q', h3, h4⟩ := down_up hd hdn h1 hne
  rw [h2] at h4
  cases h4
  exact not_below_child hw hd hq hc h3

theorem down_line {x e j : NodeId} (hx : x ∈ r :: F.toList) (he : e ∈ r :: F.toList) (h1 : Down h x j) (h2 : Down h e j) : Down h x e ∨ Down h e x := by
  induction j using Nat.strongRecOn with
  | ind j ih =>
    by_cases e1 : x = j
    · exact .inr (e1 ▸ h2)
    by_cases e2 : e = j
    · exact .inl (e2 ▸ h1)
    obtain ⟨q, h3, h4⟩ := down_up hd h1 hx e1
    obtain ⟨q', h5, h6⟩ := down_up hd h2 he e2
    rw [h4] at h6
    cases h6
    exact ih q (hw.parent_lt _ _ h4) h3 h5

omit hw hd in
theorem subtree_of {p : Option NodeId} {G : Forest NodeId} (hl : Linked h p G) {i : NodeId} (hi : i ∈ G.toList) :
    ∃ p' k, Linked h p' (.cons i k .nil) := by
  induction G generalizing p with
  | nil => simp [Forest.toList] at hi
  | cons a k r ih1 ih2 =>
    obtain ⟨h1, h2, h3, h4, h5⟩ := hl
    simp only [Forest.toList, List.mem_cons, List.mem_append] at hi
    rcases hi with rfl | hi | hi
    · exact ⟨p, k, h1, h2, h3, h4, trivial⟩
    · exact ih1 h4 hi
    · exact ih2 h5 hi

omit hw in
/-- Every node of a document has a text. -/
theorem doc_writes {i : NodeId} (hi : i ∈ r :: F.toList) : ∃ s, Writes h i s := by
  obtain ⟨p, k, hl⟩ := subtree_of hd.linked (i := i) (by simpa [Forest.toList] using hi)
  exact ⟨_, .of (toStringF_forest _ hl _ (Nat.le_refl _))⟩

omit hw in
theorem doc_writeAll {i : NodeId} (hi : i ∈ r :: F.toList) : ∃ ss, WriteAll h (h.node i).children ss := by
  have : ∀ l : List NodeId, (∀ c ∈ l, c ∈ r :: F.toList) → ∃ ss, WriteAll h l ss := by
    intro l
    induction l with
    | nil => exact fun _ => ⟨[], .nil⟩
    | cons c l ih =>
      intro hl
      obtain ⟨s, hs⟩ := doc_writes hd (hl c (by simp))
      obtain ⟨ss, hss⟩ := ih fun c hc => hl c (by simp [hc])
      exact ⟨s :: ss, .cons hs hss⟩
  exact this _ fun c hc => (doc_child hd hi hc).1

/-- Every node of a document has its place in the text of the document. -/
theorem around (hn : OnlyElementsNest h r F) {e : NodeId} (he : e ∈ r :: F.toList) : ∃ pre post, Around h r F e pre post := by
  induction e using Nat.strongRecOn with
  | ind e ih =>
    by_cases her : e = r
    · subst her
      exact ⟨[], [], fun h' s _ hs => by simpa using hs⟩
    · have : e ∈ (Forest.cons r F .nil).toList := by simpa [Forest.toList] using he
      rcases linked_parent hd.linked this with ⟨-, h2⟩ | ⟨q, hq, h2, h3⟩
      · simp [Forest.roots] at h2; exact absurd h2 her
      · have hq' : q ∈ r :: F.toList := by simpa [Forest.toList] using hq
        obtain ⟨pre, post, hpp⟩ := ih q (hw.parent_lt _ _ h2) hq'
        obtain ⟨a, c, hac⟩ := List.append_of_mem h3
        obtain ⟨ss, hss⟩ := doc_writeAll hd hq'
        rw [hac] at hss
        obtain ⟨A, B, hA, hB, rfl⟩ := hss.split
        cases hB with
        | @cons _ _ t C ht hC =>
        have hnd : (h.node q).children.Nodup := C31_siblings.children_nodup hd (by simpa [Forest.toList] using hq')
        have hea : ∀ x ∈ a, x ≠ e := by
          rintro x hx rfl
          rw [hac] at hnd
          exact (List.nodup_append.1 hnd).2.2 x hx x (by simp) rfl
        have hec : ∀ x ∈ c, x ≠ e := by
          rintro x hx rfl
          rw [hac] at hnd
          exact (List.nodup_cons.1 (List.nodup_append.1 hnd).2.1).1 hx
        have hqe : ¬ Down h e q := by
          have := hw.parent_lt _ _ h2
          intro hdn
          have := (down_doc hw hd hdn he).2
          omega
        -- the text of the parent around the node
        obtain ⟨p1, p2, hp⟩ : ∃ p1 p2, ∀ s, nodeText (contentOf h q) (A ++ s :: C) = p1 ++ s ++ p2 := by
          have hq2 := hn q hq' (by rw [hac]; simp)
          have hct : (contentOf h q).ntype = (h.node q).ntype := rfl
          simp only [nodeText, escape_eq]
          rw [hct]
          rcases hq2 with hq2 | hq2 <;> rw [hq2]
          · refine ⟨S "<" ++ (contentOf h q).name ++ ((contentOf h q).attrs.flatMap fun a => S " " ++ a.1 ++ S "=\"" ++ encodeEntity a.2 ++ S "\"") ++ S ">" ++ A.flatten,
              C.flatten ++ S "</" ++ (contentOf h q).name ++ S ">", fun s => ?_⟩
            simp
          · exact ⟨A.flatten, C.flatten, fun s => by simp⟩
        refine ⟨pre ++ p1, p2 ++ post, fun h' s hsame hs => ?_⟩
        have hq3 := hsame q hq' hqe
        have hkids : WriteAll h' (h'.node q).children (A ++ s :: C) := by
          rw [hq3.2, hac]
          have fr : ∀ x ∈ (h.node q).children, x ≠ e → ∀ j, Down h x j → contentOf h' j = contentOf h j ∧ (h'.node j).children = (h.node j).children := by
            intro x hx hxe j hj
            refine hsame j (down_doc hw hd hj (doc_child hd hq' hx).1).1 ?_
            intro hej
            rcases down_line hw hd (doc_child hd hq' hx).1 he hj hej with hl | hl
            · exact not_below_sibling hw hd hq' hx h3 hxe hl
            · exact not_below_sibling hw hd hq' h3 hx (Ne.symm hxe) hl
          exact (hA.frame fun x hx => fr x (by rw [hac]; simp [hx]) (hea x hx)).append
            (.cons hs (hC.frame fun x hx => fr x (by rw [hac]; simp [hx]) (hec x hx)))
        have hq4 := writes_node hkids
        rw [hq3.1, hp] at hq4
        have := hpp h' _ (fun j hj hjq => hsame j hj fun hej => hjq (.child h3 hej)) hq4
        simpa using this

end

/-! ## edits -/

theorem down_lt {h : Heap} (hw : HeapWF h) {i j : NodeId} (hij : Down h i j) (hi : i < h.size) : j < h.size := by
  induction hij with
  | refl => exact hi
  | child hc _ ih => exact ih (hw.closed _ _ (.inl hc))

/-- `h'` is `h` with other children for the node `p` (and perhaps new nodes). -/
structure Rekids (h h' : Heap) (p : NodeId) : Prop where
  keep : (h'.node p).ntype = (h.node p).ntype ∧ (h'.node p).name = (h.node p).name ∧ (h'.node p).value = (h.node p).value ∧
      (h'.node p).attributes = (h.node p).attributes
  other : ∀ j, j ≠ p → j < h.size → SameNode h h' j

theorem Rekids.content {h h' : Heap} {p : NodeId} (hk : Rekids h h' p) (hw : HeapWF h) {j : NodeId} (hj : j < h.size) :
    contentOf h' j = contentOf h j := by
  have any : ∀ a, a < h.size → (h'.node a).ntype = (h.node a).ntype ∧ (h'.node a).name = (h.node a).name ∧
      (h'.node a).value = (h.node a).value ∧ (h'.node a).attributes = (h.node a).attributes := by
    intro a ha
    by_cases e : a = p
    · subst e; exact hk.keep
    · have := hk.other a e ha
      unfold SameNode at this
      rw [this]; simp
  refine contentOf_congr (any j hj) fun a ha => ?_
  have := any a (hw.closed j a (.inr ha))
  exact ⟨this.2.1, this.2.2.1⟩

theorem Rekids.children {h h' : Heap} {p : NodeId} (hk : Rekids h h' p) {j : NodeId} (hj : j < h.size) (hne : j ≠ p) :
    (h'.node j).children = (h.node j).children := by
  have := hk.other j hne hj
  unfold SameNode at this
  rw [this]

theorem Rekids.writes {h h' : Heap} {p : NodeId} (hk : Rekids h h' p) (hw : HeapWF h) {i : NodeId} {s : Str} (hi : i < h.size) (hn : ¬ Down h i p)
    (hs : Writes h i s) : Writes h' i s :=
  hs.frame fun _ hj => ⟨hk.content hw (down_lt hw hj hi), hk.children (down_lt hw hj hi) fun e => hn (e ▸ hj)⟩

theorem Rekids.writeAll {h h' : Heap} {p : NodeId} (hk : Rekids h h' p) (hw : HeapWF h) {l : List NodeId} {ss : List Str} (hl : ∀ i ∈ l, i < h.size ∧ ¬ Down h i p)
    (hs : WriteAll h l ss) : WriteAll h' l ss :=
  hs.frame fun i hi _ hj => ⟨hk.content hw (down_lt hw hj (hl i hi).1), hk.children (down_lt hw hj (hl i hi).1) fun e => (hl i hi).2 (e ▸ hj)⟩

theorem Rekids.copy {h h' : Heap} {p x y : NodeId} (hk : Rekids h h' p) (hw : HeapWF h) (hx : x < h.size) (hn : ¬ Down h x p)
    (hy : contentOf h' y = contentOf h x ∧ (h'.node y).children = (h.node x).children) {s : Str} (hs : Writes h x s) : Writes h' y s := by
  obtain ⟨N, hN⟩ := hs
  have h1 := hN (N + 1) (by omega)
  unfold Heap.toString at h1
  refine .of (n := N + 1) ?_
  unfold Heap.toString
  have ht : (h'.node y).ntype = (h.node x).ntype := congrArg Content.ntype hy.1
  have hnm : (h'.node y).name = (h.node x).name := congrArg Content.name hy.1
  have ha : attrsToString h' (h'.node y).attributes = attrsToString h (h.node x).attributes := by
    have := congrArg Content.attrs hy.1
    simp only [contentOf] at this
    have e : ∀ (g : Heap) (z : NodeId), attrsToString g (g.node z).attributes = ((g.node z).attributes.map fun a => ((g.node a).name, (g.node a).value)).flatMap
        fun a => S " " ++ a.1 ++ S "=\"" ++ encodeEntity a.2 ++ S "\"" := by
      intro g z; simp [attrsToString, List.flatMap_map]
    rw [e, e, this]
  rw [toStringF_one] at h1 ⊢
  have fr : ∀ z, toStringF N h (h.node x).children 0 0 = some z → toStringF N h' (h.node x).children 0 0 = some z := by
    intro z hz
    exact toStringF_frame N _ z hz fun c hc j hj =>
      have hj' : Down h x j := .child hc hj
      ⟨hk.content hw (down_lt hw hj' hx), hk.children (down_lt hw hj' hx) fun e => hn (e ▸ hj')⟩
  rw [ht, hy.1, hy.2, hnm, ha]
  revert h1
  cases (h.node x).ntype <;> simp only <;> intro h1
  · exact fr s h1
  · by_cases he : (h.node x).children = []
    · simpa [he] using h1
    · simp only [he, if_false, Option.map_eq_some_iff] at h1 ⊢
      obtain ⟨z, hz, rfl⟩ := h1
      exact ⟨z, fr z hz, rfl⟩
  all_goals exact h1

section
variable {h : Heap} (hw : HeapWF h) {r : NodeId} {F : Forest NodeId} (hd : DocTree h r F)
include hw hd

omit hw in
theorem doc_lt {i : NodeId} (hi : i ∈ r :: F.toList) : i < h.size :=
  hd.bound i (mem_docIds_of_mem (by simpa [Forest.toList] using hi))

theorem kids_below {e : NodeId} (he : e ∈ r :: F.toList) : ∀ i ∈ (h.node e).children, i < h.size ∧ ¬ Down h i e :=
  fun _ hi => ⟨hw.closed _ _ (.inl hi), not_below_child hw hd he hi⟩

/-- The document after the children of one node have been exchanged. -/
theorem rekids_document (hn : OnlyElementsNest h r F) {p : NodeId} (hp : p ∈ r :: F.toList) {kids : List Str}
    (hkids : WriteAll h (h.node p).children kids) : ∃ pre post, Around h r F p pre post ∧
      Writes h r (pre ++ nodeText (contentOf h p) kids ++ post) ∧
      ∀ h' kids', Rekids h h' p → WriteAll h' (h'.node p).children kids' →
        Writes h' r (pre ++ nodeText (contentOf h p) kids' ++ post) := by
  obtain ⟨pre, post, hpp⟩ := around hw hd hn hp
  refine ⟨pre, post, hpp, hpp h _ (fun _ _ _ => ⟨rfl, rfl⟩) (writes_node hkids), fun h' kids' hk hkids' => ?_⟩
  have h1 := writes_node hkids'
  rw [hk.content hw (doc_lt hd hp)] at h1
  refine hpp h' _ (fun j hj hne => ⟨hk.content hw (doc_lt hd hj), hk.children (doc_lt hd hj) ?_⟩) h1
  rintro rfl
  exact hne .refl

end

/-- **C89**, `append_child`: the text of the appended node `c` comes behind the texts of the children of `e`, in the text of `e`, in `inner_xml()` of `e` and
in the text of the document, and the rest of the text is the same. (`c` must not have `e` below it: there would be no text.) -/
theorem C89_append_child (h : Heap) (hr : Reach h) (r : NodeId) (F : Forest NodeId) (hd : DocTree h r F) (hn : OnlyElementsNest h r F)
    (e : NodeId) (he : e ∈ r :: F.toList) (c : NodeId) (hc : c < h.size) (hce : ¬ Down h c e) (s : Str) (hs : Writes h c s) :
    ∃ pre kids post, Around h r F e pre post ∧ WriteAll h (h.node e).children kids ∧
      Writes h r (pre ++ nodeText (contentOf h e) kids ++ post) ∧
      Writes (h.appendChild e c) r (pre ++ nodeText (contentOf h e) (kids ++ [s]) ++ post) ∧
      WritesInner (h.appendChild e c) e (kids.flatten ++ s) := by
  have hw := hr.inv.1
  obtain ⟨kids, hkids⟩ := doc_writeAll hd he
  obtain ⟨pre, post, hpp, h1, h2⟩ := rekids_document hw hd hn he hkids
  obtain ⟨k1, k2, k3⟩ := C18_append_child h e c
  have hk : Rekids h (h.appendChild e c) e := ⟨⟨k2.1, k2.2.1, k2.2.2.1, k2.2.2.2.1⟩, fun j hj _ => k3 j hj⟩
  have hkids' : WriteAll (h.appendChild e c) ((h.appendChild e c).node e).children (kids ++ [s]) := by
    rw [k1]
    exact (hk.writeAll hw (kids_below hw hd he) hkids).append (.cons (hk.writes hw hc hce hs) .nil)
  refine ⟨pre, kids, post, hpp, hkids, h1, h2 _ _ hk hkids', ?_⟩
  simpa using writesInner hkids'

/-- **C89**, `insert_as_previous_sibling`, `insert_as_next_sibling`, `replace_with`: the text of `x` comes immediately before, immediately after, or in place of
the text of `self`, and the rest of the text is the same. -/
theorem C89_siblings (h : Heap) (hr : Reach h) (r : NodeId) (F : Forest NodeId) (hd : DocTree h r F) (hn : OnlyElementsNest h r F)
    (self p : NodeId) (hp : p ∈ r :: F.toList) (a c : List NodeId) (hac : (h.node p).children = a ++ self :: c)
    (x : NodeId) (hx : x < h.size) (hxp : ¬ Down h x p) (s : Str) (hs : Writes h x s) :
    ∃ pre before t after post, Around h r F p pre post ∧ WriteAll h a before ∧ Writes h self t ∧ WriteAll h c after ∧
      Writes h r (pre ++ nodeText (contentOf h p) (before ++ t :: after) ++ post) ∧
      Writes (h.insertPrev self x) r (pre ++ nodeText (contentOf h p) (before ++ s :: t :: after) ++ post) ∧
      Writes (h.insertNext self x) r (pre ++ nodeText (contentOf h p) (before ++ t :: s :: after) ++ post) ∧
      Writes (h.replaceWith self x) r (pre ++ nodeText (contentOf h p) (before ++ s :: after) ++ post) := by
  have hw := hr.inv.1
  obtain ⟨kids, hkids⟩ := doc_writeAll hd hp
  obtain ⟨pre, post, hpp, h1, h2⟩ := rekids_document hw hd hn hp hkids
  have hb := kids_below hw hd hp
  have hsp : (h.node self).parent = some p := (doc_child hd hp (by rw [hac]; simp)).2
  have hss : self < h.size := hw.closed p self (.inl (by rw [hac]; simp))
  have hnd : (h.node p).children.Nodup := C31_siblings.children_nodup hd (by simpa [Forest.toList] using hp)
  have hna : self ∉ a := by
    intro hx
    rw [hac] at hnd
    exact (List.nodup_append.1 hnd).2.2 self hx self (by simp) rfl
  rw [hac] at hkids hb
  obtain ⟨A, B, hA, hB, rfl⟩ := hkids.split
  cases hB with
  | @cons _ _ t C ht hC =>
  have hxp' : x ≠ p := by rintro rfl; exact hxp .refl
  have key : ∀ (h' : Heap) (a' c' : List NodeId) (A' C' : List Str), InsertedCopy h h' p x a' c' → WriteAll h a' A' → WriteAll h c' C' →
      (∀ i ∈ a' ++ c', i < h.size ∧ ¬ Down h i p) → Writes h' r (pre ++ nodeText (contentOf h p) (A' ++ s :: C') ++ post) := by
    intro h' a' c' A' C' hi hA' hC' hb'
    have hk : Rekids h h' p := ⟨⟨hi.parentKept.1, hi.parentKept.2.1, hi.parentKept.2.2.1, hi.parentKept.2.2.2.1⟩, hi.other⟩
    refine h2 h' _ hk ?_
    rw [hi.children]
    refine (hk.writeAll hw (fun i hi => hb' i (by simp [hi])) hA').append (.cons ?_ (hk.writeAll hw (fun i hi => hb' i (by simp [hi])) hC'))
    obtain ⟨c1, c2, c3, c4, c5, -⟩ := hi.copy
    refine hk.copy hw hx hxp ⟨?_, c5 hxp'⟩ hs
    have hcx := hk.content hw hx
    have e4 := (hk.keep)
    have : (h'.node x).attributes = (h.node x).attributes := by
      have := hk.other x hxp' hx
      unfold SameNode at this
      rw [this]
    rw [← hcx]
    unfold contentOf
    have := congrArg Content.ntype hcx
    have := congrArg Content.name hcx
    have := congrArg Content.value hcx
    simp_all [contentOf]
  obtain ⟨i1, i2⟩ := (C19_insert_sibling h hw self x hss hx).1 p a c hsp hac hna
  have i3 := (C21_replace_with h hw self x hss hx).1 p a c hsp hac hna
  refine ⟨pre, A, t, C, post, hpp, hA, ht, hC, h1, key _ _ _ A (t :: C) i1 hA (.cons ht hC) hb, ?_, key _ _ _ A C i3 hA hC ?_⟩
  · have := key _ _ _ (A ++ [t]) C i2 (hA.append (.cons ht .nil)) hC (by simpa using hb)
    simpa using this
  · intro i hi
    refine hb i ?_
    simp at hi ⊢
    rcases hi with hi | hi <;> simp [hi]

/-- **C89**, `delete_child`: the text of the child is gone, the rest of the text is the same. -/
theorem C89_delete_child (h : Heap) (hr : Reach h) (r : NodeId) (F : Forest NodeId) (hd : DocTree h r F) (hn : OnlyElementsNest h r F)
    (e t : NodeId) (he : e ∈ r :: F.toList) (a c : List NodeId) (hac : (h.node e).children = a ++ t :: c) :
    ∃ pre before s after post, Around h r F e pre post ∧ WriteAll h a before ∧ Writes h t s ∧ WriteAll h c after ∧
      Writes h r (pre ++ nodeText (contentOf h e) (before ++ s :: after) ++ post) ∧
      Writes (h.deleteChild e t) r (pre ++ nodeText (contentOf h e) (before ++ after) ++ post) := by
  have hw := hr.inv.1
  obtain ⟨kids, hkids⟩ := doc_writeAll hd he
  obtain ⟨pre, post, hpp, h1, h2⟩ := rekids_document hw hd hn he hkids
  have hb := kids_below hw hd he
  have hnd : (h.node e).children.Nodup := C31_siblings.children_nodup hd (by simpa [Forest.toList] using he)
  have hna : t ∉ a := by
    intro hx
    rw [hac] at hnd
    exact (List.nodup_append.1 hnd).2.2 t hx t (by simp) rfl
  rw [hac] at hkids hb
  obtain ⟨A, B, hA, hB, rfl⟩ := hkids.split
  cases hB with
  | @cons _ _ s C hs hC =>
  obtain ⟨k1, -, k2, k3⟩ := C20_delete_child h e t
  have hk : Rekids h (h.deleteChild e t) e := ⟨⟨k2.1, k2.2.1, k2.2.2.1, k2.2.2.2.1⟩, fun j hj _ => k3 j hj⟩
  refine ⟨pre, A, s, C, post, hpp, hA, hs, hC, h1, h2 _ _ hk ?_⟩
  rw [k1 a c hac hna]
  exact (hk.writeAll hw (fun i hi => hb i (by simp [hi])) hA).append (hk.writeAll hw (fun i hi => hb i (by simp [hi])) hC)

/-- **C89**, `set_attribute` and `delete_attribute`: the attributes in the start tag are the new ones (the first with this name gets the new value or disappears; a new one
comes last), the rest of the text is the same. -/
theorem C89_attributes (h : Heap) (hr : Reach h) (r : NodeId) (F : Forest NodeId) (hd : DocTree h r F) (hn : OnlyElementsNest h r F)
    (e : NodeId) (he : e ∈ r :: F.toList) (n v : Str) :
    ∃ pre kids post, Around h r F e pre post ∧ WriteAll h (h.node e).children kids ∧
      Writes h r (pre ++ nodeText (contentOf h e) kids ++ post) ∧
      Writes (h.setAttribute e n v) r (pre ++ nodeText { contentOf h e with attrs :=
        (if n ∈ (contentOf h e).attrs.map (fun a => a.1) then replaceFirst n v (contentOf h e).attrs else (contentOf h e).attrs ++ [(n, v)]) } kids ++ post) ∧
      Writes (h.deleteAttribute e n) r (pre ++ nodeText { contentOf h e with attrs := removeFirst n (contentOf h e).attrs } kids ++ post) := by
  have hw := hr.inv.1
  obtain ⟨kids, hkids⟩ := doc_writeAll hd he
  obtain ⟨pre, post, hpp⟩ := around hw hd hn he
  have key : ∀ (h' : Heap) (A : List (Str × Str)), (∀ j < h.size, j ≠ e → contentOf h' j = contentOf h j) → (contentOf h' e).attrs = A →
      ((h'.node e).ntype = (h.node e).ntype ∧ (h'.node e).name = (h.node e).name ∧ (h'.node e).value = (h.node e).value) →
      (∀ j < h.size, (h'.node j).children = (h.node j).children) → Writes h' r (pre ++ nodeText { contentOf h e with attrs := A } kids ++ post) := by
    intro h' A h1 h2 h3 h4
    refine hpp h' _ (fun j hj hne => ⟨h1 j (doc_lt hd hj) ?_, h4 j (doc_lt hd hj)⟩) ?_
    · rintro rfl; exact hne .refl
    · have hkids' : WriteAll h' (h'.node e).children kids := by
        rw [h4 e (doc_lt hd he)]
        refine hkids.frame fun i hi j hj => ?_
        have hb := kids_below hw hd he i hi
        have := down_lt hw hj hb.1
        refine ⟨h1 j this ?_, h4 j this⟩
        rintro rfl
        exact hb.2 hj
      have h5 := writes_node hkids'
      have : contentOf h' e = { contentOf h e with attrs := A } := by
        rw [← h2]
        simp only [contentOf, h3]
      rwa [this] at h5
  refine ⟨pre, kids, post, hpp, hkids, hpp h _ (fun _ _ _ => ⟨rfl, rfl⟩) (writes_node hkids), ?_, ?_⟩
  · have hel := doc_lt hd he
    have hC := C16_set_keeps_names h hw e hel n v
    refine key _ _ (fun j hj hne => setAttribute_content_other h hw e hel n v j hj hne) (setAttribute_attrs h hw e hel n v)
      ⟨hC.2.2.1.1, hC.2.2.1.2.1, hC.2.2.1.2.2.1⟩ fun j hj => ?_
    by_cases ej : j = e
    · subst ej; exact hC.2.2.1.2.2.2.1
    · have := hC.2.2.2 j hj ej
      unfold SameNode at this
      rw [this]
  · obtain ⟨_, hs, o', as, hnode, _⟩ := deleteAttribute_spec h e n
    refine key _ _ (fun j hj hne => deleteAttribute_content_other h e n j hne) (deleteAttribute_attrs h e n) (by rw [hnode]; simp) fun j hj => ?_
    by_cases ej : j = e
    · subst ej; rw [hnode]
    · have := hs j ej
      unfold SameNode at this
      rw [this]

/-- Parsed documents have children only in elements and the root. -/
theorem Spec.ParsedDoc.nest {h : Heap} {r : NodeId} {F : Forest NodeId} (hd : ParsedDoc h r F) : OnlyElementsNest h r F := by
  intro i hi hc
  rcases List.mem_cons.1 hi with rfl | hi
  · exact .inr hd.root_type
  · by_cases he : (h.node i).ntype = .element
    · exact .inl he
    · exact absurd ((hd.typed i hi).leaf he).1 hc

/-- The hypotheses of the theorems are met by `<a x="1" y="2"><b/><c/></a>` (root 0, a 1, b 4, c 5), with `b` appended to `c` or put next to it. -/
example : Reach editSample ∧ DocTree editSample 0 (.cons 1 (.cons 4 .nil (.cons 5 .nil .nil)) .nil) ∧ OnlyElementsNest editSample 0 (.cons 1 (.cons 4 .nil (.cons 5 .nil .nil)) .nil) ∧ 5 ∈ 0 :: (Forest.cons 1 (.cons 4 .nil (.cons 5 .nil .nil)) .nil).toList ∧ ¬ Down editSample 4 5 ∧
    ¬ Down editSample 4 1 ∧ Writes editSample 4 (S "<b/>") ∧ (editSample.node 1).children = [4] ++ 5 :: [] := by
  have hb : ∀ j, Down editSample 4 j → j = 4 := by
    intro j hj
    cases hj with
    | refl => rfl
    | child hc _ => rw [show (editSample.node 4).children = [] by decide] at hc; cases hc
  refine ⟨.parse .empty editSample_parsed, editSample_doc, by unfold OnlyElementsNest; decide, by decide, fun hd => absurd (hb _ hd) (by decide), fun hd => absurd (hb _ hd) (by decide),
    .of (n := 1) (by decide), by decide⟩

/-- What C89 says about `append_child` there: the new text. -/
example : Writes (editSample.appendChild 5 4) 0 (S "<a x=\"1\" y=\"2\"><b/><c><b/></c></a>") := .of (n := 5) (by decide)

end Amxml
