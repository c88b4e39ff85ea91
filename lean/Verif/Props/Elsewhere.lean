import Verif.Spec.Elsewhere
import Verif.Props.XSame
import Verif.Props.EditText

/-!
# C93: documents do not interfere
-/

namespace Amxml
open Spec
open List (Forall₂)

/-! ## values that differ in no node are equal -/

section
variable {R : NodeId → NodeId → Prop}

mutual
theorem sameItem_eq (hR : ∀ i j, R i j → i = j) : ∀ {x y : XItem}, SameItem R x y → x = y
  | .array a, y, hx => by
    cases hx with
    | array ha => rw [sameMembers_eq hR ha]
  | .map m, y, hx => by
    cases hx with
    | map hm => rw [sameEntries_eq hR hm]
  | .node i, y, hx => by
    cases hx with
    | node hi => rw [hR _ _ hi]
  | .fn _, y, hx => by cases hx; rfl
  | .string _, y, hx => by cases hx; rfl
  | .integer _, y, hx => by cases hx; rfl
  | .decimal _, y, hx => by cases hx; rfl
  | .double _, y, hx => by cases hx; rfl
  | .boolean _, y, hx => by cases hx; rfl
theorem sameSeq_eq (hR : ∀ i j, R i j → i = j) : ∀ {s t : List XItem}, SameSeq R s t → s = t
  | [], [], _ => rfl
  | x :: s, y :: t, hs => by
    cases hs with
    | cons h1 h2 => rw [sameItem_eq hR h1, sameSeq_eq hR h2]
theorem sameEntries_eq (hR : ∀ i j, R i j → i = j) : ∀ {s t : List (XItem × List XItem)}, Forall₂ (Both (SameItem R) (SameSeq R)) s t → s = t
  | [], [], _ => rfl
  | (k, v) :: s, (l, w) :: t, hs => by
    cases hs with
    | cons h1 h2 =>
      cases h1 with
      | mk g1 g2 => rw [sameItem_eq hR g1, sameSeq_eq hR g2, sameEntries_eq hR h2]
theorem sameMembers_eq (hR : ∀ i j, R i j → i = j) : ∀ {s t : List (List XItem)}, Forall₂ (SameSeq R) s t → s = t
  | [], [], _ => rfl
  | x :: s, y :: t, hs => by
    cases hs with
    | cons h1 h2 => rw [sameSeq_eq hR h1, sameMembers_eq hR h2]
end

end

/-! ## what stays as it was -/

/-- The nodes of the document are what they were, up to the cached order numbers. -/
structure Kept (h h' : Heap) (r : NodeId) (F : Forest NodeId) : Prop where
  doc : DocTree h' r F
  node : ∀ i ∈ docIds h (.cons r F .nil), SameNode h h' i

section
variable {h h' h'' : Heap} {r : NodeId} {F : Forest NodeId}

theorem Kept.of (hd : DocTree h r F) (hs : h.size ≤ h'.size) (hn : ∀ i ∈ docIds h (.cons r F .nil), SameNode h h' i) : Kept h h' r F := by
  refine ⟨docTree_congr hd hs (fun j hj => (hn j (mem_docIds_of_mem hj)).links) fun j hj a ha => (hn a (mem_docIds_attr hj ha)).links.1, hn⟩

theorem Kept.ids (k : Kept h h' r F) : docIds h' (.cons r F .nil) = docIds h (.cons r F .nil) :=
  docIds_congr_links fun j hj => (k.node j (mem_docIds_of_mem hj)).links

theorem Kept.trans (k : Kept h h' r F) (k' : Kept h' h'' r F) : Kept h h'' r F :=
  ⟨k'.doc, fun i hi => (k.node i hi).trans (k'.node i (by rw [k.ids]; exact hi))⟩

theorem Kept.content (k : Kept h h' r F) {i : NodeId} (hi : i ∈ r :: F.toList) :
    contentOf h' i = contentOf h i ∧ (h'.node i).children = (h.node i).children := by
  have hi' : i ∈ (Forest.cons r F .nil).toList := by simpa [Forest.toList] using hi
  have e := k.node i (mem_docIds_of_mem hi')
  unfold SameNode at e
  refine ⟨?_, by rw [e]⟩
  unfold contentOf
  rw [show (h'.node i).attributes = (h.node i).attributes by rw [e], show (h'.node i).ntype = (h.node i).ntype by rw [e],
    show (h'.node i).name = (h.node i).name by rw [e], show (h'.node i).value = (h.node i).value by rw [e]]
  congr 1
  apply List.map_congr_left
  intro a ha
  have e := k.node a (mem_docIds_attr hi' ha)
  unfold SameNode at e
  rw [e]

theorem Kept.leaves (k : Kept h h' r F) (ha : AttrLeaves h (.cons r F .nil)) : AttrLeaves h' (.cons r F .nil) := by
  intro i hi a hia
  have e1 := k.node i (mem_docIds_of_mem hi)
  unfold SameNode at e1
  rw [e1] at hia
  have e := k.node a (mem_docIds_attr hi hia)
  unfold SameNode at e
  rw [e]
  exact ha i hi a hia

theorem forest_map_congr {α β : Type} {f g : α → β} : ∀ (G : Forest α), (∀ i ∈ G.toList, f i = g i) → G.map f = G.map g
  | .nil, _ => rfl
  | .cons i k s, he => by
    simp only [Forest.map]
    rw [he i (by simp [Forest.toList]), forest_map_congr k fun j hj => he j (by simp [Forest.toList, hj]), forest_map_congr s fun j hj => he j (by simp [Forest.toList, hj])]

theorem Kept.contents (k : Kept h h' r F) : (Forest.cons r F .nil).map (contentOf h) = (Forest.cons r F .nil).map (contentOf h') :=
  forest_map_congr _ fun i hi => ((k.content (by simpa [Forest.toList] using hi)).1).symm

/-- An edit of a node of another document has its effect in that document. -/
theorem effect_elsewhere (hw : HeapWF h) (e : Edit) (hv : e.Valid h) :
    e.apply h = h ∨ ∃ q, Effect h (e.apply h) q ∧ h.root q = h.root e.self := by
  cases e with
  | setAttribute i n v => exact .inr ⟨i, effect_setAttribute hw hv n v, rfl⟩
  | deleteAttribute i n => exact .inr ⟨i, effect_deleteAttribute hw hv n, rfl⟩
  | appendChild i c => exact .inr ⟨i, effect_appendChild hw hv.1 hv.2, rfl⟩
  | deleteChild i t => exact .inr ⟨i, effect_deleteChild hw hv.1 t, rfl⟩
  | insertPrev i x =>
    cases hp : (h.node i).parent with
    | none => left; simp [Edit.apply, Heap.insertPrev, hp]
    | some p => exact .inr ⟨p, effect_insertPrev hw hv.1 hv.2 hp, (root_parent hw hp).symm⟩
  | insertNext i x =>
    cases hp : (h.node i).parent with
    | none => left; simp [Edit.apply, Heap.insertNext, hp]
    | some p => exact .inr ⟨p, effect_insertNext hw hv.1 hv.2 hp, (root_parent hw hp).symm⟩
  | replaceWith i x =>
    cases hp : (h.node i).parent with
    | none => left; simp [Edit.apply, Heap.replaceWith, hp]
    | some p => exact .inr ⟨p, effect_replaceWith hw hv.1 hv.2 hp, (root_parent hw hp).symm⟩

theorem kept_edit (hw : HeapWF h) (hd : DocTree h r F) (e : Edit) (hv : e.Valid h) (hr : h.root e.self ≠ r) : Kept h (e.apply h) r F := by
  rcases effect_elsewhere hw e hv with h1 | ⟨q, h1, h2⟩
  · rw [h1]; exact .of hd (Nat.le_refl _) fun i _ => .refl _ _
  · refine .of hd h1.size fun i hi => h1.old i (hd.bound i hi) ?_
    rintro rfl
    exact hr (h2 ▸ root_eq hd hw hi)

theorem kept_parse (hw : HeapWF h) (hd : DocTree h r F) {xml : Str} {r' : NodeId} (hp : newDocument h xml = some (.ok (h', r'))) : Kept h h' r F := by
  obtain ⟨F', hp', _, _, hold, _⟩ := C08_well_linked h hw xml h' _ hp
  have hs : h.size ≤ h'.size := by
    have := hp'.bound r' (by simp [docIds])
    obtain ⟨rfl, _⟩ := newDocument_ok hp
    omega
  exact .of hd hs fun i hi => .of_eq (hold i (hd.bound i hi))

theorem kept_query (hw : HeapWF h) (hd : DocTree h r F) {r' : NodeId} {F' : Forest NodeId} (hd' : DocTree h r' F') {i : NodeId}
    (hi : i ∈ docIds h (.cons r' F' .nil)) {fuel : Nat} {o : Int} (hq : h.documentOrder fuel i = some (o, h')) : Kept h h' r F := by
  unfold Heap.documentOrder at hq
  simp only [root_eq hd' hw hi] at hq
  by_cases e : (h.node r').order = 0
  · rw [if_pos e] at hq
    simp only [Option.map_eq_some_iff, Prod.mk.injEq] at hq
    obtain ⟨h2, hs, _, rfl⟩ := hq
    obtain ⟨h3, hf, hsz, hsame, _⟩ := setupOrder_doc hd'
    have : h2 = h3 := setupOrder_fuel hs hf
    subst this
    exact .of hd (by omega) fun i _ => hsame i
  · rw [if_neg e] at hq
    simp at hq
    rw [← hq.2]; exact .of hd (Nat.le_refl _) fun i _ => .refl _ _

theorem kept (hr : Reach h) (hd : DocTree h r F) (he : Elsewhere r h h') : Reach h' ∧ Kept h h' r F := by
  induction he with
  | refl => exact ⟨hr, .of hd (Nat.le_refl _) fun i _ => .refl _ _⟩
  | parse _ hp ih => exact ⟨.parse ih.1 hp, ih.2.trans (kept_parse ih.1.inv.1 ih.2.doc hp)⟩
  | edit e _ hv hne ih => exact ⟨.edit e ih.1 hv, ih.2.trans (kept_edit ih.1.inv.1 ih.2.doc e hv hne)⟩
  | query _ hd' hi hq ih => exact ⟨.query ih.1 hd' hi hq, ih.2.trans (kept_query ih.1.inv.1 ih.2.doc hd' hi hq)⟩

theorem toStringF_keep {P : NodeId → Prop} (hP : ∀ i, P i → contentOf h' i = contentOf h i ∧ (h'.node i).children = (h.node i).children ∧ ∀ c ∈ (h.node i).children, P c)
    (n : Nat) : ∀ (l : List NodeId) (indent step : Nat), (∀ i ∈ l, P i) → toStringF n h' l indent step = toStringF n h l indent step := by
  induction n with
  | zero => intro l a b _; cases l <;> simp [toStringF]
  | succ n ih =>
    intro l a b hl
    cases l with
    | nil => simp [toStringF]
    | cons i l =>
      obtain ⟨h1, h2, h3⟩ := hP i (hl i (by simp))
      have ha : ∀ g : Heap, attrsToString g (g.node i).attributes = (contentOf g i).attrs.flatMap fun a =>
          S " " ++ a.1 ++ S "=\"" ++ encodeEntity a.2 ++ S "\"" := by
        intro g; simp [attrsToString, contentOf, List.flatMap_map]
      have e1 : (h'.node i).ntype = (h.node i).ntype := congrArg Content.ntype h1
      have e2 : (h'.node i).name = (h.node i).name := congrArg Content.name h1
      have e3 : (h'.node i).value = (h.node i).value := congrArg Content.value h1
      rw [toStringF, toStringF]
      simp only [ha, h1, h2, e1, e2, e3, ih l a b fun j hj => hl j (by simp [hj]), fun c d => ih (h.node i).children c d h3]

end

/-- **C93.** The program holds a document; whatever it does elsewhere - parses other texts, edits other documents (with copies of nodes of this
one, if it likes), asks for document orders - every XPath expression, asked at any node of this document, has the outcome it had before:
the same error or the same value, with the very same nodes. -/
theorem C93_same_answers (h h' : Heap) (hr : Reach h) (r : NodeId) (F : Forest NodeId) (hd : DocTree h r F) (ha : AttrLeaves h (.cons r F .nil))
    (he : Elsewhere r h h') (i : NodeId) (hi : i ∈ docIds h (.cons r F .nil)) (n : Nat) (q : Str) :
    evalXPath h' n i q = evalXPath h n i q ∧ (evalXPath h' n i q).map (displaySeq h') = (evalXPath h n i q).map (displaySeq h) := by
  obtain ⟨hr', k⟩ := kept hr hd he
  obtain ⟨m, hm, e⟩ := List.mem_iff_getElem.1 hi
  have hp : SamePlace h r F h' r F i i := ⟨m, by rw [List.getElem?_eq_getElem hm, e], by rw [k.ids, List.getElem?_eq_getElem hm, e]⟩
  have key := C91_same_answers h h' hr hr' r r F F hd k.doc ha (k.leaves ha) k.contents i i hp n q
  refine ⟨?_, (C91_same_text h h' hr hr' r r F F hd k.doc ha (k.leaves ha) k.contents i i hp n q).symm⟩
  revert key
  generalize evalXPath h n i q = u
  generalize evalXPath h' n i q = v
  intro key
  cases key with
  | error e => rfl
  | ok hs =>
    rw [sameSeq_eq (fun a b ⟨m, h1, h2⟩ => ?_) hs]
    rw [k.ids, h1] at h2
    exact Option.some.inj h2

/-- **C93**, for the texts: `to_string()`, `to_pretty_string()` and `inner_xml()` of every node of the document (attributes excepted: they have
no text of their own) return what they returned before. -/
theorem C93_same_text (h h' : Heap) (hr : Reach h) (r : NodeId) (F : Forest NodeId) (hd : DocTree h r F) (he : Elsewhere r h h')
    (i : NodeId) (hi : i ∈ r :: F.toList) (n : Nat) :
    h'.toString n i = h.toString n i ∧ h'.toPrettyString n i = h.toPrettyString n i ∧ h'.innerXml n i = h.innerXml n i := by
  obtain ⟨hr', k⟩ := kept hr hd he
  have hP : ∀ i, i ∈ r :: F.toList → contentOf h' i = contentOf h i ∧ (h'.node i).children = (h.node i).children ∧ ∀ c ∈ (h.node i).children, c ∈ r :: F.toList :=
    fun i hi => ⟨(k.content hi).1, (k.content hi).2, fun c hc => (doc_child hd hi hc).1⟩
  have key := toStringF_keep hP n
  refine ⟨key _ _ _ (by simpa using hi), key _ _ _ (by simpa using hi), ?_⟩
  unfold Heap.innerXml
  rw [(hP i hi).2.1]
  have : ∀ (l : List NodeId) (acc : Option Str), (∀ c ∈ l, c ∈ r :: F.toList) →
      l.foldl (fun acc c => pushStr acc (h'.toString n c)) acc = l.foldl (fun acc c => pushStr acc (h.toString n c)) acc := by
    intro l
    induction l with
    | nil => intro acc _; rfl
    | cons c l ih =>
      intro acc hl
      simp only [List.foldl_cons]
      rw [ih _ fun j hj => hl j (by simp [hj])]
      congr 2
      exact key _ _ _ (by simpa using hl c (by simp))
  exact this _ _ (hP i hi).2.2

/-- **C93**: nor do the links move: the document is the tree it was, of the same nodes with the same contents. -/
theorem C93_same_tree (h h' : Heap) (hr : Reach h) (r : NodeId) (F : Forest NodeId) (hd : DocTree h r F) (he : Elsewhere r h h') :
    DocTree h' r F ∧ docIds h' (.cons r F .nil) = docIds h (.cons r F .nil) ∧ ∀ i ∈ docIds h (.cons r F .nil),
      (h'.node i).ntype = (h.node i).ntype ∧ (h'.node i).name = (h.node i).name ∧ (h'.node i).value = (h.node i).value ∧
      (h'.node i).parent = (h.node i).parent ∧ (h'.node i).children = (h.node i).children ∧ (h'.node i).attributes = (h.node i).attributes := by
  obtain ⟨_, k⟩ := kept hr hd he
  refine ⟨k.doc, k.ids, fun i hi => ?_⟩
  have e := k.node i hi
  unfold SameNode at e
  rw [e]
  exact ⟨rfl, rfl, rfl, rfl, rfl, rfl⟩

/-! The hypotheses are met: the program parses a second document, appends to its root element a copy of an element of the first, and deletes
another of its elements. -/

def otherHeap : Heap := match newDocument editSample (S "<d><e/></d>") with
  | some (.ok (h, _)) => h
  | _ => Heap.empty

theorem otherHeap_parsed : newDocument editSample (S "<d><e/></d>") = some (.ok (otherHeap, 6)) := by
  have key : (match newDocument editSample (S "<d><e/></d>") with | some (.ok (_, r)) => r == 6 | _ => false) = true := by decide +kernel
  unfold otherHeap
  revert key
  generalize newDocument editSample (S "<d><e/></d>") = x
  rcases x with _ | _ | ⟨g, r⟩
  · intro key; cases key
  · intro key; cases key
  · intro key; simp only [beq_iff_eq] at key ⊢; rw [key]

/-- The state afterwards: the node 7 is the element `d`, the node 8 the element `e`, and the node 9 the copy of the element `a` below `d`. -/
def otherAfter : Heap := (otherHeap.appendChild 7 1).deleteChild 7 8

theorem otherAfter_elsewhere : Elsewhere 0 editSample otherAfter := by
  have h1 : Elsewhere 0 editSample otherHeap := .parse .refl otherHeap_parsed
  have h2 : Elsewhere 0 editSample (otherHeap.appendChild 7 1) := .edit (.appendChild 7 1) h1 (by show 7 < otherHeap.size ∧ 1 < otherHeap.size; decide +kernel) (by decide +kernel)
  exact .edit (.deleteChild 7 8) h2 (by show 7 < (otherHeap.appendChild 7 1).size ∧ 8 < (otherHeap.appendChild 7 1).size; decide +kernel) (by decide +kernel)

example (i : NodeId) (hi : i ∈ [0, 1, 2, 3, 4, 5]) (n : Nat) (q : Str) : evalXPath otherAfter n i q = evalXPath editSample n i q :=
  (C93_same_answers editSample otherAfter sameSample_reach.1 0 sameForest editSample_doc (by decide +kernel) otherAfter_elsewhere i hi n q).1

/-- In between, the other document has changed. -/
example : otherHeap.toString 9 6 = some (S "<d><e/></d>") ∧ otherAfter.toString 9 6 = some (S "<d><a x=\"1\" y=\"2\"><b/><c/></a></d>") ∧
    otherAfter.toString 9 0 = some (S "<a x=\"1\" y=\"2\"><b/><c/></a>") := by
  refine ⟨by decide +kernel, by decide +kernel, by decide +kernel⟩

/-- The other document now has the children of the node 1 in its text, but these still belong to the first document (`append_child` copies one
node, not what is below it): an edit of one of them is an edit of the first document, and shows in both. -/
theorem C93_shared : otherAfter.root 4 = 0 ∧ (otherAfter.setAttribute 4 (S "z") (S "3")).toString 9 6 = some (S "<d><a x=\"1\" y=\"2\"><b z=\"3\"/><c/></a></d>") ∧
    (otherAfter.setAttribute 4 (S "z") (S "3")).toString 9 0 = some (S "<a x=\"1\" y=\"2\"><b z=\"3\"/><c/></a>") := by
  refine ⟨by decide +kernel, by decide +kernel, by decide +kernel⟩

end Amxml
