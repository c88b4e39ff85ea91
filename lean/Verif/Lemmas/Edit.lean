import Verif.Lemmas.Serial
import Verif.Spec.Edit

namespace Amxml
open Spec

theorem Spec.SameNode.refl (h : Heap) (j : NodeId) : SameNode h h j := rfl
theorem Spec.SameNode.trans {h h' h'' : Heap} {j : NodeId} (a : SameNode h h' j) (b : SameNode h' h'' j) :
    SameNode h h'' j := by
  unfold SameNode at *; rw [b, a]
theorem Spec.SameNode.of_eq {h h' : Heap} {j : NodeId} (e : h'.node j = h.node j) : SameNode h h' j := by
  simp [SameNode, e]
theorem Spec.SameNode.links {h h' : Heap} {j : NodeId} (a : SameNode h h' j) : SameLinks h h' j := by
  unfold SameNode at a; unfold SameLinks; rw [a]; simp
theorem clearOrder_same (h : Heap) (i j : NodeId) : SameNode h (h.clearOrder i) j := by
  unfold SameNode Heap.clearOrder
  simp only [Heap.modify_node]
  split
  · rename_i e; subst e; rfl
  · rfl
theorem clearOrder_node_eq {h : Heap} {j : NodeId} {n : Node} (i : NodeId) (e : h.node j = n) :
    ∃ o, (h.clearOrder i).node j = { n with order := o } := by
  refine ⟨((h.clearOrder i).node j).order, ?_⟩
  subst e; exact clearOrder_same h i j
@[simp] theorem clearOrder_size (h : Heap) (i : NodeId) : (h.clearOrder i).size = h.size := rfl
@[simp] theorem clearOrder_children (h : Heap) (i j : NodeId) : ((h.clearOrder i).node j).children = (h.node j).children := by
  rw [clearOrder_same h i j]
@[simp] theorem clearOrder_attributes (h : Heap) (i j : NodeId) :
    ((h.clearOrder i).node j).attributes = (h.node j).attributes := by
  rw [clearOrder_same h i j]
@[simp] theorem clearOrder_parent (h : Heap) (i j : NodeId) : ((h.clearOrder i).node j).parent = (h.node j).parent := by
  rw [clearOrder_same h i j]
@[simp] theorem clearOrder_name (h : Heap) (i j : NodeId) : ((h.clearOrder i).node j).name = (h.node j).name := by
  rw [clearOrder_same h i j]
@[simp] theorem clearOrder_value (h : Heap) (i j : NodeId) : ((h.clearOrder i).node j).value = (h.node j).value := by
  rw [clearOrder_same h i j]
@[simp] theorem clearOrder_ntype (h : Heap) (i j : NodeId) : ((h.clearOrder i).node j).ntype = (h.node j).ntype := by
  rw [clearOrder_same h i j]

theorem contentOf_same {h h' : Heap} {j : NodeId} (hj : SameNode h h' j)
    (ha : ∀ a ∈ (h.node j).attributes, SameNode h h' a) : contentOf h' j = contentOf h j := by
  apply contentOf_congr
  · unfold SameNode at hj; rw [hj]; simp
  · intro a hm; have := ha a hm; unfold SameNode at this; rw [this]; simp

/-! ### attributes -/

theorem findIdx?_split {α : Type} {p : α → Bool} {l : List α} {n : Nat} (h : l.findIdx? p = some n) :
    ∃ a b c, l = a ++ b :: c ∧ a.length = n ∧ p b = true ∧ ∀ x ∈ a, p x = false := by
  induction l generalizing n with
  | nil => simp at h
  | cons x l ih =>
    rw [List.findIdx?_cons] at h
    split at h
    · rename_i hp
      simp at h; subst h
      exact ⟨[], x, l, rfl, rfl, hp, by simp⟩
    · rename_i hp
      simp at h
      obtain ⟨m, hm, rfl⟩ := h
      obtain ⟨a, b, c, rfl, rfl, hb, ha⟩ := ih hm
      refine ⟨x :: a, b, c, rfl, by simp, hb, ?_⟩
      intro y hy; simp at hy; rcases hy with rfl | hy
      · simpa using hp
      · exact ha y hy

theorem attributeValue_eq (h : Heap) (i : NodeId) (m : Str) :
    h.attributeValue i m = (((contentOf h i).attrs.find? fun a => a.1 == m)).map (·.2) := by
  unfold Heap.attributeValue Heap.findAttributeIndex contentOf
  simp only [List.find?_map, Option.map_map]
  cases hf : List.findIdx? (fun a => (h.node a).name == m) (h.node i).attributes with
  | none =>
    rw [List.findIdx?_eq_none_iff] at hf
    have : (h.node i).attributes.find? ((fun a => a.1 == m) ∘ fun a => ((h.node a).name, (h.node a).value)) = none := by
      rw [List.find?_eq_none]; intro x hx; simpa using hf x hx
    rw [this]; rfl
  | some n =>
    obtain ⟨a, b, c, e, rfl, hb, ha⟩ := findIdx?_split hf
    rw [e]
    have : (a ++ b :: c).find? ((fun a => a.1 == m) ∘ fun a => ((h.node a).name, (h.node a).value)) = some b := by
      rw [List.find?_append]
      have : a.find? ((fun a => a.1 == m) ∘ fun a => ((h.node a).name, (h.node a).value)) = none := by
        rw [List.find?_eq_none]; intro x hx; simpa using ha x hx
      rw [this]
      simp only [Option.none_or]
      rw [List.find?_cons_of_pos]
      simpa using hb
    rw [this]
    simp

/-- Effect of `set_attribute` on the record of the element. -/
theorem setAttribute_spec (h : Heap) (hw : HeapWF h) (i : NodeId) (hi : i < h.size) (n v : Str) :
    (h.setAttribute i n v).size = h.size + 1 ∧
    (∀ j, j ≠ i → j ≠ h.size → SameNode h (h.setAttribute i n v) j) ∧
    (∃ o, (h.setAttribute i n v).node h.size = { mkNode .attribute (some i) n v with order := o }) ∧
    (∃ o as, (h.setAttribute i n v).node i = { h.node i with attributes := as, order := o } ∧
      ((∃ a b c, (h.node i).attributes = a ++ b :: c ∧ (h.node b).name = n ∧ (∀ x ∈ a, (h.node x).name ≠ n) ∧
          as = a ++ h.size :: c) ∨
        ((∀ x ∈ (h.node i).attributes, (h.node x).name ≠ n) ∧ as = (h.node i).attributes ++ [h.size]))) := by
  have hne : i ≠ h.size := by omega
  have hat : ∀ a ∈ (h.node i).attributes, a ≠ h.size := fun a ha => by have := hw.closed i a (.inr ha); omega
  let h1 := h.alloc (mkNode .attribute (some i) n v)
  have e1 : h1.node i = h.node i := by simp [h1, hne]
  have hfi : h1.findAttributeIndex i n = (h.node i).attributes.findIdx? fun a => (h.node a).name == n := by
    unfold Heap.findAttributeIndex
    rw [e1]
    have gen : ∀ l : List NodeId, (∀ a ∈ l, a ≠ h.size) →
        l.findIdx? (fun a => (h1.node a).name == n) = l.findIdx? (fun a => (h.node a).name == n) := by
      intro l hl
      induction l with
      | nil => rfl
      | cons x l ih =>
        have hx : h1.node x = h.node x := by simp [h1, hl x (by simp)]
        rw [List.findIdx?_cons, List.findIdx?_cons, ih fun a ha => hl a (by simp [ha]), hx]
    exact gen _ hat
  -- the heap before the order is cleared
  obtain ⟨as, hh2, has⟩ : ∃ as, h.setAttribute i n v =
        (h1.modify i fun nd => { nd with attributes := as }).clearOrder i ∧
      ((∃ a b c, (h.node i).attributes = a ++ b :: c ∧ (h.node b).name = n ∧ (∀ x ∈ a, (h.node x).name ≠ n) ∧
          as = a ++ h.size :: c) ∨
        ((∀ x ∈ (h.node i).attributes, (h.node x).name ≠ n) ∧ as = (h.node i).attributes ++ [h.size])) := by
    have hmod : ∀ (f : List NodeId → List NodeId),
        (h1.modify i fun nd => { nd with attributes := f nd.attributes }) =
        (h1.modify i fun nd => { nd with attributes := f (h.node i).attributes }) := by
      intro f
      simp only [Heap.modify]
      rw [e1]
    unfold Heap.setAttribute
    simp only
    rw [hfi]
    cases hf : (h.node i).attributes.findIdx? (fun a => (h.node a).name == n) with
    | none =>
      simp only
      refine ⟨(h.node i).attributes ++ [h.size], by rw [hmod (fun l => l ++ [h.size])], .inr ⟨?_, rfl⟩⟩
      rw [List.findIdx?_eq_none_iff] at hf
      intro x hx; simpa using hf x hx
    | some k =>
      simp only
      obtain ⟨a, b, c, e, hk, hb, ha⟩ := findIdx?_split hf
      refine ⟨((h.node i).attributes.eraseIdx k).take k ++ h.size :: ((h.node i).attributes.eraseIdx k).drop k,
        by rw [hmod (fun l => (l.eraseIdx k).take k ++ h.size :: (l.eraseIdx k).drop k)], .inl ⟨a, b, c, e, by simpa using hb,
        fun x hx => by simpa using ha x hx, ?_⟩⟩
      rw [e]
      subst hk
      have : (a ++ b :: c).eraseIdx a.length = a ++ c := by
        rw [List.eraseIdx_append_of_length_le (by omega)]; simp
      rw [this]; simp
  rw [hh2]
  refine ⟨rfl, ?_, ?_, ?_⟩
  · intro j hj hj'
    refine SameNode.trans (h' := h1.modify i fun nd => { nd with attributes := as }) ?_ (clearOrder_same _ _ _)
    exact .of_eq (by simp [h1, hj, hj'])
  · refine clearOrder_node_eq (n := mkNode .attribute (some i) n v) i ?_
    simp only [Heap.modify_node, Ne.symm hne, if_false, h1, Heap.alloc_node, if_true]
  · obtain ⟨o, ho⟩ := clearOrder_node_eq (h := h1.modify i fun nd => { nd with attributes := as }) (j := i)
      (n := { h.node i with attributes := as }) i (by simp only [Heap.modify_node, if_true, e1])
    exact ⟨o, as, ho, has⟩

theorem deleteAttribute_spec (h : Heap) (i : NodeId) (n : Str) :
    (h.deleteAttribute i n).size = h.size ∧
    (∀ j, j ≠ i → SameNode h (h.deleteAttribute i n) j) ∧
    (∃ o as, (h.deleteAttribute i n).node i = { h.node i with attributes := as, order := o } ∧
      ((∃ a b c, (h.node i).attributes = a ++ b :: c ∧ (h.node b).name = n ∧ (∀ x ∈ a, (h.node x).name ≠ n) ∧
          as = a ++ c) ∨
        ((∀ x ∈ (h.node i).attributes, (h.node x).name ≠ n) ∧ as = (h.node i).attributes))) := by
  unfold Heap.deleteAttribute Heap.findAttributeIndex
  simp only
  cases hf : (h.node i).attributes.findIdx? (fun a => (h.node a).name == n) with
  | none =>
    obtain ⟨o, ho⟩ := clearOrder_node_eq (h := h) (j := i) i rfl
    refine ⟨rfl, fun j _ => clearOrder_same _ _ _, o, _, ho, .inr ⟨?_, rfl⟩⟩
    rw [List.findIdx?_eq_none_iff] at hf
    intro x hx; simpa using hf x hx
  | some k =>
    obtain ⟨a, b, c, e, hk, hb, ha⟩ := findIdx?_split hf
    refine ⟨rfl, fun j hj => ?_, ((h.modify i fun nd => { nd with attributes := nd.attributes.eraseIdx k }).clearOrder i).node i |>.order,
      (h.node i).attributes.eraseIdx k, ?_, .inl ⟨a, b, c, e, by simpa using hb, fun x hx => by simpa using ha x hx, ?_⟩⟩
    · refine SameNode.trans (h' := h.modify i fun nd => { nd with attributes := nd.attributes.eraseIdx k }) ?_
        (clearOrder_same _ _ _)
      exact .of_eq (by simp [hj])
    · rw [clearOrder_same _ i i]
      simp
    · rw [e]
      subst hk
      rw [List.eraseIdx_append_of_length_le (by omega)]; simp

/-! ### children -/

theorem appendChild_spec (h : Heap) (i c : NodeId) :
    (h.appendChild i c).size = h.size ∧ (∀ j, j ≠ i → SameNode h (h.appendChild i c) j) ∧
    (∃ o, (h.appendChild i c).node i = { h.node i with children := (h.node i).children ++ [c], order := o }) := by
  unfold Heap.appendChild
  refine ⟨rfl, fun j hj => ?_, clearOrder_node_eq (n := { h.node i with children := (h.node i).children ++ [c] }) i ?_⟩
  · refine SameNode.trans (h' := h.modify i fun n => { n with children := n.children ++ [c] }) ?_ (clearOrder_same _ _ _)
    exact .of_eq (by simp [hj])
  · simp

theorem findChildIndex_split {h : Heap} {p t : NodeId} {n : Nat} (hf : h.findChildIndex p t = some n) :
    ∃ a c, (h.node p).children = a ++ t :: c ∧ a.length = n ∧ t ∉ a := by
  obtain ⟨a, b, c, e, hk, hb, ha⟩ := findIdx?_split hf
  simp at hb; subst hb
  exact ⟨a, c, e, hk, fun hm => by simpa using ha b hm⟩

theorem findChildIndex_of_split {h : Heap} {p t : NodeId} {a c : List NodeId} (e : (h.node p).children = a ++ t :: c)
    (ht : t ∉ a) : h.findChildIndex p t = some a.length := by
  unfold Heap.findChildIndex
  rw [e, List.findIdx?_append]
  have : a.findIdx? (· == t) = none := by
    rw [List.findIdx?_eq_none_iff]; intro x hx; simp; rintro rfl; exact ht hx
  simp [this, List.findIdx?_cons]

theorem findChildIndex_none {h : Heap} {p t : NodeId} (ht : t ∉ (h.node p).children) : h.findChildIndex p t = none := by
  unfold Heap.findChildIndex
  rw [List.findIdx?_eq_none_iff]; intro x hx; simp; rintro rfl; exact ht hx

theorem deleteChild_spec (h : Heap) (i t : NodeId) :
    (h.deleteChild i t).size = h.size ∧ (∀ j, j ≠ i → SameNode h (h.deleteChild i t) j) ∧
    (∃ o, (h.deleteChild i t).node i = { h.node i with children := (h.node i).children.erase t, order := o }) := by
  unfold Heap.deleteChild
  simp only
  cases hf : h.findChildIndex i t with
  | none =>
    refine ⟨rfl, fun j hj => clearOrder_same _ _ _, clearOrder_node_eq (n := { h.node i with children := (h.node i).children.erase t }) i ?_⟩
    have : t ∉ (h.node i).children := by
      intro hm
      unfold Heap.findChildIndex at hf
      rw [List.findIdx?_eq_none_iff] at hf
      simpa using hf t hm
    rw [List.erase_of_not_mem this]
  | some n =>
    obtain ⟨a, c, e, hk, ht⟩ := findChildIndex_split hf
    refine ⟨rfl, fun j hj => ?_, clearOrder_node_eq (n := { h.node i with children := (h.node i).children.erase t }) i ?_⟩
    · refine SameNode.trans (h' := h.modify i fun nd => { nd with children := nd.children.eraseIdx n }) ?_
        (clearOrder_same _ _ _)
      exact .of_eq (by simp [hj])
    · simp only [Heap.modify_node, if_true, Node.mk.injEq, true_and, and_true]
      rw [e, ← hk, List.eraseIdx_append_of_length_le (by omega), List.erase_append_right _ ht]
      simp

/-- Effect of the insertion of a copy at position `n`. -/
theorem insertCopy_spec (h : Heap) (p x : NodeId) (hp : p < h.size) (hx : x < h.size) (a c : List NodeId)
    (e : (h.node p).children = a ++ c) :
    (h.insertCopy p x a.length).size = h.size + 1 ∧
    (∀ j, j ≠ p → j ≠ h.size → (h.insertCopy p x a.length).node j = h.node j) ∧
    (h.insertCopy p x a.length).node p = { h.node p with children := a ++ h.size :: c } ∧
    (h.insertCopy p x a.length).node h.size = { mkNode (h.node x).ntype (some p) (h.node x).name (h.node x).value with
      children := if x = p then a ++ h.size :: c else (h.node x).children, attributes := (h.node x).attributes } := by
  have hps : p ≠ h.size := by omega
  have hxs : x ≠ h.size := by omega
  let h1 := h.makeChild (h.node x).ntype p (h.node x).name (h.node x).value (some a.length)
  have hp1 : h1.node p = { h.node p with children := a ++ h.size :: c } := by
    simp only [h1, Heap.makeChild, Heap.modify_node, Heap.alloc_node, hps, if_true, if_false, insertHint, e]
    have : a.length ≤ (a ++ c).length := by simp
    simp [this]
  have hs1 : h1.node h.size = mkNode (h.node x).ntype (some p) (h.node x).name (h.node x).value := by
    simp [h1, Heap.makeChild, Ne.symm hps]
  have ho : ∀ j, j ≠ p → j ≠ h.size → h1.node j = h.node j := by
    intro j h1' h2'; simp [h1, Heap.makeChild, h1', h2']
  have hx1 : (h1.node x).children = (if x = p then a ++ h.size :: c else (h.node x).children) ∧
      (h1.node x).attributes = (h.node x).attributes := by
    by_cases ex : x = p
    · subst ex; rw [hp1]; simp
    · rw [ho x ex hxs]; simp [ex]
  have hdef : h.insertCopy p x a.length = h1.shallowCopy h.size x := rfl
  rw [hdef]
  refine ⟨rfl, ?_, ?_, ?_⟩
  · intro j hj hj'
    simp only [Heap.shallowCopy, Heap.modify_node, hj', if_false]
    exact ho j hj hj'
  · simp only [Heap.shallowCopy, Heap.modify_node, hps, if_false]
    exact hp1
  · simp only [Heap.shallowCopy, Heap.modify_node, if_true, hs1, hx1.1, hx1.2]
    simp [mkNode]

end Amxml
