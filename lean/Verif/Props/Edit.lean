import Verif.Lemmas.Edit
import Verif.Props.Serial

/-!
# Properties of the editing functions of `NodePtr`: C15–C21, C27, C29
-/

namespace Amxml
open Spec

/-! ## attributes as name/value lists -/

theorem map_split_replace {h h' : Heap} {l : List NodeId} {n v : Str} {new : NodeId} {a c : List NodeId} {b : NodeId}
    (e : l = a ++ b :: c) (hb : (h.node b).name = n) (ha : ∀ x ∈ a, (h.node x).name ≠ n)
    (hs : ∀ x ∈ l, (h'.node x).name = (h.node x).name ∧ (h'.node x).value = (h.node x).value)
    (hn : (h'.node new).name = n ∧ (h'.node new).value = v) :
    (a ++ new :: c).map (fun x => ((h'.node x).name, (h'.node x).value)) =
      replaceFirst n v (l.map fun x => ((h.node x).name, (h.node x).value)) := by
  subst e
  induction a with
  | nil =>
    simp only [List.nil_append, List.map_cons, replaceFirst, hb, if_true, hn.1, hn.2, List.cons.injEq, true_and]
    apply List.map_congr_left
    intro x hx
    have := hs x (by simp [hx]); simp [this.1, this.2]
  | cons y a ih =>
    have hy := hs y (by simp)
    simp only [List.cons_append, List.map_cons, replaceFirst, ha y (by simp), if_false, hy.1, hy.2]
    rw [ih (fun x hx => ha x (by simp [hx])) (fun x hx => hs x (by simp at hx ⊢; right; exact hx))]

theorem map_split_remove {h h' : Heap} {l : List NodeId} {n : Str} {a c : List NodeId} {b : NodeId}
    (e : l = a ++ b :: c) (hb : (h.node b).name = n) (ha : ∀ x ∈ a, (h.node x).name ≠ n)
    (hs : ∀ x ∈ l, (h'.node x).name = (h.node x).name ∧ (h'.node x).value = (h.node x).value) :
    (a ++ c).map (fun x => ((h'.node x).name, (h'.node x).value)) =
      removeFirst n (l.map fun x => ((h.node x).name, (h.node x).value)) := by
  subst e
  induction a with
  | nil =>
    simp only [List.nil_append, List.map_cons, removeFirst, hb, if_true]
    apply List.map_congr_left
    intro x hx
    have := hs x (by simp [hx]); simp [this.1, this.2]
  | cons y a ih =>
    have hy := hs y (by simp)
    simp only [List.cons_append, List.map_cons, removeFirst, ha y (by simp), if_false, hy.1, hy.2]
    rw [ih (fun x hx => ha x (by simp [hx])) (fun x hx => hs x (by simp at hx ⊢; right; exact hx))]

theorem replaceFirst_of_not_mem {n v : Str} {l : List (Str × Str)} (h : n ∉ l.map (·.1)) : replaceFirst n v l = l := by
  induction l with
  | nil => rfl
  | cons a l ih =>
    simp only [List.map_cons, List.mem_cons, not_or] at h
    simp [replaceFirst, Ne.symm h.1, ih h.2]

theorem removeFirst_of_not_mem {n : Str} {l : List (Str × Str)} (h : n ∉ l.map (·.1)) : removeFirst n l = l := by
  induction l with
  | nil => rfl
  | cons a l ih =>
    simp only [List.map_cons, List.mem_cons, not_or] at h
    simp [removeFirst, Ne.symm h.1, ih h.2]

theorem replaceFirst_names (n v : Str) (l : List (Str × Str)) : (replaceFirst n v l).map (·.1) = l.map (·.1) := by
  induction l with
  | nil => rfl
  | cons a l ih => simp only [replaceFirst]; split <;> simp_all

theorem replaceFirst_find {n v m : Str} {l : List (Str × Str)} (h : n ∈ l.map (·.1)) :
    ((replaceFirst n v l).find? fun a => a.1 == m).map (·.2) =
      if m = n then some v else (l.find? fun a => a.1 == m).map (·.2) := by
  induction l with
  | nil => simp at h
  | cons a l ih =>
    simp only [replaceFirst]
    by_cases e : a.1 = n
    · simp only [e, if_true, List.find?_cons]
      by_cases em : m = n
      · simp [em]
      · have h2 : (n == m) = false := by simpa using fun h : n = m => em h.symm
        simp [em, h2]
    · simp only [e, if_false, List.find?_cons]
      by_cases ea : a.1 = m
      · have : m ≠ n := fun h => e (ea.trans h)
        simp [ea, this]
      · have : n ∈ l.map (·.1) := by
          simp only [List.map_cons, List.mem_cons] at h
          rcases h with h | h
          · exact absurd h.symm e
          · exact h
        have h2 : (a.1 == m) = false := by simpa using ea
        simp only [h2]; exact ih this

theorem removeFirst_find {n m : Str} {l : List (Str × Str)} (hm : m ≠ n) :
    ((removeFirst n l).find? fun a => a.1 == m) = (l.find? fun a => a.1 == m) := by
  induction l with
  | nil => rfl
  | cons a l ih =>
    simp only [removeFirst]
    by_cases e : a.1 = n
    · have h2 : (n == m) = false := by simpa using fun h : n = m => hm h.symm
      simp [e, h2]
    · simp only [e, if_false, List.find?_cons, ih]

/-! ## C15, C16: `set_attribute` -/

/-- The attributes after `set_attribute`: the first pair of this name gets the new value, in place; if there is none,
the pair is appended. -/
theorem setAttribute_attrs (h : Heap) (hw : HeapWF h) (i : NodeId) (hi : i < h.size) (n v : Str) :
    (contentOf (h.setAttribute i n v) i).attrs =
      if n ∈ (contentOf h i).attrs.map (·.1) then replaceFirst n v (contentOf h i).attrs
      else (contentOf h i).attrs ++ [(n, v)] := by
  obtain ⟨_, hs, ⟨o, hnew⟩, o', as, hnode, hcase⟩ := setAttribute_spec h hw i hi n v
  have hsame : ∀ x ∈ (h.node i).attributes, ((h.setAttribute i n v).node x).name = (h.node x).name ∧
      ((h.setAttribute i n v).node x).value = (h.node x).value := by
    intro x hx
    have hx' := hw.closed i x (.inr hx)
    by_cases e : x = i
    · subst e; rw [hnode]; simp
    · have := hs x e (by omega); unfold SameNode at this; rw [this]; simp
  have hnw : ((h.setAttribute i n v).node h.size).name = n ∧ ((h.setAttribute i n v).node h.size).value = v := by
    rw [hnew]; simp [mkNode]
  have hat : ((h.setAttribute i n v).node i).attributes = as := by rw [hnode]
  have hl : (contentOf (h.setAttribute i n v) i).attrs = as.map fun a => (((h.setAttribute i n v).node a).name,
      ((h.setAttribute i n v).node a).value) := by simp only [contentOf, hat]
  rw [hl]
  rcases hcase with ⟨a, b, c, e, hb, ha, rfl⟩ | ⟨hno, rfl⟩
  · have hmem : n ∈ (contentOf h i).attrs.map (·.1) := by
      simp only [contentOf]; rw [e]; simp [hb]
    rw [if_pos hmem]
    exact map_split_replace e hb ha hsame hnw
  · have hmem : n ∉ (contentOf h i).attrs.map (·.1) := by
      simp only [contentOf, List.map_map, List.mem_map, Function.comp, not_exists, not_and]
      exact hno
    rw [if_neg hmem, List.map_append]
    simp only [contentOf]
    congr 1
    · exact List.map_congr_left fun x hx => by rw [(hsame x hx).1, (hsame x hx).2]
    · simp [hnw.1, hnw.2]

theorem setAttribute_content_other (h : Heap) (hw : HeapWF h) (i : NodeId) (hi : i < h.size) (n v : Str) (j : NodeId)
    (hj : j < h.size) (hne : j ≠ i) : contentOf (h.setAttribute i n v) j = contentOf h j := by
  obtain ⟨_, hs, _, o', as, hnode, _⟩ := setAttribute_spec h hw i hi n v
  have hsj := hs j hne (by omega)
  apply contentOf_congr
  · unfold SameNode at hsj; rw [hsj]; simp
  · intro a ha
    have ha' := hw.closed j a (.inr ha)
    by_cases e : a = i
    · subst e; rw [hnode]; simp
    · have := hs a e (by omega); unfold SameNode at this; rw [this]; simp

/-- **C15**: after `set_attribute(n, v)`, `attribute_value(n)` is `v`; `attribute_value` of every other name on that
node, and of every name on every other node, is what it was. -/
theorem C15_set_then_get (h : Heap) (hw : HeapWF h) (i : NodeId) (hi : i < h.size) (n v : Str) :
    (h.setAttribute i n v).attributeValue i n = some v ∧
    (∀ m, m ≠ n → (h.setAttribute i n v).attributeValue i m = h.attributeValue i m) ∧
    (∀ j < h.size, j ≠ i → ∀ m, (h.setAttribute i n v).attributeValue j m = h.attributeValue j m) := by
  have ha := setAttribute_attrs h hw i hi n v
  simp only [attributeValue_eq]
  refine ⟨?_, ?_, ?_⟩
  · rw [ha]; split
    · rename_i hm; rw [replaceFirst_find hm]; simp
    · rename_i hm
      rw [List.find?_append]
      have : (contentOf h i).attrs.find? (fun a => a.1 == n) = none := by
        rw [List.find?_eq_none]; intro x hx; simp; rintro rfl; exact hm (List.mem_map_of_mem hx)
      simp [this]
  · intro m hmn
    rw [ha]; split
    · rename_i hm; rw [replaceFirst_find hm]; simp [hmn]
    · rw [List.find?_append]
      have : ¬ n = m := fun h => hmn h.symm
      simp [this]
  · intro j hj hne m
    rw [setAttribute_content_other h hw i hi n v j hj hne]

/-- **C16**: `set_attribute` changes the sequence of attribute names only by appending the name if it is new; so names
stay pairwise different. Type, name, value, children and parent of the element are unchanged, and so is every other
node. -/
theorem C16_set_keeps_names (h : Heap) (hw : HeapWF h) (i : NodeId) (hi : i < h.size) (n v : Str) :
    let h' := h.setAttribute i n v
    let names := (contentOf h i).attrs.map (·.1)
    let names' := (contentOf h' i).attrs.map (·.1)
    (names' = if n ∈ names then names else names ++ [n]) ∧ (names.Nodup → names'.Nodup) ∧
    ((h'.node i).ntype = (h.node i).ntype ∧ (h'.node i).name = (h.node i).name ∧ (h'.node i).value = (h.node i).value ∧
      (h'.node i).children = (h.node i).children ∧ (h'.node i).parent = (h.node i).parent) ∧
    (∀ j < h.size, j ≠ i → SameNode h h' j) := by
  have ha := setAttribute_attrs h hw i hi n v
  obtain ⟨_, hs, _, o', as, hnode, _⟩ := setAttribute_spec h hw i hi n v
  have hn : (contentOf (h.setAttribute i n v) i).attrs.map (·.1) =
      if n ∈ (contentOf h i).attrs.map (·.1) then (contentOf h i).attrs.map (·.1)
      else (contentOf h i).attrs.map (·.1) ++ [n] := by
    rw [ha]; split
    · exact replaceFirst_names _ _ _
    · simp
  refine ⟨hn, ?_, ?_, fun j hj hne => hs j hne (by omega)⟩
  · intro hnd
    rw [hn]; split
    · exact hnd
    · rename_i hm
      rw [List.nodup_append]
      exact ⟨hnd, by simp, fun a hma b hb e => by simp at hb; exact hm (hb ▸ e ▸ hma)⟩
  · rw [hnode]; simp

/-! ## C17: `delete_attribute` -/

/-- The attributes after `delete_attribute`: the first pair of this name is gone, the others are as they were. -/
theorem deleteAttribute_attrs (h : Heap) (i : NodeId) (n : Str) :
    (contentOf (h.deleteAttribute i n) i).attrs = removeFirst n (contentOf h i).attrs := by
  obtain ⟨_, hs, o', as, hnode, hcase⟩ := deleteAttribute_spec h i n
  have hsame : ∀ x ∈ (h.node i).attributes, ((h.deleteAttribute i n).node x).name = (h.node x).name ∧
      ((h.deleteAttribute i n).node x).value = (h.node x).value := by
    intro x hx
    by_cases e : x = i
    · subst e; rw [hnode]; simp
    · have := hs x e; unfold SameNode at this; rw [this]; simp
  have hat : ((h.deleteAttribute i n).node i).attributes = as := by rw [hnode]
  simp only [contentOf, hat]
  rcases hcase with ⟨a, b, c, e, hb, ha, rfl⟩ | ⟨hno, rfl⟩
  · exact map_split_remove e hb ha hsame
  · have hmem : n ∉ ((h.node i).attributes.map fun a => ((h.node a).name, (h.node a).value)).map (·.1) := by
      simp only [List.map_map, List.mem_map, Function.comp, not_exists, not_and]
      exact hno
    rw [removeFirst_of_not_mem hmem]
    exact List.map_congr_left fun x hx => by rw [(hsame x hx).1, (hsame x hx).2]

theorem deleteAttribute_content_other (h : Heap) (i : NodeId) (n : Str) (j : NodeId) (hne : j ≠ i) :
    contentOf (h.deleteAttribute i n) j = contentOf h j := by
  obtain ⟨_, hs, o', as, hnode, _⟩ := deleteAttribute_spec h i n
  have hsj := hs j hne
  apply contentOf_congr
  · unfold SameNode at hsj; rw [hsj]; simp
  · intro a ha
    by_cases e : a = i
    · subst e; rw [hnode]; simp
    · have := hs a e; unfold SameNode at this; rw [this]; simp

/-- **C17**, for elements without repeated attribute names: after `delete_attribute(n)`, `attribute_value(n)` is
`None`; without that hypothesis: the other names and the other nodes keep their attribute values, the attribute list
loses exactly the first pair of this name, and everything else stays. -/
theorem C17_delete_attribute_partial (h : Heap) (i : NodeId) (n : Str) :
    let h' := h.deleteAttribute i n
    (((contentOf h i).attrs.map (·.1)).Nodup → h'.attributeValue i n = none) ∧
    (contentOf h' i).attrs = removeFirst n (contentOf h i).attrs ∧
    (∀ m, m ≠ n → h'.attributeValue i m = h.attributeValue i m) ∧
    (∀ j, j ≠ i → ∀ m, h'.attributeValue j m = h.attributeValue j m) ∧
    ((h'.node i).ntype = (h.node i).ntype ∧ (h'.node i).name = (h.node i).name ∧ (h'.node i).value = (h.node i).value ∧
      (h'.node i).children = (h.node i).children ∧ (h'.node i).parent = (h.node i).parent) ∧
    (∀ j, j ≠ i → SameNode h h' j) := by
  have ha := deleteAttribute_attrs h i n
  obtain ⟨_, hs, o', as, hnode, _⟩ := deleteAttribute_spec h i n
  simp only [attributeValue_eq]
  refine ⟨?_, ha, ?_, ?_, ?_, hs⟩
  · intro hnd
    rw [ha]
    generalize (contentOf h i).attrs = l at hnd
    have : (removeFirst n l).find? (fun a => a.1 == n) = none := by
      induction l with
      | nil => rfl
      | cons a l ih =>
        simp only [List.map_cons, List.nodup_cons] at hnd
        simp only [removeFirst]
        by_cases e : a.1 = n
        · simp only [e, if_true]
          rw [List.find?_eq_none]; intro x hx
          have := hnd.1
          simp; intro ex; exact this (e ▸ ex ▸ List.mem_map_of_mem hx)
        · simp only [e, if_false]
          rw [List.find?_cons_of_neg (by simpa using e), ih hnd.2]
    rw [this]; rfl
  · intro m hm; rw [ha, removeFirst_find hm]
  · intro j hj m; rw [deleteAttribute_content_other h i n j hj]
  · rw [hnode]; simp

/-! ## C18: `append_child` -/

/-- **C18**: `append_child(c)` appends `c` to the children and changes nothing else. -/
theorem C18_append_child (h : Heap) (i c : NodeId) :
    let h' := h.appendChild i c
    (h'.node i).children = (h.node i).children ++ [c] ∧
    ((h'.node i).ntype = (h.node i).ntype ∧ (h'.node i).name = (h.node i).name ∧ (h'.node i).value = (h.node i).value ∧
      (h'.node i).attributes = (h.node i).attributes ∧ (h'.node i).parent = (h.node i).parent) ∧
    (∀ j, j ≠ i → SameNode h h' j) := by
  obtain ⟨_, hs, o, hnode⟩ := appendChild_spec h i c
  simp only
  refine ⟨by rw [hnode], ?_, hs⟩
  rw [hnode]; simp

/-! ## C19: insertion of siblings -/

/-- What an insertion of a copy of `x` between `a` and `c` among the children of `p` does: the new node has `x`'s
type, name, value, children and attributes and the parent `p`; `p` changes only in its children; nothing else
changes. -/
structure Spec.InsertedCopy (h h' : Heap) (p x : NodeId) (a c : List NodeId) : Prop where
  children : (h'.node p).children = a ++ h.size :: c
  parentKept : (h'.node p).ntype = (h.node p).ntype ∧ (h'.node p).name = (h.node p).name ∧
    (h'.node p).value = (h.node p).value ∧ (h'.node p).attributes = (h.node p).attributes ∧
    (h'.node p).parent = (h.node p).parent
  copy : (h'.node h.size).ntype = (h.node x).ntype ∧ (h'.node h.size).name = (h.node x).name ∧
    (h'.node h.size).value = (h.node x).value ∧ (h'.node h.size).attributes = (h.node x).attributes ∧
    (x ≠ p → (h'.node h.size).children = (h.node x).children) ∧ (h'.node h.size).parent = some p
  other : ∀ j, j ≠ p → j < h.size → SameNode h h' j

theorem insertCopy_inserted (h : Heap) (p x s : NodeId) (hp : p < h.size) (hx : x < h.size) (a c : List NodeId)
    (e : (h.node p).children = a ++ c) : InsertedCopy h ((h.insertCopy p x a.length).clearOrder s) p x a c := by
  obtain ⟨_, h1, h2, h3⟩ := insertCopy_spec h p x hp hx a c e
  refine ⟨by simp [h2], by simp [h2], ?_, ?_⟩
  · simp only [clearOrder_ntype, clearOrder_name, clearOrder_value, clearOrder_attributes, clearOrder_children,
      clearOrder_parent, h3]
    simp +contextual [mkNode]
  · intro j hj hj'
    exact Spec.SameNode.trans (.of_eq (h1 j hj (by omega))) (clearOrder_same _ _ _)

/-- **C19**: if `self` is listed (first) between `a` and `c` among its parent's children, a copy of `x` is put
immediately before (after) it; without a parent nothing happens; if the parent does not list `self`, no node
changes. -/
theorem C19_insert_sibling (h : Heap) (hw : HeapWF h) (self x : NodeId) (hs : self < h.size) (hx : x < h.size) :
    (∀ p a c, (h.node self).parent = some p → (h.node p).children = a ++ self :: c → self ∉ a →
      InsertedCopy h (h.insertPrev self x) p x a (self :: c) ∧
      InsertedCopy h (h.insertNext self x) p x (a ++ [self]) c) ∧
    ((h.node self).parent = none → h.insertPrev self x = h ∧ h.insertNext self x = h) ∧
    (∀ p, (h.node self).parent = some p → self ∉ (h.node p).children →
      ∀ j, SameNode h (h.insertPrev self x) j ∧ SameNode h (h.insertNext self x) j) := by
  refine ⟨?_, ?_, ?_⟩
  · intro p a c hp e hna
    have hps := hw.parent_lt self p hp
    have hf := findChildIndex_of_split e hna
    constructor
    · have := insertCopy_inserted h p x self (by omega) hx a (self :: c) e
      unfold Heap.insertPrev; simp only [hp, hf]; exact this
    · have := insertCopy_inserted h p x self (by omega) hx (a ++ [self]) c (by simp [e])
      unfold Heap.insertNext; simp only [hp, hf]
      simpa using this
  · intro hp
    simp [Heap.insertPrev, Heap.insertNext, hp]
  · intro p hp hn j
    simp only [Heap.insertPrev, Heap.insertNext, hp, findChildIndex_none hn]
    exact ⟨clearOrder_same _ _ _, clearOrder_same _ _ _⟩

/-! ## C20: `delete_child` -/

/-- **C20**: `delete_child(t)` removes the first occurrence of `t` from the children, if any, and changes nothing
else. -/
theorem C20_delete_child (h : Heap) (i t : NodeId) :
    let h' := h.deleteChild i t
    (∀ a c, (h.node i).children = a ++ t :: c → t ∉ a → (h'.node i).children = a ++ c) ∧
    (t ∉ (h.node i).children → SameNode h h' i) ∧
    ((h'.node i).ntype = (h.node i).ntype ∧ (h'.node i).name = (h.node i).name ∧ (h'.node i).value = (h.node i).value ∧
      (h'.node i).attributes = (h.node i).attributes ∧ (h'.node i).parent = (h.node i).parent) ∧
    (∀ j, j ≠ i → SameNode h h' j) := by
  obtain ⟨_, hs, o, hnode⟩ := deleteChild_spec h i t
  simp only
  refine ⟨?_, ?_, ?_, hs⟩
  · intro a c e ha
    rw [hnode, e]
    simp only
    rw [List.erase_append_right _ ha]; simp
  · intro ht
    unfold SameNode
    rw [hnode, List.erase_of_not_mem ht]
  · rw [hnode]; simp

/-! ## C21: `replace_with` -/

/-- **C21**: if `self` is listed between `a` and `c` among its parent's children, then after `replace_with(x)` a copy
of `x` stands between `a` and `c` instead; nothing else changes. -/
theorem C21_replace_with (h : Heap) (hw : HeapWF h) (self x : NodeId) (hs : self < h.size) (hx : x < h.size) :
    (∀ p a c, (h.node self).parent = some p → (h.node p).children = a ++ self :: c → self ∉ a →
      InsertedCopy h (h.replaceWith self x) p x a c) ∧
    ((h.node self).parent = none → h.replaceWith self x = h) := by
  refine ⟨?_, fun hp => by simp [Heap.replaceWith, hp]⟩
  intro p a c hp e hna
  have hps := hw.parent_lt self p hp
  have hi := ((C19_insert_sibling h hw self x hs hx).1 p a c hp e hna).1
  have hd := C20_delete_child (h.insertPrev self x) p self
  have hdef : h.replaceWith self x = ((h.insertPrev self x).deleteChild p self).clearOrder self := by
    simp [Heap.replaceWith, hp]
  have hne : h.size ≠ p := by omega
  have hns : SameNode (h.insertPrev self x) (h.replaceWith self x) h.size := by
    rw [hdef]; exact Spec.SameNode.trans (hd.2.2.2 _ hne) (clearOrder_same _ _ _)
  refine ⟨?_, ?_, ?_, ?_⟩
  · rw [hdef, clearOrder_children]
    have := hd.1 (a ++ [h.size]) c (by rw [hi.children]; simp) (by simp [hna]; omega)
    rw [this]; simp
  · rw [hdef]
    simp only [clearOrder_ntype, clearOrder_name, clearOrder_value, clearOrder_attributes, clearOrder_parent]
    have h1 := hd.2.2.1
    have h2 := hi.parentKept
    exact ⟨h1.1.trans h2.1, h1.2.1.trans h2.2.1, h1.2.2.1.trans h2.2.2.1, h1.2.2.2.1.trans h2.2.2.2.1,
      h1.2.2.2.2.trans h2.2.2.2.2⟩
  · have := hi.copy
    unfold SameNode at hns
    rw [hns]; exact this
  · intro j hj hj'
    rw [hdef]
    exact Spec.SameNode.trans (hi.other j hj hj') (Spec.SameNode.trans (hd.2.2.2 j hj) (clearOrder_same _ _ _))

/-! ## a concrete document for C15–C21

`<a x="1" y="2"><b/><c/></a>` built by hand: node 0 is the root, 1 is `a`, 2 and 3 its attributes, 4 is `b`, 5 is
`c`. -/

/-- The heap. -/
def editSample : Heap :=
  let h := Heap.empty.alloc (mkNode .documentRoot none [] [])
  let h := h.makeChild .element 0 (S "a") [] none
  let h := (h.pushAttr 1 (S "x", S "1")).pushAttr 1 (S "y", S "2")
  let h := h.makeChild .element 1 (S "b") [] none
  h.makeChild .element 1 (S "c") [] none

/-- It is what the parser builds. -/
theorem editSample_parsed : newDocument Heap.empty (S "<a x=\"1\" y=\"2\"><b/><c/></a>") = some (.ok (editSample, 0)) := by
  have n : ∀ c : Char, isNameFirstChar c = true → IsName [c] := fun c h => ⟨c, [], rfl, h, by simp⟩
  have ha : IsName (S "a") := n _ (by decide +kernel)
  have hb : IsName (S "b") := n _ (by decide +kernel)
  have hc : IsName (S "c") := n _ (by decide +kernel)
  have hx : IsName (S "x") := n _ (by decide +kernel)
  have hy : IsName (S "y") := n _ (by decide +kernel)
  have t1 := rawToken_startTag (S "a") ha [attrSrcOf (S "x", S "1"), attrSrcOf (S "y", S "2")]
    (by intro a hm; simp at hm; rcases hm with rfl | rfl
        · exact attrSrcOf_wf ⟨hx, clean_of_check (by decide)⟩
        · exact attrSrcOf_wf ⟨hy, clean_of_check (by decide)⟩) [] (by simp [IsSpaces]) false (S "<b/><c/></a>")
  have t2 := rawToken_startTag (S "b") hb [] (by simp) [] (by simp [IsSpaces]) true (S "<c/></a>")
  have t3 := rawToken_toClose ⟨S "<c/></a>", S "b"⟩ (by simp [S])
  have t4 := rawToken_startTag (S "c") hc [] (by simp) [] (by simp [IsSpaces]) true (S "</a>")
  have t5 := rawToken_toClose ⟨S "</a>", S "c"⟩ (by simp [S])
  have t6 := rawToken_endTag (S "a") ha [] (by simp [IsSpaces]) []
  have hs : Stream (Dec.new (S "<a x=\"1\" y=\"2\"><b/><c/></a>"))
      [.startElement (S "a") [(S "x", S "1"), (S "y", S "2")], .startElement (S "b") [], .endElement (S "b"),
        .startElement (S "c") [], .endElement (S "c"), .endElement (S "a")] := by
    rw [new_of_clean (clean_of_check (by decide))]
    have e1 : [attrSrcOf (S "x", S "1"), attrSrcOf (S "y", S "2")].map (fun a => (a.name, decodeEntity a.raw)) =
      [(S "x", S "1"), (S "y", S "2")] := by decide
    refine ⟨_, .step ?_ (by simp) (.step t2 (by simp) (.step t3 (by simp) (.step t4 (by simp) (.step t5 (by simp)
      (.step t6 (by simp) (.refl _)))))), _, rawToken_eof⟩
    rw [e1] at t1
    exact t1
  rw [newDocument_stream hs]
  rfl

theorem editSample_wf : HeapWF editSample := by
  obtain ⟨_, _, _, _, _, hw⟩ := C08_well_linked _ .empty _ _ _ editSample_parsed
  exact hw

/-- The hypotheses of C15 and C16 are met, for a name that exists and one that does not. -/
example : (editSample.setAttribute 1 (S "y") (S "3")).attributeValue 1 (S "y") = some (S "3") ∧
    (editSample.setAttribute 1 (S "z") (S "3")).attributeValue 1 (S "x") = some (S "1") ∧
    (contentOf (editSample.setAttribute 1 (S "x") (S "3")) 1).attrs = [(S "x", S "3"), (S "y", S "2")] := by
  refine ⟨(C15_set_then_get _ editSample_wf 1 (by decide) _ _).1, ?_, by rfl⟩
  rw [(C15_set_then_get _ editSample_wf 1 (by decide) _ _).2.1 _ (by decide)]; rfl

/-- The hypothesis of C17 is met. -/
example : ((contentOf editSample 1).attrs.map (·.1)).Nodup ∧
    (editSample.deleteAttribute 1 (S "x")).attributeValue 1 (S "x") = none := by
  have h : ((contentOf editSample 1).attrs.map (·.1)).Nodup := by decide
  exact ⟨h, (C17_delete_attribute_partial editSample 1 (S "x")).1 h⟩

/-- **C17**, negative part: in the document `<a x="1" x="2"/>`, which the parser accepts, the attribute is still there
after `delete_attribute("x")`. -/
theorem C17_repeated_attribute_survives : ∃ h r, newDocument Heap.empty (S "<a x=\"1\" x=\"2\"/>") = some (.ok (h, r)) ∧
    h.attributeValue 1 (S "x") = some (S "1") ∧ (h.deleteAttribute 1 (S "x")).attributeValue 1 (S "x") = some (S "2") := by
  have n : ∀ c : Char, isNameFirstChar c = true → IsName [c] := fun c h => ⟨c, [], rfl, h, by simp⟩
  have ha : IsName (S "a") := n _ (by decide +kernel)
  have hx : IsName (S "x") := n _ (by decide +kernel)
  have t1 := rawToken_startTag (S "a") ha [attrSrcOf (S "x", S "1"), attrSrcOf (S "x", S "2")]
    (by intro a hm; simp at hm; rcases hm with rfl | rfl
        · exact attrSrcOf_wf ⟨hx, clean_of_check (by decide)⟩
        · exact attrSrcOf_wf ⟨hx, clean_of_check (by decide)⟩) [] (by simp [IsSpaces]) true []
  have t2 := rawToken_toClose ⟨[], S "a"⟩ (by simp [S])
  have hs : Stream (Dec.new (S "<a x=\"1\" x=\"2\"/>"))
      [.startElement (S "a") [(S "x", S "1"), (S "x", S "2")], .endElement (S "a")] := by
    rw [new_of_clean (clean_of_check (by decide))]
    have e1 : [attrSrcOf (S "x", S "1"), attrSrcOf (S "x", S "2")].map (fun a => (a.name, decodeEntity a.raw)) =
      [(S "x", S "1"), (S "x", S "2")] := by decide
    rw [e1] at t1
    exact ⟨_, .step t1 (by simp) (.step t2 (by simp) (.refl _)), _, rawToken_eof⟩
  rw [newDocument_stream hs]
  exact ⟨_, _, rfl, by rfl, by rfl⟩

/-- The hypotheses of C19–C21 are met: `b` (4) is listed before `c` (5) under `a` (1). -/
example : (editSample.node 4).parent = some 1 ∧ (editSample.node 1).children = [] ++ 4 :: [5] ∧ 4 ∉ ([] : List NodeId) ∧
    ((editSample.insertPrev 4 5).node 1).children = [6, 4, 5] ∧ ((editSample.insertNext 4 5).node 1).children = [4, 6, 5] ∧
    ((editSample.replaceWith 4 5).node 1).children = [6, 5] ∧ ((editSample.deleteChild 1 4).node 1).children = [5] ∧
    ((editSample.replaceWith 4 5).node 6).name = S "c" := by
  refine ⟨by rfl, by rfl, by simp, by rfl, by rfl, by rfl, by rfl, by rfl⟩

/-- Why C19 requires the inserted node not to be the parent: inserting the parent makes the copy its own child. -/
theorem C19_insert_parent_cycle (h : Heap) (hw : HeapWF h) (self p : NodeId) (hs : self < h.size)
    (hp : (h.node self).parent = some p) (a c : List NodeId) (e : (h.node p).children = a ++ self :: c) (hna : self ∉ a) :
    h.size ∈ ((h.insertPrev self p).node h.size).children := by
  have hps := hw.parent_lt self p hp
  obtain ⟨_, _, _, h3⟩ := insertCopy_spec h p p (by omega) (by omega) a (self :: c) e
  unfold Heap.insertPrev
  simp only [hp, findChildIndex_of_split e hna, clearOrder_children, h3]
  simp

/-! ## C27: prefix and local name -/

theorem splitOnce_colon (s : Str) :
    (':' ∉ s ∧ splitOnce (S ":") s = none) ∨
    ∃ a b, splitOnce (S ":") s = some (a, b) ∧ s = a ++ ':' :: b ∧ ':' ∉ a := by
  have hS : S ":" = [':'] := rfl
  rw [hS]
  induction s with
  | nil => left; simp [splitOnce]
  | cons c s ih =>
    by_cases hc : c = ':'
    · right; subst hc; exact ⟨[], s, by simp [splitOnce, stripPrefix], rfl, by simp⟩
    · rcases ih with ⟨h1, h2⟩ | ⟨a, b, h1, h2, h3⟩
      · left
        refine ⟨by simp [Ne.symm hc, h1], ?_⟩
        simp [splitOnce, stripPrefix, hc, Ne.symm hc, h2]
      · right
        refine ⟨c :: a, b, ?_, by simp [h2], by simp [Ne.symm hc, h3]⟩
        simp [splitOnce, stripPrefix, hc, Ne.symm hc, h1]

/-- **C27**: a name with a colon is prefix, colon, local name, split at the first colon; a name without is the local
name. -/
theorem C27_prefix_local (name : Str) :
    (':' ∈ name → spaceName name ++ ':' :: localName name = name ∧ ':' ∉ spaceName name) ∧
    (':' ∉ name → spaceName name = [] ∧ localName name = name) := by
  rcases splitOnce_colon name with ⟨h1, h2⟩ | ⟨a, b, h1, h2, h3⟩
  · refine ⟨fun h => absurd h h1, fun _ => ?_⟩
    simp [spaceName, localName, h2]
  · refine ⟨fun _ => ?_, fun h => absurd (by rw [h2]; simp) h⟩
    simp [spaceName, localName, h1, ← h2, h3]

example : spaceName (S "xs:int:x") = S "xs" ∧ localName (S "xs:int:x") = S "int:x" := by decide

/-! ## C29: access to children -/

/-- **C29**: `nth_child(n)` is the `n`-th of `children()`, `None` beyond; `first_child` is `nth_child(0)`;
`root_element` is the first element among the children of the root, or the root if there is none. -/
theorem C29_child_access (h : Heap) (i : NodeId) :
    (∀ n (hn : n < (h.node i).children.length), h.nthChild i n = some (h.node i).children[n]) ∧
    (∀ n, (h.node i).children.length ≤ n → h.nthChild i n = none) ∧
    h.firstChild i = (h.node i).children.head? ∧
    (∀ a e b, (h.node (h.root i)).children = a ++ e :: b → (∀ x ∈ a, (h.node x).ntype ≠ .element) →
      (h.node e).ntype = .element → h.rootElement i = e) ∧
    ((∀ x ∈ (h.node (h.root i)).children, (h.node x).ntype ≠ .element) → h.rootElement i = h.root i) := by
  refine ⟨?_, ?_, ?_, ?_, ?_⟩
  · intro n hn; simp [Heap.nthChild, hn]
  · intro n hn; simp [Heap.nthChild, Nat.not_lt.2 hn]
  · simp only [Heap.firstChild, Heap.nthChild, List.head?_eq_getElem?]
    split
    · rfl
    · rename_i hn; simp at hn; simp [hn]
  · intro a e b hc ha he
    unfold Heap.rootElement
    rw [hc, List.find?_append, List.find?_eq_none.2 (by intro x hx; simpa using ha x hx)]
    simp [he]
  · intro ha
    unfold Heap.rootElement
    rw [List.find?_eq_none.2 (by intro x hx; simpa using ha x hx)]
    rfl

example : editSample.rootElement 5 = 1 ∧ editSample.nthChild 1 1 = some 5 ∧ editSample.firstChild 5 = none := by
  refine ⟨by rfl, by rfl, by rfl⟩

end Amxml
