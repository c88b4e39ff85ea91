import Verif.Lemmas.Axes
import Mathlib.Data.List.Perm.Basic

/-!
# C30 (axes partition the document), C31 (sibling axes)
-/

namespace Amxml
open Spec

/-- `a` is a proper ancestor of `i`: reached from `i` by one or more parent links. -/
inductive Spec.Ancestor (h : Heap) : NodeId → NodeId → Prop
  | parent {a i : NodeId} : (h.node i).parent = some a → Ancestor h a i
  | step {a p i : NodeId} : (h.node i).parent = some p → Ancestor h a p → Ancestor h a i

theorem mem_arrayAncestor {h : Heap} (hw : HeapWF h) (n : Nat) : ∀ i < n, ∀ a, a ∈ arrayAncestor h i ↔ Ancestor h a i := by
  induction n with
  | zero => intro i hi; omega
  | succ n ih =>
    intro i hi a
    rw [arrayAncestor_eq hw]
    cases e : (h.node i).parent with
    | none =>
      simp only [ancOf, List.not_mem_nil, false_iff]
      intro ha
      cases ha with
      | parent e' => rw [e] at e'; cases e'
      | step e' _ => rw [e] at e'; cases e'
    | some p =>
      have hlt := hw.parent_lt i p e
      simp only [ancOf, List.mem_append, List.mem_singleton, ih p (by omega)]
      constructor
      · rintro (ha | rfl)
        · exact .step e ha
        · exact .parent e
      · intro ha
        cases ha with
        | parent e' => rw [e] at e'; cases e'; exact .inr rfl
        | step e' ha => rw [e] at e'; cases e'; exact .inl ha

theorem Spec.Ancestor.trans {h : Heap} {a b c : NodeId} (h1 : Ancestor h a b) (h2 : Ancestor h b c) : Ancestor h a c := by
  induction h2 with
  | parent e => exact .step e h1
  | step e _ ih => exact .step e ih

/-- In a linked forest the nodes below `i` are those of the forest that have `i` as an ancestor. -/
theorem toList_ancestor {h : Heap} {p : NodeId} {F : Forest NodeId} (hl : Linked h (some p) F) : ∀ j ∈ F.toList, Ancestor h p j := by
  induction F generalizing p with
  | nil => intro j hj; simp [Forest.toList] at hj
  | cons a k r ih1 ih2 =>
    obtain ⟨h1, h2, h3, h4, h5⟩ := hl
    intro j hj
    simp only [Forest.toList, List.mem_cons, List.mem_append] at hj
    rcases hj with rfl | hj | hj
    · exact .parent h1
    · exact (Spec.Ancestor.parent h1).trans (ih1 h4 j hj)
    · exact ih2 h5 j hj

/-- **C30**: let `i` be a node other than an attribute of a well-linked document with nodes `D` in document order. With `D` split
at `i`, what comes after `i` is its descendants followed by the following axis; what comes before is a shuffle of the ancestor axis
and the preceding axis, each in document order. Hence the five axes contain every node exactly once. -/
theorem C30_axes_partition (h : Heap) (hw : HeapWF h) (r : NodeId) (F : Forest NodeId) (hd : DocTree h r F) (i : NodeId)
    (hi : i ∈ r :: F.toList) (hn : (h.node i).ntype ≠ .attribute) :
    (∃ pre post, r :: F.toList = pre ++ i :: post ∧
      post = arrayDescendant h i ++ arrayFollowing h i ∧
      pre.Perm (arrayAncestor h i ++ arrayPreceding h i) ∧
      (arrayAncestor h i).Sublist pre ∧ (arrayPreceding h i).Sublist pre) ∧
    (r :: F.toList).Perm (arrayAncestor h i ++ arrayPreceding h i ++ [i] ++ arrayDescendant h i ++ arrayFollowing h i) ∧
    (r :: F.toList).Nodup := by
  have hnd := doc_toList_nodup hd
  have hlen := doc_length_le hd
  have hroot : h.root i = r := root_eq hd hw (mem_docIds_of_mem (by simpa [Forest.toList] using hi))
  obtain ⟨pre, post, k, q, e1, e2, e3, e4, e5⟩ := forest_position hw _ _ hd.linked i (by simpa [Forest.toList] using hi)
  simp only [Forest.toList, List.append_nil] at e1
  simp only [ancOf, List.nil_append] at e4
  have hall : arrayDescendantOrSelf h (h.root i) = r :: F.toList := by
    rw [hroot]
    simp only [arrayDescendantOrSelf, arrayDescendant]
    rw [hd.linked.2.2.1, descendantF_forest F _ _ hd.linked.2.2.2.1]
    simp at hlen; omega
  have hdesc : arrayDescendant h i = k.toList := by
    simp only [arrayDescendant]
    rw [e2, descendantF_forest k _ _ e3]
    have := congrArg List.length e1
    simp at this hlen; omega
  rw [e1] at hnd
  have hnd' := hnd
  rw [List.nodup_append, List.nodup_cons, List.nodup_append] at hnd
  obtain ⟨hn1, ⟨hn2, hn3, hn4, hn5⟩, hn6⟩ := hnd
  have hpre : i ∉ pre := fun hc => hn6 i hc i (by simp) rfl
  have hfoll : arrayFollowing h i = post := by
    simp only [arrayFollowing, if_pos hn, hall, e1]
    rw [followingLoop_skip hpre]
    simp only [followingLoop, Bool.false_and, Bool.false_eq_true, if_false, beq_self_eq_true, Bool.or_true]
    rw [followingLoop_true, List.filter_append]
    have h1 : k.toList.filter (fun c => !(arrayDescendantOrSelf h i).contains c) = [] := by
      rw [List.filter_eq_nil_iff]
      intro c hc
      simp [arrayDescendantOrSelf, hdesc, hc]
    have h2 : post.filter (fun c => !(arrayDescendantOrSelf h i).contains c) = post := by
      rw [List.filter_eq_self]
      intro c hc
      simp only [arrayDescendantOrSelf, hdesc, Bool.not_eq_true', List.contains_eq_mem, decide_eq_false_iff_not, List.mem_cons, not_or]
      refine ⟨?_, fun hk => hn5 c hk c hc rfl⟩
      rintro rfl
      exact hn2 (by simp [hc])
    rw [h1, h2]; rfl
  have hprec : arrayPreceding h i = pre.filter fun c => !q.contains c := by
    simp only [arrayPreceding, if_pos hn, hall, e1, e4]
    exact precedingLoop_split hpre
  have hperm : pre.Perm (q ++ arrayPreceding h i) := by
    rw [hprec]
    apply (List.perm_ext_iff_of_nodup hn1 ?_).2
    · intro a
      simp only [List.mem_append, List.mem_filter, Bool.not_eq_true', List.contains_eq_mem, decide_eq_false_iff_not]
      constructor
      · intro ha
        by_cases hq : a ∈ q
        · exact .inl hq
        · exact .inr ⟨ha, hq⟩
      · rintro (hq | ⟨ha, _⟩)
        · exact e5.subset hq
        · exact ha
    · rw [List.nodup_append]
      refine ⟨hn1.sublist e5, hn1.filter _, ?_⟩
      rintro a ha b hb rfl
      simp [ha] at hb
  rw [e4, hdesc, hfoll]
  refine ⟨⟨pre, k.toList ++ post, e1, rfl, hperm, e5, ?_⟩, ?_, by rw [e1]; exact hnd'⟩
  · rw [hprec]; exact List.filter_sublist
  · rw [e1]
    have := hperm.append_right (i :: (k.toList ++ post))
    simpa using this

/-- **C30**, what ancestors and descendants are: the ancestor axis holds the nodes reached by parent links, and the descendant
axis the nodes of the document of which the context node is an ancestor. -/
theorem C30_ancestor_descendant (h : Heap) (hw : HeapWF h) (r : NodeId) (F : Forest NodeId) (hd : DocTree h r F) (i : NodeId)
    (hi : i ∈ r :: F.toList) :
    (∀ a, a ∈ arrayAncestor h i ↔ Ancestor h a i) ∧
    (∀ j ∈ r :: F.toList, j ∈ arrayDescendant h i ↔ Ancestor h i j) := by
  refine ⟨mem_arrayAncestor hw (i + 1) i (by omega), ?_⟩
  intro j hj
  have hnd := doc_toList_nodup hd
  have hlen := doc_length_le hd
  obtain ⟨pre, post, k, q, e1, e2, e3, e4, e5⟩ := forest_position hw _ _ hd.linked i (by simpa [Forest.toList] using hi)
  have hdesc : arrayDescendant h i = k.toList := by
    simp only [arrayDescendant]
    rw [e2, descendantF_forest k _ _ e3]
    have := congrArg List.length e1
    simp [Forest.toList] at this hlen; omega
  rw [hdesc]
  constructor
  · exact toList_ancestor e3 j
  · intro ha
    have key : ∀ j, Ancestor h i j → j ∈ r :: F.toList → j ∈ k.toList := by
      intro j ha
      induction ha with
      | @parent j' e =>
        intro hj'
        rcases linked_parent hd.linked (show j' ∈ (Forest.cons r F .nil).toList by simpa [Forest.toList] using hj') with ⟨e', _⟩ | ⟨p, _, e', hc⟩
        · rw [e] at e'; cases e'
        · rw [e] at e'; cases e'
          rw [e2] at hc
          exact roots_sub_toList hc
      | @step p j' e _ ih =>
        intro hj'
        rcases linked_parent hd.linked (show j' ∈ (Forest.cons r F .nil).toList by simpa [Forest.toList] using hj') with ⟨e', _⟩ | ⟨p', hp', e', hc⟩
        · rw [e] at e'; cases e'
        · rw [e] at e'; cases e'
          have hpk := ih (by simpa [Forest.toList] using hp')
          exact (linked_child e3 hpk hc).1
    exact key j ha hj

/-- **C31**: preceding-sibling, self and following-sibling, concatenated, are the parent's children. Both axes are empty for the
document root and for attributes. -/
theorem C31_siblings (h : Heap) (r : NodeId) (F : Forest NodeId) (hd : DocTree h r F) :
    (∀ i ∈ F.toList, (h.node i).ntype ≠ .attribute → ∃ p ∈ r :: F.toList, (h.node i).parent = some p ∧
      arrayPrecedingSibling h i ++ [i] ++ arrayFollowingSibling h i = (h.node p).children) ∧
    (arrayPrecedingSibling h r = [] ∧ arrayFollowingSibling h r = []) ∧
    (∀ a, (h.node a).ntype = .attribute → arrayPrecedingSibling h a = [] ∧ arrayFollowingSibling h a = []) := by
  refine ⟨?_, ?_, ?_⟩
  · intro i hi hn
    rcases linked_parent hd.linked.2.2.2.1 hi with ⟨e, hr⟩ | ⟨p, hp, e, hc⟩
    · have hc : i ∈ (h.node r).children := by rw [hd.linked.2.2.1]; exact hr
      refine ⟨r, by simp, e, ?_⟩
      exact aux hd hn e hc (by simp [Forest.toList])
    · exact ⟨p, by simp [hp], e, aux hd hn e hc (by simp [Forest.toList, hp])⟩
  · have : (h.node r).parent = none := hd.linked.1
    simp [arrayPrecedingSibling, arrayFollowingSibling, this]
  · intro a ha
    simp [arrayPrecedingSibling, arrayFollowingSibling, ha]
where
  aux {h : Heap} {r : NodeId} {F : Forest NodeId} (hd : DocTree h r F) {i p : NodeId} (hn : (h.node i).ntype ≠ .attribute)
      (e : (h.node i).parent = some p) (hc : i ∈ (h.node p).children) (hp : p ∈ (Forest.cons r F .nil).toList) :
      arrayPrecedingSibling h i ++ [i] ++ arrayFollowingSibling h i = (h.node p).children := by
    have hnd : (h.node p).children.Nodup := by
      have := children_nodup hd hp
      exact this
    obtain ⟨s, t, hst⟩ := List.append_of_mem hc
    have his : i ∉ s := by
      rw [hst, List.nodup_append] at hnd
      exact fun h' => hnd.2.2 i h' i (by simp) rfl
    simp only [arrayPrecedingSibling, arrayFollowingSibling, if_pos hn, e, hst]
    rw [followingSiblingLoop_split his, precedingSiblingLoop_split his]
    simp
  children_nodup {h : Heap} {r : NodeId} {F : Forest NodeId} (hd : DocTree h r F) {p : NodeId} (hp : p ∈ (Forest.cons r F .nil).toList) :
      (h.node p).children.Nodup := by
    have hnd := doc_toList_nodup hd
    have := roots_nodup (.cons r F .nil) none hd.linked (by simpa [Forest.toList] using hnd) p hp
    exact this
  roots_sublist (G : Forest NodeId) : G.roots.Sublist G.toList := by
    induction G with
    | nil => simp [Forest.roots, Forest.toList]
    | cons a k r _ ih =>
      simp only [Forest.roots, Forest.toList]
      exact (ih.trans (List.sublist_append_right _ _)).cons_cons a
  roots_nodup {h : Heap} (G : Forest NodeId) : ∀ (p : Option NodeId), Linked h p G → G.toList.Nodup → ∀ i ∈ G.toList,
      (h.node i).children.Nodup := by
    induction G with
    | nil => intro p _ _ i hi; simp [Forest.toList] at hi
    | cons a k r ih1 ih2 =>
      intro p hl hnd i hi
      obtain ⟨h1, h2, h3, h4, h5⟩ := hl
      simp only [Forest.toList, List.mem_cons, List.mem_append] at hi
      simp only [Forest.toList] at hnd
      rw [List.nodup_cons, List.nodup_append] at hnd
      rcases hi with rfl | hi | hi
      · rw [h3]; exact hnd.2.1.sublist (roots_sublist k)
      · exact ih1 _ h4 hnd.2.1 i hi
      · exact ih2 _ h5 hnd.2.2.1 i hi

/-- The hypotheses are met: in `<a x="1" y="2"><b/><c/></a>` (root 0, a 1, b 4, c 5) the axes of `c`. -/
example : arrayAncestor editSample 5 = [0, 1] ∧ arrayPreceding editSample 5 = [4] ∧ arrayFollowing editSample 4 = [5] ∧
    arrayDescendant editSample 0 = [1, 4, 5] ∧ arrayPrecedingSibling editSample 5 = [4] ∧
    (editSample.node 5).ntype ≠ .attribute ∧ 5 ∈ (0 :: (Forest.cons 1 (.cons 4 .nil (.cons 5 .nil .nil)) Forest.nil).toList) := by
  decide

end Amxml
