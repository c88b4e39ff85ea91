import Verif.Model.Axes
import Verif.Lemmas.Touch
import Verif.Props.Order
import Mathlib.Data.List.Perm.Basic

/-!
# Lemmas on the axes
-/

namespace Amxml
open Spec

theorem ancestorF_stable {h : Heap} (hw : HeapWF h) : ∀ f1 f2 i, i < f1 → i < f2 → ancestorF h f1 i = ancestorF h f2 i := by
  intro f1
  induction f1 with
  | zero => intro f2 i h1; omega
  | succ f1 ih =>
    intro f2 i h1 h2
    obtain ⟨f2, rfl⟩ : ∃ f, f2 = f + 1 := ⟨f2 - 1, by omega⟩
    simp only [ancestorF]
    cases e : (h.node i).parent with
    | none => rfl
    | some p => have := hw.parent_lt i p e; simp only; rw [ih f2 p (by omega) (by omega)]

/-- The ancestors of a node with the given parent link. -/
def ancOf (h : Heap) : Option NodeId → List NodeId
  | none => []
  | some p => arrayAncestor h p ++ [p]

theorem arrayAncestor_eq {h : Heap} (hw : HeapWF h) (i : NodeId) : arrayAncestor h i = ancOf h (h.node i).parent := by
  unfold arrayAncestor
  rw [ancestorF]
  cases e : (h.node i).parent with
  | none => rfl
  | some p =>
    have := hw.parent_lt i p e
    simp only [ancOf, arrayAncestor]
    rw [ancestorF_stable hw i (p + 1) p this (by omega)]

theorem descendantF_forest {h : Heap} (F : Forest NodeId) : ∀ (p : Option NodeId) (fuel : Nat), Linked h p F →
    F.toList.length ≤ fuel → descendantF h fuel F.roots = F.toList := by
  induction F with
  | nil => intro p fuel _ _; cases fuel <;> rfl
  | cons a k r ih1 ih2 =>
    intro p fuel hl hf
    obtain ⟨h1, h2, h3, h4, h5⟩ := hl
    simp only [Forest.toList, List.length_cons, List.length_append] at hf
    obtain ⟨f, rfl⟩ : ∃ f, fuel = f + 1 := ⟨fuel - 1, by omega⟩
    simp only [Forest.roots, descendantF, Forest.toList, h3]
    rw [ih1 _ f h4 (by omega), ih2 _ f h5 (by omega)]

/-- Where a node stands in a linked forest. -/
theorem forest_position {h : Heap} (hw : HeapWF h) (F : Forest NodeId) : ∀ (p : Option NodeId), Linked h p F → ∀ i ∈ F.toList,
    ∃ pre post k q, F.toList = pre ++ i :: (k.toList ++ post) ∧ (h.node i).children = k.roots ∧ Linked h (some i) k ∧
      arrayAncestor h i = ancOf h p ++ q ∧ q.Sublist pre := by
  induction F with
  | nil => intro p _ i hi; simp [Forest.toList] at hi
  | cons a k r ih1 ih2 =>
    intro p hl i hi
    obtain ⟨h1, h2, h3, h4, h5⟩ := hl
    simp only [Forest.toList, List.mem_cons, List.mem_append] at hi
    rcases hi with rfl | hi | hi
    · exact ⟨[], r.toList, k, [], by simp [Forest.toList], h3, h4, by rw [arrayAncestor_eq hw, h1]; simp, by simp⟩
    · obtain ⟨pre, post, k', q, e1, e2, e3, e4, e5⟩ := ih1 _ h4 i hi
      refine ⟨a :: pre, post ++ r.toList, k', a :: q, by simp [Forest.toList, e1], e2, e3, ?_, e5.cons_cons a⟩
      rw [e4]
      show (arrayAncestor h a ++ [a]) ++ q = _
      rw [arrayAncestor_eq hw a, h1]
      simp
    · obtain ⟨pre, post, k', q, e1, e2, e3, e4, e5⟩ := ih2 _ h5 i hi
      refine ⟨a :: (k.toList ++ pre), post, k', q, by simp [Forest.toList, e1], e2, e3, e4, ?_⟩
      exact (e5.trans (List.sublist_append_right _ _)).trans (List.sublist_cons_self _ _)

theorem followingLoop_skip {self : NodeId} {desc l m : List NodeId} (hl : self ∉ l) :
    followingLoop self desc false (l ++ m) = followingLoop self desc false m := by
  induction l with
  | nil => rfl
  | cons c l ih =>
    simp only [List.mem_cons, not_or] at hl
    have : (c == self) = false := by simpa using fun e => hl.1 e.symm
    simp [followingLoop, this, ih hl.2]

theorem followingLoop_true {self : NodeId} {desc l : List NodeId} :
    followingLoop self desc true l = l.filter fun c => !desc.contains c := by
  induction l with
  | nil => rfl
  | cons c l ih => simp only [followingLoop, Bool.true_or, ih, Bool.true_and, List.filter_cons]

theorem precedingLoop_true {self : NodeId} {anc l : List NodeId} : precedingLoop self anc true l = [] := by
  induction l with
  | nil => rfl
  | cons c l ih => simp [precedingLoop, ih]

theorem precedingLoop_split {self : NodeId} {anc l m : List NodeId} (hl : self ∉ l) :
    precedingLoop self anc false (l ++ self :: m) = l.filter fun c => !anc.contains c := by
  induction l with
  | nil => simp [precedingLoop, precedingLoop_true]
  | cons c l ih =>
    simp only [List.mem_cons, not_or] at hl
    have : (c == self) = false := by simpa using fun e => hl.1 e.symm
    simp only [List.cons_append, precedingLoop, this, Bool.or_false, ih hl.2, Bool.not_false, Bool.true_and, List.filter_cons]

theorem followingSiblingLoop_true {self : NodeId} {l : List NodeId} : followingSiblingLoop self true l = l := by
  induction l with
  | nil => rfl
  | cons c l ih => simp [followingSiblingLoop, ih]

theorem followingSiblingLoop_split {self : NodeId} {l m : List NodeId} (hl : self ∉ l) :
    followingSiblingLoop self false (l ++ self :: m) = m := by
  induction l with
  | nil => simp [followingSiblingLoop, followingSiblingLoop_true]
  | cons c l ih =>
    simp only [List.mem_cons, not_or] at hl
    have : (c == self) = false := by simpa using fun e => hl.1 e.symm
    simp [followingSiblingLoop, this, ih hl.2]

theorem precedingSiblingLoop_true {self : NodeId} {l : List NodeId} : precedingSiblingLoop self true l = [] := by
  induction l with
  | nil => rfl
  | cons c l ih => simp [precedingSiblingLoop, ih]

theorem precedingSiblingLoop_split {self : NodeId} {l m : List NodeId} (hl : self ∉ l) :
    precedingSiblingLoop self false (l ++ self :: m) = l := by
  induction l with
  | nil => simp [precedingSiblingLoop, precedingSiblingLoop_true]
  | cons c l ih =>
    simp only [List.mem_cons, not_or] at hl
    have : (c == self) = false := by simpa using fun e => hl.1 e.symm
    simp [precedingSiblingLoop, this, ih hl.2]

theorem doc_toList_nodup {h : Heap} {r : NodeId} {F : Forest NodeId} (hd : DocTree h r F) : (r :: F.toList).Nodup := by
  have := hd.nodup.sublist (toList_sublist_docIds h (.cons r F .nil))
  simpa [Forest.toList] using this

theorem nodup_length_le {l : List Nat} {n : Nat} (hn : l.Nodup) (hb : ∀ i ∈ l, i < n) : l.length ≤ n := by
  have h1 : l ⊆ List.range n := fun x hx => List.mem_range.2 (hb x hx)
  have := (List.subperm_of_subset hn h1).length_le
  rwa [List.length_range] at this

theorem doc_length_le {h : Heap} {r : NodeId} {F : Forest NodeId} (hd : DocTree h r F) : (r :: F.toList).length ≤ h.size := by
  apply nodup_length_le (doc_toList_nodup hd)
  intro i hi
  refine hd.bound i (mem_docIds_of_mem ?_)
  simpa [Forest.toList] using hi

end Amxml
