import Verif.Props.XAxes
import Verif.Lemmas.XSort
import Verif.Props.Navigate

/-!
# Every axis delivers nodes of the document, in document order
-/

namespace Amxml
open Spec

/-- Attribute nodes are where they belong: the nodes of the tree are not attributes, the nodes listed as attributes are, and have nothing
below them. Holds for parsed documents (`ParsedDoc.plain`). -/
structure Spec.PlainAttrs (h : Heap) (r : NodeId) (F : Forest NodeId) : Prop where
  tree : ∀ i ∈ r :: F.toList, (h.node i).ntype ≠ .attribute
  attr : ∀ i ∈ r :: F.toList, ∀ a ∈ (h.node i).attributes,
    (h.node a).ntype = .attribute ∧ (h.node a).children = [] ∧ (h.node a).attributes = []

theorem Spec.ParsedDoc.plain {h : Heap} {r : NodeId} {F : Forest NodeId} (hd : ParsedDoc h r F) : PlainAttrs h r F := by
  constructor
  · intro i hi
    rcases List.mem_cons.1 hi with rfl | hi
    · rw [hd.root_type]; decide
    · exact (hd.typed i hi).type.2.1
  · intro i hi a ha
    rcases List.mem_cons.1 hi with rfl | hi
    · rw [hd.root_attrs] at ha; cases ha
    · exact (hd.typed i hi).attr a ha

/-- Where a node and its attributes stand in document order. -/
theorem docIds_position {h : Heap} {F : Forest NodeId} {i : NodeId} (hi : i ∈ F.toList) :
    ∃ A B pre post, docIds h F = A ++ i :: ((h.node i).attributes ++ B) ∧ F.toList = pre ++ i :: post ∧ pre.Sublist A ∧
      post.Sublist B := by
  induction F with
  | nil => simp [Forest.toList] at hi
  | cons a k r ih1 ih2 =>
    simp only [Forest.toList, List.mem_cons, List.mem_append] at hi
    rcases hi with rfl | hi | hi
    · exact ⟨[], docIds h k ++ docIds h r, [], k.toList ++ r.toList, rfl, rfl, List.Sublist.refl _,
        (toList_sublist_docIds h k).append (toList_sublist_docIds h r)⟩
    · obtain ⟨A, B, pre, post, e1, e2, e3, e4⟩ := ih1 hi
      refine ⟨a :: ((h.node a).attributes ++ A), B ++ docIds h r, a :: pre, post ++ r.toList, ?_, ?_, ?_, ?_⟩
      · simp [docIds, e1]
      · simp [Forest.toList, e2]
      · exact (e3.trans (List.sublist_append_right _ _)).cons_cons a
      · exact e4.append (toList_sublist_docIds h r)
    · obtain ⟨A, B, pre, post, e1, e2, e3, e4⟩ := ih2 hi
      refine ⟨a :: ((h.node a).attributes ++ (docIds h k ++ A)), B, a :: (k.toList ++ pre), post, ?_, ?_, ?_, e4⟩
      · simp [docIds, e1]
      · simp [Forest.toList, e2]
      · exact (((toList_sublist_docIds h k).append e3).trans (List.sublist_append_right _ _)).cons_cons a

theorem roots_sublist (F : Forest NodeId) : F.roots.Sublist F.toList := by
  induction F with
  | nil => exact List.Sublist.refl _
  | cons a k r _ ih => exact (ih.trans (List.sublist_append_right _ _)).cons_cons a

theorem split_unique {α : Type} {x : α} : ∀ {a b c d : List α}, (a ++ x :: b).Nodup → a ++ x :: b = c ++ x :: d → a = c ∧ b = d := by
  intro a
  induction a with
  | nil =>
    intro b c d hn e
    cases c with
    | nil => simp at e; exact ⟨rfl, e⟩
    | cons y c =>
      simp at e
      obtain ⟨rfl, rfl⟩ := e
      simp at hn
  | cons y a ih =>
    intro b c d hn e
    cases c with
    | nil =>
      simp at e
      obtain ⟨rfl, rfl⟩ := e
      simp at hn
    | cons z c =>
      simp at e
      obtain ⟨rfl, e⟩ := e
      have hn : (a ++ x :: b).Nodup := (List.nodup_cons.1 hn).2
      obtain ⟨rfl, rfl⟩ := ih hn e
      exact ⟨rfl, rfl⟩

section
variable {h : Heap} (hw : HeapWF h) {r : NodeId} {F : Forest NodeId} (hd : DocTree h r F) (hp : PlainAttrs h r F)
include hw hd hp

/-- The position of a node of the tree in document order, with its ancestors, attributes and what follows. -/
theorem tree_position {i : NodeId} (hi : i ∈ r :: F.toList) :
    ∃ A B, docIds h (.cons r F .nil) = A ++ i :: ((h.node i).attributes ++ B) ∧ (arrayAncestor h i).Sublist A ∧
      (arrayPreceding h i).Sublist A ∧ (arrayDescendant h i ++ arrayFollowing h i).Sublist B := by
  obtain ⟨A, B, pre, post, e1, e2, e3, e4⟩ := docIds_position (h := h) (F := .cons r F .nil) (i := i)
    (by simpa [Forest.toList] using hi)
  obtain ⟨⟨pre', post', f1, f2, f3, f4, f5⟩, -, hn⟩ := C30_axes_partition h hw r F hd i hi (hp.tree i hi)
  have e2' : r :: F.toList = pre ++ i :: post := by simpa [Forest.toList] using e2
  obtain ⟨rfl, rfl⟩ := split_unique (f1 ▸ hn) (f1 ▸ e2')
  exact ⟨A, B, e1, f4.trans e3, f5.trans e3, f2 ▸ e4⟩

/-- Children are in the document, in order. -/
theorem children_sublist {i : NodeId} (hi : i ∈ r :: F.toList) : (h.node i).children.Sublist (docIds h (.cons r F .nil)) := by
  obtain ⟨pre, post, k, q, e1, e2, e3, e4, e5⟩ := forest_position hw _ _ hd.linked i (by simpa [Forest.toList] using hi)
  refine List.Sublist.trans ?_ (toList_sublist_docIds h _)
  rw [e1, e2]
  exact ((roots_sublist k).trans (List.sublist_append_left _ _)).trans
    ((List.sublist_cons_self i _).trans (List.sublist_append_right pre _))

/-- A node of the document is a node of the tree, or an attribute of one. -/
theorem doc_cases {i : NodeId} (hi : i ∈ docIds h (.cons r F .nil)) :
    i ∈ r :: F.toList ∨ ∃ p ∈ r :: F.toList, i ∈ (h.node p).attributes ∧ (h.node i).parent = some p ∧
      (h.node i).ntype = .attribute ∧ (h.node i).children = [] ∧ (h.node i).attributes = [] := by
  rcases mem_docIds.1 hi with hi | ⟨p, hpp, ha⟩
  · left; simpa [Forest.toList] using hi
  · right
    have hpp' : p ∈ r :: F.toList := by simpa [Forest.toList] using hpp
    exact ⟨p, hpp', ha, linked_parent_attr hd.linked hpp ha, hp.attr p hpp' i ha⟩

/-- **Every axis delivers nodes of the document in document order.** -/
theorem axis_sublist {i : NodeId} (hi : i ∈ docIds h (.cons r F .nil)) :
    let D := docIds h (.cons r F .nil)
    (arrayAncestor h i).Sublist D ∧ (arrayAncestorOrSelf h i).Sublist D ∧ ((h.node i).attributes).Sublist D ∧
    ((h.node i).children).Sublist D ∧ (arrayDescendant h i).Sublist D ∧ (arrayDescendantOrSelf h i).Sublist D ∧
    (arrayFollowing h i).Sublist D ∧ (arrayFollowingSibling h i).Sublist D ∧ (arrayPreceding h i).Sublist D ∧
    (arrayPrecedingSibling h i).Sublist D ∧ h.root i ∈ D ∧ (∀ p, (h.node i).parent = some p → p ∈ D) := by
  have hroot : h.root i = r := root_eq hd hw hi
  have hrD : r ∈ docIds h (.cons r F .nil) := by simp [docIds]
  have hpar : ∀ p, (h.node i).parent = some p → p ∈ r :: F.toList := fun p hp' => by
    have := (docIds_parent hd hi hp').1
    simpa [Forest.toList] using this
  have hparD : ∀ p, (h.node i).parent = some p → p ∈ docIds h (.cons r F .nil) := fun p hp' =>
    mem_docIds_of_mem (docIds_parent hd hi hp').1
  have hsib : (arrayFollowingSibling h i).Sublist (docIds h (.cons r F .nil)) ∧
      (arrayPrecedingSibling h i).Sublist (docIds h (.cons r F .nil)) := by
    have fs : ∀ (occ : Bool) (l : List NodeId), (followingSiblingLoop i occ l).Sublist l := by
      intro occ l
      induction l generalizing occ with
      | nil => exact List.Sublist.refl _
      | cons c l ih =>
        unfold followingSiblingLoop
        simp only
        split
        · exact (ih _).cons_cons c
        · exact (ih _).cons c
    have ps : ∀ (occ : Bool) (l : List NodeId), (precedingSiblingLoop i occ l).Sublist l := by
      intro occ l
      induction l generalizing occ with
      | nil => exact List.Sublist.refl _
      | cons c l ih =>
        unfold precedingSiblingLoop
        simp only
        split
        · exact (ih _).cons_cons c
        · exact (ih _).cons c
    constructor
    · unfold arrayFollowingSibling
      split
      · split
        · rename_i p e
          exact (fs _ _).trans (children_sublist hw hd hp (hpar p e))
        · exact List.nil_sublist _
      · exact List.nil_sublist _
    · unfold arrayPrecedingSibling
      split
      · split
        · rename_i p e
          exact (ps _ _).trans (children_sublist hw hd hp (hpar p e))
        · exact List.nil_sublist _
      · exact List.nil_sublist _
  intro D
  rcases doc_cases hw hd hp hi with ht | ⟨p, hpt, ha, hpe, hty, hch, hat⟩
  · obtain ⟨A, B, e, hanc, hprec, hpost⟩ := tree_position hw hd hp ht
    have hB : B.Sublist D := by
      show List.Sublist _ (docIds h (.cons r F .nil)); rw [e]
      exact (List.sublist_append_right (i :: (h.node i).attributes) B).trans (by
        simpa using List.sublist_append_right A (i :: ((h.node i).attributes ++ B)))
    have hA : A.Sublist D := by
      show List.Sublist _ (docIds h (.cons r F .nil)); rw [e]; exact List.sublist_append_left _ _
    have hAi : (A ++ [i]).Sublist D := by
      show List.Sublist _ (docIds h (.cons r F .nil)); rw [e]
      exact (List.Sublist.refl A).append (List.singleton_sublist.2 (by simp))
    have hiB : (i :: B).Sublist D := by
      show List.Sublist _ (docIds h (.cons r F .nil)); rw [e]
      exact ((List.sublist_append_right (h.node i).attributes B).cons_cons i).trans (List.sublist_append_right A _)
    have hattr : (h.node i).attributes.Sublist D := by
      show List.Sublist _ (docIds h (.cons r F .nil)); rw [e]
      exact ((List.sublist_append_left _ B).trans (List.sublist_cons_self i _)).trans (List.sublist_append_right A _)
    refine ⟨hanc.trans hA, (hanc.append_right _).trans hAi, hattr, children_sublist hw hd hp ht,
      ((List.sublist_append_left _ _).trans hpost).trans hB,
      (((List.sublist_append_left _ _).trans hpost).cons_cons i).trans hiB,
      ((List.sublist_append_right _ _).trans hpost).trans hB, hsib.1, hprec.trans hA, hsib.2, hroot ▸ hrD, hparD⟩
  · obtain ⟨A, B, e, hanc, -, -⟩ := tree_position hw hd hp hpt
    have hai : arrayAncestor h i = arrayAncestor h p ++ [p] := by rw [arrayAncestor_eq hw i, hpe]; rfl
    have hAp : (A ++ [p]).Sublist D := by
      show List.Sublist _ (docIds h (.cons r F .nil)); rw [e]
      exact (List.Sublist.refl A).append (List.singleton_sublist.2 (by simp))
    have hApi : (A ++ [p] ++ [i]).Sublist D := by
      show List.Sublist _ (docIds h (.cons r F .nil)); rw [e, List.append_assoc]
      refine (List.Sublist.refl A).append ?_
      refine List.Sublist.cons_cons p ?_
      exact List.singleton_sublist.2 (by simp [ha])
    have hdesc : arrayDescendant h i = [] := by unfold arrayDescendant; rw [hch]; rfl
    have hf : arrayFollowing h i = [] := by unfold arrayFollowing; simp [hty]
    have hpr : arrayPreceding h i = [] := by unfold arrayPreceding; simp [hty]
    refine ⟨hai ▸ (hanc.append_right _).trans hAp, ?_, hat ▸ List.nil_sublist _, hch ▸ List.nil_sublist _,
      hdesc ▸ List.nil_sublist _, ?_, hf ▸ List.nil_sublist _, hsib.1, hpr ▸ List.nil_sublist _, hsib.2, hroot ▸ hrD, hparD⟩
    · unfold arrayAncestorOrSelf
      rw [hai]
      exact ((hanc.append_right _).append_right _).trans hApi
    · unfold arrayDescendantOrSelf
      rw [hdesc]
      exact List.singleton_sublist.2 hi

/-- The nodes a step selects before its predicates. -/
theorem axisNodes_sublist {i : NodeId} (hi : i ∈ docIds h (.cons r F .nil)) {x : XNode} {l : List NodeId}
    (hl : axisNodes h i x = some l) : l.Sublist (docIds h (.cons r F .nil)) := by
  obtain ⟨a1, a2, a3, a4, a5, a6, a7, a8, a9, a10, a11, a12⟩ := axis_sublist hw hd hp hi
  have m : ∀ {axis : Heap → NodeId → List NodeId}, (axis h i).Sublist (docIds h (.cons r F .nil)) →
      (matchAlongAxis h i x axis).Sublist (docIds h (.cons r F .nil)) := fun ha => List.filter_sublist.trans ha
  unfold axisNodes at hl
  split at hl <;> try (cases hl; first
    | exact m a1 | exact m a2 | exact m a3 | exact m a4 | exact m a5 | exact m a6 | exact m a7 | exact m a8 | exact m a9 | exact m a10)
  · split at hl
    · rename_i p e
      cases hl
      split
      · exact List.singleton_sublist.2 (a12 p e)
      · exact List.nil_sublist _
    · cases hl; exact List.nil_sublist _
  · cases hl; exact List.singleton_sublist.2 a11
  · cases hl
    split
    · exact List.singleton_sublist.2 hi
    · exact List.nil_sublist _
  · cases hl

end

end Amxml
