import Verif.Lemmas.Edit
import Verif.Props.Build

/-!
# Lemmas on the document order numbers
-/

namespace Amxml
open Spec

theorem linked_same {h h' : Heap} {p : Option NodeId} {F : Forest NodeId} (hs : ∀ j, SameNode h h' j) (hl : Linked h p F) :
    Linked h' p F := linked_congr hl fun j _ => (hs j).links

theorem docIds_same {h h' : Heap} (F : Forest NodeId) (hs : ∀ j, SameNode h h' j) : docIds h' F = docIds h F :=
  docIds_congr fun j _ => (hs j).links.2.2

theorem setOrder_same (h : Heap) (i : NodeId) (o : Int) (j : NodeId) :
    SameNode h (h.modify i fun n => { n with order := o }) j := by
  unfold SameNode
  simp only [Heap.modify_node]
  split
  · rename_i e; subst e; rfl
  · rfl

theorem setAttrOrders_spec (as : List NodeId) (h : Heap) (o : Int) (hnd : as.Nodup) :
    let r := setAttrOrders h as o
    r.2 = o + as.length ∧ r.1.size = h.size ∧ (∀ j, SameNode h r.1 j) ∧ (∀ j, j ∉ as → r.1.node j = h.node j) ∧
    as.Pairwise (fun i j => (r.1.node i).order < (r.1.node j).order) ∧
    (∀ j ∈ as, o ≤ (r.1.node j).order ∧ (r.1.node j).order < o + as.length) := by
  induction as generalizing h o with
  | nil => simp [setAttrOrders, Spec.SameNode.refl]
  | cons a as ih =>
    simp only [List.nodup_cons] at hnd
    obtain ⟨h1, h2, h3, h4, h5, h6⟩ := ih (h.modify a fun n => { n with order := o }) (o + 1) hnd.2
    simp only [setAttrOrders, List.length_cons]
    have ha : ((setAttrOrders (h.modify a fun n => { n with order := o }) as (o + 1)).1.node a).order = o := by
      rw [h4 a hnd.1]; simp
    refine ⟨by rw [h1]; push_cast; omega, by rw [h2]; rfl, fun j => (setOrder_same h a o j).trans (h3 j), ?_, ?_, ?_⟩
    · intro j hj
      simp only [List.mem_cons, not_or] at hj
      rw [h4 j hj.2]; simp [hj.1]
    · rw [List.pairwise_cons]
      refine ⟨fun j hj => ?_, h5⟩
      have := h6 j hj; rw [ha]; omega
    · intro j hj
      simp only [List.mem_cons] at hj
      rcases hj with rfl | hj
      · rw [ha]; push_cast; omega
      · have := h6 j hj; push_cast; omega

theorem setupOrderF_forest (F : Forest NodeId) (h : Heap) (p : Option NodeId) (hl : Linked h p F)
    (hnd : (docIds h F).Nodup) (fuel : Nat) (hf : F.toList.length ≤ fuel) (o : Int) :
    ∃ h' o', setupOrderF fuel h F.roots o = some (h', o') ∧ o ≤ o' ∧ h'.size = h.size ∧ (∀ j, SameNode h h' j) ∧
      (∀ j, j ∉ docIds h F → h'.node j = h.node j) ∧
      (docIds h F).Pairwise (fun i j => (h'.node i).order < (h'.node j).order) ∧
      (∀ j ∈ docIds h F, o < (h'.node j).order ∧ (h'.node j).order ≤ o') := by
  induction F generalizing h p fuel o with
  | nil => exact ⟨h, o, by cases fuel <;> rfl, by omega, rfl, fun j => .refl _ _, by simp [docIds], by simp [docIds], by simp [docIds]⟩
  | cons i k r ih1 ih2 =>
    obtain ⟨l1, l2, l3, l4, l5⟩ := hl
    simp only [Forest.toList, List.length_cons, List.length_append] at hf
    obtain ⟨f, rfl⟩ : ∃ f, fuel = f + 1 := ⟨fuel - 1, by omega⟩
    simp only [docIds, List.nodup_cons, List.mem_append, not_or, List.nodup_append] at hnd
    obtain ⟨⟨ni1, ni2, ni3⟩, na, ⟨nk, nr, dkr⟩, dak⟩ := hnd
    let h1 := h.modify i fun n => { n with order := o + 1 }
    have s1 : ∀ j, SameNode h h1 j := setOrder_same h i (o + 1)
    have hat : (h1.node i).attributes = (h.node i).attributes := (s1 i).links.2.2
    obtain ⟨a1, a2, a3, a4, a5, a6⟩ := setAttrOrders_spec (h.node i).attributes h1 (o + 2) na
    generalize hh2 : setAttrOrders h1 (h.node i).attributes (o + 2) = h2 at a1 a2 a3 a4 a5 a6
    have s2 : ∀ j, SameNode h h2.1 j := fun j => (s1 j).trans (a3 j)
    have hch : (h2.1.node i).children = k.roots := by rw [(s2 i).links.2.1, l3]
    obtain ⟨h3, o3, e3, b1, b2, b3, b4, b5, b6⟩ := ih1 h2.1 (some i) (linked_same s2 l4) (by rw [docIds_same k s2]; exact nk)
      f (by omega) h2.2
    rw [docIds_same k s2] at b4 b5 b6
    have s3 : ∀ j, SameNode h h3 j := fun j => (s2 j).trans (b3 j)
    obtain ⟨h4, o4, e4, c1, c2, c3, c4, c5, c6⟩ := ih2 h3 p (linked_same s3 l5) (by rw [docIds_same r s3]; exact nr)
      f (by omega) o3
    rw [docIds_same r s3] at c4 c5 c6
    refine ⟨h4, o4, ?_, by omega, by rw [c2, b2, a2]; rfl, fun j => (s3 j).trans (c3 j), ?_, ?_, ?_⟩
    · simp only [Forest.roots, setupOrderF]
      have : o + 1 + 1 = o + 2 := by omega
      simp only [this]
      show (match setupOrderF f (setAttrOrders h1 (h1.node i).attributes (o + 2)).1
          (((setAttrOrders h1 (h1.node i).attributes (o + 2)).1).node i).children
          (setAttrOrders h1 (h1.node i).attributes (o + 2)).2 with
        | none => none
        | some (h2, o2) => setupOrderF f h2 r.roots o2) = some (h4, o4)
      rw [hat, hh2, hch, e3]
      exact e4
    · intro j hj
      simp only [docIds, List.mem_cons, List.mem_append, not_or] at hj
      rw [c4 j hj.2.2.2, b4 j hj.2.2.1, a4 j hj.2.1]
      simp [h1, hj.1]
    all_goals
      have oi : (h4.node i).order = o + 1 := by
        rw [c4 i ni3, b4 i ni2, a4 i ni1]; simp [h1]
      have oa : ∀ j ∈ (h.node i).attributes, (h4.node j).order = (h2.1.node j).order := by
        intro j hj
        rw [c4 j (fun hm => dak j hj j (.inr hm) rfl), b4 j (fun hm => dak j hj j (.inl hm) rfl)]
      have ok : ∀ j ∈ docIds h k, (h4.node j).order = (h3.node j).order := by
        intro j hj
        rw [c4 j (fun hm => dkr j hj j hm rfl)]
    · simp only [docIds]
      rw [List.pairwise_cons, List.pairwise_append, List.pairwise_append]
      refine ⟨?_, ?_, ⟨?_, c5, ?_⟩, ?_⟩
      · intro j hj
        simp only [List.mem_append] at hj
        rw [oi]
        rcases hj with hj | hj | hj
        · rw [oa j hj]; have := a6 j hj; omega
        · rw [ok j hj]; have := b6 j hj; omega
        · have := c6 j hj; omega
      · refine a5.imp_of_mem fun {x y} hx hy hlt => ?_
        rw [oa x hx, oa y hy]; exact hlt
      · refine b5.imp_of_mem fun {x y} hx hy hlt => ?_
        rw [ok x hx, ok y hy]; exact hlt
      · intro x hx y hy
        rw [ok x hx]; have := b6 x hx; have := c6 y hy; omega
      · intro x hx y hy
        simp only [List.mem_append] at hy
        rw [oa x hx]
        have := a6 x hx
        rcases hy with hy | hy
        · rw [ok y hy]; have := b6 y hy; omega
        · have := c6 y hy; omega
    · intro j hj
      simp only [docIds, List.mem_cons, List.mem_append] at hj
      rcases hj with rfl | hj | hj | hj
      · rw [oi]; omega
      · rw [oa j hj]; have := a6 j hj; omega
      · rw [ok j hj]; have := b6 j hj; omega
      · have := c6 j hj; omega

end Amxml
