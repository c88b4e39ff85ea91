import Verif.Lemmas.XSort
import Verif.Props.Links
import Mathlib.Tactic.Tauto

/-!
# C33 (union), C34 (intersect, except), C53 (node comparisons)

`docIds h (.cons r F .nil)` is the list of all nodes of a document in document order, without repetitions; a sublist of it is
therefore a list of nodes in document order without repetitions.
-/

namespace Amxml
open Spec

/-- All items are nodes of the document. -/
def Spec.NodesOf (D : List NodeId) (s : XSeq) : Prop := ∀ x ∈ s, ∃ i ∈ D, x = .node i

/-- **C33**: the union of two sequences of nodes contains exactly the nodes of both, each once, in document order. -/
theorem C33_union (h : Heap) (hr : Reach h) (r : NodeId) (F : Forest NodeId) (hd : DocTree h r F) (a b : XSeq)
    (ha : NodesOf (docIds h (.cons r F .nil)) a) (hb : NodesOf (docIds h (.cons r F .nil)) b) :
    ∃ l : List NodeId, opUnion h a b = .ok (l.map .node) ∧ l.Sublist (docIds h (.cons r F .nil)) ∧
      (∀ i, i ∈ l ↔ XItem.node i ∈ a ∨ XItem.node i ∈ b) := by
  have hs := sortByDocOrder_spec hd (C23_never_stale h hr r F hd) (a.toNodeset ++ b.toNodeset) (by
    intro i hi
    rcases List.mem_append.1 hi with hi | hi
    · obtain ⟨j, hj, e⟩ := ha _ ((mem_toNodeset a i).1 hi); cases e; exact hj
    · obtain ⟨j, hj, e⟩ := hb _ ((mem_toNodeset b i).1 hi); cases e; exact hj)
  refine ⟨_, rfl, hs.1, fun i => ?_⟩
  rw [hs.2, List.mem_append, mem_toNodeset, mem_toNodeset]

theorem NodesOf.map {D l : List NodeId} (hl : l.Sublist D) : NodesOf D (l.map .node) := by
  intro x hx
  obtain ⟨i, hi, rfl⟩ := List.mem_map.1 hx
  exact ⟨i, hl.subset hi, rfl⟩

theorem mem_map_node (l : List NodeId) (i : NodeId) : XItem.node i ∈ l.map XItem.node ↔ i ∈ l := by
  simp

/-- **C33**, laws: union is commutative, associative and idempotent (a union with itself, or with nothing, is the operand sorted
and without repetitions; sorting it again changes nothing). -/
theorem C33_laws (h : Heap) (hr : Reach h) (r : NodeId) (F : Forest NodeId) (hd : DocTree h r F) (a b c : XSeq)
    (ha : NodesOf (docIds h (.cons r F .nil)) a) (hb : NodesOf (docIds h (.cons r F .nil)) b)
    (hc : NodesOf (docIds h (.cons r F .nil)) c) :
    opUnion h a b = opUnion h b a ∧
    (∃ ab bc, opUnion h a b = .ok ab ∧ opUnion h b c = .ok bc ∧ opUnion h ab c = opUnion h a bc) ∧
    opUnion h a a = opUnion h a [] ∧
    (∀ s, opUnion h a b = .ok s → opUnion h s s = .ok s) := by
  have hnd := hd.nodup
  obtain ⟨ab, e1, s1, m1⟩ := C33_union h hr r F hd a b ha hb
  obtain ⟨ba, e2, s2, m2⟩ := C33_union h hr r F hd b a hb ha
  obtain ⟨bc, e3, s3, m3⟩ := C33_union h hr r F hd b c hb hc
  obtain ⟨x, e4, s4, m4⟩ := C33_union h hr r F hd _ c (NodesOf.map s1) hc
  obtain ⟨y, e5, s5, m5⟩ := C33_union h hr r F hd a _ ha (NodesOf.map s3)
  obtain ⟨aa, e6, s6, m6⟩ := C33_union h hr r F hd a a ha ha
  obtain ⟨a0, e7, s7, m7⟩ := C33_union h hr r F hd a [] ha (by intro x hx; simp at hx)
  obtain ⟨z, e8, s8, m8⟩ := C33_union h hr r F hd _ _ (NodesOf.map s1) (NodesOf.map s1)
  refine ⟨?_, ⟨_, _, e1, e3, ?_⟩, ?_, ?_⟩
  · rw [e1, e2, sublist_ext hnd s1 s2 fun i => by rw [m1, m2]; tauto]
  · rw [e4, e5, sublist_ext hnd s4 s5 fun i => by rw [m4, m5, mem_map_node, mem_map_node, m1, m3]; tauto]
  · rw [e6, e7, sublist_ext hnd s6 s7 fun i => by rw [m6, m7]; simp]
  · intro s hs
    rw [e1] at hs; cases hs
    rw [e8, sublist_ext hnd s8 s1 fun i => by rw [m8, mem_map_node]; tauto]

/-- **C34**: for sequences of nodes, `a intersect b` is the subsequence of the nodes of `a` that occur in `b`, and `a except b`
the subsequence of those that do not; for each node of `a` exactly one of the two contains it. -/
theorem C34_intersect_except (a b : List NodeId) :
    opIntersect (a.map .node) (b.map .node) = .ok ((a.filter fun i => decide (i ∈ b)).map .node) ∧
    opExcept (a.map .node) (b.map .node) = .ok ((a.filter fun i => decide (i ∉ b)).map .node) := by
  have e : ∀ l : List NodeId, XSeq.toNodeset (l.map XItem.node) = l := toNodeset_ofNodes
  unfold opIntersect opExcept
  rw [e, e]
  refine ⟨?_, ?_⟩
  · simp only [XSeq.ofNodes]; congr 3; funext i; simp
  · simp only [XSeq.ofNodes]; congr 3; funext i; simp

/-- **C34**, partition: for operands that are sequences of nodes, both results are subsequences of the left operand, and every
node of the left operand occurs, as often as in the left operand, in exactly one of them. -/
theorem C34_partition (a b : XSeq) (D : List NodeId) (ha : NodesOf D a) (hb : NodesOf D b) :
    ∃ x y, opIntersect a b = .ok x ∧ opExcept a b = .ok y ∧ x.Sublist a ∧ y.Sublist a ∧
      (∀ i, XItem.node i ∈ x ↔ XItem.node i ∈ a ∧ XItem.node i ∈ b) ∧
      (∀ i, XItem.node i ∈ y ↔ XItem.node i ∈ a ∧ ¬ XItem.node i ∈ b) ∧ (x ++ y).Perm a := by
  have ex : ∀ s : XSeq, NodesOf D s → ∃ l : List NodeId, s = l.map .node := by
    intro s hs
    induction s with
    | nil => exact ⟨[], rfl⟩
    | cons x s ih =>
      obtain ⟨l, rfl⟩ := ih fun y hy => hs y (by simp [hy])
      obtain ⟨i, _, rfl⟩ := hs x (by simp)
      exact ⟨i :: l, rfl⟩
  obtain ⟨la, rfl⟩ := ex a ha
  obtain ⟨lb, rfl⟩ := ex b hb
  obtain ⟨e1, e2⟩ := C34_intersect_except la lb
  refine ⟨_, _, e1, e2, List.filter_sublist.map _, List.filter_sublist.map _, ?_, ?_, ?_⟩
  · intro i; simp
  · intro i; simp
  · rw [← List.map_append]
    refine List.Perm.map _ ?_
    have := List.filter_append_perm (fun i => decide (i ∈ lb)) la
    simpa using this

/-- **C53**: for two nodes of one document, `is` is identity of nodes, `<<` says that the first precedes the second in document
order and `>>` that it follows; so exactly one of the three holds. -/
theorem C53_node_comparison (h : Heap) (hr : Reach h) (r : NodeId) (F : Forest NodeId) (hd : DocTree h r F) (i j : NodeId)
    (hi : i ∈ docIds h (.cons r F .nil)) (hj : j ∈ docIds h (.cons r F .nil)) :
    opIs h [.node i] [.node j] = .ok (xbool (decide (i = j))) ∧
    (opBefore h [.node i] [.node j] = .ok (xbool true) ↔ [i, j].Sublist (docIds h (.cons r F .nil)) ) ∧
    opAfter h [.node i] [.node j] = opBefore h [.node j] [.node i] ∧
    (∃ a b c, opIs h [.node i] [.node j] = .ok (xbool a) ∧ opBefore h [.node i] [.node j] = .ok (xbool b) ∧
      opAfter h [.node i] [.node j] = .ok (xbool c) ∧
      ((a = true ∧ b = false ∧ c = false) ∨ (a = false ∧ b = true ∧ c = false) ∨ (a = false ∧ b = false ∧ c = true))) := by
  have hD := orderOf_spec hd (C23_never_stale h hr r F hd)
  have inj := pairwise_lt_inj hD
  have h1 : opIs h [.node i] [.node j] = .ok (xbool (orderOf h i == orderOf h j)) := rfl
  have h2 : opBefore h [.node i] [.node j] = .ok (xbool (decide (orderOf h i < orderOf h j))) := rfl
  have h3 : opAfter h [.node i] [.node j] = .ok (xbool (decide (orderOf h j < orderOf h i))) := rfl
  refine ⟨?_, ?_, rfl, ⟨_, _, _, h1, h2, h3, ?_⟩⟩
  · rw [h1]
    by_cases e : i = j
    · simp [e]
    · have : orderOf h i ≠ orderOf h j := fun h' => e (inj i hi j hj h')
      have h5 : (orderOf h i == orderOf h j) = false := beq_eq_false_iff_ne.2 this
      rw [h5]; simp [e]
  · rw [h2]
    simp only [xbool, Except.ok.injEq, List.cons.injEq, XItem.boolean.injEq, decide_eq_true_eq, and_true]
    constructor
    · intro hlt
      apply sublist_of_sorted _ _ hD
      · simpa using hlt
      · intro x hx; simp at hx; rcases hx with rfl | rfl <;> assumption
    · intro hs
      have := hD.sublist hs
      simpa using this
  · rcases Int.lt_trichotomy (orderOf h i) (orderOf h j) with e | e | e
    · right; left; refine ⟨by simp; omega, by simp; omega, by simp; omega⟩
    · left; refine ⟨by simp; omega, by simp; omega, by simp; omega⟩
    · right; right; refine ⟨by simp; omega, by simp; omega, by simp; omega⟩

/-- The hypotheses are met: nodes of the sample document in another order and with repetitions. -/
example : ∃ l : List NodeId, opUnion editSample [.node 5, .node 1] [.node 4, .node 5] = .ok (l.map .node) ∧ l.length = 3 := by
  have hr : Reach editSample := .parse .empty editSample_parsed
  obtain ⟨l, e, hs, hm⟩ := C33_union editSample hr 0 _ editSample_doc [.node 5, .node 1] [.node 4, .node 5]
    (by intro x hx; simp at hx; rcases hx with rfl | rfl
        · exact ⟨5, by decide, rfl⟩
        · exact ⟨1, by decide, rfl⟩)
    (by intro x hx; simp at hx; rcases hx with rfl | rfl
        · exact ⟨4, by decide, rfl⟩
        · exact ⟨5, by decide, rfl⟩)
  refine ⟨l, e, ?_⟩
  have : l = [1, 4, 5] := by
    refine sublist_ext editSample_doc.nodup hs (by decide) fun x => ?_
    rw [hm]; simp; tauto
  rw [this]; rfl

end Amxml
