import Verif.Props.Shown
import Verif.Props.XApi

/-!
# C113: a value is the items that `len` and `get_item` give
-/

namespace Amxml

open Spec

namespace Public

theorem gather (s : XSeq) : ∀ n, n ≤ s.length → (List.range n).mapM (seqItem s) = .ok (s.take n)
  | 0, _ => rfl
  | n + 1, h => by
    have h1 : s[n]? = some s[n] := List.getElem?_eq_getElem (by omega)
    have h2 : seqItem s n = .ok s[n] := by simp only [seqItem, h1]
    rw [List.range_succ, List.mapM_append, gather s n (by omega)]
    simp only [List.mapM_cons, List.mapM_nil, h2, List.take_add_one, h1]
    rfl

end Public

/-- **C113**: the items at the positions below `len` are all items of the value, in order; beyond there is none (the call panics). -/
theorem C113_items (s : XSeq) : (List.range (seqLen s)).mapM (seqItem s) = .ok s ∧ ∀ i, seqLen s ≤ i → seqItem s i = .error .panic := by
  refine ⟨by rw [seqLen, Public.gather s _ (Nat.le_refl _), List.take_length], fun i hi => ?_⟩
  simp only [seqItem, List.getElem?_eq_none hi]

/-- **C113**: two values with equal `len` and equal items at all positions below are the same value. -/
theorem C113_extensional (s t : XSeq) (hl : seqLen s = seqLen t) (hi : ∀ i < seqLen s, seqItem s i = seqItem t i) : s = t := by
  have h1 := (C113_items s).1
  have h2 := (C113_items t).1
  have h3 : (List.range (seqLen s)).mapM (seqItem s) = (List.range (seqLen t)).mapM (seqItem t) := by
    rw [← hl]
    have key : ∀ l : List Nat, (∀ i ∈ l, i < seqLen s) → l.mapM (seqItem s) = l.mapM (seqItem t) := by
      intro l
      induction l with
      | nil => intro _; rfl
      | cons a l ih =>
        intro hl
        rw [List.mapM_cons, List.mapM_cons, hi a (hl a List.mem_cons_self), ih fun i hi' => hl i (List.mem_cons_of_mem _ hi')]
    exact key _ fun i hi' => List.mem_range.mp hi'
  rw [h1, h2] at h3
  exact Except.ok.inj h3

/-- **C113**: `to_string` of the value is made of `to_string` of its items: the one item's, or a list of them in parentheses. -/
theorem C113_text (h : Heap) (s : XSeq) : displaySeq h s = grouped (s.map (displayItem h)) := by
  rw [displaySeq, Shows.inParens_eq, displayItems_map]

/-- **C113**: the items that are nodes (`as_nodeptr`) are the nodes `get_nodeset` returns for the same query, in the same order and as often. -/
theorem C113_nodes (h : Heap) (n : Nat) (start : NodeId) (q : Str) (s : XSeq) (he : evalXPath h n start q = .ok s) :
    getNodeset h n start q = .ok (s.filterMap itemNode) ∧ ∀ x i, itemNode x = some i ↔ x = .node i := by
  refine ⟨by rw [getNodeset, he]; rfl, fun x i => ?_⟩
  cases x <;> simp [itemNode, XItem.asNode]

/-- **C113**: if `eval_xpath` fails or panics, `get_nodeset` does the same. -/
theorem C113_error (h : Heap) (n : Nat) (start : NodeId) (q : Str) (e : XErr) (he : evalXPath h n start q = .error e) :
    getNodeset h n start q = .error e := by rw [getNodeset, he]; rfl

/-- The value of `(1, 'a', .)` at a node. -/
example (h : Heap) : seqLen [.integer 1, .string (S "a"), .node 0] = 3 ∧ seqItem [.integer 1, .string (S "a"), .node 0] 1 = .ok (.string (S "a")) ∧
    seqItem [.integer 1, .string (S "a"), .node 0] 3 = .error .panic ∧
    displaySeq h [.integer 1, .string (S "a")] = S "(1, \"a\")" := by
  refine ⟨rfl, rfl, rfl, ?_⟩
  rw [C113_text]
  show grouped [F64.intStr 1, '"' :: S "a" ++ S "\""] = _
  decide

end Amxml
