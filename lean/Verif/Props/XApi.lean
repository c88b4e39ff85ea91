import Verif.Props.XPath

/-!
# C49: the queries that deliver nodes
-/

namespace Amxml
open Spec

/-- The nodes among the items of a sequence, in the order of the sequence. -/
def Spec.nodesOf : XSeq → List NodeId
  | [] => []
  | .node i :: s => i :: nodesOf s
  | _ :: s => nodesOf s

theorem nodesOf_eq (s : XSeq) : XSeq.toNodeset s = nodesOf s := by
  induction s with
  | nil => rfl
  | cons x s ih => cases x <;> simp [XSeq.toNodeset, XItem.asNode, nodesOf] <;> exact ih

/-- **C49**, for an expression with a value: `get_nodeset` is the list of the nodes of the value of `eval_xpath`, `get_first_node` the
first of them, or nothing, and `each_node` calls the function exactly for these nodes, in this order (whatever the function does with
its state; a function that only records its calls shows the order). -/
theorem C49_value (h : Heap) (n : Nat) (i : NodeId) (q : Str) (v : XSeq) (he : evalXPath h n i q = .ok v) :
    getNodeset h n i q = .ok (nodesOf v) ∧
    getFirstNode h n i q = .ok (nodesOf v).head? ∧
    (∀ (σ : Type) (f : σ → NodeId → σ) (s : σ), eachNode h n i q f s = .ok ((nodesOf v).foldl f s)) ∧
    eachNode h n i q (fun calls x => calls ++ [x]) [] = .ok (nodesOf v) := by
  have hn : getNodeset h n i q = .ok (nodesOf v) := by
    unfold getNodeset; rw [he]; simp only [Except.map, nodesOf_eq]
  refine ⟨hn, ?_, ?_, ?_⟩
  · unfold getFirstNode; rw [hn]
  · intro σ f s; unfold eachNode; rw [hn]; rfl
  · unfold eachNode
    rw [hn]
    have : ∀ (l a : List NodeId), l.foldl (fun calls x => calls ++ [x]) a = a ++ l := by
      intro l
      induction l with
      | nil => simp
      | cons x l ih => intro a; simp [ih]
    simp only [Except.map, this, List.nil_append]

/-- **C49**, for an expression in error: `get_nodeset` and `each_node` report the error, and `each_node` calls the function for no node;
`get_first_node` gives nothing. -/
theorem C49_error (h : Heap) (n : Nat) (i : NodeId) (q : Str) (e : XErr) (he : evalXPath h n i q = .error e) (h1 : e ≠ .panic)
    (h2 : e ≠ .outOfFuel) :
    getNodeset h n i q = .error e ∧ getFirstNode h n i q = .ok none ∧
    (∀ (σ : Type) (f : σ → NodeId → σ) (s : σ), eachNode h n i q f s = .error e) := by
  have hn : getNodeset h n i q = .error e := by unfold getNodeset; rw [he]; rfl
  refine ⟨hn, ?_, ?_⟩
  · unfold getFirstNode; rw [hn]; cases e <;> first | rfl | contradiction
  · intro σ f s; unfold eachNode; rw [hn]; rfl

/-- Both cases occur; and an expression for which the code panics makes `get_first_node` panic, although its documentation promises
`None` for errors. -/
example : evalXPath editSample 20 0 (S "('x', //c, //b)") = .ok [.string (S "x"), .node 5, .node 4] ∧
    getFirstNode editSample 20 0 (S "('x', //c, //b)") = .ok (some 5) ∧
    evalXPath editSample 20 0 (S "(1, 2") = .error .syntaxError ∧
    getFirstNode editSample 20 0 (S "(1, 2") = .ok none ∧
    getFirstNode editSample 20 0 (S "1 +") = .error .panic := by
  refine ⟨by run_query, by decide +kernel, by run_query, by decide +kernel, by decide +kernel⟩

end Amxml
