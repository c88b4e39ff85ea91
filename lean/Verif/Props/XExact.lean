import Verif.Props.XPath

/-!
# What the predicates that violate C36 do
-/

namespace Amxml
open Spec

/-- What the code makes of a predicate's value: as `PredTruth` says for an integer, a boolean, a node and nothing; any other value drops the item. -/
def Spec.PredKept (position : Nat) (v : XSeq) (b : Bool) : Prop := (PlainPred v ∧ PredTruth position v b) ∨ (¬ PlainPred v ∧ b = false)

/-- Filtering by the values of the predicate, whatever they are. -/
def Spec.FilterAll (h : Heap) (rev : Bool) (env : Env) (p : XNode) (s : XSeq) (T : Nat → Bool) : Prop :=
  ∀ k x, s[k]? = some x → ∃ v, Value h [x] p (atPos env (along rev s.length (k + 1)) s.length) v ∧ PredKept (along rev s.length (k + 1)) v (T (k + 1))

/-- Filtering with several predicates, one after the other. -/
inductive Spec.FiltersAll (h : Heap) (rev : Bool) (env : Env) : List XNode → XSeq → XSeq → Prop where
  | nil {s} : FiltersAll h rev env [] s s
  | cons {p ps s T v} : FilterAll h rev env p s T → FiltersAll h rev env ps (select T s) v → FiltersAll h rev env (p :: ps) s v

theorem keeps_exact {position : Nat} {v : XSeq} {b : Bool} (h : PredKept position v b) : keeps position v = b := by
  rcases h with ⟨h1, h2⟩ | ⟨h1, rfl⟩
  · exact keeps_truth h1 h2
  · unfold keeps
    split
    · exact absurd (.integer _) h1
    · exact absurd (.node _) h1
    · exact absurd (.boolean _) h1
    · rfl

theorem Spec.FilterAll.run {h : Heap} {rev : Bool} {env : Env} {p : XNode} {s : XSeq} {T : Nat → Bool} (hf : FilterAll h rev env p s T)
    (hp : p.isNil = false) : filterByPredicate (evaluate h) s p rev env = .ok (select T s, env) := by
  unfold filterByPredicate
  rw [hp]
  simp only [Bool.false_eq_true, if_false]
  have : ∀ k, ∃ w : XSeq, ∀ x, s[k]? = some x → Value h [x] p (atPos env (along rev s.length (k + 1)) s.length) w ∧
      PredKept (along rev s.length (k + 1)) w (T (k + 1)) := by
    intro k
    cases hx : s[k]? with
    | none => exact ⟨[], fun x hx => by cases hx⟩
    | some x =>
      obtain ⟨w, hw⟩ := hf k x hx
      exact ⟨w, fun y hy => by cases hy; exact hw⟩
  choose w hw using this
  rw [filterLoop_value (h := h) (env := env) (fun k => w (k - 1)) s 0 (by
    intro k x hx
    have := (hw k x hx).1
    simpa using this)]
  unfold select
  rw [selectFrom_congr s 1]
  intro k x hx
  have := keeps_exact (hw k x hx).2
  rw [Nat.add_comm 1 k]
  exact this

theorem Spec.FiltersAll.run {h : Heap} {rev : Bool} {env : Env} {ps : List XNode} {s v : XSeq} (hf : FiltersAll h rev env ps s v)
    (hp : ∀ p ∈ ps, p.isNil = false) : filterByPredicates (evaluate h) (predChain rev ps).chain s env = .ok (v, env) := by
  induction hf with
  | nil => rfl
  | cons h1 h2 ih =>
    rw [filterByPredicates_chain]
    simp only [E.bind_run, h1.run (hp _ (by simp)), ih fun p hm => hp p (by simp [hm])]

/-- **C36**, all values: `A[P]` keeps, in order, the items for which the value of `P` is `true`, a single node or the item's own position; it drops
the others, also those for which the value is a string, a number that is not an integer, or several items. -/
theorem C36_filter_exact (h : Heap) (c : XSeq) (nm m : Str) (t : XNodeType) (a p q : XNode) (hp : p.isNil = false) (env : Env) (s : XSeq)
    (ha : Value h c a env s) (T : Nat → Bool) (hf : FilterAll h false env p s T) :
    Value h c (.node .applyPredicate nm a (.node t m p q)) env (select T s) := by
  unfold Value
  rw [filter_value ha]
  exact hf.run hp

/-- **C36**, all values, for the predicates of a step. -/
theorem C36_step_exact (h : Heap) (t : XNodeType) (ht : t ∈ axes) (n : Str) (l : XNode) (rev : Bool) (ps : List XNode)
    (hps : ∀ p ∈ ps, p.isNil = false) (i : NodeId) (env : Env) (s v : XSeq) (hs : Value h [.node i] (.node t n l .nil) env s)
    (hf : FiltersAll h rev env ps s v) : Value h [.node i] (.node t n l (predChain rev ps)) env v := by
  unfold Value at *
  rw [step_run ht] at hs ⊢
  unfold locStep at *
  rw [axisNodes_right h i t n l (predChain rev ps) .nil]
  cases hm : axisNodes h i (.node t n l .nil) with
  | none => rw [hm] at hs; cases hs
  | some m =>
    rw [hm] at hs
    simp only [XNode.right, XNode.chain, filterByPredicates, E.bind_run, E.pure_run, Except.ok.injEq, Prod.mk.injEq, and_true,
      toNodeset_ofNodes] at hs
    subst hs
    have hrun := hf.run hps
    simp only [XNode.right, E.bind_run, hrun, E.pure_run, Except.ok.injEq, Prod.mk.injEq, and_true]
    obtain ⟨k, rfl, -⟩ := sublist_ofNodes (filterByPredicates_sublist _ _ _ _ _ hrun)
    rw [toNodeset_ofNodes]

/-- A predicate that is a string keeps nothing: `(1, 2)['x']`. -/
example (h : Heap) (env : Env) (s : XSeq) : FilterAll h false env (.node .stringLiteral (S "x") .nil .nil) s fun _ => false := by
  intro k x _
  refine ⟨[.string (S "x")], ?_, .inr ⟨by rintro ⟨⟩, rfl⟩⟩
  unfold Value
  rw [evaluate_eq]; rfl

end Amxml
