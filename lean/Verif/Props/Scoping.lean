import Verif.Lemmas.Scoping
import Verif.Lemmas.Decide
import Verif.Props.XSafety

/-!
# C94: variables mean their lexical bindings
-/

namespace Amxml
open Spec

/-- **C94**: for a query that calls no function items and whose quantified variables have names of their own, the value is its meaning with
lexical scope, and there is a value if and only if there is a meaning. -/
theorem C94_lexical {q : Str} {x : XNode} (hq : Parser.compileXPath q = .ok x) (hc : CallFree x) (hw : WellNamed x) (h : Heap) (start : NodeId)
    (v : XSeq) : (∃ n, ∀ m, n ≤ m → evalXPath h m start q = .ok v) ↔ meaning h x (Scene.start start) = .ok v := by
  have hrun := Scoping.good h x [.node start] Env.new (Scene.start start) hc hw rfl ⟨rfl, rfl, fun n _ => rfl⟩
  obtain ⟨n, hn⟩ := eval_of_evaluate h [.node start] x Env.new
  have hx : ∀ m, n ≤ m → evalXPath h m start q = (match evaluate h [.node start] x Env.new with
      | .ok (v, _) => .ok v
      | .error e => .error e) := by
    intro m hm
    unfold evalXPath
    rw [hq]
    simp only [matchXPath]
    rw [hn m hm]
    rcases evaluate h [.node start] x Env.new with _ | ⟨_, _⟩ <;> rfl
  revert hx hrun
  generalize evaluate h [.node start] x Env.new = o
  generalize meaning h x (Scene.start start) = r
  intro hrun hx
  cases hrun with
  | ok fr =>
    constructor
    · rintro ⟨k, hk⟩
      have := (hx (max n k) (Nat.le_max_left ..)).symm.trans (hk _ (Nat.le_max_right ..))
      simpa using this
    · intro e
      exact ⟨n, fun m hm => (hx m hm).trans (by simpa using e)⟩
  | error =>
    constructor
    · rintro ⟨k, hk⟩
      have := (hx (max n k) (Nat.le_max_left ..)).symm.trans (hk _ (Nat.le_max_right ..))
      cases this
    · intro e; cases e

/-- And it fails if and only if it has no meaning. -/
theorem C94_fails {q : Str} {x : XNode} (hq : Parser.compileXPath q = .ok x) (hc : CallFree x) (hw : WellNamed x) (hf : FirstOrder x) (h : Heap)
    (start : NodeId) :
    (∃ n e, e ≠ .outOfFuel ∧ ∀ m, n ≤ m → evalXPath h m start q = .error e) ↔ ∃ e, meaning h x (Scene.start start) = .error e := by
  obtain ⟨n, r, hr, hn⟩ := C80_ends_partial hq hf.ranked h start
  have := C94_lexical hq hc hw h start
  constructor
  · rintro ⟨k, e, _, hk⟩
    cases hm : meaning h x (Scene.start start) with
    | error e' => exact ⟨e', rfl⟩
    | ok v =>
      obtain ⟨j, hj⟩ := (this v).2 hm
      have := (hk (max j k) (Nat.le_max_right ..)).symm.trans (hj _ (Nat.le_max_left ..))
      cases this
  · rintro ⟨e, hm⟩
    cases r with
    | error e' => exact ⟨n, e', fun k => hr (by rw [k]), hn⟩
    | ok v =>
      have := (this v).1 ⟨n, hn⟩
      rw [hm] at this
      cases this

/-- And then with the same error, except that a path with nodes and atomic values on its right side is a type error before later items are looked
at. In particular eval_xpath panics only if the meaning is a panic. -/
theorem C94_error {q : Str} {x : XNode} (hq : Parser.compileXPath q = .ok x) (hc : CallFree x) (hw : WellNamed x) (h : Heap) (start : NodeId)
    (e : XErr) (hm : meaning h x (Scene.start start) = .error e) :
    ∃ n, (∀ m, n ≤ m → evalXPath h m start q = .error e) ∨ ∀ m, n ≤ m → evalXPath h m start q = .error .typeError := by
  have hrun := Scoping.good h x [.node start] Env.new (Scene.start start) hc hw rfl ⟨rfl, rfl, fun n _ => rfl⟩
  obtain ⟨n, hn⟩ := eval_of_evaluate h [.node start] x Env.new
  have hx : ∀ m, n ≤ m → evalXPath h m start q = (match evaluate h [.node start] x Env.new with
      | .ok (v, _) => .ok v
      | .error e => .error e) := by
    intro m hm
    unfold evalXPath
    rw [hq]
    simp only [matchXPath]
    rw [hn m hm]
    rcases evaluate h [.node start] x Env.new with _ | ⟨_, _⟩ <;> rfl
  rw [hm] at hrun
  revert hx hrun
  generalize evaluate h [.node start] x Env.new = o
  intro hrun hx
  refine ⟨n, ?_⟩
  cases hrun with
  | error he =>
    rcases he with rfl | rfl
    · exact .inl hx
    · exact .inr hx

theorem lookup_getVar (e : Env) (n : Str) : e.getVar n = e.vars.lookup n := by
  unfold Env.getVar
  generalize e.vars = l
  induction l with
  | nil => rfl
  | cons b l ih =>
    rw [List.find?_cons, List.lookup_cons]
    by_cases hb : b.1 = n
    · simp [hb]
    · have e1 : (b.1 == n) = false := beq_false_of_ne hb
      have e2 : (n == b.1) = false := beq_false_of_ne fun k => hb k.symm
      rw [e1, e2]
      exact ih

/-- **C94**: an expression sees of the variables only those it refers to: in two environments with the same focus that give these the same values it has
the same value, or no value in both. -/
theorem C94_same_scope (h : Heap) (c : XSeq) {x : XNode} (hc : CallFree x) (hw : WellNamed x) {env env' : Env}
    (hp : env'.position = env.position) (hl : env'.last = env.last)
    (hv : ∀ n ∈ freeVars x, (env'.vars.lookup n).getD [] = (env.vars.lookup n).getD []) (v : XSeq) :
    (∃ e, evaluate h c x env = .ok (v, e)) ↔ ∃ e, evaluate h c x env' = .ok (v, e) := by
  have hlook := lookup_getVar
  let s : Scene := ⟨c, env.position, env.last, fun n => (env.getVar n).getD []⟩
  have h1 := Scoping.good h x c env s hc hw rfl ⟨rfl, rfl, fun n _ => rfl⟩
  have h2 := Scoping.good h x c env' s hc hw rfl ⟨hp, hl, fun n hn => by rw [hlook, hv n hn, ← hlook]⟩
  revert h1 h2
  generalize evaluate h c x env = o
  generalize evaluate h c x env' = o'
  generalize meaning h x s = r
  intro h1 h2
  cases h1 with
  | ok f1 =>
    cases h2 with
    | ok f2 =>
      constructor <;> (rintro ⟨e, k⟩; cases k; exact ⟨_, rfl⟩)
  | error =>
    cases h2 with
    | error => constructor <;> (rintro ⟨e, k⟩; cases k)

/-- **C94**: an expression changes no variable but those of the quantified expressions in it. -/
theorem C94_restores (h : Heap) (c : XSeq) {x : XNode} (hc : CallFree x) (hw : WellNamed x) {env env' : Env} {v : XSeq}
    (he : evaluate h c x env = .ok (v, env')) (n : Str) (hn : n ∉ quantified x) : env'.vars.lookup n = env.vars.lookup n := by
  have hlook := lookup_getVar
  let s : Scene := ⟨c, env.position, env.last, fun n => (env.getVar n).getD []⟩
  have h1 := Scoping.good h x c env s hc hw rfl ⟨rfl, rfl, fun n _ => rfl⟩
  rw [he] at h1
  generalize meaning h x s = r at h1
  cases h1 with
  | ok fr => rw [← hlook, ← hlook, Scoping.getVar_stack, fr.vars n hn, ← Scoping.getVar_stack]

/-- An expression without quantified expressions meets the condition. -/
theorem C94_no_quantifiers {x : XNode} (hx : quantified x = []) : WellNamed x := by
  induction x with
  | nil => trivial
  | node t n l r ihl ihr =>
    have h0 := hx
    unfold quantified at hx
    have h1 := List.append_eq_nil_iff.1 (List.append_eq_nil_iff.1 hx).2
    refine ⟨fun m _ hm => ?_, ihl h1.1, ihr h1.2⟩
    rw [h0] at hm
    cases hm

instance decideWellNamed (x : XNode) : Decidable (WellNamed x) := by
  unfold WellNamed
  infer_instance

/-- The query is compiled to a tree that meets the conditions of C94. -/
def meetsC94 (q : Str) : Bool :=
  match Parser.compileXPath q with
  | .ok x => decide (CallFree x ∧ WellNamed x ∧ FirstOrder x)
  | .error _ => false

/-- A `let`, a `for` and three quantified expressions, two of which leave their variable behind: the query meets the conditions, and its value
is that of the lexical reading. -/
def scopedQuery : Str := S "let $y := 2 return ((some $x in (1, 2) satisfies $x = 1), $y, for $z in (3, 1) return (every $x in ($z, 5) satisfies $x > $y, $z), some $x in 7 satisfies $x = $y)"

example : meetsC94 scopedQuery = true := by decide +kernel

example : evalXPath .empty 40 0 scopedQuery =
    .ok [.boolean true, .integer 2, .boolean true, .integer 3, .boolean false, .integer 1, .boolean false] := by run_query

/-- Without the condition on the names the claim is false: the query of `C42_some_hides` does not meet it. -/
example : meetsC94 (S "let $x := 5 return ((some $x in (1, 2) satisfies $x = 1), $x)") = false := by decide +kernel

/-- A query that meets the conditions and fails. -/
example : meetsC94 (S "let $x := 1 return (some $y in (1, 0) satisfies $x idiv $y = 2)") = true := by decide +kernel

example : evalXPath .empty 40 0 (S "let $x := 1 return (some $y in (1, 0) satisfies $x idiv $y = 2)") = .error .dynamicError := by run_query

end Amxml
