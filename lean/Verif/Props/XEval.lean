import Verif.Lemmas.Scope
import Verif.Lemmas.Decide

/-!
# C41 (`and`, `or`), C42 (scope of variables), C43 (`for`, `some`, `every`)

`Value h c x env v` says that the expression `x` has the value `v` (Verif/Spec/XEval.lean); a `Quiet` expression contains no quantifier and
calls no function item.
-/

namespace Amxml
open Spec

/-! ## C41 -/

/-- **C41**: `A or B` is true when `A` is true, whatever `B` is: it may fail or never end. -/
theorem C41_or_left (h : Heap) (c : XSeq) (n : Str) (a b : XNode) (env env1 : Env) (ha : TruthTo h c a env env1 true) :
    evaluate h c (.node .operatorOr n a b) env = .ok ([.boolean true], env1) := by
  obtain ⟨v, hv, hb⟩ := ha
  rw [evaluate_eq]
  simp only [evalStep, XNode.ty, XNode.left, E.bind_run, hv, hb, liftE_ok]
  rfl

/-- When `A` is false, `A or B` is true or false as `B` is. -/
theorem C41_or_right (h : Heap) (c : XSeq) (n : Str) (a b : XNode) (env env1 env2 : Env) (t : Bool)
    (ha : TruthTo h c a env env1 false) (hb : TruthTo h c b env1 env2 t) :
    evaluate h c (.node .operatorOr n a b) env = .ok ([.boolean t], env2) := by
  obtain ⟨v, hv, he⟩ := ha
  obtain ⟨w, hw, hf⟩ := hb
  rw [evaluate_eq]
  simp only [evalStep, XNode.ty, XNode.left, XNode.right, E.bind_run, hv, he, liftE_ok, Bool.false_eq_true, if_false, hw, hf]
  rfl

/-- **C41**: `A and B` is false when `A` is false, whatever `B` is. -/
theorem C41_and_left (h : Heap) (c : XSeq) (n : Str) (a b : XNode) (env env1 : Env) (ha : TruthTo h c a env env1 false) :
    evaluate h c (.node .operatorAnd n a b) env = .ok ([.boolean false], env1) := by
  obtain ⟨v, hv, hb⟩ := ha
  rw [evaluate_eq]
  simp only [evalStep, XNode.ty, XNode.left, E.bind_run, hv, hb, liftE_ok]
  rfl

/-- When `A` is true, `A and B` is true or false as `B` is. -/
theorem C41_and_right (h : Heap) (c : XSeq) (n : Str) (a b : XNode) (env env1 env2 : Env) (t : Bool)
    (ha : TruthTo h c a env env1 true) (hb : TruthTo h c b env1 env2 t) :
    evaluate h c (.node .operatorAnd n a b) env = .ok ([.boolean t], env2) := by
  obtain ⟨v, hv, he⟩ := ha
  obtain ⟨w, hw, hf⟩ := hb
  rw [evaluate_eq]
  simp only [evalStep, XNode.ty, XNode.left, XNode.right, E.bind_run, hv, he, liftE_ok, if_true, hw, hf]
  rfl

/-- An operand that fails (or does not end), or that has no effective boolean value, makes `or` and `and` do the same, if it is
evaluated at all. -/
theorem C41_errors (h : Heap) (c : XSeq) (n : Str) (a b : XNode) (env env1 env2 : Env) (e : XErr) (t : XNodeType)
    (ht : t = .operatorOr ∨ t = .operatorAnd) :
    (evaluate h c a env = .error e → evaluate h c (.node t n a b) env = .error e) ∧
    (∀ v, evaluate h c a env = .ok (v, env1) → v.ebv = .error e → evaluate h c (.node t n a b) env = .error e) ∧
    (TruthTo h c a env env1 (t == .operatorAnd) →
      (evaluate h c b env1 = .error e → evaluate h c (.node t n a b) env = .error e) ∧
      (∀ v, evaluate h c b env1 = .ok (v, env2) → v.ebv = .error e → evaluate h c (.node t n a b) env = .error e)) := by
  refine ⟨fun hf => ?_, fun v hv he => ?_, fun ha => ?_⟩
  · rw [evaluate_eq]
    rcases ht with rfl | rfl <;>
      simp only [evalStep, XNode.ty, XNode.left, E.bind_run, hf]
  · rw [evaluate_eq]
    rcases ht with rfl | rfl <;>
      simp only [evalStep, XNode.ty, XNode.left, E.bind_run, hv, he, liftE_error]
  · obtain ⟨v, hv, he⟩ := ha
    rcases ht with rfl | rfl
    · have he : v.ebv = .ok false := he
      constructor
      · intro hf
        rw [evaluate_eq]
        simp only [evalStep, XNode.ty, XNode.left, XNode.right, E.bind_run, hv, he, liftE_ok, Bool.false_eq_true, if_false, hf]
      · intro w hf hw
        rw [evaluate_eq]
        simp only [evalStep, XNode.ty, XNode.left, XNode.right, E.bind_run, hv, he, liftE_ok, Bool.false_eq_true, if_false, hf, hw,
          liftE_error]
    · have he : v.ebv = .ok true := he
      constructor
      · intro hf
        rw [evaluate_eq]
        simp only [evalStep, XNode.ty, XNode.left, XNode.right, E.bind_run, hv, he, liftE_ok, if_true, hf]
      · intro w hf hw
        rw [evaluate_eq]
        simp only [evalStep, XNode.ty, XNode.left, XNode.right, E.bind_run, hv, he, liftE_ok, if_true, hf, hw, liftE_error]

/-- For instance `1 = 1 or 1 idiv 0`, whose right side is a dynamic error, is true; `1 = 2 or 1 idiv 0` fails. -/
example : evalXPath .empty 9 0 (S "1 = 1 or 1 idiv 0") = .ok [.boolean true] ∧
    evalXPath .empty 9 0 (S "1 = 2 or 1 idiv 0") = .error .dynamicError := by
  constructor <;> run_query

/-! ## C42 -/

/-- **C42**, proved part: evaluating an expression that contains no quantifier and calls no function item leaves the variable bindings
(and `position()` and `last()`) as they were, whatever `for` and `let` it contains and whatever function calls, paths and predicates. -/
theorem C42_scope_partial (h : Heap) (c : XSeq) (x : XNode) (hx : Quiet x) (env env' : Env) (v : XSeq)
    (he : evaluate h c x env = .ok (v, env')) : env' = env := evaluate_keeps h c x hx env v env' he

/-- So a quiet expression either has a value in the sense of `Value`, or fails, or does not end. -/
theorem quiet_cases (h : Heap) (c : XSeq) (x : XNode) (hx : Quiet x) (env : Env) :
    (∃ v, Value h c x env v) ∨ (∃ e, Fails h c x env e) ∨ evaluate h c x env = .error .outOfFuel := by
  cases he : evaluate h c x env with
  | ok r =>
    obtain ⟨v, env'⟩ := r
    have := C42_scope_partial h c x hx env env' v he
    subst this
    exact Or.inl ⟨v, he⟩
  | error e =>
    by_cases h0 : e = .outOfFuel
    · subst h0; exact Or.inr (Or.inr rfl)
    · exact Or.inr (Or.inl ⟨e, he, h0⟩)

/-- A variable refers to the innermost binding of its name, and a variable that is not bound to the empty sequence. -/
theorem C42_varRef (h : Heap) (c : XSeq) (n : Str) (l r : XNode) (env : Env) :
    Value h c (.node .varRef n l r) env ((env.vars.lookup n).getD []) := by
  unfold Value
  rw [evaluate_eq]
  simp only [evalStep, XNode.ty, XNode.name, Env.getVar]
  congr 3
  have : ∀ l : List (Str × XSeq), (List.find? (fun b => b.1 == n) l).map (·.2) = l.lookup n := by
    intro l
    induction l with
    | nil => rfl
    | cons b l ih =>
      rw [List.find?_cons, List.lookup_cons]
      have e : (n == b.1) = (b.1 == n) := by
        rw [Bool.eq_iff_iff, beq_iff_eq, beq_iff_eq]; exact eq_comm
      rw [e]
      cases b.1 == n
      · exact ih
      · rfl
  rw [this]

/-- `let $n := A return B` is the value of `B` with `$n` bound to the value of `A`, and the binding ends with it. -/
theorem C42_let (h : Heap) (c : XSeq) (n : Str) (a b : XNode) (env : Env) (v w : XSeq) (ha : Value h c a env v)
    (hb : Value h c b (withVar env n v) w) : Value h c (.node .letVarBind n a b) env w := by
  unfold Value at *
  rw [evaluate_eq]
  simp only [evalStep, XNode.ty, XNode.name, XNode.left, XNode.right, E.bind_run, ha, modifyE_run]
  rw [show env.setVar n v = withVar env n v from rfl, hb]
  simp [E.pure_run, withVar, Env.removeVar, removeFirst]

/-- **C42** is false of the code for `some`: when it ends early its variable stays bound. Here `$x` outside the quantified expression
refers to its item `1`. -/
theorem C42_some_leaks : evalXPath .empty 20 0 (S "((some $x in (1, 2) satisfies $x = 1), $x)") =
    .ok [.boolean true, .integer 1] := by run_query

/-- The same for `every`. -/
theorem C42_every_leaks : evalXPath .empty 20 0 (S "((every $x in (1, 2) satisfies $x = 2), $x)") =
    .ok [.boolean false, .integer 1] := by run_query

/-- And a leaked variable hides an outer one: `$x` is bound to 5 by `let`, but read as 1 after the quantifier. -/
theorem C42_some_hides : evalXPath .empty 20 0 (S "let $x := 5 return ((some $x in (1, 2) satisfies $x = 1), $x)") =
    .ok [.boolean true, .integer 1] := by run_query

/-- **C42** is also false for function items: an inline function sees the variables of its caller (here `$y`), not those of the place where
it was written, -/
theorem C42_dynamic_scope :
    evalXPath .empty 30 0 (S "let $y := 1, $f := function($a) { $y } return let $y := 2 return $f(0)") = .ok [.integer 2] := by
  run_query

/-- and called with too few arguments it removes bindings of its caller: `$a` is bound to 7 and unbound afterwards. -/
theorem C42_call_unbinds :
    evalXPath .empty 30 0 (S "let $f := function($a) { 1 } return let $a := 7 return ($f(), $a)") = .ok [.integer 1] := by
  run_query

instance decideQuiet : ∀ x, Decidable (Quiet x)
  | .nil => .isTrue trivial
  | .node t n l r => by
    have := decideQuiet l
    have := decideQuiet r
    unfold Quiet
    infer_instance

/-- The expression is accepted and quiet. -/
def quietQuery (q : Str) : Bool :=
  match Parser.compileXPath q with
  | .ok x => decide (Quiet x)
  | .error _ => false

/-- The hypothesis is met by nested bindings, predicates and function calls. -/
example : quietQuery (S "for $x in //a[@n = 'v'] return let $y := count($x/b) return ($x, $y + 1)") = true := by
  decide +kernel

/-! ## C43 -/

theorem forLoop_value {body : E XSeq} {n : Str} {env : Env} (s : XSeq) (w : XItem → XSeq)
    (hb : ∀ x ∈ s, body (withVar env n [x]) = .ok (w x, withVar env n [x])) :
    forLoop n body s env = .ok (s.flatMap w, env) := by
  induction s with
  | nil => rfl
  | cons x s ih =>
    have e0 : (withVar env n [x]).removeVar n = env := by
      cases env; simp [withVar, Env.removeVar, removeFirst]
    have hx : body (env.setVar n [x]) = _ := hb x (by simp)
    unfold forLoop
    simp only [E.bind_run, modifyE_run, hx, e0, ih fun y hy => hb y (by simp [hy])]
    rfl

/-- **C43**: `for $n in A return B` is the concatenation, in order, of the values of `B` with `$n` bound to the items of `A` in
turn. (For a body that leaves the bindings as it found them, as `Value` says; see `C43_violated`.) -/
theorem C43_for_partial (h : Heap) (c : XSeq) (n : Str) (a b : XNode) (env : Env) (s : XSeq) (w : XItem → XSeq) (ha : Value h c a env s)
    (hb : ∀ x ∈ s, Value h c b (withVar env n [x]) (w x)) : Value h c (.node .forVarBind n a b) env (s.flatMap w) := by
  unfold Value at *
  rw [evaluate_eq]
  simp only [evalStep, XNode.ty, XNode.name, XNode.left, XNode.right, E.bind_run, ha]
  exact forLoop_value s w hb

theorem quantLoop_prefix {body : E XSeq} {n : Str} {env : Env} (t : Bool) (s r : XSeq)
    (hb : ∀ x ∈ s, ∃ v, body (withVar env n [x]) = .ok (v, withVar env n [x]) ∧ v.ebv = .ok (!t)) :
    quantLoop n t body (s ++ r) env = quantLoop n t body r env := by
  induction s with
  | nil => rfl
  | cons x s ih =>
    have e0 : (withVar env n [x]).removeVar n = env := by
      cases env; simp [withVar, Env.removeVar, removeFirst]
    obtain ⟨v, hv, he⟩ := hb x (by simp)
    have hx : body (env.setVar n [x]) = _ := hv
    have hne : ¬ (!t) = t := by cases t <;> decide
    rw [List.cons_append]
    conv => lhs; unfold quantLoop
    simp only [E.bind_run, modifyE_run, hx, he, liftE_ok, if_neg hne, e0]
    exact ih fun y hy => hb y (by simp [hy])

theorem quantLoop_stop {body : E XSeq} {n : Str} {env : Env} (t : Bool) (x : XItem) (r : XSeq)
    (hb : ∃ v, body (withVar env n [x]) = .ok (v, withVar env n [x]) ∧ v.ebv = .ok t) :
    quantLoop n t body (x :: r) env = .ok ([.boolean t], withVar env n [x]) := by
  obtain ⟨v, hv, he⟩ := hb
  have hx : body (env.setVar n [x]) = _ := hv
  unfold quantLoop
  simp only [E.bind_run, modifyE_run, hx, he, liftE_ok, if_true]
  rfl

/-- **C43**: `some $n in A satisfies B` is false if `B` is false for every item of `A` (in particular if there is none), and then the
variable is gone; -/
theorem C43_some_false (h : Heap) (c : XSeq) (n : Str) (a b : XNode) (env : Env) (s : XSeq) (ha : Value h c a env s)
    (hb : ∀ x ∈ s, Truth h c b (withVar env n [x]) false) :
    Value h c (.node .someVarBind n a b) env [.boolean false] := by
  unfold Value at *
  rw [evaluate_eq]
  simp only [evalStep, XNode.ty, XNode.name, XNode.left, XNode.right, E.bind_run, ha]
  have := quantLoop_prefix (n := n) (env := env) (body := evaluate h c b) true s [] hb
  rw [List.append_nil] at this
  rw [this]
  rfl

/-- it is true if `B` is true for some item and false for those before it, no matter what `B` does for those after it. -/
theorem C43_some_true (h : Heap) (c : XSeq) (n : Str) (a b : XNode) (env : Env) (s r : XSeq) (x : XItem)
    (ha : Value h c a env (s ++ x :: r)) (hb : ∀ y ∈ s, Truth h c b (withVar env n [y]) false)
    (hx : Truth h c b (withVar env n [x]) true) :
    evaluate h c (.node .someVarBind n a b) env = .ok ([.boolean true], withVar env n [x]) := by
  unfold Value at *
  rw [evaluate_eq]
  simp only [evalStep, XNode.ty, XNode.name, XNode.left, XNode.right, E.bind_run, ha]
  rw [quantLoop_prefix (n := n) (env := env) (body := evaluate h c b) true s (x :: r) hb]
  exact quantLoop_stop true x r hx

/-- **C43**: `every $n in A satisfies B` is true if `B` is true for every item of `A`, -/
theorem C43_every_true (h : Heap) (c : XSeq) (n : Str) (a b : XNode) (env : Env) (s : XSeq) (ha : Value h c a env s)
    (hb : ∀ x ∈ s, Truth h c b (withVar env n [x]) true) :
    Value h c (.node .everyVarBind n a b) env [.boolean true] := by
  unfold Value at *
  rw [evaluate_eq]
  simp only [evalStep, XNode.ty, XNode.name, XNode.left, XNode.right, E.bind_run, ha]
  have := quantLoop_prefix (n := n) (env := env) (body := evaluate h c b) false s [] hb
  rw [List.append_nil] at this
  rw [this]
  rfl

/-- and false if `B` is false for some item and true for those before it. -/
theorem C43_every_false (h : Heap) (c : XSeq) (n : Str) (a b : XNode) (env : Env) (s r : XSeq) (x : XItem)
    (ha : Value h c a env (s ++ x :: r)) (hb : ∀ y ∈ s, Truth h c b (withVar env n [y]) true)
    (hx : Truth h c b (withVar env n [x]) false) :
    evaluate h c (.node .everyVarBind n a b) env = .ok ([.boolean false], withVar env n [x]) := by
  unfold Value at *
  rw [evaluate_eq]
  simp only [evalStep, XNode.ty, XNode.name, XNode.left, XNode.right, E.bind_run, ha]
  rw [quantLoop_prefix (n := n) (env := env) (body := evaluate h c b) false s (x :: r) hb]
  exact quantLoop_stop false x r hx

/-- **C43**, both quantifiers at once: if `B` is true for the items in `T` and false for the others, `some` says whether an item of
`A` is in `T` and `every` whether all are. -/
theorem C43_quantifiers_partial (h : Heap) (c : XSeq) (n : Str) (a b : XNode) (env : Env) (s : XSeq) (T : XItem → Bool)
    (ha : Value h c a env s) (hb : ∀ x ∈ s, Truth h c b (withVar env n [x]) (T x)) :
    (∃ env', evaluate h c (.node .someVarBind n a b) env = .ok ([.boolean (s.any T)], env')) ∧
    (∃ env', evaluate h c (.node .everyVarBind n a b) env = .ok ([.boolean (s.all T)], env')) := by
  have split : ∀ (p : XItem → Bool) (s : XSeq), (∀ x ∈ s, p x = false) ∨
      ∃ l x r, s = l ++ x :: r ∧ (∀ y ∈ l, p y = false) ∧ p x = true := by
    intro p s
    induction s with
    | nil => exact Or.inl (by simp)
    | cons y s ih =>
      cases hy : p y with
      | true => exact Or.inr ⟨[], y, s, rfl, by simp, hy⟩
      | false =>
        rcases ih with h | ⟨l, x, r, rfl, h1, h2⟩
        · exact Or.inl (by simpa [hy] using h)
        · exact Or.inr ⟨y :: l, x, r, rfl, by simpa [hy] using h1, h2⟩
  constructor
  · rcases split T s with h0 | ⟨l, x, r, rfl, h1, h2⟩
    · refine ⟨env, ?_⟩
      rw [show s.any T = false by simpa using h0]
      exact C43_some_false h c n a b env s ha fun x hx => h0 x hx ▸ hb x hx
    · refine ⟨withVar env n [x], ?_⟩
      rw [show (l ++ x :: r).any T = true by simp [h2]]
      exact C43_some_true h c n a b env l r x ha (fun y hy => h1 y hy ▸ hb y (by simp [hy])) (h2 ▸ hb x (by simp))
  · rcases split (fun y => !T y) s with h0 | ⟨l, x, r, rfl, h1, h2⟩
    · refine ⟨env, ?_⟩
      have h0 : ∀ x ∈ s, T x = true := by simpa using h0
      rw [show s.all T = true by simpa using h0]
      exact C43_every_true h c n a b env s ha fun x hx => h0 x hx ▸ hb x hx
    · have h1 : ∀ y ∈ l, T y = true := by simpa using h1
      have h2 : T x = false := by simpa using h2
      refine ⟨withVar env n [x], ?_⟩
      rw [show (l ++ x :: r).all T = false by simp [h2]]
      exact C43_every_false h c n a b env l r x ha (fun y hy => h1 y hy ▸ hb y (by simp [hy])) (h2 ▸ hb x (by simp))

/-- The first item whose body fails makes `for` fail with that error. -/
theorem C43_for_error (h : Heap) (c : XSeq) (n : Str) (a b : XNode) (env : Env) (s r : XSeq) (x : XItem) (e : XErr)
    (ha : Value h c a env (s ++ x :: r)) (hb : ∀ y ∈ s, ∃ w, Value h c b (withVar env n [y]) w)
    (hx : Fails h c b (withVar env n [x]) e) : Fails h c (.node .forVarBind n a b) env e := by
  refine ⟨?_, hx.2⟩
  unfold Value at *
  rw [evaluate_eq]
  simp only [evalStep, XNode.ty, XNode.name, XNode.left, XNode.right, E.bind_run, ha]
  clear ha
  induction s with
  | nil =>
    have hx' : evaluate h c b (env.setVar n [x]) = _ := hx.1
    simp only [List.nil_append, forLoop, E.bind_run, modifyE_run, hx']
  | cons y s ih =>
    obtain ⟨w, hw⟩ := hb y (by simp)
    have e0 : (withVar env n [y]).removeVar n = env := by
      cases env; simp [withVar, Env.removeVar, removeFirst]
    have hw : evaluate h c b (env.setVar n [y]) = _ := hw
    simp only [List.cons_append, forLoop, E.bind_run, modifyE_run, hw, e0, ih fun z hz => hb z (by simp [hz])]

/-- **C43** is false of the code for a body that leaves a variable behind (C42): the first turn leaves `$y`, which the second reads. -/
theorem C43_violated : evalXPath .empty 20 0 (S "for $x in (1, 2) return ($y, (some $y in 7 satisfies 1 = 1))") =
    .ok [.boolean true, .integer 7, .boolean true] := by run_query

/-- `for $x in (1, 2, 3) return ($x, $x * 10)`, and a quantifier over a sequence whose last item would fail. -/
example : evalXPath .empty 20 0 (S "for $x in (1, 2, 3) return ($x, $x * 10)") =
      .ok ([1, 10, 2, 20, 3, 30].map .integer) ∧
    evalXPath .empty 20 0 (S "some $x in (2, 1, 0) satisfies 4 idiv $x = 4") = .ok [.boolean true] ∧
    evalXPath .empty 20 0 (S "every $x in (2, 1, 0) satisfies 4 idiv $x = 4") = .ok [.boolean false] := by
  refine ⟨?_, ?_, ?_⟩ <;> run_query

end Amxml
