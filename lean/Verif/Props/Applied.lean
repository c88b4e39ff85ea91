import Verif.Lemmas.Applied
import Verif.Lemmas.Decide

/-!
# C108: calling function items
-/

namespace Amxml
open Spec

/-- The evaluation of a query is the evaluation of its tree, from some depth on. -/
theorem query_evaluates {q : Str} {x : XNode} (hq : Parser.compileXPath q = .ok x) (h : Heap) (start : NodeId) :
    ∃ n, ∀ m, n ≤ m → evalXPath h m start q = (evaluate h [.node start] x Env.new).map fun r => r.1 := by
  obtain ⟨n, hn⟩ := eval_of_evaluate h [.node start] x Env.new
  refine ⟨n, fun m hm => ?_⟩
  unfold evalXPath
  rw [hq]
  simp only [matchXPath]
  rw [hn m hm]
  rcases evaluate h [.node start] x Env.new with _ | ⟨_, _⟩ <;> rfl

/-- **C108**: if a query has a value by the lexical meaning of its expressions and of the function items it calls, calls nested to any depth `d`, then the
code finds that value. -/
theorem C108_value {q : Str} {x : XNode} (hq : Parser.compileXPath q = .ok x) (hw : Apart x) (h : Heap) (start : NodeId) (d : Nat) {v : XSeq}
    (hv : means (callItem h d) h x (Scene.start start) = .ok v) : ∃ n, ∀ m, n ≤ m → evalXPath h m start q = .ok v := by
  have hrun := Applied.good (Applied.callsWell h d) x [.node start] Env.new (Scene.start start) hw rfl ⟨rfl, rfl, fun n _ => rfl⟩
  obtain ⟨n, hn⟩ := query_evaluates hq h start
  refine ⟨n, fun m hm => ?_⟩
  rw [hn m hm]
  rw [hv] at hrun
  generalize evaluate h [.node start] x Env.new = o at hrun
  cases hrun
  rfl

/-- **C108**: if by that meaning the query is in error, then the code reports that error, or a type error (of a path with nodes and atomic values on
its right side, which it meets first). -/
theorem C108_fails {q : Str} {x : XNode} (hq : Parser.compileXPath q = .ok x) (hw : Apart x) (h : Heap) (start : NodeId) (d : Nat) {e : XErr}
    (hv : means (callItem h d) h x (Scene.start start) = .error e) (he : e ≠ .outOfFuel) :
    ∃ n e', (e' = e ∨ e' = .typeError) ∧ ∀ m, n ≤ m → evalXPath h m start q = .error e' := by
  have hrun := Applied.good (Applied.callsWell h d) x [.node start] Env.new (Scene.start start) hw rfl ⟨rfl, rfl, fun n _ => rfl⟩
  obtain ⟨n, hn⟩ := query_evaluates hq h start
  rw [hv] at hrun
  revert hn
  generalize evaluate h [.node start] x Env.new = o at hrun
  intro hn
  cases hrun with
  | free => exact absurd rfl he
  | error he' hs => exact ⟨n, _, hs, fun m hm => hn m hm⟩

/-- The meaning does not depend on the depth to which calls are looked at. -/
theorem C108_depth {x : XNode} (hw : Apart x) (h : Heap) (s : Scene) (d d' : Nat) {v w : XSeq} (hv : means (callItem h d) h x s = .ok v)
    (hv' : means (callItem h d') h x s = .ok w) : v = w := by
  let env : Env := ⟨s.position, s.last, (used x).map fun n => (n, s.vars n)⟩
  have hfit : Scoping.Fits (used x) env s := by
    refine ⟨rfl, rfl, fun n hn => ?_⟩
    show ((((used x).map fun n => (n, s.vars n)).find? fun b => b.1 == n).map (·.2)).getD [] = s.vars n
    generalize used x = l at hn
    induction l with
    | nil => cases hn
    | cons m l ih =>
      by_cases e : m = n
      · subst e; simp
      · have : (m == n) = false := beq_false_of_ne e
        simp only [List.map_cons, List.find?_cons, this]
        exact ih ((List.mem_cons.1 hn).resolve_left fun k => e k.symm)
  have h1 := Applied.good (Applied.callsWell h d) x s.context env s hw rfl hfit
  have h2 := Applied.good (Applied.callsWell h d') x s.context env s hw rfl hfit
  rw [hv] at h1
  rw [hv'] at h2
  generalize evaluate h s.context x env = o at h1 h2
  cases h1
  cases h2
  rfl

/-- **C108**: calls leave the variables of the caller as they were: an expression changes no variable but those of the quantified expressions in it. -/
theorem C108_restores (h : Heap) {x : XNode} (hw : Apart x) {s : Scene} {env env' : Env} (d : Nat) {v w : XSeq} (hp : env.position = s.position)
    (hl : env.last = s.last) (hs : ∀ n, s.vars n = (env.vars.lookup n).getD []) (hv : means (callItem h d) h x s = .ok v)
    (he : evaluate h s.context x env = .ok (w, env')) (n : Str) (hn : n ∉ tested x) : w = v ∧ env'.vars.lookup n = env.vars.lookup n := by
  have look : ∀ (e : Env) (n : Str), e.getVar n = e.vars.lookup n := by
    intro e n
    unfold Env.getVar
    generalize e.vars = l
    induction l with
    | nil => rfl
    | cons b l ih =>
      rw [List.find?_cons, List.lookup_cons]
      by_cases hb : b.1 = n
      · simp [hb]
      · rw [beq_false_of_ne hb, beq_false_of_ne fun k => hb k.symm]
        exact ih
  have h1 := Applied.good (Applied.callsWell h d) x s.context env s hw rfl ⟨hp, hl, fun n _ => by rw [look, hs]⟩
  rw [hv, he] at h1
  cases h1 with
  | ok fr => exact ⟨rfl, by rw [← look, ← look, Scoping.getVar_stack, fr.vars n hn, ← Scoping.getVar_stack]⟩

/-- A query without quantified expressions outside its function items meets the condition. -/
theorem C108_no_quantifiers {x : XNode} (hx : tested x = []) : Apart x := Applied.apart_of_untested hx

/-- The query has that value by the meaning with calls to depth `d`, and its tree meets the condition. -/
def meansValue (d : Nat) (q : Str) (v : XSeq) : Bool :=
  match Parser.compileXPath q with
  | .ok x => gives (means (callItem .empty d) .empty x (Scene.start 0)) v && decide (tested x = [])
  | .error _ => false

theorem evaluates_of_means {d : Nat} {q : Str} {v : XSeq} (hv : meansValue d q v = true) : ∃ n, ∀ m, n ≤ m → evalXPath .empty m 0 q = .ok v := by
  unfold meansValue at hv
  cases hx : Parser.compileXPath q with
  | error e => rw [hx] at hv; cases hv
  | ok x =>
    rw [hx] at hv
    simp only [Bool.and_eq_true, decide_eq_true_eq] at hv
    exact C108_value hx (C108_no_quantifiers hv.2) .empty 0 d (of_gives hv.1)

/-- A function that calls itself, through the function item it is given. -/
example : ∃ n, ∀ m, n ≤ m → evalXPath .empty m 0
    (S "let $f := function($f as function(*), $n) { if ($n = 0) then 1 else $n * $f($f, $n - 1) } return $f($f, 5)") = .ok [.integer 120] :=
  evaluates_of_means (d := 10) (by decide +kernel)

/-- Functions that are given functions, variables of the same name inside and outside, partial calls and references to library functions. -/
example : ∃ n, ∀ m, n ≤ m → evalXPath .empty m 0
    (S "let $x := 7 return let $g := function($f as function(*), $x) { $f($f($x)) } return ($g(function($n) { $n * $n }, 3), $x, for-each((1, 2), function($x) { $x + 1 }), $x, filter((1, 2), function($n) { $n = 2 }), for-each(('a', 'b'), concat('x', ?)), for-each(('a', 'bcd'), string-length#1))") =
    .ok [.integer 81, .integer 7, .integer 2, .integer 3, .integer 7, .integer 2, .string (S "xa"), .string (S "xb"), .integer 1, .integer 3] :=
  evaluates_of_means (d := 10) (by decide +kernel)

/-- A query that is in error: the argument has not the type of the parameter. -/
def illTyped : Str := S "let $f := function($x as xs:integer) { $x } return $f('a')"

example : (match Parser.compileXPath illTyped with
    | .ok x => failsWith (means (callItem .empty 3) .empty x (Scene.start 0)) .typeError && decide (tested x = [])
    | .error _ => false) = true := by decide +kernel

/-- Functions that refer to other variables than their parameters are left out for a reason: the code reads the variable `$x` of the place of the call. -/
example : evalXPath .empty 40 0 (S "let $x := 1 return let $f := function($y) { $x + $y } return let $x := 10 return $f(1)") = .ok [.integer 11] := by
  run_query

/-- Functions with quantified expressions, too: the variable of a quantified expression stays behind and hides that of the caller. -/
example : evalXPath .empty 40 0 (S "let $x := 1 return let $f := function($y) { some $x in (5, 6) satisfies $x = $y } return ($f(5), $x)") =
    .ok [.boolean true, .integer 5] := by
  run_query

/-- And calls with too few arguments: the code removes a variable of the caller. -/
example : evalXPath .empty 40 0 (S "let $y := 1 return let $f := function($x, $y) { $x } return ($f(5), $y)") = .ok [.integer 5] := by
  run_query

end Amxml
