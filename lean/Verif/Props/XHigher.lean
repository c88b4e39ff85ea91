import Verif.Props.XTypes
import Verif.Props.XMapFn
import Verif.Props.XCast
import Verif.Props.XEval

/-!
# Function items (C72, C74)
-/

namespace Amxml
open Spec

/-! ## The recursion of function calls -/

/-- What lies between the terms of a convergent sequence converges to the same. -/
theorem E.Conv.between {α : Type} {F G : Nat → E α} {a : E α} (hF : E.Conv F a) (h1 : ∀ n, E.Le (F n) (G n)) (h2 : ∀ n, E.Le (G n) (F (n + 1))) :
    E.Conv G a := by
  intro env
  obtain ⟨n, hn⟩ := hF env
  refine ⟨n, fun m hm => ?_⟩
  by_cases hf : F m env = .error .outOfFuel
  · by_cases hg : G m env = .error .outOfFuel
    · rw [hg, ← hf, hn m hm]
    · rw [← h2 m env hg, hn (m + 1) (by omega)]
  · rw [h1 m env hf, hn m hm]

/-- `call_function`'s own recursion, without depth. -/
theorem call_eq (h : Heap) (f : XNode) (args : List XSeq) (c : XSeq) : call h f args c = callStep h (evaluate h) (call h) f args c := by
  refine E.Conv.unique (F := fun n => callFunctionF h (eval h (n + 1)) (n + 1) f args c) (call_conv h f args c).shift ?_
  refine E.Conv.callStep (ev := fun n => eval h (n + 1)) (cl := fun n => callFunctionF h (eval h (n + 1)) n) h ?_ (fun c x => (evaluate_conv h c x).shift) f args c
  intro f a c
  exact (call_conv h f a c).between (fun n => E.Le.callFunctionF h (eval_mono h (by omega)) n n le_rfl f a c)
    (fun n => E.Le.callFunctionF h (fun _ _ => E.Le.refl _) n (n + 1) (by omega) f a c)

/-! ## Specification -/

/-- The environment in which the parameters have the values. -/
def Spec.bound (env : Env) : List (Str × SType) → List XSeq → Env
  | p :: ps, v :: vs => bound (withVar env p.1 v) ps vs
  | _, _ => env

/-- `f#d`, a named function item. -/
def Spec.namedRef (f d : Str) : XNode := .node .namedFunctionRef (f ++ S "#" ++ d) .nil .nil

/-- The arguments of a partial call: `none` is the placeholder `?`. -/
def Spec.holeChain : List (Option XNode) → XNode
  | [] => .nil
  | some a :: l => .node .argumentTop [] a (holeChain l)
  | none :: l => .node .argumentPlaceholder (S "?") .nil (holeChain l)

/-- `f(a, ?, b)`. -/
def Spec.partialOf (f : Str) (l : List (Option XNode)) : XNode := .node .partialFunctionCall f .nil (holeChain l)

/-- With the placeholders taking the values `vs` in order, the arguments have the values `ws`. -/
inductive Spec.Fills (h : Heap) (c : XSeq) (env : Env) : List (Option XNode) → List XSeq → List XSeq → Prop
  | nil : Fills h c env [] [] []
  | given {a l vs w ws} : Value h c a env w → Fills h c env l vs ws → Fills h c env (some a :: l) vs (w :: ws)
  | hole {l v vs ws} : Fills h c env l vs ws → Fills h c env (none :: l) (v :: vs) (v :: ws)

/-- The functions that depend on the context though they are called with arguments. -/
def Spec.contextual : List Str := [S "fn:lang", S "fn:for-each", S "fn:filter"]

/-- Called with the arguments `vs`, the function item gives `w`: an inline function the value of its body, with the parameters having the
values, which are of their types; a named function what a call by its name gives; a partial call what the call gives with the placeholders
replaced. -/
inductive Spec.ItemCalls (h : Heap) (c : XSeq) (env : Env) : XNode → List XSeq → XSeq → Prop
  | inline {ps r body vs w} : List.Forall₂ (fun p v => Fit h p.2 v ∧ p.2.Matches h v) ps vs → Value h c body (bound env ps vs) w →
      ItemCalls h c env (inlineOf ps r body) vs w
  | named {f d vs w} : '#' ∉ f → f ∉ contextual → d ≠ [] → IsDigits d → digitsNumber d = vs.length → vs.length < 2 ^ 63 → CallGives h f vs w →
      ItemCalls h c env (namedRef f d) vs w
  | part {f l vs ws w} : f ∉ contextual → Fills h c env l vs ws → 0 < ws.length → CallGives h f ws w → ItemCalls h c env (partialOf f l) vs w

/-! ## Calls -/

theorem ctx_none {f : Str} (hf : f ∉ contextual) {n : Nat} (hn : 0 < n) : findCtxFn f n = none := by
  unfold findCtxFn
  rw [Option.map_eq_none_iff, List.find?_eq_none]
  intro e he
  have : ∀ e ∈ funcContextTbl, e.1 = 0 ∨ e.2.1 ∈ contextual := by decide +kernel
  rcases this e he with h0 | h0
  · simp; omega
  · simp only [Bool.and_eq_true, beq_iff_eq, not_and]
    rintro _ rfl
    exact hf h0

/-- A function called by name, from its calls with expressions. -/
theorem evaluateFunction_of {h : Heap} {f : Str} {vs : List XSeq} {w : XSeq} (hf : f ∉ contextual) (hn : 0 < vs.length) (H : CallGives h f vs w)
    (c : XSeq) (env : Env) : evaluateFunction h (call h) f vs c env = .ok (w, env) := by
  have hc := ctx_none hf hn
  cases hp : findPureFn f vs.length with
  | none =>
    have hv := varEnv_values h [] vs [] (by simp)
    have := H [] _ _ hv
    unfold Value at this
    rw [evaluate_eq] at this
    have run : (do let args ← listE (callArg (evaluate h) []) (argChain (varRefs vs.length)).chain
                   evaluateFunction h (call h) f args [] : E XSeq) ⟨0, 0, [] ++ varEnv vs⟩ = .error .cantOccur := by
      rw [E.bind_run, args_run hv]
      simp only [evaluateFunction, hc, hp]
      rfl
    rw [show evalStep h (call h) (evaluate h) [] (callOf f (varRefs vs.length)) = (do
      let args ← listE (callArg (evaluate h) []) (argChain (varRefs vs.length)).chain
      evaluateFunction h (call h) f args [] : E XSeq) from rfl, run] at this
    cases this
  | some g =>
    have := (gives_iff vs.length g rfl hc hp).1 H
    simp only [evaluateFunction, hc, hp]
    rw [this]; rfl

theorem paramsOf_inline (ps : List (Str × SType)) (r : SType) (body : XNode) :
    paramsOf (inlineOf ps r body) = ps.map fun p => (p.1, p.2.tree) := by
  show (paramsTree ps).chain.map (fun p => (p.name, p.left)) = _
  induction ps with
  | nil => rfl
  | cons p ps ih => show (p.1, p.2.tree) :: _ = _; rw [ih]; rfl

theorem matchType_of {h : Heap} {A : SType} {s : XSeq} (hf : Fit h A s) :
    ∃ b, matchSequenceType h s A.tree = .ok b ∧ (b = true ↔ A.Matches h s) := matchF_ok h _ A s (by omega) hf

theorem bindParams_ok {h : Heap} {ps : List (Str × SType)} {vs : List XSeq} (H : List.Forall₂ (fun p v => Fit h p.2 v ∧ p.2.Matches h v) ps vs)
    (env : Env) : bindParams h (ps.map fun p => (p.1, p.2.tree)) vs env = .ok ((), bound env ps vs) := by
  induction H generalizing env with
  | nil => rfl
  | @cons p v ps vs hp _ ih =>
    obtain ⟨b, e, hb⟩ := matchType_of hp.1
    rw [hb.2 hp.2] at e
    show (do
      let b ← liftE (matchSequenceType h v p.2.tree)
      if b then do
        modifyE fun env => env.setVar p.1 v
        bindParams h (ps.map fun p => (p.1, p.2.tree)) vs
      else liftE (.error .typeError) : E Unit) env = _
    rw [e, E.bind_run, liftE_ok]
    simp only [if_true]
    rw [E.bind_run, modifyE_run]
    exact ih _

theorem unbind {ps : List (Str × SType)} : ∀ {vs : List XSeq} (env : Env), ps.length = vs.length →
    ((ps.map fun p => (p.1, p.2.tree)).map (·.1)).foldr (fun n e => e.removeVar n) (bound env ps vs) = env := by
  induction ps with
  | nil => intro vs env hl; cases vs <;> simp_all [bound]
  | cons p ps ih =>
    intro vs env hl
    cases vs with
    | nil => simp at hl
    | cons v vs =>
      simp only [List.map_cons, List.foldr_cons, bound]
      rw [ih _ (by simpa using hl)]
      simp [Env.removeVar, withVar, removeFirst]

theorem callInline_of {h : Heap} {c : XSeq} {env : Env} {ps : List (Str × SType)} {r : SType} {body : XNode} {vs : List XSeq} {w : XSeq}
    (H : List.Forall₂ (fun p v => Fit h p.2 v ∧ p.2.Matches h v) ps vs) (hb : Value h c body (bound env ps vs) w) :
    callInline h (evaluate h) (inlineOf ps r body) vs c env = .ok (w, env) := by
  unfold callInline
  rw [paramsOf_inline, E.bind_run, bindParams_ok H]
  simp only
  rw [E.bind_run]
  rw [show evaluate h c (inlineOf ps r body).left (bound env ps vs) = .ok (w, bound env ps vs) from hb]
  simp only
  rw [E.bind_run, modifyE_run]
  simp only
  rw [unbind env H.length_eq]
  rfl

theorem partialArgs_of {h : Heap} {c : XSeq} {env : Env} {l : List (Option XNode)} {vs ws : List XSeq} (H : Fills h c env l vs ws) :
    partialArgs (evaluate h) c (holeChain l).chain vs env = .ok (ws, env) := by
  induction H with
  | nil => rfl
  | @given a l vs w ws ha _ ih =>
    show (do
      let v ← evaluate h c a
      let r ← partialArgs (evaluate h) c (holeChain l).chain vs
      pure (v :: r) : E (List XSeq)) env = _
    rw [E.bind_run, ha]
    simp only
    rw [E.bind_run, ih]; rfl
  | @hole l v vs ws _ ih =>
    show (do
      let r ← partialArgs (evaluate h) c (holeChain l).chain vs
      pure (v :: r) : E (List XSeq)) env = _
    rw [E.bind_run, ih]; rfl

theorem splitHash_of {f : Str} (hf : '#' ∉ f) (d : Str) : ∃ ps, splitHash (f ++ S "#" ++ d) = f :: splitHash d ++ ps ∧ ps = [] := by
  refine ⟨[], ?_, rfl⟩
  rw [List.append_nil]
  induction f with
  | nil => simp [S, splitHash]
  | cons c f ih =>
    have hc : c ≠ '#' := fun e => hf (by simp [e])
    show splitHash (c :: (f ++ S "#" ++ d)) = _
    rw [splitHash, if_neg hc, ih fun hm => hf (by simp [hm])]

theorem splitHash_digits {d : Str} (hd : IsDigits d) : splitHash d = [d] := by
  induction d with
  | nil => rfl
  | cons c d ih =>
    have hc : c ≠ '#' := by
      rintro rfl
      have := hd '#' (by simp)
      exact absurd this (by decide)
    rw [splitHash, if_neg hc, ih fun x hx => hd x (by simp [hx])]

/-- What `ItemCalls` says is what the code computes. -/
theorem call_of {h : Heap} {c : XSeq} {env : Env} {f : XNode} {vs : List XSeq} {w : XSeq} (hn : 0 < vs.length) (H : ItemCalls h c env f vs w) :
    call h f vs c env = .ok (w, env) := by
  rw [call_eq]
  cases H with
  | inline hp hb => exact callInline_of hp hb
  | @named f d _ _ hf hc hd hd' he hl hg =>
    show (match splitHash (f ++ S "#" ++ d) with
      | nm :: ar :: _ => if asUsize (atoi ar) = vs.length then evaluateFunction h (call h) nm vs c else liftE (.error .typeError)
      | _ => liftE (.error .panic)) env = _
    obtain ⟨_, e, rfl⟩ := splitHash_of hf d
    rw [e, splitHash_digits hd']
    have ha : atoi d = (digitsNumber d : Int) := atoi_of (s := d) ⟨[], [], by simp, by simp, by simp⟩ (.plain hd hd') (by
      rw [he]; unfold isI64 i64Min i64Max; constructor <;> omega)
    have : asUsize (atoi d) = vs.length := by
      rw [ha, he, asUsize]; omega
    simp only [List.append_nil]
    rw [if_pos this]
    exact evaluateFunction_of hc hn hg c env
  | @part f l _ ws _ hc hf hw hg =>
    show (do
      let as ← partialArgs (evaluate h) c (holeChain l).chain vs
      evaluateFunction h (call h) f as c : E XSeq) env = _
    rw [E.bind_run, partialArgs_of hf]
    exact evaluateFunction_of hc hw hg c env

/-! ## C72 -/

theorem higher_run {h : Heap} {c : XSeq} {env : Env} {a b : XNode} {s : XSeq} {f : XNode} (ha : Value h c a env s) (hb : Value h c b env [.fn f])
    {nm : Str} {g : CtxFn} (hg : findCtxFn nm 2 = some g) :
    evaluate h c (callOf nm [a, b]) env = applyCtxFn h (call h) g [s, [.fn f]] c env := by
  rw [evaluate_eq]
  show (do let args ← listE (callArg (evaluate h) c) (argChain [a, b]).chain
           evaluateFunction h (call h) nm args c : E XSeq) env = _
  rw [E.bind_run, args_run (.cons ha (.cons hb .nil))]
  simp only [evaluateFunction, List.length_cons, List.length_nil, hg]

/-- **C72**: `fn:for-each(s, f)` is the results of `f` for the items of `s`, one after the other. -/
theorem C72_for_each_partial (h : Heap) (c : XSeq) (env : Env) (a b : XNode) (s : XSeq) (f : XNode) (w : XItem → XSeq) (ha : Value h c a env s)
    (hb : Value h c b env [.fn f]) (hw : ∀ x ∈ s, ItemCalls h c env f [[x]] (w x)) :
    Value h c (callOf (S "fn:for-each") [a, b]) env (s.flatMap w) := by
  unfold Value
  rw [higher_run ha hb (g := .forEach) rfl]
  show (concatE (fun x => call h f [[x]] c) s) env = _
  exact concatE_value s fun x hx => call_of (by simp) (hw x hx)

/-- **C72**: `fn:filter(s, f)` is the items of `s` for which the value of `f` is true, in their order. -/
theorem C72_filter_partial (h : Heap) (c : XSeq) (env : Env) (a b : XNode) (s : XSeq) (f : XNode) (p : XItem → Bool) (ha : Value h c a env s)
    (hb : Value h c b env [.fn f]) (hw : ∀ x ∈ s, ∃ v, ItemCalls h c env f [[x]] v ∧ Ebv v (p x)) :
    Value h c (callOf (S "fn:filter") [a, b]) env (s.filter p) := by
  unfold Value
  rw [higher_run ha hb (g := .filter) rfl]
  show (concatE (fun x => do
      let v ← call h f [[x]] c
      let b ← liftE (XSeq.ebv v)
      pure (if b then [x] else [])) s) env = _
  rw [concatE_value (w := fun x => if p x then [x] else []) s fun x hx => ?_]
  · congr 2
    clear hw ha
    induction s with
    | nil => rfl
    | cons x s ih => rw [List.flatMap_cons, List.filter_cons]; by_cases hp : p x = true <;> simp [hp, ih]
  · obtain ⟨v, hv, he⟩ := hw x hx
    show (do
      let v ← call h f [[x]] c
      let b ← liftE (XSeq.ebv v)
      pure (if b then [x] else []) : E XSeq) env = _
    rw [E.bind_run, call_of (by simp) hv]
    simp only
    rw [ebv_of_spec he]
    rfl

/-- **C72**: the second argument must be one function item. -/
theorem C72_no_function (h : Heap) (c : XSeq) (env : Env) (a b : XNode) (s t : XSeq) (ha : Value h c a env s) (hb : Value h c b env t)
    (ht : ∀ f, t ≠ [.fn f]) (nm : Str) (hn : nm = S "fn:for-each" ∨ nm = S "fn:filter") : Fails h c (callOf nm [a, b]) env .typeError := by
  have hfn : XSeq.fn1 t = .error .typeError := by
    match t, ht with
    | [], _ => rfl
    | [.fn f], ht => exact absurd rfl (ht f)
    | x :: y :: s, _ => cases x <;> rfl
    | [.string _], _ => rfl
    | [.integer _], _ => rfl
    | [.decimal _], _ => rfl
    | [.double _], _ => rfl
    | [.boolean _], _ => rfl
    | [.map _], _ => rfl
    | [.array _], _ => rfl
    | [.node _], _ => rfl
  refine ⟨?_, by simp⟩
  have run : ∀ {g : CtxFn}, findCtxFn nm 2 = some g → evaluate h c (callOf nm [a, b]) env = applyCtxFn h (call h) g [s, t] c env := by
    intro g hg
    rw [evaluate_eq]
    show (do let args ← listE (callArg (evaluate h) c) (argChain [a, b]).chain
             evaluateFunction h (call h) nm args c : E XSeq) env = _
    rw [E.bind_run, args_run (.cons ha (.cons hb .nil))]
    simp only [evaluateFunction, List.length_cons, List.length_nil, hg]
  rcases hn with rfl | rfl
  · rw [run (g := .forEach) rfl]
    show (do let f ← liftE (XSeq.fn1 t); concatE (fun x => call h f [[x]] c) s : E XSeq) env = _
    rw [hfn]; rfl
  · rw [run (g := .filter) rfl]
    show (do
      let f ← liftE (XSeq.fn1 t)
      concatE (fun x => do
        let v ← call h f [[x]] c
        let b ← liftE (XSeq.ebv v)
        pure (if b then [x] else [])) s : E XSeq) env = _
    rw [hfn]; rfl

/-! ## C74 -/

/-- **C74**: inline functions, named function references and partial calls are function items. -/
theorem C74_items (h : Heap) (c : XSeq) (env : Env) :
    (∀ ps r body, Value h c (inlineOf ps r body) env [.fn (inlineOf ps r body)]) ∧
    (∀ f d, Value h c (namedRef f d) env [.fn (namedRef f d)]) ∧ (∀ f l, Value h c (partialOf f l) env [.fn (partialOf f l)]) := by
  refine ⟨fun _ _ _ => ?_, fun _ _ => ?_, fun _ _ => ?_⟩ <;> (unfold Value; rw [evaluate_eq]; rfl)

/-- **C74**: `f(a₁, …, aₙ)` with an inline function as `f`: if the arguments are of the types of the parameters, the value of the body with the
parameters having the arguments' values. -/
theorem C74_apply_partial (h : Heap) (c : XSeq) (env : Env) (f : XNode) (as : List XNode) (vs : List XSeq) (ps : List (Str × SType)) (r : SType)
    (body : XNode) (w : XSeq) (hf : Value h c f env [.fn (inlineOf ps r body)]) (ha : List.Forall₂ (fun a v => Value h c a env v) as vs)
    (hm : List.Forall₂ (fun p v => Fit h p.2 v ∧ p.2.Matches h v) ps vs) (hb : Value h c body (bound env ps vs) w) :
    Value h c (applied f (argChain as)) env w := by
  unfold Value
  rw [apply_run hf ha]
  exact callInline_of hm hb

theorem bindParams_error {h : Heap} {ps qs : List (Str × SType)} {vs us : List XSeq} {p : Str × SType} {v : XSeq}
    (H : List.Forall₂ (fun p v => Fit h p.2 v ∧ p.2.Matches h v) ps vs) (hf : Fit h p.2 v) (hm : ¬ p.2.Matches h v) (env : Env) :
    bindParams h ((ps ++ p :: qs).map fun p => (p.1, p.2.tree)) (vs ++ v :: us) env = .error .typeError := by
  induction H generalizing env with
  | nil =>
    obtain ⟨b, e, hb⟩ := matchType_of hf
    have : b = false := by cases b; rfl; exact absurd (hb.1 rfl) hm
    subst this
    show (do
      let b ← liftE (matchSequenceType h v p.2.tree)
      if b then do
        modifyE fun env => env.setVar p.1 v
        bindParams h (qs.map fun p => (p.1, p.2.tree)) us
      else liftE (.error .typeError) : E Unit) env = _
    rw [e]; rfl
  | @cons q u ps vs hp _ ih =>
    obtain ⟨b, e, hb⟩ := matchType_of hp.1
    rw [hb.2 hp.2] at e
    show (do
      let b ← liftE (matchSequenceType h u q.2.tree)
      if b then do
        modifyE fun env => env.setVar q.1 u
        bindParams h ((ps ++ p :: qs).map fun p => (p.1, p.2.tree)) (vs ++ v :: us)
      else liftE (.error .typeError) : E Unit) env = _
    rw [e, E.bind_run, liftE_ok]
    simp only [if_true]
    rw [E.bind_run, modifyE_run]
    exact ih _

/-- **C74**: an argument that is not of the type of its parameter is a type error. -/
theorem C74_argument_type (h : Heap) (c : XSeq) (env : Env) (f : XNode) (as : List XNode) (vs us : List XSeq) (v : XSeq)
    (ps qs : List (Str × SType)) (p : Str × SType) (r : SType) (body : XNode) (hf : Value h c f env [.fn (inlineOf (ps ++ p :: qs) r body)])
    (ha : List.Forall₂ (fun a v => Value h c a env v) as (vs ++ v :: us))
    (hm : List.Forall₂ (fun p v => Fit h p.2 v ∧ p.2.Matches h v) ps vs) (hv : Fit h p.2 v) (hn : ¬ p.2.Matches h v) :
    Fails h c (applied f (argChain as)) env .typeError := by
  refine ⟨?_, by simp⟩
  rw [apply_run hf ha]
  show callInline h (evaluate h) (inlineOf (ps ++ p :: qs) r body) (vs ++ v :: us) c env = _
  unfold callInline
  rw [paramsOf_inline, E.bind_run, bindParams_error hm hv hn]

/-- **C74** is false of the code: named function items and partial calls cannot be applied; an argument too many panics; an argument missing
leaves the parameter without a value; the type of the result is not checked; variables of the body are those of the caller. -/
theorem C74_violated :
    evalXPath .empty 30 0 (S "let $f := abs#1 return $f(1)") = .error .cantOccur ∧
    evalXPath .empty 30 0 (S "let $f := contains(?, 'a') return $f('a')") = .error .cantOccur ∧
    evalXPath .empty 30 0 (S "function($a) { $a }(1, 2)") = .error .panic ∧
    evalXPath .empty 30 0 (S "function($a) { ($a, 5) }()") = .ok [.integer 5] ∧
    evalXPath .empty 30 0 (S "function() as xs:integer { 'x' }()") = .ok [.string (S "x")] ∧
    evalXPath .empty 30 0 (S "let $y := 1, $f := function($a) { $y } return let $y := 2 return $f(0)") = .ok [.integer 2] := by
  refine ⟨?_, ?_, ?_, ?_, ?_, ?_⟩ <;> run_query

/-- **C72** is false of the code: the arguments of a partial call are computed when it is called, with the variables of that place. -/
theorem C72_violated :
    evalXPath .empty 30 0 (S "let $y := 'a' return let $f := concat($y, ?) return let $y := 'b' return for-each('c', $f)") =
      .ok [.string (S "bc")] := by run_query

/-! ## The hypotheses are met -/

example : evalXPath .empty 30 0 (S "for-each((1, -2), abs#1)") = .ok [.integer 1, .integer 2] := by run_query
example : evalXPath .empty 30 0 (S "filter((1, 2, 3), function($x as xs:integer) { $x > 1 })") = .ok [.integer 2, .integer 3] := by run_query
example : Parser.compileXPath (S "for-each($s, contains(?, 'x'))") = .ok (callOf (S "fn:for-each") [.node .varRef (S "s") .nil .nil,
    partialOf (S "fn:contains") [none, some (.node .stringLiteral (S "x") .nil .nil)]]) := by run_compile
example : Parser.compileXPath (S "abs#1") = .ok (namedRef (S "fn:abs") (S "1")) := by run_compile
example : Parser.compileXPath (S "function($a as xs:integer, $b) as item() { $a }") = .ok (inlineOf [(S "a", .of (.atomic (S "xs:integer")) .one),
    (S "b", .of .item .many)] (.of .item .one) (.node .varRef (S "a") .nil .nil)) := by run_compile

/-- `abs#1` and `contains(?, 'x')` called for an item. -/
example (h : Heap) (c : XSeq) (env : Env) : ItemCalls h c env (namedRef (S "fn:abs") (S "1")) [[.integer (-2)]] [.integer 2] ∧
    ItemCalls h c env (partialOf (S "fn:contains") [none, some (.node .stringLiteral (S "x") .nil .nil)]) [[.string (S "axb")]] [.boolean true] := by
  refine ⟨.named (by decide) (by decide +kernel) (by decide) (by decide) (by decide) (by decide) (calls_of 1 _ (hg := rfl)),
    .part (ws := [[.string (S "axb")], [.string (S "x")]]) (by decide +kernel) (.hole (.given (by unfold Value; rw [evaluate_eq]; rfl) .nil)) (by decide)
      (calls_of 2 _ (hg := rfl))⟩

/-- `function($x as xs:integer) { $x }` called with 7. -/
example (h : Heap) (c : XSeq) (env : Env) : ItemCalls h c env
    (inlineOf [(S "x", .of (.atomic (S "xs:integer")) .one)] (.of .item .many) (.node .varRef (S "x") .nil .nil)) [[.integer 7]] [.integer 7] := by
  refine .inline (.cons ⟨⟨?_, ?_, True, ?_, ?_⟩, ?_⟩ .nil) ?_
  · simp [SType.Proper, IType.Proper]; decide
  · simp [SType.Without, IType.Without, IsTyped]
  · simp; exact .integer
  · simp [SType.Without, IType.Without, IsItem]
  · simp [SType.Matches, IType.Has, Occ.Admits, valueTypes]
  · have := C42_varRef h c (S "x") .nil .nil (withVar env (S "x") [.integer 7])
    simpa [withVar, bound] using this

end Amxml
