import Verif.Props.XHigher
import Verif.Props.XAccepts

/-!
# C72, C73, C74: what calls do where they do not give a value
-/

namespace Amxml
open Spec

/-! ## C74 -/

namespace Exact4

theorem bind_many {h : Heap} {ps : List (Str × SType)} {vs us : List XSeq} (H : List.Forall₂ (fun p v => Fit h p.2 v ∧ p.2.Matches h v) ps vs) (hu : us ≠ [])
    (env : Env) : bindParams h (ps.map fun p => (p.1, p.2.tree)) (vs ++ us) env = .error .panic := by
  induction H generalizing env with
  | nil => cases us with
    | nil => exact absurd rfl hu
    | cons u us => rfl
  | @cons p v ps vs hp _ ih =>
    obtain ⟨b, e, hb⟩ := matchType_of hp.1
    rw [hb.2 hp.2] at e
    show (do
      let b ← liftE (matchSequenceType h v p.2.tree)
      if b then do
        modifyE fun env => env.setVar p.1 v
        bindParams h (ps.map fun p => (p.1, p.2.tree)) (vs ++ us)
      else liftE (.error .typeError) : E Unit) env = _
    rw [e, E.bind_run, liftE_ok]
    simp only [if_true]
    rw [E.bind_run, modifyE_run]
    exact ih _

theorem bind_few {h : Heap} {ps : List (Str × SType)} {vs : List XSeq} (H : List.Forall₂ (fun p v => Fit h p.2 v ∧ p.2.Matches h v) ps vs)
    (qs : List (Str × SType)) (env : Env) : bindParams h ((ps ++ qs).map fun p => (p.1, p.2.tree)) vs env = .ok ((), bound env ps vs) := by
  induction H generalizing env with
  | nil => cases qs <;> rfl
  | @cons p v ps vs hp _ ih =>
    obtain ⟨b, e, hb⟩ := matchType_of hp.1
    rw [hb.2 hp.2] at e
    show (do
      let b ← liftE (matchSequenceType h v p.2.tree)
      if b then do
        modifyE fun env => env.setVar p.1 v
        bindParams h ((ps ++ qs).map fun p => (p.1, p.2.tree)) vs
      else liftE (.error .typeError) : E Unit) env = _
    rw [e, E.bind_run, liftE_ok]
    simp only [if_true]
    rw [E.bind_run, modifyE_run]
    exact ih _

theorem bound_names : ∀ (ps : List (Str × SType)) (vs : List XSeq) (env : Env) (n : Str), n ∈ (bound env ps vs).vars.map (·.1) →
    n ∈ ps.map (·.1) ∨ n ∈ env.vars.map (·.1)
  | [], _, _, _, hn => .inr hn
  | _ :: _, [], _, _, hn => .inr hn
  | p :: ps, v :: vs, env, n, hn => by
    rcases bound_names ps vs _ n hn with k | k
    · exact .inl (by simp only [List.map_cons, List.mem_cons]; exact .inr k)
    · simp only [withVar, List.map_cons, List.mem_cons] at k
      rcases k with k | k
      · exact .inl (by simp [k])
      · exact .inr k

theorem remove_absent {n : Str} : ∀ {l : List (Str × XSeq)}, n ∉ l.map (·.1) → Amxml.removeFirst n l = l
  | [], _ => rfl
  | e :: l, hn => by
    rw [Amxml.removeFirst, if_neg (by rintro rfl; exact hn (by simp)), remove_absent fun k => hn (by simp only [List.map_cons, List.mem_cons]; exact .inr k)]

theorem removes_absent {e : Env} : ∀ {l : List Str}, (∀ n ∈ l, n ∉ e.vars.map (·.1)) → l.foldr (fun n e => e.removeVar n) e = e
  | [], _ => rfl
  | n :: l, hn => by
    rw [List.foldr_cons, removes_absent fun m hm => hn m (by simp [hm])]
    show ({ e with vars := Amxml.removeFirst n e.vars } : Env) = e
    rw [remove_absent (hn n (by simp))]

end Exact4
open Exact4

/-- **C74**, all that can be called, and with how many arguments. An inline function called with too many arguments panics, if the others are of their
types; with too few, the value is that of the body with the remaining parameters without values. References to named functions and partial calls
cannot be called in this way, and neither can anything but one function item, map or array. A map or an array takes its first argument and ignores the
others; without argument it panics; the first argument must be one item. -/
theorem C74_exact (h : Heap) (c : XSeq) (env : Env) (f : XNode) (as : List XNode) (vs : List XSeq) (F : XSeq) (hf : Value h c f env F)
    (ha : List.Forall₂ (fun a v => Value h c a env v) as vs) :
    (∀ ps r body us ws, F = [.fn (inlineOf ps r body)] → vs = us ++ ws → ws ≠ [] → List.Forall₂ (fun p v => Fit h p.2 v ∧ p.2.Matches h v) ps us →
      Fails h c (applied f (argChain as)) env .panic) ∧
    (∀ ps qs r body w, F = [.fn (inlineOf (ps ++ qs) r body)] → List.Forall₂ (fun p v => Fit h p.2 v ∧ p.2.Matches h v) ps vs →
      (∀ q ∈ qs, q.1 ∉ ps.map (·.1) ∧ q.1 ∉ env.vars.map (·.1)) → Value h c body (bound env ps vs) w → Value h c (applied f (argChain as)) env w) ∧
    (∀ ps qs r body e, F = [.fn (inlineOf (ps ++ qs) r body)] → List.Forall₂ (fun p v => Fit h p.2 v ∧ p.2.Matches h v) ps vs →
      Fails h c body (bound env ps vs) e → Fails h c (applied f (argChain as)) env e) ∧
    (∀ g d, F = [.fn (namedRef g d)] → Fails h c (applied f (argChain as)) env .cantOccur) ∧
    (∀ g l, F = [.fn (partialOf g l)] → Fails h c (applied f (argChain as)) env .cantOccur) ∧
    ((∀ g, F ≠ [.fn g]) → (∀ m, F ≠ [.map m]) → (∀ a, F ≠ [.array a]) → Fails h c (applied f (argChain as)) env .cantOccur) ∧
    ((∃ m, F = [.map m]) ∨ (∃ a, F = [.array a]) →
      (vs = [] → Fails h c (applied f (argChain as)) env .panic) ∧
      ((∃ v us, vs = v :: us ∧ ∀ x, v ≠ [x]) → ∃ e, Fails h c (applied f (argChain as)) env e) ∧
      (∀ v us, vs = v :: us → ∀ bs, List.Forall₂ (fun a v => Value h c a env v) bs [v] →
        evaluate h c (applied f (argChain as)) env = evaluate h c (applied f (argChain bs)) env)) := by
  have run := apply_run hf ha
  refine ⟨?_, ?_, ?_, ?_, ?_, ?_, ?_⟩
  · rintro ps r body us ws rfl rfl hw hp
    refine ⟨?_, by simp⟩
    rw [run]
    show callInline h (evaluate h) (inlineOf ps r body) (us ++ ws) c env = _
    unfold callInline
    rw [paramsOf_inline, E.bind_run, bind_many hp hw]
  · rintro ps qs r body w rfl hp hq hb
    unfold Value
    rw [run]
    show callInline h (evaluate h) (inlineOf (ps ++ qs) r body) vs c env = _
    unfold callInline
    rw [paramsOf_inline, E.bind_run, bind_few hp]
    simp only
    rw [E.bind_run]
    rw [show evaluate h c (inlineOf (ps ++ qs) r body).left (bound env ps vs) = .ok (w, bound env ps vs) from hb]
    simp only
    rw [E.bind_run, modifyE_run]
    simp only
    rw [List.map_append, List.map_append, List.foldr_append, removes_absent (e := bound env ps vs) fun n hn => ?_, unbind env hp.length_eq]
    · rfl
    · simp only [List.map_map, List.mem_map, Function.comp] at hn
      obtain ⟨q, hq', rfl⟩ := hn
      intro k
      rcases bound_names _ _ _ _ k with k | k
      · exact (hq q hq').1 k
      · exact (hq q hq').2 k
  · rintro ps qs r body e rfl hp hb
    refine ⟨?_, hb.2⟩
    rw [run]
    show callInline h (evaluate h) (inlineOf (ps ++ qs) r body) vs c env = _
    unfold callInline
    rw [paramsOf_inline, E.bind_run, bind_few hp]
    simp only
    rw [E.bind_run]
    rw [show evaluate h c (inlineOf (ps ++ qs) r body).left (bound env ps vs) = .error e from hb.1]
  · rintro g d rfl
    exact ⟨by rw [run]; rfl, by simp⟩
  · rintro g l rfl
    exact ⟨by rw [run]; rfl, by simp⟩
  · intro h1 h2 h3
    refine ⟨?_, by simp⟩
    rw [run]
    match F, h1, h2, h3 with
    | [], _, _, _ => rfl
    | [.fn g], h1, _, _ => exact absurd rfl (h1 g)
    | [.map m], _, h2, _ => exact absurd rfl (h2 m)
    | [.array a], _, _, h3 => exact absurd rfl (h3 a)
    | [.string _], _, _, _ => rfl
    | [.integer _], _, _, _ => rfl
    | [.decimal _], _, _, _ => rfl
    | [.double _], _, _, _ => rfl
    | [.boolean _], _, _, _ => rfl
    | [.node _], _, _, _ => rfl
    | x :: y :: s, _, _, _ => cases x <;> rfl
  · intro hF
    refine ⟨?_, ?_, ?_⟩
    · rintro rfl
      refine ⟨?_, by simp⟩
      rw [run]
      rcases hF with ⟨m, rfl⟩ | ⟨a, rfl⟩ <;> rfl
    · rintro ⟨v, us, rfl, hv⟩
      have : ∃ e, XSeq.item1 v = .error e ∧ e ≠ .outOfFuel := by
        match v, hv with
        | [], _ => exact ⟨_, rfl, by simp⟩
        | [x], hv => exact absurd rfl (hv x)
        | x :: y :: s, _ => exact ⟨_, rfl, by simp⟩
      obtain ⟨e, he, hne⟩ := this
      refine ⟨e, ?_, hne⟩
      rw [run]
      rcases hF with ⟨m, rfl⟩ | ⟨a, rfl⟩
      · show (do
          let k ← liftE (XSeq.item1 v)
          match mapGet h m k with
          | some v => pure v
          | none => liftE (.error .dynamicError) : E XSeq) env = _
        rw [he]; rfl
      · show (do
          let k ← liftE (XSeq.item1 v)
          match arrayGet h a k with
          | some v => pure v
          | none => liftE (.error .dynamicError) : E XSeq) env = _
        rw [he]; rfl
    · rintro v us rfl bs hb
      rw [run, apply_run hf hb]
      rcases hF with ⟨m, rfl⟩ | ⟨a, rfl⟩ <;> rfl

/-! ## C72 -/

/-- Called with the arguments `vs`, the function item fails with `e`: an inline function if its body does, or with a type error if an argument is not of
the type of its parameter; a named function if a call by its name does, or with a type error if the number of arguments is not that of the reference; a
partial call if the call does. -/
inductive Spec.ItemFails (h : Heap) (c : XSeq) (env : Env) : XNode → List XSeq → XErr → Prop
  | body {ps qs r body vs e} : List.Forall₂ (fun p v => Fit h p.2 v ∧ p.2.Matches h v) ps vs → Fails h c body (bound env ps vs) e →
      ItemFails h c env (inlineOf (ps ++ qs) r body) vs e
  | type {ps p qs r body vs v us} : List.Forall₂ (fun p v => Fit h p.2 v ∧ p.2.Matches h v) ps vs → Fit h p.2 v → ¬ p.2.Matches h v →
      ItemFails h c env (inlineOf (ps ++ p :: qs) r body) (vs ++ v :: us) .typeError
  | many {ps r body vs us} : List.Forall₂ (fun p v => Fit h p.2 v ∧ p.2.Matches h v) ps vs → us ≠ [] → ItemFails h c env (inlineOf ps r body) (vs ++ us) .panic
  | named {f d vs e} : '#' ∉ f → f ∉ contextual → d ≠ [] → IsDigits d → digitsNumber d = vs.length → vs.length < 2 ^ 63 → CallFails h f vs e →
      ItemFails h c env (namedRef f d) vs e
  | arity {f d vs} : '#' ∉ f → d ≠ [] → IsDigits d → digitsNumber d < 2 ^ 63 → digitsNumber d ≠ vs.length →
      ItemFails h c env (namedRef f d) vs .typeError
  | part {f l vs ws e} : f ∉ contextual → Fills h c env l vs ws → 0 < ws.length → CallFails h f ws e → ItemFails h c env (partialOf f l) vs e

namespace Exact4

theorem evaluateFunction_fails {h : Heap} {f : Str} {vs : List XSeq} {e : XErr} (hf : f ∉ contextual) (hn : 0 < vs.length) (H : CallFails h f vs e)
    (c : XSeq) (env : Env) : evaluateFunction h (call h) f vs c env = .error e := by
  have hc := ctx_none hf hn
  have hv := varEnv_values h [] vs [] (by simp)
  have := (H [] _ _ hv).1
  rw [evaluate_eq] at this
  rw [show evalStep h (call h) (evaluate h) [] (callOf f (varRefs vs.length)) = (do
      let args ← listE (callArg (evaluate h) []) (argChain (varRefs vs.length)).chain
      evaluateFunction h (call h) f args [] : E XSeq) from rfl, E.bind_run, args_run hv] at this
  cases hp : findPureFn f vs.length with
  | none =>
    simp only [evaluateFunction, hc, hp] at this ⊢
    cases this; rfl
  | some g =>
    simp only [evaluateFunction, hc, hp] at this ⊢
    cases hg : g h vs with
    | ok v => rw [hg] at this; cases this
    | error e' => rw [hg] at this; cases this; rfl

theorem call_fails {h : Heap} {c : XSeq} {env : Env} {f : XNode} {vs : List XSeq} {e : XErr} (hn : 0 < vs.length) (H : ItemFails h c env f vs e) :
    call h f vs c env = .error e ∧ e ≠ .outOfFuel := by
  rw [call_eq]
  cases H with
  | @body ps qs r body _ _ hp hb =>
    refine ⟨?_, hb.2⟩
    show callInline h (evaluate h) (inlineOf (ps ++ qs) r body) vs c env = _
    unfold callInline
    rw [paramsOf_inline, E.bind_run, bind_few hp]
    simp only
    rw [E.bind_run]
    rw [show evaluate h c (inlineOf (ps ++ qs) r body).left (bound env ps vs) = .error e from hb.1]
  | @type ps p qs r body ws v us hp hv hm =>
    refine ⟨?_, by simp⟩
    show callInline h (evaluate h) (inlineOf (ps ++ p :: qs) r body) (ws ++ v :: us) c env = _
    unfold callInline
    rw [paramsOf_inline, E.bind_run, bindParams_error hp hv hm]
  | @many ps r body ws us hp hu =>
    refine ⟨?_, by simp⟩
    show callInline h (evaluate h) (inlineOf ps r body) (ws ++ us) c env = _
    unfold callInline
    rw [paramsOf_inline, E.bind_run, bind_many hp hu]
  | @named f d _ _ hf hc hd hd' he hl hg =>
    refine ⟨?_, (hg [] _ _ (varEnv_values h [] vs [] (by simp))).2⟩
    show (match splitHash (f ++ S "#" ++ d) with
      | nm :: ar :: _ => if asUsize (atoi ar) = vs.length then evaluateFunction h (call h) nm vs c else liftE (.error .typeError)
      | _ => liftE (.error .panic)) env = _
    obtain ⟨_, e, rfl⟩ := splitHash_of hf d
    rw [e, splitHash_digits hd']
    have ha : atoi d = (digitsNumber d : Int) := atoi_of (s := d) ⟨[], [], by simp, by simp, by simp⟩ (.plain hd hd') (by
      rw [he]; unfold isI64 i64Min i64Max; constructor <;> omega)
    have : asUsize (atoi d) = vs.length := by
      rw [ha, he, asUsize]; omega
    simp only [List.append_nil]
    rw [if_pos this]
    exact evaluateFunction_fails hc hn hg c env
  | @arity f d _ hf hd hd' hl he =>
    refine ⟨?_, by simp⟩
    show (match splitHash (f ++ S "#" ++ d) with
      | nm :: ar :: _ => if asUsize (atoi ar) = vs.length then evaluateFunction h (call h) nm vs c else liftE (.error .typeError)
      | _ => liftE (.error .panic)) env = _
    obtain ⟨_, e, rfl⟩ := splitHash_of hf d
    rw [e, splitHash_digits hd']
    have ha : atoi d = (digitsNumber d : Int) := atoi_of (s := d) ⟨[], [], by simp, by simp, by simp⟩ (.plain hd hd') (by
      unfold isI64 i64Min i64Max; constructor <;> omega)
    have : asUsize (atoi d) ≠ vs.length := by
      rw [ha, asUsize]; omega
    simp only [List.append_nil]
    rw [if_neg this]; rfl
  | @part f l _ ws _ hc hf hw hg =>
    refine ⟨?_, (hg [] _ _ (varEnv_values h [] ws [] (by simp))).2⟩
    show (do
      let as ← partialArgs (evaluate h) c (holeChain l).chain vs
      evaluateFunction h (call h) f as c : E XSeq) env = _
    rw [E.bind_run, partialArgs_of hf]
    exact evaluateFunction_fails hc hw hg c env

theorem concatE_error {f : XItem → E XSeq} {env : Env} {w : XItem → XSeq} {x : XItem} {e : XErr} {t : XSeq} (hx : f x env = .error e) :
    ∀ s : XSeq, (∀ x ∈ s, f x env = .ok (w x, env)) → concatE f (s ++ x :: t) env = .error e := by
  intro s
  induction s with
  | nil => intro _; rw [List.nil_append, concatE, E.bind_run, hx]
  | cons y s ih =>
    intro hs
    rw [List.cons_append, concatE, E.bind_run, hs y (by simp)]
    simp only
    rw [E.bind_run, ih fun y hy => hs y (by simp [hy])]

end Exact4
open Exact4

/-- **C72**, errors: the error of `fn:for-each` and `fn:filter` is that of the first item for which the function fails; for `fn:filter` also a type error,
if a value of the function has no boolean value. -/
theorem C72_error (h : Heap) (c : XSeq) (env : Env) (a b : XNode) (s t : XSeq) (x : XItem) (f : XNode) (e : XErr) (ha : Value h c a env (s ++ x :: t))
    (hb : Value h c b env [.fn f]) :
    ((∀ y ∈ s, ∃ v, ItemCalls h c env f [[y]] v) → ItemFails h c env f [[x]] e → Fails h c (callOf (S "fn:for-each") [a, b]) env e) ∧
    ((∀ y ∈ s, ∃ v p, ItemCalls h c env f [[y]] v ∧ Ebv v p) → ItemFails h c env f [[x]] e → Fails h c (callOf (S "fn:filter") [a, b]) env e) ∧
    ((∀ y ∈ s, ∃ v p, ItemCalls h c env f [[y]] v ∧ Ebv v p) → (∃ v, ItemCalls h c env f [[x]] v ∧ ∀ p, ¬ Ebv v p) →
      Fails h c (callOf (S "fn:filter") [a, b]) env .typeError) := by
  have filt : (∀ y ∈ s, ∃ v p, ItemCalls h c env f [[y]] v ∧ Ebv v p) → ∀ e, (do
      let v ← call h f [[x]] c
      let b ← liftE (XSeq.ebv v)
      pure (if b then [x] else []) : E XSeq) env = .error e → evaluate h c (callOf (S "fn:filter") [a, b]) env = .error e := by
    intro hs e he
    rw [higher_run ha hb (g := .filter) rfl]
    show (concatE (fun x => do
        let v ← call h f [[x]] c
        let b ← liftE (XSeq.ebv v)
        pure (if b then [x] else [])) (s ++ x :: t)) env = _
    have : ∀ y, ∃ p : Bool, y ∈ s → ∃ v, ItemCalls h c env f [[y]] v ∧ Ebv v p := by
      intro y
      by_cases hy : y ∈ s
      · obtain ⟨v, p, k⟩ := hs y hy; exact ⟨p, fun _ => ⟨v, k⟩⟩
      · exact ⟨true, fun k => absurd k hy⟩
    choose p hp using this
    refine concatE_error (w := fun y => if p y then [y] else []) he s fun y hy => ?_
    obtain ⟨v, hv, hev⟩ := hp y hy
    rw [E.bind_run, call_of (by simp) hv]
    simp only
    rw [ebv_of_spec hev]
    rfl
  refine ⟨fun hs hx => ?_, fun hs hx => ?_, fun hs hx => ?_⟩
  · obtain ⟨hc, hne⟩ := call_fails (by simp) hx
    refine ⟨?_, hne⟩
    rw [higher_run ha hb (g := .forEach) rfl]
    show (concatE (fun x => call h f [[x]] c) (s ++ x :: t)) env = _
    have : ∀ y, ∃ v, y ∈ s → ItemCalls h c env f [[y]] v := by
      intro y
      by_cases hy : y ∈ s
      · obtain ⟨v, k⟩ := hs y hy; exact ⟨v, fun _ => k⟩
      · exact ⟨[], fun k => absurd k hy⟩
    choose w hw using this
    exact concatE_error (w := w) hc s fun y hy => call_of (by simp) (hw y hy)
  · obtain ⟨hc, hne⟩ := call_fails (by simp) hx
    exact ⟨filt hs e (by rw [E.bind_run, hc]), hne⟩
  · obtain ⟨v, hv, hn⟩ := hx
    refine ⟨filt hs .typeError ?_, by simp⟩
    rw [E.bind_run, call_of (by simp) hv]
    simp only
    rw [(C40_ebv v true).2 fun ⟨p, hp⟩ => hn p hp]
    rfl

/-! ## C73 -/

/-- **C73**, the calls that are not checked: a call of a function that does not exist, or with a number of arguments it does not have, which compiles only
behind `=>`, fails when it is evaluated, with the same error for all arguments; a reference to such a function fails when it is called. -/
theorem C73_exact (h : Heap) (f : Str) (vs : List XSeq) (hn : ¬ Known f vs.length) :
    CallFails h f vs .cantOccur ∧
    ∀ (c : XSeq) (env : Env) (d : Str) (s : XSeq) (x : XItem) (t : XSeq) (a : XNode), vs = [[x]] → s = x :: t → '#' ∉ f → f ∉ contextual → d ≠ [] → IsDigits d →
      digitsNumber d = 1 → Value h c a env s → Fails h c (callOf (S "fn:for-each") [a, namedRef f d]) env .cantOccur := by
  have key : CallFails h f vs .cantOccur := by
    have hk : checkFunctionSpec f vs.length = false := Bool.eq_false_iff.2 fun k => hn ((C73_functions f vs.length).1 k)
    unfold checkFunctionSpec at hk
    rw [Bool.or_eq_false_iff] at hk
    intro c env as ha
    refine ⟨?_, by simp⟩
    rw [evaluate_eq]
    show (do
      let args ← listE (callArg (evaluate h) c) (argChain as).chain
      evaluateFunction h (call h) f args c : E XSeq) env = _
    rw [E.bind_run, args_run ha]
    have h1 : findCtxFn f vs.length = none := by simpa using hk.1
    have h2 : findPureFn f vs.length = none := by simpa using hk.2
    simp only [evaluateFunction, h1, h2]
    rfl
  refine ⟨key, ?_⟩
  rintro c env d s x t a rfl rfl hf hc hd hd' he ha
  refine (C72_error h c env a (namedRef f d) [] t x (namedRef f d) .cantOccur ha ((C74_items h c env).2.1 f d)).1 (by simp) (.named hf hc hd hd' (by simpa using he) (by simp) key)

example : ¬ Known (S "fn:foo") 1 ∧ ¬ Known (S "fn:abs") 2 := by
  refine ⟨fun k => ?_, fun k => ?_⟩
  · have := (C73_functions _ _).2 k; revert this; decide +kernel
  · have := (C73_functions _ _).2 k; revert this; decide +kernel

/-! ## The hypotheses are met -/

example : evalXPath .empty 30 0 (S "function($a as xs:integer) { $a }('x')") = .error .typeError ∧
    evalXPath .empty 30 0 (S "map{'a': 1}('a', 2)") = .ok [.integer 1] ∧ evalXPath .empty 30 0 (S "map{'a': 1}()") = .error .panic ∧
    evalXPath .empty 30 0 (S "function($a, $b) { ($a, $b) }(1)") = .ok [.integer 1] ∧
    evalXPath .empty 30 0 (S "for-each((1, 'a', 2), function($a as xs:integer) { $a })") = .error .typeError ∧
    evalXPath .empty 30 0 (S "filter((1, 2), function($a) { (1, 2) })") = .error .typeError ∧
    evalXPath .empty 30 0 (S "for-each((1, 2), concat#2)") = .error .typeError := by
  refine ⟨?_, ?_, ?_, ?_, ?_, ?_, ?_⟩ <;> run_query

end Amxml
