import Verif.Spec.Errors
import Verif.Lemmas.Decide

/-!
# Errors are not swallowed (C87)
-/

namespace Amxml
open Spec

theorem bind_error {α β : Type} {a : E α} {f : α → E β} {env : Env} {e : XErr} (h : a env = .error e) :
    (do let x ← a; f x : E β) env = .error e := by
  rw [E.bind_run, h]

theorem bind_ok {α β : Type} {a : E α} {f : α → E β} {env env' : Env} {x : α} (h : a env = .ok (x, env')) :
    (do let x ← a; f x : E β) env = f x env' := by
  rw [E.bind_run, h]

theorem removeVar_withVar (env : Env) (n : Str) (v : XSeq) : (withVar env n v).removeVar n = env := by
  cases env; simp [withVar, Env.removeVar, removeFirst]

theorem forLoop_error {body : E XSeq} {n : Str} {s r : XSeq} {x : XItem} {env env' : Env} {e : XErr}
    (H : Threads (fun y e e' => ∃ v, body (withVar e n [y]) = .ok (v, withVar e' n [y])) s env env')
    (hx : body (withVar env' n [x]) = .error e) : forLoop n body (s ++ x :: r) env = .error e := by
  induction H with
  | @nil env =>
    have hx : body (env.setVar n [x]) = _ := hx
    simp only [List.nil_append, forLoop, E.bind_run, modifyE_run, hx]
  | @cons y s e0 e1 e2 hy _ ih =>
    obtain ⟨v, hv⟩ := hy
    have hv : body (e0.setVar n [y]) = _ := hv
    simp only [List.cons_append, forLoop, E.bind_run, modifyE_run, hv, removeVar_withVar, ih hx]

theorem quantLoop_error {body : E XSeq} {n : Str} (t : Bool) {s r : XSeq} {x : XItem} {env env' : Env} {e : XErr}
    (H : Threads (fun y e e' => ∃ v, body (withVar e n [y]) = .ok (v, withVar e' n [y]) ∧ Ebv v (!t)) s env env')
    (hx : body (withVar env' n [x]) = .error e) : quantLoop n t body (s ++ x :: r) env = .error e := by
  induction H with
  | @nil env =>
    have hx : body (env.setVar n [x]) = _ := hx
    simp only [List.nil_append, quantLoop, E.bind_run, modifyE_run, hx]
  | @cons y s e0 e1 e2 hy _ ih =>
    obtain ⟨v, hv, hb⟩ := hy
    have hb := ebv_of_spec hb
    have hv : body (e0.setVar n [y]) = _ := hv
    have hne : ¬ (!t) = t := by cases t <;> decide
    simp only [List.cons_append, quantLoop, E.bind_run, modifyE_run, hv, hb, liftE_ok, if_neg hne, removeVar_withVar, ih hx]

theorem concatE_error {f : XItem → E XSeq} {s r : XSeq} {x : XItem} {env env' : Env} {e : XErr}
    (H : Threads (fun y e e' => ∃ v, f y e = .ok (v, e')) s env env') (hx : f x env' = .error e) :
    concatE f (s ++ x :: r) env = .error e := by
  induction H with
  | nil => simp only [List.nil_append, concatE, E.bind_run, hx]
  | cons hy _ ih =>
    obtain ⟨v, hv⟩ := hy
    simp only [List.cons_append, concatE, E.bind_run, hv, ih hx]

theorem pathLoop_error {f : XItem → E XSeq} {s r : List NodeId} {i : NodeId} {env env' : Env} {e : XErr}
    (H : Threads (fun j e e' => ∃ l, f (.node j) e = .ok (XSeq.ofNodes l, e')) s env env') (hx : f (.node i) env' = .error e) :
    ∀ node, pathLoop f node false (XSeq.ofNodes (s ++ i :: r)) env = .error e := by
  induction H with
  | nil => intro node; simp only [List.nil_append, XSeq.ofNodes, List.map_cons, pathLoop, E.bind_run, hx]
  | cons hy _ ih =>
    intro node
    obtain ⟨l, hv⟩ := hy
    have ih := ih hx
    simp only [XSeq.ofNodes, List.map_append, List.map_cons] at ih
    simp only [List.cons_append, XSeq.ofNodes, List.map_cons, List.map_append, pathLoop, E.bind_run, hv]
    have hn : XSeq.isNoAtom (XSeq.ofNodes l) = true := isNoAtom_ofNodes l
    simp only [XSeq.ofNodes] at hn
    split
    · exact ih node
    · simp only [hn, Bool.or_true, Bool.not_true, Bool.or_false, Bool.and_false, Bool.false_eq_true, if_false]
      exact bind_error (ih true)

theorem filterLoop_error {h : Heap} {rev : Bool} {p : XNode} {n : Nat} {s r : XSeq} {x : XItem} {e : XErr} :
    ∀ {k : Nat} {env env' : Env}, Looked h rev p n (k + 1) s env env' →
      evaluate h [x] p (atPos env' (along rev n (s.length + (k + 1))) n) = .error e →
      filterLoop (evaluate h) p rev n k (s ++ x :: r) env = .error e := by
  have pos : ∀ k, (if rev = true then n - k else k + 1) = along rev n (k + 1) := by
    intro k; unfold along; split <;> omega
  induction s with
  | nil =>
    intro k env env' H hx
    cases H
    rw [List.length_nil, Nat.zero_add] at hx
    have ha : atPosition (evaluate h) p (along rev n (k + 1)) n x env = .error e := by
      unfold atPosition
      unfold atPos at hx
      rw [hx]
    simp only [List.nil_append, filterLoop, E.bind_run, pos, ha]
  | cons y s ih =>
    intro k env env' H hx
    cases H with
    | @cons _ _ _ _ v env1 _ hy H =>
      have ha : atPosition (evaluate h) p (along rev n (k + 1)) n y env = .ok (v, atPos env1 env.position env.last) := by
        unfold atPosition
        unfold Gives atPos at hy
        rw [hy]; rfl
      have ih := ih H (by rwa [List.length_cons, show s.length + 1 + (k + 1) = s.length + (k + 1 + 1) by omega] at hx)
      simp only [List.cons_append, filterLoop, E.bind_run, pos, ha, ih]

theorem args_error {h : Heap} {c : XSeq} {env env' : Env} {as bs : List XNode} {a : XNode} {e : XErr}
    (H : Threads (fun b e e' => ∃ v, Gives h c b e v e') as env env') (ha : evaluate h c a env' = .error e) :
    listE (callArg (evaluate h) c) (argChain (as ++ a :: bs)).chain env = .error e ∧
    listE (fun a : XNode => evaluate h c a.left) (argChain (as ++ a :: bs)).chain env = .error e := by
  induction H with
  | nil =>
    simp only [List.nil_append, argChain, XNode.chain, listE]
    exact ⟨bind_error ha, bind_error ha⟩
  | @cons b l e0 e1 e2 hb _ ih =>
    obtain ⟨v, hv⟩ := hb
    obtain ⟨h1, h2⟩ := ih ha
    simp only [List.cons_append, argChain, XNode.chain, listE]
    constructor
    · refine (bind_ok (x := v) (env' := e1) (by exact hv)).trans ?_
      exact bind_error h1
    · refine (bind_ok (x := v) (env' := e1) (by exact hv)).trans ?_
      exact bind_error h2

theorem members_error {h : Heap} {c : XSeq} {env env' : Env} {as bs : List XNode} {a : XNode} {e : XErr}
    (H : Threads (fun b e e' => ∃ v, Gives h c b e v e') as env env') (ha : evaluate h c a env' = .error e) :
    listE (arrayEntryE (evaluate h) c) (memberChain (as ++ a :: bs)).chain env = .error e := by
  induction H with
  | nil =>
    simp only [List.nil_append, memberChain, XNode.chain, listE]
    exact bind_error ha
  | @cons b l e0 e1 e2 hb _ ih =>
    obtain ⟨v, hv⟩ := hb
    simp only [List.cons_append, memberChain, XNode.chain, listE]
    refine (bind_ok (x := v) (env' := e1) (by exact hv)).trans ?_
    exact bind_error (ih ha)

theorem mapEntry_run {h : Heap} {c : XSeq} {k v n : XNode} :
    mapEntryE (evaluate h) c (.node .mapConstruct [] (.node .mapEntry [] k v) n) = (do
      let k ← evaluate h c k
      let k ← liftE (XSeq.item1 k)
      let v ← evaluate h c v
      pure (k, v) : E (XItem × XSeq)) := rfl

theorem entries_error {h : Heap} {c : XSeq} {env env' : Env} {as bs : List (XNode × XNode)} {k v : XNode} {e : XErr}
    (H : Threads (fun b e e' => ∃ k e1 v, Gives h c b.1 e [k] e1 ∧ Gives h c b.2 e1 v e') as env env')
    (ha : ∀ n, mapEntryE (evaluate h) c (.node .mapConstruct [] (.node .mapEntry [] k v) n) env' = .error e) :
    listE (mapEntryE (evaluate h) c) (entryChain (as ++ (k, v) :: bs)).chain env = .error e := by
  induction H with
  | nil =>
    simp only [List.nil_append, entryChain, XNode.chain, listE]
    exact bind_error (ha _)
  | @cons b l e0 e1 e2 hb _ ih =>
    obtain ⟨k', v'⟩ := b
    obtain ⟨x, e3, w, hk, hw⟩ := hb
    simp only [List.cons_append, entryChain, XNode.chain, listE]
    have : ∀ n, mapEntryE (evaluate h) c (.node .mapConstruct [] (.node .mapEntry [] k' v') n) e0 = .ok ((x, w), e1) := by
      intro n
      rw [mapEntry_run, bind_ok hk]
      show (do let v ← evaluate h c v'; pure (x, v) : E (XItem × XSeq)) e3 = _
      rw [bind_ok hw]
      rfl
    rw [bind_ok (this _)]
    exact bind_error (ih ha)

theorem step_error {h : Heap} {t : XNodeType} {n : Str} {l : XNode} {rev : Bool} {ps qs : List XNode} {p : XNode} {i : NodeId} {env env2 : Env}
    {w s r : XSeq} {x : XItem} {e : XErr} (ht : t ∈ axes) (hq : ∀ q ∈ ps, q.isNil = false) (hp : p.isNil = false)
    (hs : Value h [.node i] (.node t n l .nil) env w) (hf : Filters h rev env ps w (s ++ x :: r))
    (hl : Looked h rev p (s ++ x :: r).length 1 s env env2)
    (hx : evaluate h [x] p (atPos env2 (along rev (s ++ x :: r).length (s.length + 1)) (s ++ x :: r).length) = .error e) :
    evaluate h [.node i] (.node t n l (predChain rev (ps ++ p :: qs))) env = .error e := by
  unfold Value at hs
  rw [step_run ht] at hs ⊢
  unfold locStep at *
  rw [axisNodes_right h i t n l (predChain rev (ps ++ p :: qs)) .nil]
  cases hm : axisNodes h i (.node t n l .nil) with
  | none => rw [hm] at hs; cases hs
  | some m =>
    rw [hm] at hs
    simp only [XNode.right, XNode.chain, filterByPredicates, E.bind_run, E.pure_run, Except.ok.injEq, Prod.mk.injEq, and_true,
      toNodeset_ofNodes] at hs
    subst hs
    simp only [XNode.right]
    refine bind_error ?_
    clear hm
    generalize hS : s ++ x :: r = S at hf
    generalize XSeq.ofNodes m = w at hf
    induction hf with
    | nil =>
      subst hS
      rw [List.nil_append, filterByPredicates_chain]
      refine bind_error ?_
      unfold filterByPredicate
      rw [hp]
      exact filterLoop_error hl hx
    | @cons q ps w T v h1 h2 ih =>
      rw [List.cons_append, filterByPredicates_chain]
      simp only [E.bind_run]
      rw [h1.run (hq _ (by simp))]
      exact ih (fun q hq' => hq q (by simp [hq'])) hS

theorem callInline_error {h : Heap} {c : XSeq} {env : Env} {ps : List (Str × SType)} {r : SType} {body : XNode} {vs : List XSeq} {e : XErr}
    (H : List.Forall₂ (fun p v => Fit h p.2 v ∧ p.2.Matches h v) ps vs) (hb : evaluate h c body (bound env ps vs) = .error e) :
    callInline h (evaluate h) (inlineOf ps r body) vs c env = .error e := by
  unfold callInline
  rw [paramsOf_inline, bind_ok (bindParams_ok H env)]
  exact bind_error hb

theorem threads_all {α : Type} {R : α → Env → Env → Prop} {l : List α} {env : Env} (H : ∀ x ∈ l, R x env env) : Threads R l env env := by
  induction l with
  | nil => exact .nil
  | cons x l ih => exact .cons (H x (by simp)) (ih fun y hy => H y (by simp [hy]))

/-- **C87.** If the evaluation of an expression comes to evaluate one of its parts, and that fails, then the expression fails with the
same error. -/
theorem C87_part (h : Heap) (c c' : XSeq) (x y : XNode) (env env' : Env) (e : XErr) (hn : Next h c x env c' y env')
    (hf : Fails h c' y env' e) : Fails h c x env e := by
  refine ⟨?_, hf.2⟩
  obtain ⟨hf, -⟩ := hf
  rw [evaluate_eq]
  cases hn with
  | left ht hnil =>
    have h1 : evalOrEmpty (evaluate h) c y env = .error e := by unfold evalOrEmpty; rw [hnil]; exact hf
    simp only [leftFirst, twoSided, List.mem_append, List.mem_cons, List.not_mem_nil, or_false] at ht
    rcases ht with ht | ht
    · rcases ht with rfl | rfl | rfl | rfl | rfl | rfl | rfl | rfl | rfl | rfl | rfl | rfl | rfl | rfl | rfl | rfl | rfl | rfl | rfl | rfl |
        rfl | rfl | rfl | rfl | rfl | rfl | rfl <;> exact bind_error hf
    · rcases ht with rfl | rfl | rfl | rfl | rfl | rfl | rfl | rfl | rfl | rfl | rfl | rfl | rfl | rfl | rfl | rfl | rfl
      all_goals first | exact bind_error hf | exact bind_error h1 | exact h1
  | right ht ha =>
    simp only [twoSided, List.mem_cons, List.not_mem_nil, or_false] at ht
    rcases ht with rfl | rfl | rfl | rfl | rfl | rfl | rfl | rfl | rfl | rfl | rfl | rfl | rfl | rfl | rfl | rfl | rfl | rfl | rfl | rfl |
      rfl | rfl | rfl | rfl | rfl | rfl | rfl <;> exact (bind_ok ha).trans (bind_error hf)
  | sign ht => rcases ht with rfl | rfl <;> exact bind_error hf
  | or ha hb =>
    refine (bind_ok ha).trans ((bind_ok (a := liftE (XSeq.ebv _)) (by rw [ebv_of_spec hb]; rfl)).trans ?_)
    exact bind_error hf
  | and ha hb =>
    refine (bind_ok ha).trans ((bind_ok (a := liftE (XSeq.ebv _)) (by rw [ebv_of_spec hb]; rfl)).trans ?_)
    exact bind_error hf
  | branch ha hb =>
    refine (bind_ok ha).trans ?_
    refine (bind_ok (a := liftE (XSeq.ebv _)) (by rw [ebv_of_spec hb]; rfl)).trans ?_
    rename_i t
    cases t <;> exact hf
  | clause ht =>
    simp only [List.mem_cons, List.not_mem_nil, or_false] at ht
    rcases ht with rfl | rfl | rfl | rfl <;> exact hf
  | forItem ha H => exact (bind_ok ha).trans (forLoop_error H hf)
  | letBody ha => exact (bind_ok ha).trans ((bind_ok (modifyE_run _ _)).trans (bind_error hf))
  | someItem ha H => exact (bind_ok ha).trans (quantLoop_error true H hf)
  | everyItem ha H => exact (bind_ok ha).trans (quantLoop_error false H hf)
  | slash hb hna ha H =>
    refine (bind_ok (a := evalOrEmpty (evaluate h) c _) (by exact (congrFun (evalOrEmpty_of hna) env).trans ha)).trans ?_
    show (if y.isNil = true then _ else _ : E XSeq) _ = _
    rw [if_neg (by simp [hb])]
    unfold pathOver
    rw [isNoAtom_ofNodes, if_pos rfl]
    exact bind_error (pathLoop_error (f := fun i => evaluate h [i] y) H hf false)
  | bang hb hna ha H =>
    refine (bind_ok (a := evalOrEmpty (evaluate h) c _) (by exact (congrFun (evalOrEmpty_of hna) env).trans ha)).trans ?_
    show (if y.isNil = true then _ else _ : E XSeq) _ = _
    rw [if_neg (by simp [hb])]
    exact concatE_error H hf
  | filter hp ha H =>
    refine (bind_ok ha).trans ?_
    show filterByPredicate (evaluate h) _ y false _ = _
    unfold filterByPredicate
    rw [hp]
    exact filterLoop_error H hf
  | predicate ht hq hp hs hF hl =>
    rw [← evaluate_eq]
    exact step_error ht hq hp hs hF hl hf
  | argument H => exact bind_error (args_error H hf).1
  | itemArgument hg H => exact (bind_ok hg).trans (bind_error (args_error H hf).2)
  | member H => exact bind_error (members_error H hf)
  | key H =>
    exact bind_error (entries_error H fun n => by rw [mapEntry_run]; exact bind_error hf)
  | entry H hk =>
    refine bind_error (entries_error H fun n => ?_)
    rw [mapEntry_run, bind_ok hk]
    exact (bind_ok (a := liftE (XSeq.item1 [_])) rfl).trans (bind_error hf)

  | body hf' ha hm =>
    rw [← evaluate_eq, apply_run hf' ha]
    exact callInline_error hm hf
  | eachBody hx hf' hs hm =>
    rw [← evaluate_eq, higher_run hx hf' (g := .forEach) rfl]
    refine concatE_error (f := fun x => call h _ [[x]] c) (threads_all fun y hy => ?_) ?_
    · obtain ⟨v, hv⟩ := hs y hy
      exact ⟨v, call_of (by simp) hv⟩
    · rw [call_eq]
      exact callInline_error hm hf
  | filterBody hx hf' hs hm =>
    rw [← evaluate_eq, higher_run hx hf' (g := .filter) rfl]
    refine concatE_error (f := fun x => do
      let v ← call h _ [[x]] c
      let b ← liftE (XSeq.ebv v)
      pure (if b then [x] else [])) (threads_all fun y hy => ?_) ?_
    · obtain ⟨v, t, hv, ht⟩ := hs y hy
      refine ⟨_, (bind_ok (call_of (by simp) hv)).trans ((bind_ok (a := liftE (XSeq.ebv v)) (x := t) (env' := env) ?_).trans rfl)⟩
      rw [ebv_of_spec ht]; rfl
    · refine bind_error ?_
      rw [call_eq]
      exact callInline_error hm hf

/-- **C87.** The same for parts of parts. -/
theorem C87_nested (h : Heap) (c c' : XSeq) (x y : XNode) (env env' : Env) (e : XErr) (hn : Comes h c x env c' y env')
    (hf : Fails h c' y env' e) : Fails h c x env e := by
  induction hn with
  | here => exact hf
  | next h1 _ ih => exact C87_part h _ _ _ _ _ _ _ h1 (ih hf)

/-- **C87** for queries: an error on the way is the error of the query. (`C49_error` says what the other functions make of it.) -/
theorem C87_query (h : Heap) (start : NodeId) (q : Str) (x y : XNode) (c : XSeq) (env : Env) (e : XErr) (hq : Parser.compileXPath q = .ok x)
    (hn : Comes h [.node start] x Env.new c y env) (hf : Fails h c y env e) :
    ∃ N, ∀ n, N ≤ n → evalXPath h n start q = .error e := by
  obtain ⟨he, -⟩ := C87_nested h _ _ _ _ _ _ _ hn hf
  obtain ⟨N, hN⟩ := eval_of_evaluate h [.node start] x Env.new
  refine ⟨N, fun n hn => ?_⟩
  unfold evalXPath
  rw [hq]
  show matchXPath h n start x = _
  unfold matchXPath
  rw [hN n hn, he]

/-- The literal 1. -/
def one : XNode := .node .integerLiteral (S "1") .nil .nil

/-- The division `1 idiv $x`. -/
def byX : XNode := .node .operatorIDiv [] one (.node .varRef (S "x") .nil .nil)

/-- `for $x in (1, 0) return (1 idiv $x)`: the hypotheses of `C87_part` are met with the second turn, which fails. -/
example (h : Heap) (c : XSeq) (env : Env) (a : XNode) (ha : Value h c a env [.integer 1, .integer 0]) :
    Next h c (.node .forVarBind (S "x") a byX) env c byX (withVar env (S "x") [.integer 0]) ∧
    Fails h c byX (withVar env (S "x") [.integer 0]) .dynamicError := by
  have var : ∀ v, evaluate h c (.node .varRef (S "x") .nil .nil) (withVar env (S "x") v) = .ok (v, withVar env (S "x") v) := by
    intro v; rw [evaluate_eq]; rfl
  have lit : ∀ env, evaluate h c one env = .ok ([.integer 1], env) := by
    intro env; rw [evaluate_eq]; rfl
  refine ⟨.forItem (s := [.integer 1]) ha (.cons ⟨[.integer 1], ?_⟩ .nil), ?_, by simp⟩
  · unfold Gives byX
    rw [evaluate_eq]
    exact (bind_ok (lit _)).trans ((bind_ok (var _)).trans rfl)
  · unfold byX
    rw [evaluate_eq]
    exact (bind_ok (lit _)).trans ((bind_ok (var _)).trans rfl)

/-- Errors in several places. -/
example : evalXPath editSample 20 0 (S "(1, [2, map { 'a' : 1 idiv 0 }])") = .error .dynamicError ∧
    evalXPath editSample 20 0 (S "/a/*[. = 'x' or 1 idiv 0]") = .error .dynamicError ∧
    evalXPath editSample 20 0 (S "concat('a', string(1 idiv 0))") = .error .dynamicError ∧
    evalXPath editSample 20 0 (S "if (1 = 1) then 2 else 1 idiv 0") = .ok [.integer 2] := by
  refine ⟨?_, ?_, ?_, ?_⟩ <;> run_query

end Amxml
