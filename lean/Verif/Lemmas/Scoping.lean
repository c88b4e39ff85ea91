import Verif.Spec.Scoping
import Verif.Lemmas.Scope

/-!
# The evaluator follows the lexical meaning
-/

namespace Amxml
namespace Scoping
open Spec

/-- The entries of a variable, the innermost first. -/
def stack (env : Env) (n : Str) : List (Str × XSeq) := env.vars.filter fun b => b.1 == n

/-- `env'` is as `env` but for the variables in `Q`. -/
structure Frame (Q : List Str) (env env' : Env) : Prop where
  position : env'.position = env.position
  last : env'.last = env.last
  vars : ∀ n, n ∉ Q → stack env' n = stack env n

theorem Frame.refl {Q : List Str} (env : Env) : Frame Q env env := ⟨rfl, rfl, fun _ _ => rfl⟩

theorem Frame.trans {Q : List Str} {a b c : Env} (h : Frame Q a b) (k : Frame Q b c) : Frame Q a c :=
  ⟨k.position.trans h.position, k.last.trans h.last, fun n hn => (k.vars n hn).trans (h.vars n hn)⟩

theorem Frame.mono {Q Q' : List Str} {a b : Env} (h : Frame Q a b) (hq : ∀ n ∈ Q, n ∈ Q') : Frame Q' a b :=
  ⟨h.position, h.last, fun n hn => h.vars n fun hm => hn (hq n hm)⟩

theorem getVar_stack (env : Env) (n : Str) : env.getVar n = (stack env n).head?.map (·.2) := by
  unfold Env.getVar stack
  rw [List.head?_filter]

/-- The environment is what the expression sees of the scene. -/
structure Fits (F : List Str) (env : Env) (s : Scene) : Prop where
  position : env.position = s.position
  last : env.last = s.last
  vars : ∀ n ∈ F, (env.getVar n).getD [] = s.vars n

theorem Fits.frame {F Q : List Str} {env env' : Env} {s : Scene} (h : Fits F env s) (k : Frame Q env env') (hd : ∀ n ∈ F, n ∉ Q) :
    Fits F env' s :=
  ⟨k.position.trans h.position, k.last.trans h.last, fun n hn => by
    rw [getVar_stack, k.vars n (hd n hn), ← getVar_stack]; exact h.vars n hn⟩

theorem Fits.mono {F F' : List Str} {env : Env} {s : Scene} (h : Fits F env s) (hf : ∀ n ∈ F', n ∈ F) : Fits F' env s :=
  ⟨h.position, h.last, fun n hn => h.vars n (hf n hn)⟩

theorem Fits.over {F : List Str} {env : Env} {s : Scene} (h : Fits F env s) (i : XItem) : Fits F env (s.over i) :=
  ⟨h.position, h.last, h.vars⟩

theorem Fits.bind {F F' : List Str} {env : Env} {s : Scene} (h : Fits F env s) (n : Str) (v : XSeq) (hf : ∀ m ∈ F', m ≠ n → m ∈ F) :
    Fits F' (env.setVar n v) (s.bind n v) := by
  refine ⟨h.position, h.last, fun m hm => ?_⟩
  by_cases e : m = n
  · subst e
    simp [Env.getVar, Env.setVar, Scene.bind]
  · have e' : ¬ n = m := fun k => e k.symm
    have := h.vars m (hf m hm e)
    simp only [Scene.bind, e, if_false]
    rw [← this]
    simp [Env.getVar, Env.setVar, e']

theorem stack_setVar (env : Env) (n m : Str) (v : XSeq) :
    stack (env.setVar n v) m = if n = m then (n, v) :: stack env m else stack env m := by
  unfold stack Env.setVar
  by_cases e : n = m <;> simp [e]

theorem stack_removeVar (env : Env) (n m : Str) :
    stack (env.removeVar n) m = if n = m then (stack env m).tail else stack env m := by
  unfold stack Env.removeVar
  simp only
  generalize env.vars = l
  induction l with
  | nil => simp [removeFirst]
  | cons b l ih =>
    unfold removeFirst
    by_cases e : b.1 = n
    · by_cases e' : n = m
      · subst e'; simp [e]
      · simp [e, e']
    · by_cases e' : n = m
      · subst e'
        rw [if_pos rfl] at ih
        simp [e, ih]
      · rw [if_neg e'] at ih
        simp [e, e', List.filter_cons, ih]

/-- Binding a variable, a body, removing the variable. -/
theorem Frame.scope {Q : List Str} {env env' : Env} {n : Str} {v : XSeq} (h : Frame Q (env.setVar n v) env') :
    Frame Q env (env'.removeVar n) := by
  refine ⟨h.position, h.last, fun m hm => ?_⟩
  rw [stack_removeVar, h.vars m hm, stack_setVar]
  by_cases e : n = m
  · subst e; simp
  · simp [e]

/-- Binding a variable that stays behind. -/
theorem Frame.stay {Q : List Str} {env env' : Env} {n : Str} {v : XSeq} (hn : n ∈ Q) (h : Frame Q (env.setVar n v) env') :
    Frame Q env env' := by
  refine ⟨h.position, h.last, fun m hm => ?_⟩
  have e : ¬ n = m := fun e => hm (e ▸ hn)
  rw [h.vars m hm, stack_setVar, if_neg e]

/-- The outcome of an evaluation is the meaning: both have the same value, and only variables in `Q` changed; or both fail, with the
same error unless the evaluation stops with a type error. -/
inductive Runs {α : Type} (Q : List Str) (env : Env) : Except XErr (α × Env) → Except XErr α → Prop where
  | ok {v : α} {env' : Env} : Frame Q env env' → Runs Q env (.ok (v, env')) (.ok v)
  | error {e e' : XErr} (he : e = e' ∨ e = .typeError := by first | exact .inl rfl | exact .inr rfl) : Runs Q env (.error e) (.error e')

namespace Runs
variable {α β : Type} {Q : List Str} {env : Env}

theorem pure (v : α) : Runs Q env ((Pure.pure v : E α) env) (.ok v) := .ok (Frame.refl env)

theorem lift (r : Except XErr α) : Runs Q env (liftE r env) r := by
  cases r with
  | ok v => exact .ok (Frame.refl env)
  | error e => exact .error

theorem bind {a : E α} {f : α → E β} {r : Except XErr α} {g : α → Except XErr β} (ha : Runs Q env (a env) r)
    (hf : ∀ v env', Frame Q env env' → Runs Q env' (f v env') (g v)) : Runs Q env ((a >>= f) env) (r >>= g) := by
  rw [E.bind_run]
  generalize a env = o at ha
  cases ha with
  | ok fr =>
    rename_i v env'
    have := hf v env' fr
    show Runs Q env (f v env') (g v)
    generalize f v env' = o at this
    generalize g v = r at this
    cases this with
    | ok fr' => exact .ok (fr.trans fr')
    | error he => exact .error he
  | error he => exact .error he

theorem mono {Q' : List Str} {o : Except XErr (α × Env)} {r : Except XErr α} (h : Runs Q env o r) (hq : ∀ n ∈ Q, n ∈ Q') :
    Runs Q' env o r := by
  cases h with
  | ok fr => exact .ok (fr.mono hq)
  | error he => exact .error he

/-- With something made of the value. -/
theorem map {a : E α} {f : α → β} {r : Except XErr α} (ha : Runs Q env (a env) r) :
    Runs Q env ((a >>= fun v => Pure.pure (f v)) env) (r >>= fun v => Pure.pure (f v)) :=
  bind ha fun _ _ _ => .ok (Frame.refl _)

theorem listE {f : α → E β} {g : α → Except XErr β} (l : List α)
    (H : ∀ x ∈ l, ∀ env', Frame Q env env' → Runs Q env' (f x env') (g x)) : Runs Q env (Amxml.listE f l env) (l.mapM g) := by
  induction l generalizing env with
  | nil => exact .ok (Frame.refl _)
  | cons x l ih =>
    rw [List.mapM_cons]
    refine bind (H x (by simp) _ (Frame.refl _)) fun v env' fr => ?_
    refine bind (ih fun y hy env'' fr' => H y (by simp [hy]) _ (fr.trans fr')) fun vs _ _ => .ok (Frame.refl _)

theorem concatE {f : XItem → E XSeq} {g : XItem → Except XErr XSeq} (l : XSeq)
    (H : ∀ x ∈ l, ∀ env', Frame Q env env' → Runs Q env' (f x env') (g x)) :
    Runs Q env (Amxml.concatE f l env) (l.mapM g >>= fun vs => .ok vs.flatten) := by
  have e : Amxml.concatE f l = (Amxml.listE f l >>= fun vs => Pure.pure vs.flatten) := by
    clear H
    induction l with
    | nil => rfl
    | cons x l ih =>
      simp only [Amxml.concatE, Amxml.listE, ih, bind_assoc, pure_bind, List.flatten_cons]
  rw [e]
  exact bind (listE l H) fun vs _ _ => .ok (Frame.refl _)

theorem filterLoop {ev : Evaluator} {p : XNode} {g : Nat → XItem → Except XErr XSeq} (rev : Bool) (last : Nat) (q : XSeq) (i : Nat)
    (H : ∀ x ∈ q, ∀ k env', Frame Q env env' → Runs Q env' (atPosition ev p k last x env') (g k x)) (hl : i + q.length = last) :
    Runs Q env (Amxml.filterLoop ev p rev last i q env) (do
      let vs ← (q.zipIdx i).mapM fun e => do
        let v ← g (along rev last (e.2 + 1)) e.1
        Pure.pure (if selects (along rev last (e.2 + 1)) v then [e.1] else [])
      Pure.pure vs.flatten) := by
  induction q generalizing env i with
  | nil => exact .ok (Frame.refl _)
  | cons x q ih =>
    simp only [List.zipIdx_cons, List.mapM_cons, bind_assoc, pure_bind]
    have ek : (if rev then last - i else i + 1) = along rev last (i + 1) := by
      unfold along
      cases rev
      · rfl
      · simp only [if_true]; omega
    show Runs Q env ((_ >>= fun v => _ >>= fun r => Pure.pure _ : E XSeq) env) _
    rw [ek]
    refine bind (H x (by simp) _ _ (Frame.refl _)) fun v env' fr => ?_
    have := ih (i := i + 1) (env := env') (fun y hy k env'' fr' => H y (by simp [hy]) _ _ (fr.trans fr'))
      (by simp only [List.length_cons] at hl; omega)
    have hk : keeps (along rev last (i + 1)) v = selects (along rev last (i + 1)) v := by
      unfold keeps selects
      rcases v with _ | ⟨a, _ | ⟨b, v⟩⟩
      · rfl
      · cases a <;> rfl
      · cases a <;> rfl
    have := bind (f := fun r => Pure.pure (if keeps (along rev last (i + 1)) v then x :: r else r)) (g := fun r => .ok (if selects (along rev last (i + 1)) v then x :: r else r)) this fun vs _ _ => by
      rw [hk]; exact .ok (Frame.refl _)
    refine Eq.mp ?_ this
    congr 1
    simp only [bind_assoc, pure_bind]
    congr 1
    funext vs
    show Except.ok _ = Except.ok _
    rw [List.flatten_cons]
    split <;> rfl

theorem filtered {ev : Evaluator} {p : XNode} {m : Scene → Except XErr XSeq} (rev : Bool) (q : XSeq) {s : Scene}
    (H : ∀ x ∈ q, ∀ k env', Frame Q env env' → Runs Q env' (atPosition ev p k q.length x env') (m (s.item x k q.length))) :
    Runs Q env (filterByPredicate ev q p rev env) (if p.isNil then .error .cantOccur else Spec.filtered rev m s q) := by
  unfold filterByPredicate
  split
  · exact .error
  · exact filterLoop rev q.length q 0 H (by simp)

theorem atPosition {ev : Evaluator} {p : XNode} {r : Except XErr XSeq} {x : XItem} {k last : Nat}
    (H : Runs Q { env with position := k, last := last } (ev [x] p { env with position := k, last := last }) r) :
    Runs Q env (Amxml.atPosition ev p k last x env) r := by
  unfold Amxml.atPosition
  generalize ev [x] p { env with position := k, last := last } = o at H
  cases H with
  | ok fr => exact .ok ⟨rfl, rfl, fr.vars⟩
  | error he => exact .error he

theorem forLoop {b : E XSeq} {g : XItem → Except XErr XSeq} {n : Str} (q : XSeq)
    (H : ∀ x ∈ q, ∀ env', Frame Q env env' → Runs Q (env'.setVar n [x]) (b (env'.setVar n [x])) (g x)) :
    Runs Q env (Amxml.forLoop n b q env) (q.mapM g >>= fun vs => .ok vs.flatten) := by
  have e : Amxml.forLoop n b q = Amxml.concatE (fun x => do
      modifyE fun env => env.setVar n [x]
      let v ← b
      modifyE fun env => env.removeVar n
      Pure.pure v) q := by
    clear H
    induction q with
    | nil => rfl
    | cons x l ih => simp only [Amxml.concatE, Amxml.forLoop, ih, bind_assoc, pure_bind]
  rw [e]
  refine concatE q fun x hx env' fr => ?_
  have := H x hx env' fr
  rw [E.bind_run, modifyE_run]
  simp only
  rw [E.bind_run]
  generalize b (env'.setVar n [x]) = o at this
  generalize g x = r at this
  cases this with
  | ok fr' => exact .ok fr'.scope
  | error he => exact .error he

theorem letBind {b : E XSeq} {r : Except XErr XSeq} {n : Str} {v : XSeq}
    (H : Runs Q (env.setVar n v) (b (env.setVar n v)) r) : Runs Q env ((do
      modifyE fun env => env.setVar n v
      let r ← b
      modifyE fun env => env.removeVar n
      Pure.pure r : E XSeq) env) r := by
  rw [E.bind_run, modifyE_run]
  simp only
  rw [E.bind_run]
  generalize b (env.setVar n v) = o at H
  cases H with
  | ok fr' => exact .ok fr'.scope
  | error he => exact .error he

/-- `some` (`stop = true`) and `every`. -/
def quantM (stop : Bool) (F : XItem → Except XErr Bool) (q : XSeq) : Except XErr Bool := if stop then q.anyM F else q.allM F

theorem quantM_cons (stop : Bool) (F : XItem → Except XErr Bool) (x : XItem) (q : XSeq) :
    quantM stop F (x :: q) = (F x >>= fun t => if t = stop then .ok stop else quantM stop F q) := by
  cases stop
  · show List.allM F (x :: q) = _
    rw [List.allM]; congr 1; funext t; cases t <;> rfl
  · show List.anyM F (x :: q) = _
    rw [List.anyM]; congr 1; funext t; cases t <;> rfl

theorem quantLoop {b : E XSeq} {g : XItem → Except XErr XSeq} {n : Str} (hn : n ∈ Q) (stop : Bool) (q : XSeq)
    (H : ∀ x ∈ q, ∀ env', Frame Q env env' → Runs Q (env'.setVar n [x]) (b (env'.setVar n [x])) (g x)) :
    Runs Q env (Amxml.quantLoop n stop b q env) (quantM stop (fun i => g i >>= XSeq.ebv) q >>= fun t => .ok [.boolean t]) := by
  induction q generalizing env with
  | nil => cases stop <;> exact .ok (Frame.refl _)
  | cons x q ih =>
    unfold Amxml.quantLoop
    rw [E.bind_run, modifyE_run]
    simp only
    rw [E.bind_run, quantM_cons]
    have h1 := H x (by simp) env (Frame.refl _)
    have h2 : ∀ env', Frame Q env env' → _ := fun env' fr => ih (env := env') fun y hy env'' fr' => H y (by simp [hy]) env'' (fr.trans fr')
    generalize b (env.setVar n [x]) = o at h1
    generalize g x = r at h1
    cases h1 with
    | error he => exact .error he
    | ok fr =>
      rename_i v env'
      simp only
      rw [E.bind_run]
      show Runs Q env _ ((XSeq.ebv v >>= fun t => if t = stop then .ok stop else quantM stop (fun i => g i >>= XSeq.ebv) q) >>=
        fun t => .ok [XItem.boolean t])
      cases XSeq.ebv v with
      | error e => exact .error
      | ok t =>
        show Runs Q env ((if t = stop then Pure.pure (xbool stop) else _ : E XSeq) env')
          ((if t = stop then .ok stop else quantM stop (fun i => g i >>= XSeq.ebv) q) >>= fun t => .ok [XItem.boolean t])
        by_cases e : t = stop
        · rw [if_pos e, if_pos e]
          exact .ok (fr.stay hn)
        · rw [if_neg e, if_neg e]
          have h2 := h2 _ fr.scope
          rw [E.bind_run, modifyE_run]
          simp only
          generalize Amxml.quantLoop n stop b q (env'.removeVar n) = o at h2 ⊢
          generalize (quantM stop (fun i => g i >>= XSeq.ebv) q >>= fun t => .ok [XItem.boolean t]) = r' at h2 ⊢
          cases h2 with
          | ok fr' => exact .ok (fr.scope.trans fr')
          | error he => exact .error he

/-- The result unless there is a mixture. -/
def notBoth {α : Type} (b : Bool) (r : α) : Except XErr α := if b then .error .typeError else .ok r

/-- The loop of a path: with `node`, `atom` telling what came before. -/
theorem pathLoop {f : XItem → E XSeq} {g : XItem → Except XErr XSeq} (q : XSeq) (node atom : Bool) (hna : ¬ (node && atom) = true)
    (H : ∀ x ∈ q, ∀ env', Frame Q env env' → Runs Q env' (f x env') (g x)) :
    Runs Q env (Amxml.pathLoop f node atom q env) (q.mapM g >>= fun vs =>
      notBoth ((node || (vs.filter fun v => !v.isEmpty).any XSeq.isNoAtom) && (atom || (vs.filter fun v => !v.isEmpty).any fun v => !XSeq.isNoAtom v))
        (node || (vs.filter fun v => !v.isEmpty).any XSeq.isNoAtom, vs.flatten)) := by
  induction q generalizing env node atom with
  | nil =>
    rw [List.mapM_nil]
    show Runs Q env (.ok ((node, []), env)) (notBoth ((node || false) && (atom || false)) (node || false, []))
    rw [Bool.or_false, Bool.or_false]
    unfold notBoth
    rw [if_neg hna]
    exact .ok (Frame.refl _)
  | cons x q ih =>
    rw [List.mapM_cons]
    unfold Amxml.pathLoop
    rw [bind_assoc]
    refine bind (H x (by simp) env (Frame.refl _)) fun v env' fr => ?_
    have hrest : ∀ y ∈ q, ∀ env'', Frame Q env' env'' → Runs Q env'' (f y env'') (g y) :=
      fun y hy env'' fr' => H y (by simp [hy]) env'' (fr.trans fr')
    rw [bind_assoc]
    simp only [pure_bind]
    by_cases hv : v.isEmpty = true
    · have hv' : v = [] := by simpa using hv
      subst hv'
      exact ih node atom hna hrest
    · rw [if_neg hv]
      have he : (!v.isEmpty) = true := by simpa using hv
      simp only [List.filter_cons, he, if_true, List.any_cons, List.flatten_cons]
      by_cases hm : ((node || XSeq.isNoAtom v) && (atom || !XSeq.isNoAtom v)) = true
      · rw [if_pos hm]
        cases q.mapM g with
        | error e => exact .error
        | ok vs =>
          simp only [Bind.bind, Except.bind]
          generalize (vs.filter _).any XSeq.isNoAtom = u
          generalize (vs.filter _).any (fun v => !XSeq.isNoAtom v) = w
          have : ((node || (XSeq.isNoAtom v || u)) && (atom || (!XSeq.isNoAtom v || w))) = true := by
            revert hm
            cases node <;> cases atom <;> cases XSeq.isNoAtom v <;> simp
          rw [this]
          exact .error
      · rw [if_neg hm]
        have := ih (env := env') (node || XSeq.isNoAtom v) (atom || !XSeq.isNoAtom v) hm hrest
        have := bind (f := fun r => Pure.pure (r.1, v ++ r.2)) (g := fun r => .ok (r.1, v ++ r.2)) this fun r _ _ => .ok (Frame.refl _)
        refine Eq.mp ?_ this
        congr 1
        rw [bind_assoc]
        congr 1
        funext vs
        simp only [Bool.or_assoc]
        generalize (vs.filter _).any XSeq.isNoAtom = u
        generalize (vs.filter _).any (fun v => !XSeq.isNoAtom v) = w
        generalize (node || (XSeq.isNoAtom v || u)) = u'
        generalize (atom || (!XSeq.isNoAtom v || w)) = w'
        cases u' <;> cases w' <;> rfl

theorem any_all {l : List XSeq} {p : XSeq → Bool} : (l.any p) = !(l.all fun x => !p x) := by
  induction l with
  | nil => rfl
  | cons x l ih => simp only [List.any_cons, List.all_cons, ih]; cases p x <;> simp

theorem pathOver (h : Heap) {f : XItem → E XSeq} {g : XItem → Except XErr XSeq} (q : XSeq)
    (H : ∀ x ∈ q, ∀ env', Frame Q env env' → Runs Q env' (f x env') (g x)) :
    Runs Q env (Amxml.pathOver h f q env) (if XSeq.isNoAtom q then q.mapM g >>= joined h else .error .typeError) := by
  unfold Amxml.pathOver
  split
  · have := pathLoop q false false (by simp) H
    have := bind (f := fun r => if r.1 then Pure.pure (XSeq.ofNodes (sortByDocOrder h (XSeq.toNodeset r.2))) else Pure.pure r.2)
      (g := fun r => .ok (if r.1 then XSeq.ofNodes (sortByDocOrder h (XSeq.toNodeset r.2)) else r.2)) this
      (fun r env' fr => by split <;> exact .ok (Frame.refl _))
    refine Eq.mp ?_ this
    congr 1
    rw [bind_assoc]
    congr 1
    funext vs
    have hfl : vs.flatten = (vs.filter fun v => !v.isEmpty).flatten := by
      induction vs with
      | nil => rfl
      | cons v vs ih => cases v <;> simp [ih]
    unfold joined
    simp only [Bool.false_or]
    rw [hfl]
    generalize (vs.filter fun v => !v.isEmpty) = ws
    rw [any_all (p := XSeq.isNoAtom), any_all (p := fun v => !XSeq.isNoAtom v)]
    simp only [Bool.not_not]
    cases h1 : ws.all XSeq.isNoAtom <;> cases h2 : ws.all (fun v => !XSeq.isNoAtom v)
    · rfl
    · rfl
    · rfl
    · have : ws = [] := by
        cases ws with
        | nil => rfl
        | cons w ws => simp only [List.all_cons, Bool.and_eq_true] at h1 h2; simp [h1.1] at h2
      subst this
      rfl
  · exact .error

end Runs

/-! ## The expressions -/

/-- `y` is evaluated as a part of `x`. -/
structure Part (y x : XNode) : Prop where
  callFree : CallFree y
  named : WellNamed y
  free : ∀ n ∈ freeVars y, n ∈ freeVars x
  quant : ∀ n ∈ quantified y, n ∈ quantified x

theorem _root_.Amxml.Spec.WellNamed.apart {x : XNode} (h : WellNamed x) : ∀ n ∈ freeVars x, n ∉ quantified x := by
  cases x with
  | nil => intro n hn; cases hn
  | node t m l r => exact h.1

theorem Part.trans {z y x : XNode} (h : Part z y) (k : Part y x) : Part z x :=
  ⟨h.callFree, h.named, fun n hn => k.free n (h.free n hn), fun n hn => k.quant n (h.quant n hn)⟩

theorem Part.refl {x : XNode} (h : CallFree x) (k : WellNamed x) : Part x x := ⟨h, k, fun _ => id, fun _ => id⟩

/-- The left side, of any expression. -/
theorem Part.left {t : XNodeType} {n : Str} {l r x : XNode} (h : Part (.node t n l r) x) : Part l x := by
  refine Part.trans ⟨h.callFree.2.1, h.named.2.1, fun m hm => ?_, fun m hm => ?_⟩ h
  · unfold freeVars
    split <;> simp_all
  · unfold quantified
    simp [hm]

/-- The right side of an expression that binds no variable there. -/
theorem Part.right {t : XNodeType} {n : Str} {l r x : XNode} (h : Part (.node t n l r) x)
    (ht : t ≠ .forVarBind ∧ t ≠ .letVarBind ∧ t ≠ .someVarBind ∧ t ≠ .everyVarBind) : Part r x := by
  refine Part.trans ⟨h.callFree.2.2, h.named.2.2, fun m hm => ?_, fun m hm => ?_⟩ h
  · unfold freeVars
    split <;> simp_all
  · unfold quantified
    simp [hm]

/-- What is to be shown of an expression. -/
def Good (h : Heap) (y : XNode) : Prop := ∀ c env s, CallFree y → WellNamed y → s.context = c → Fits (freeVars y) env s →
  Runs (quantified y) env (evaluate h c y env) (meaning h y s)

theorem Good.part {h : Heap} {y x : XNode} (H : Good h y) (p : Part y x) {c : XSeq} {env : Env} {s : Scene} (hc : s.context = c)
    (hf : Fits (freeVars x) env s) : Runs (quantified x) env (evaluate h c y env) (meaning h y s) :=
  (H c env s p.callFree p.named hc (hf.mono p.free)).mono p.quant

theorem chain_node (t : XNodeType) (n : Str) (l r : XNode) :
    (XNode.node t n l r).chain = if t = .nil then [] else .node t n l r :: r.chain := by
  cases t <;> rfl

/-- What is to be shown of the parts of an expression. -/
def GoodIn (h : Heap) (k : Nat) : Prop := ∀ y, sizeOf y < k → Good h y

variable {h : Heap} {k : Nat}

theorem orEmpty {y x : XNode} (H : Good h y) (p : Part y x) {c : XSeq} {env : Env} {s : Scene} (hc : s.context = c)
    (hf : Fits (freeVars x) env s) :
    Runs (quantified x) env (evalOrEmpty (evaluate h) c y env) (if y.isNil then .ok [] else meaning h y s) := by
  unfold evalOrEmpty
  split
  · exact .ok (Frame.refl _)
  · exact H.part p hc hf

theorem predicates_run {x : XNode} (hw : WellNamed x) (r : XNode) (H : GoodIn h (sizeOf r + 1)) (p : Part r x) {env : Env} {s : Scene}
    (hf : Fits (freeVars x) env s) (q : XSeq) :
    Runs (quantified x) env (filterByPredicates (evaluate h) r.chain q env) (predicates h r s q) := by
  induction r generalizing env q with
  | nil => exact .ok (Frame.refl _)
  | node t n l r _ ih =>
    rw [chain_node]
    have hl : Good h l := H l (by simp; omega)
    have hr : GoodIn h (sizeOf r + 1) := fun y hy => H y (by simp; omega)
    have main : ∀ rev : Bool, (∀ n ∈ freeVars r, n ∈ freeVars x) → Part r x → Runs (quantified x) env
        ((filterByPredicate (evaluate h) q l rev >>= fun q' => filterByPredicates (evaluate h) r.chain q') env)
        (if l.isNil then .error .cantOccur else (Spec.filtered rev (meaning h l) s q >>= fun q' => predicates h r s q')) := by
      intro rev _ pr
      have h1 : Runs (quantified x) env (filterByPredicate (evaluate h) q l rev env)
          (if l.isNil then .error .cantOccur else Spec.filtered rev (meaning h l) s q) := by
        refine Runs.filtered rev q fun i hi k env' fr => Runs.atPosition ?_
        have hf' := hf.frame fr hw.apart
        exact hl.part p.left rfl ⟨rfl, rfl, hf'.vars⟩
      have := Runs.bind (f := fun q' => filterByPredicates (evaluate h) r.chain q') (g := fun q' => predicates h r s q') h1
        fun q' env' fr => ih hr pr (hf.frame fr hw.apart) q'
      revert this
      cases l.isNil <;> exact id
    by_cases hn : t = .nil
    · subst hn
      exact .ok (Frame.refl _)
    rw [if_neg hn]
    by_cases h1 : t = .predicateTop
    · subst h1
      have pr : Part r x := p.right (by decide)
      exact main false pr.free pr
    by_cases h2 : t = .predicateRevTop
    · subst h2
      have pr : Part r x := p.right (by decide)
      exact main true pr.free pr
    have e : filterByPredicates (evaluate h) (.node t n l r :: r.chain) q = liftE (.error .cantOccur) := by
      unfold filterByPredicates
      cases t <;> first | rfl | contradiction
    have e' : predicates h (.node t n l r) s q = .error .cantOccur := by
      unfold predicates
      cases t <;> first | rfl | contradiction
    rw [e, e']
    exact .error

theorem arguments_run {x : XNode} (hw : WellNamed x) (r : XNode) (H : GoodIn h (sizeOf r + 1)) (p : Part r x) {c : XSeq} {env : Env} {s : Scene}
    (hc : s.context = c) (hf : Fits (freeVars x) env s) :
    Runs (quantified x) env (listE (callArg (evaluate h) c) r.chain env) (arguments h r s) := by
  induction r generalizing env with
  | nil => exact .ok (Frame.refl _)
  | node t n l r _ ih =>
    rw [chain_node]
    have hl : Good h l := H l (by simp; omega)
    have hr : GoodIn h (sizeOf r + 1) := fun y hy => H y (by simp; omega)
    by_cases hn : t = .nil
    · subst hn
      exact .ok (Frame.refl _)
    rw [if_neg hn]
    by_cases h1 : t = .argumentTop
    · subst h1
      have pr : Part r x := p.right (by decide)
      exact Runs.bind (hl.part p.left hc hf) fun v env' fr =>
        Runs.bind (ih hr pr (hf.frame fr hw.apart)) fun vs _ _ => .ok (Frame.refl _)
    have e : callArg (evaluate h) c (.node t n l r) = liftE (.error .cantOccur) := by
      unfold callArg
      cases t <;> first | rfl | contradiction
    have e' : arguments h (.node t n l r) s = .error .cantOccur := by
      unfold arguments
      cases t <;> first | rfl | contradiction
    rw [e']
    unfold listE
    rw [E.bind_run, e]
    exact .error

theorem members_run {x : XNode} (hw : WellNamed x) (r : XNode) (H : GoodIn h (sizeOf r + 1)) (p : Part r x) {c : XSeq} {env : Env} {s : Scene}
    (hc : s.context = c) (hf : Fits (freeVars x) env s) :
    Runs (quantified x) env (listE (arrayEntryE (evaluate h) c) r.chain env) (members h r s) := by
  induction r generalizing env with
  | nil => exact .ok (Frame.refl _)
  | node t n l r _ ih =>
    rw [chain_node]
    have hl : Good h l := H l (by simp; omega)
    have hr : GoodIn h (sizeOf r + 1) := fun y hy => H y (by simp; omega)
    by_cases hn : t = .nil
    · subst hn
      exact .ok (Frame.refl _)
    rw [if_neg hn]
    by_cases h1 : t = .arrayEntry
    · subst h1
      have pr : Part r x := p.right (by decide)
      exact Runs.bind (hl.part p.left hc hf) fun v env' fr =>
        Runs.bind (ih hr pr (hf.frame fr hw.apart)) fun vs _ _ => .ok (Frame.refl _)
    have e : arrayEntryE (evaluate h) c (.node t n l r) = liftE (.error .cantOccur) := by
      unfold arrayEntryE
      exact if_pos h1
    have e' : members h (.node t n l r) s = .error .cantOccur := by
      unfold members
      cases t <;> first | rfl | contradiction
    rw [e']
    unfold listE
    rw [E.bind_run, e]
    exact .error

theorem entries_run {x : XNode} (hw : WellNamed x) (r : XNode) (H : GoodIn h (sizeOf r + 1)) (p : Part r x) {c : XSeq} {env : Env} {s : Scene}
    (hc : s.context = c) (hf : Fits (freeVars x) env s) :
    Runs (quantified x) env (listE (mapEntryE (evaluate h) c) r.chain env) (entries h r s) := by
  induction r generalizing env with
  | nil => exact .ok (Frame.refl _)
  | node t n l r _ ih =>
    rw [chain_node]
    have hr : GoodIn h (sizeOf r + 1) := fun y hy => H y (by simp; omega)
    by_cases hn : t = .nil
    · subst hn
      exact .ok (Frame.refl _)
    rw [if_neg hn]
    have fail : ∀ {a : E (XItem × XSeq)} {f}, a = liftE (.error .cantOccur) → entries h (.node t n l r) s = .error .cantOccur →
        Runs (quantified x) env ((a >>= f) env : Except XErr (List (XItem × XSeq) × Env)) (entries h (.node t n l r) s) := by
      intro a f e e'
      rw [e', E.bind_run, e]
      exact .error
    by_cases h1 : t = .mapConstruct
    · subst h1
      have pr : Part r x := p.right (by decide)
      cases l with
      | nil => exact fail rfl rfl
      | node t' n' kx vx =>
        by_cases h2 : t' = .mapEntry
        · subst h2
          have hk : Good h kx := H kx (by simp; omega)
          have hv : Good h vx := H vx (by simp; omega)
          have e1 : entries h (.node .mapConstruct n (.node .mapEntry n' kx vx) r) s = (do
              let e ← (do
                let k ← meaning h kx s
                let k ← XSeq.item1 k
                let v ← meaning h vx s
                pure (k, v))
              let es ← entries h r s
              pure (e :: es)) := by
            rw [entries]
            simp only [bind_assoc, pure_bind]
          rw [e1]
          refine Runs.bind (a := mapEntryE (evaluate h) c (.node .mapConstruct n (.node .mapEntry n' kx vx) r)) ?_ fun v env' fr =>
            Runs.bind (ih hr pr (hf.frame fr hw.apart)) fun vs _ _ => .ok (Frame.refl _)
          exact Runs.bind (hk.part p.left.left hc hf) fun kv env' fr => Runs.bind (Runs.lift _) fun k' env'' fr' =>
            Runs.bind (hv.part (p.left.right (by decide)) hc (hf.frame (fr.trans fr') hw.apart)) fun _ _ _ => .ok (Frame.refl _)
        · refine fail ?_ ?_
          · unfold mapEntryE
            rw [if_neg (by simp [XNode.ty]), if_pos (by simpa [XNode.ty, XNode.left] using h2)]
          · unfold entries
            cases t' <;> first | rfl | contradiction
    · refine fail ?_ ?_
      · unfold mapEntryE
        exact if_pos h1
      · unfold entries
        cases t <;> first | rfl | contradiction

/-- A library function sees of the environment the focus only. -/
theorem library_run (call : XNode → List XSeq → XSeq → E XSeq) {Q : List Str} {f : Str} (hn : f ∉ callers) (vs : List XSeq) {env : Env} {s : Scene}
    (hp : env.position = s.position) (hl : env.last = s.last) :
    Runs Q env (evaluateFunction h call f vs s.context env) (library h f vs s) := by
  have h1 : f ≠ S "fn:for-each" := fun e => hn (by rw [e]; exact List.mem_cons_self ..)
  have h2 : f ≠ S "fn:filter" := fun e => hn (by rw [e]; exact List.mem_cons_of_mem _ (List.mem_cons_self ..))
  unfold library evaluateFunction
  have hq := findCtxFn_quiet (k := vs.length) h1 h2
  have lift : ∀ r : Except XErr XSeq, Runs Q env (liftE r env) ((liftE r (⟨s.position, s.last, []⟩ : Env)).map fun r => r.1) := by
    intro r
    cases r with
    | ok v => exact .ok (Frame.refl _)
    | error e => exact .error
  cases hf : findCtxFn f vs.length with
  | some g =>
    cases g <;> first
      | exact lift _
      | (exact absurd hf hq.1)
      | (exact absurd hf hq.2)
      | (simp only [applyCtxFn, hp, hl]; exact .ok (Frame.refl _))
  | none =>
    cases findPureFn f vs.length with
    | some g => exact lift _
    | none => exact lift _

/-- The body of a binding. -/
theorem body_run {t : XNodeType} {n : Str} {l r : XNode} (ht : t = .forVarBind ∨ t = .letVarBind ∨ t = .someVarBind ∨ t = .everyVarBind)
    (hc : CallFree (.node t n l r)) (hw : WellNamed (.node t n l r)) (H : Good h r) {s : Scene} {env : Env} (v : XSeq)
    (hf : Fits (freeVars (.node t n l r)) env s) :
    Runs (quantified (.node t n l r)) (env.setVar n v) (evaluate h s.context r (env.setVar n v)) (meaning h r (s.bind n v)) := by
  refine (H s.context _ (s.bind n v) hc.2.2 hw.2.2 rfl (hf.bind n v fun m hm hn => ?_)).mono fun m hm => ?_
  · rcases ht with rfl | rfl | rfl | rfl <;> simp [freeVars, hm, hn]
  · unfold quantified
    simp [hm]

theorem step_run (H : GoodIn h k) {t : XNodeType} {n : Str} {l r : XNode} (hk : sizeOf (XNode.node t n l r) < k + 1) :
    Good h (.node t n l r) := by
  intro c env s hc hw hctx hf
  subst hctx
  have hl : Good h l := H l (by simp at hk; omega)
  have hr : Good h r := H r (by simp at hk; omega)
  have hrs : GoodIn h (sizeOf r + 1) := fun y hy => H y (by simp at hk; omega)
  have hls : GoodIn h (sizeOf l + 1) := fun y hy => H y (by simp at hk; omega)
  have p := Part.refl hc hw
  have pl := p.left
  have keep : ∀ {env'}, Frame (quantified (.node t n l r)) env env' → Fits (freeVars (.node t n l r)) env' s := fun fr => hf.frame fr hw.apart
  have hL := fun (env' : Env) fr => hl.part (c := s.context) (env := env') (s := s) pl rfl (keep fr)
  have hL0 := hL env (Frame.refl env)
  have hR := fun (pr : t ≠ .forVarBind ∧ t ≠ .letVarBind ∧ t ≠ .someVarBind ∧ t ≠ .everyVarBind) (env' : Env) fr =>
    hr.part (c := s.context) (env := env') (s := s) (p.right pr) rfl (keep fr)
  have hloc : t ∈ axes → Runs (quantified (.node t n l r)) env (locationPath h (evaluate h) s.context (.node t n l r) env) (do
      let vs ← (XSeq.toNodeset s.context).mapM fun i =>
        match axisNodes h i (.node t n l r) with
        | none => .error .cantOccur
        | some ns => predicates h r s (XSeq.ofNodes ns)
      pure (XSeq.ofNodes (vs.flatMap XSeq.toNodeset))) := by
    intro hax
    have pr := p.right (by
      refine ⟨?_, ?_, ?_, ?_⟩ <;> (rintro rfl; revert hax; decide))
    refine Runs.bind (Runs.listE _ fun i _ env' fr => ?_) fun _ _ _ => .ok (Frame.refl _)
    unfold locStep
    show Runs _ env' ((match axisNodes h i (.node t n l r) with | none => liftE (.error .cantOccur) | some l => filterByPredicates (evaluate h) r.chain (XSeq.ofNodes l) : E XSeq) env') _
    cases axisNodes h i (.node t n l r) with
    | none => exact .error
    | some ns => exact predicates_run hw r hrs pr (keep fr) _
  rw [evaluate_eq]
  have hbin : (∀ f, binaryOp h t = some f → evalStep h (call h) (evaluate h) s.context (.node t n l r) = (do
        let a ← evaluate h s.context l
        let b ← evaluate h s.context r
        liftE (f a b)) ∧ meaning h (.node t n l r) s = (do
        let a ← meaning h l s
        let b ← meaning h r s
        f a b) ∧ (t ≠ .forVarBind ∧ t ≠ .letVarBind ∧ t ≠ .someVarBind ∧ t ≠ .everyVarBind)) := by
    intro f hb
    cases t <;> first
      | (simp only [binaryOp, reduceCtorEq] at hb; done)
      | (cases hb; exact ⟨rfl, rfl, by decide⟩)
  cases hb : binaryOp h t with
  | some f =>
    obtain ⟨e1, e2, pr⟩ := hbin f hb
    rw [e1, e2]
    exact Runs.bind hL0 fun a env' fr => Runs.bind (hR pr env' fr) fun b _ _ => Runs.lift _
  | none =>
    clear hbin
    cases t
    all_goals first
      | (cases hb; done)
      | exact hloc (by decide)
      | exact .error
      | exact .ok (Frame.refl _)
      | exact Runs.lift (lookupWildcard h s.context)
      | skip
    case forExpr => exact hR (by decide) env (Frame.refl _)
    case letExpr => exact hR (by decide) env (Frame.refl _)
    case someExpr => exact hR (by decide) env (Frame.refl _)
    case everyExpr => exact hR (by decide) env (Frame.refl _)
    case parenthesizedExpr => exact orEmpty hl pl rfl hf
    case operatorPath =>
      refine Runs.bind (orEmpty hl pl rfl hf) fun q env' fr => ?_
      show Runs _ env' ((if r.isNil then pure q else pathOver h (fun i => evaluate h [i] r) q : E XSeq) env')
        (if r.isNil then .ok q else if XSeq.isNoAtom q then (q.mapM fun i => meaning h r (s.over i)) >>= joined h else .error .typeError)
      cases r.isNil
      · exact Runs.pathOver h q fun i _ env'' fr' => hr.part (p.right (by decide)) rfl ((keep (fr.trans fr')).over i)
      · exact .ok (Frame.refl _)
    case operatorMap =>
      refine Runs.bind (orEmpty hl pl rfl hf) fun q env' fr => ?_
      show Runs _ env' ((if r.isNil then pure q else concatE (fun i => evaluate h [i] r) q : E XSeq) env')
        (if r.isNil then .ok q else (q.mapM fun i => meaning h r (s.over i)) >>= fun vs => .ok vs.flatten)
      cases r.isNil
      · exact Runs.concatE q fun i _ env'' fr' => hr.part (p.right (by decide)) rfl ((keep (fr.trans fr')).over i)
      · exact .ok (Frame.refl _)
    case operatorOr =>
      refine Runs.bind hL0 fun a env' fr => Runs.bind (Runs.lift _) fun b env'' fr' => ?_
      cases b
      · exact Runs.bind (hR (by decide) env'' (fr.trans fr')) fun a' env3 fr3 => Runs.bind (Runs.lift _) fun b' env4 fr4 => .ok (Frame.refl _)
      · exact .ok (Frame.refl _)
    case operatorAnd =>
      refine Runs.bind hL0 fun a env' fr => Runs.bind (Runs.lift _) fun b env'' fr' => ?_
      cases b
      · exact .ok (Frame.refl _)
      · exact Runs.bind (hR (by decide) env'' (fr.trans fr')) fun a' env3 fr3 => Runs.bind (Runs.lift _) fun b' env4 fr4 => .ok (Frame.refl _)
    case operatorUnaryPlus => exact Runs.bind (hR (by decide) env (Frame.refl _)) fun a env' fr => Runs.lift _
    case operatorUnaryMinus => exact Runs.bind (hR (by decide) env (Frame.refl _)) fun a env' fr => Runs.lift _
    case operatorInstanceOf =>
      exact Runs.bind hL0 fun a env' fr => Runs.bind (Runs.lift _) fun _ _ _ => .ok (Frame.refl _)
    case operatorCastableAs => exact Runs.bind hL0 fun a env' fr => .ok (Frame.refl _)
    case operatorCastAs => exact Runs.bind hL0 fun a env' fr => Runs.lift _
    case ifExpr =>
      have pr := p.right (by decide)
      cases r with
      | nil => exact Runs.bind hL0 fun a env' fr => .error
      | node t' n' x y =>
        by_cases e : t' = .ifThenElse
        · subst e
          have hx : Good h x := H x (by simp at hk; omega)
          have hy : Good h y := H y (by simp at hk; omega)
          refine Runs.bind hL0 fun a env' fr => Runs.bind (Runs.lift _) fun b env'' fr' => ?_
          cases b
          · exact hy.part (pr.right (by decide)) rfl (keep (fr.trans fr'))
          · exact hx.part pr.left rfl (keep (fr.trans fr'))
        · have e1 : meaning h (.node .ifExpr n l (.node t' n' x y)) s = (meaning h l s >>= fun _ => .error .cantOccur) := by
            cases t' <;> first | rfl | contradiction
          rw [e1]
          refine Runs.bind hL0 fun a env' fr => ?_
          show Runs _ env' ((if t' ≠ .ifThenElse then liftE (.error .cantOccur) else _ : E XSeq) env') _
          rw [if_pos e]
          exact .error
    case forVarBind =>
      refine Runs.bind hL0 fun q env' fr => ?_
      exact Runs.forLoop q fun i _ env'' fr' => body_run (by simp) hc hw hr [i] (keep (fr.trans fr'))
    case letVarBind =>
      refine Runs.bind hL0 fun v env' fr => ?_
      exact Runs.letBind (body_run (by simp) hc hw hr v (keep fr))
    case someVarBind =>
      refine Runs.bind hL0 fun q env' fr => ?_
      exact Runs.quantLoop (by simp [quantified, XNode.name]) true q fun i _ env'' fr' => body_run (by simp) hc hw hr [i] (keep (fr.trans fr'))
    case everyVarBind =>
      refine Runs.bind hL0 fun q env' fr => ?_
      exact Runs.quantLoop (by simp [quantified, XNode.name]) false q fun i _ env'' fr' => body_run (by simp) hc hw hr [i] (keep (fr.trans fr'))
    case varRef =>
      show Runs _ env (.ok ((env.getVar n).getD [], env)) (.ok (s.vars n))
      rw [hf.vars n (by simp [freeVars])]
      exact .ok (Frame.refl _)
    case functionCall =>
      refine Runs.bind (arguments_run hw r hrs (p.right (by decide)) rfl hf) fun vs env' fr => ?_
      exact library_run _ (hc.1.2 rfl) vs (keep fr).position (keep fr).last
    case applyPredicate =>
      cases r with
      | nil => exact Runs.bind hL0 fun q env' fr => .error
      | node t' n' x y =>
        have pr := (p.right (by decide)).left
        have hx : Good h x := H x (by simp at hk; omega)
        refine Runs.bind hL0 fun q env' fr => ?_
        refine Runs.filtered false q fun i hi k env'' fr' => Runs.atPosition ?_
        have hf' := keep (fr.trans fr')
        exact hx.part pr rfl ⟨rfl, rfl, hf'.vars⟩
    case applyArgument => exact absurd rfl hc.1.1
    case map => exact Runs.bind (entries_run hw l hls pl rfl hf) fun _ _ _ => .ok (Frame.refl _)
    case squareArray => exact Runs.bind (members_run hw l hls pl rfl hf) fun _ _ _ => .ok (Frame.refl _)
    case curlyArray => exact Runs.bind hL0 fun a env' fr => .ok (Frame.refl _)
    case unaryLookupByExpr => exact Runs.bind hL0 fun a env' fr => Runs.lift _

theorem good (h : Heap) (x : XNode) : Good h x := by
  have : ∀ k, GoodIn h k := by
    intro k
    induction k with
    | zero => intro y hy; omega
    | succ k ih =>
      intro y hy
      cases y with
      | nil =>
        intro c env s _ _ _ _
        rw [evaluate_eq]
        exact .error
      | node t n l r => exact step_run ih hy
  exact this (sizeOf x + 1) x (by omega)

end Scoping
end Amxml
