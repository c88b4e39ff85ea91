import Verif.Spec.XFunc
import Verif.Lemmas.Decide
import Verif.Lemmas.Entity

/-!
# CallGives of library functions: from the evaluator to the function, and lemmas about the functions on lists they are made of
-/

namespace Amxml
open Spec

/-- The evaluated arguments of a call. -/
theorem args_run {h : Heap} {c : XSeq} {env : Env} {as : List XNode} {vs : List XSeq}
    (H : List.Forall₂ (fun a w => Value h c a env w) as vs) :
    listE (callArg (evaluate h) c) (argChain as).chain env = .ok (vs, env) := by
  induction H with
  | nil => rfl
  | cons hv _ ih =>
    simp only [argChain, XNode.chain, listE]
    rw [E.bind_run]
    rename_i a v l _ _
    have : callArg (evaluate h) c (.node .argumentTop [] a (argChain l)) env = .ok (v, env) := hv
    rw [this]
    simp only
    rw [E.bind_run, ih]
    rfl

/-- A call of a function of the pure table. -/
theorem call_run {h : Heap} {f : Str} {vs : List XSeq} {c : XSeq} {env : Env} {as : List XNode} {g : PureFn}
    (hc : findCtxFn f vs.length = none) (hp : findPureFn f vs.length = some g)
    (H : List.Forall₂ (fun a w => Value h c a env w) as vs) :
    evaluate h c (callOf f as) env = (g h vs).map fun v => (v, env) := by
  rw [evaluate_eq]
  show (do let args ← listE (callArg (evaluate h) c) (argChain as).chain
           evaluateFunction h (call h) f args c : E XSeq) env = _
  rw [E.bind_run, args_run H]
  simp only [evaluateFunction, hc, hp]
  cases g h vs <;> rfl

theorem calls_of {h : Heap} {f : Str} {vs : List XSeq} {v : XSeq} (n : Nat) (g : PureFn) (hn : vs.length = n := by rfl)
    (hc : findCtxFn f n = none := by decide +kernel) (hp : findPureFn f n = some g := by rfl) (hg : g h vs = .ok v) : CallGives h f vs v := by
  subst hn
  intro c env as H
  rw [Value, call_run hc hp H, hg]; rfl

theorem fails_of {h : Heap} {f : Str} {vs : List XSeq} {e : XErr} (n : Nat) (g : PureFn) (hn : vs.length = n := by rfl)
    (hc : findCtxFn f n = none := by decide +kernel) (hp : findPureFn f n = some g := by rfl) (hg : g h vs = .error e) (he : e ≠ .outOfFuel := by simp) :
    CallFails h f vs e := by
  subst hn
  intro c env as H
  rw [Fails, call_run hc hp H, hg]; exact ⟨rfl, he⟩

/-- Argument expressions with given values: variables. -/
def varNames : Nat → List Str
  | 0 => []
  | n + 1 => List.replicate (n + 1) 'x' :: varNames n

theorem varNames_mem {n : Nat} {s : Str} (hs : s ∈ varNames n) : s.length ≤ n := by
  induction n with
  | zero => cases hs
  | succ n ih =>
    simp only [varNames, List.mem_cons] at hs
    rcases hs with rfl | hs
    · simp
    · have := ih hs; omega

/-- The variables with the values. -/
def varEnv : List XSeq → List (Str × XSeq)
  | [] => []
  | v :: vs => (List.replicate (vs.length + 1) 'x', v) :: varEnv vs

/-- References to the variables. -/
def varRefs (n : Nat) : List XNode := (varNames n).map fun s => .node .varRef s .nil .nil

theorem varEnv_values (h : Heap) (c : XSeq) (vs : List XSeq) : ∀ pre : List (Str × XSeq), (∀ b ∈ pre, vs.length < b.1.length) →
    List.Forall₂ (fun a w => Value h c a ⟨0, 0, pre ++ varEnv vs⟩ w) (varRefs vs.length) vs := by
  induction vs with
  | nil => intro pre _; exact .nil
  | cons v vs ih =>
    intro pre hpre
    refine .cons ?_ ?_
    · unfold Value
      rw [evaluate_eq]
      show Except.ok (((Env.mk 0 0 _).getVar _).getD [], _) = _
      congr 2
      unfold Env.getVar
      simp only [varEnv]
      rw [List.find?_append, List.find?_eq_none.2 ?_]
      · simp only [Option.none_or]
        rw [List.find?_cons_of_pos (by exact beq_self_eq_true _)]
        rfl
      · intro b hb he
        have h1 := hpre b hb
        have h2 : b.1 = List.replicate (vs.length + 1) 'x' := beq_iff_eq.1 he
        rw [h2] at h1
        simp at h1
    · have := ih (pre ++ [(List.replicate (vs.length + 1) 'x', v)]) (by
        intro b hb
        rcases List.mem_append.1 hb with hb | hb
        · have := hpre b hb; simp only [List.length_cons] at this; omega
        · rw [List.mem_singleton.1 hb]; simp)
      simpa [varEnv, varRefs, varNames] using this

/-- The statements about calls are not vacuous: every list of values is the list of values of some argument expressions, so a call
has at most one value. -/
theorem Spec.CallGives.unique {h : Heap} {f : Str} {vs : List XSeq} {v w : XSeq} (hv : CallGives h f vs v) (hw : CallGives h f vs w) : v = w := by
  have H := varEnv_values h [] vs [] (by simp)
  have a := hv _ _ _ H
  have b := hw _ _ _ H
  rw [Value, a] at b
  cases b; rfl

theorem Spec.CallGives.not_fails {h : Heap} {f : Str} {vs : List XSeq} {v : XSeq} {e : XErr} (hv : CallGives h f vs v) : ¬ CallFails h f vs e := by
  intro hw
  have H := varEnv_values h [] vs [] (by simp)
  have a := hv _ _ _ H
  have b := (hw _ _ _ H).1
  rw [a] at b
  cases b


theorem mapM_ok {α β : Type} {f : α → Except XErr β} {l : List α} {r : List β} (h : List.Forall₂ (fun x y => f x = .ok y) l r) :
    l.mapM f = .ok r := by
  induction h with
  | nil => rfl
  | cons hx _ ih => rw [List.mapM_cons, hx, ih]; rfl

theorem mapM_err {α β : Type} {f : α → Except XErr β} {l : List α} {pre : List α} {x : α} {post : List α} {e : XErr}
    (hl : l = pre ++ x :: post) (hp : ∀ y ∈ pre, ∃ z, f y = .ok z) (hx : f x = .error e) : l.mapM f = .error e := by
  subst hl
  induction pre with
  | nil => rw [List.nil_append, List.mapM_cons, hx]; rfl
  | cons y pre ih =>
    obtain ⟨z, hz⟩ := hp y (by simp)
    rw [List.cons_append, List.mapM_cons, hz]
    have := ih (fun y hy => hp y (by simp [hy]))
    rw [this]; rfl

theorem mapM_inv {α β : Type} {f : α → Except XErr β} {l : List α} {r : List β} (h : l.mapM f = .ok r) :
    List.Forall₂ (fun x y => f x = .ok y) l r := by
  induction l generalizing r with
  | nil => cases h; exact .nil
  | cons x l ih =>
    rw [List.mapM_cons] at h
    cases hx : f x with
    | error e => rw [hx] at h; cases h
    | ok y =>
      rw [hx] at h
      cases hr : l.mapM f with
      | error e => rw [hr] at h; cases h
      | ok ys =>
        rw [hr] at h
        cases h
        exact .cons hx (ih hr)

end Amxml
