import Verif.Spec.XEval

/-!
# Evaluations that leave the environment as it was
-/

namespace Amxml
open Spec

/-- Whenever `a` succeeds the environment is as before. -/
def E.Keeps {α : Type} (a : E α) : Prop := ∀ env v env', a env = .ok (v, env') → env' = env

namespace E.Keeps

theorem pure {α : Type} (x : α) : E.Keeps (Pure.pure x : E α) := by
  intro env v env' h
  cases h; rfl

theorem liftE {α : Type} (r : Except XErr α) : E.Keeps (Amxml.liftE r) := by
  intro env v env' h
  cases r with
  | ok a => cases h; rfl
  | error e => cases h

theorem bind {α β : Type} {a : E α} {f : α → E β} (ha : E.Keeps a) (hf : ∀ x, E.Keeps (f x)) : E.Keeps (a >>= f) := by
  intro env v env' h
  rw [E.bind_run] at h
  cases he : a env with
  | error e => rw [he] at h; cases h
  | ok r =>
    obtain ⟨x, e⟩ := r
    rw [he] at h
    have := ha env x e he
    subst this
    exact hf x _ _ _ h

theorem ite {α : Type} {p : Prop} [Decidable p] {a b : E α} (ha : E.Keeps a) (hb : E.Keeps b) :
    E.Keeps (if p then a else b) := by
  split
  · exact ha
  · exact hb

theorem concatE {f : XItem → E XSeq} (h : ∀ x, E.Keeps (f x)) (l : XSeq) : E.Keeps (Amxml.concatE f l) := by
  induction l with
  | nil => exact pure _
  | cons x l ih => exact bind (h x) fun _ => bind ih fun _ => pure _

theorem listE {α β : Type} {f : α → E β} (l : List α) (h : ∀ x ∈ l, E.Keeps (f x)) : E.Keeps (Amxml.listE f l) := by
  induction l with
  | nil => exact pure _
  | cons x l ih => exact bind (h x (by simp)) fun _ => bind (ih fun y hy => h y (by simp [hy])) fun _ => pure _

theorem pathLoop {f : XItem → E XSeq} (h : ∀ x, E.Keeps (f x)) (l : XSeq) (n a : Bool) :
    E.Keeps (Amxml.pathLoop f n a l) := by
  induction l generalizing n a with
  | nil => exact pure _
  | cons x l ih => exact bind (h x) fun v => ite (ih _ _) (ite (liftE _) (bind (ih _ _) fun _ => pure _))

theorem pathOver (h : Heap) {f : XItem → E XSeq} (hf : ∀ x, E.Keeps (f x)) (l : XSeq) : E.Keeps (Amxml.pathOver h f l) :=
  ite (bind (pathLoop hf _ _ _) fun _ => ite (pure _) (pure _)) (liftE _)

theorem atPosition {ev : Evaluator} {p : XNode} (H : ∀ c, E.Keeps (ev c p)) (i l : Nat) (x : XItem) :
    E.Keeps (Amxml.atPosition ev p i l x) := by
  intro env v env' h
  unfold Amxml.atPosition at h
  split at h
  · rename_i w e he
    cases h
    have := H _ _ _ _ he
    subst this
    rfl
  · cases h

theorem filterLoop {ev : Evaluator} {p : XNode} (H : ∀ c, E.Keeps (ev c p)) (rev : Bool) (last : Nat) (l : XSeq) (i : Nat) :
    E.Keeps (Amxml.filterLoop ev p rev last i l) := by
  induction l generalizing i with
  | nil => exact pure _
  | cons x l ih => exact bind (atPosition H _ _ _) fun _ => bind (ih _) fun _ => pure _

theorem filterByPredicate {ev : Evaluator} {p : XNode} (H : ∀ c, E.Keeps (ev c p)) (s : XSeq) (rev : Bool) :
    E.Keeps (Amxml.filterByPredicate ev s p rev) := ite (liftE _) (filterLoop H _ _ _ _)

theorem filterByPredicates {ev : Evaluator} (ps : List XNode) (H : ∀ p ∈ ps, ∀ c, E.Keeps (ev c p.left)) (s : XSeq) :
    E.Keeps (Amxml.filterByPredicates ev ps s) := by
  induction ps generalizing s with
  | nil => exact pure _
  | cons p ps ih =>
    have hp := H p (by simp)
    have ih := ih fun q hq => H q (by simp [hq])
    unfold Amxml.filterByPredicates
    split
    · exact bind (filterByPredicate hp _ _) fun _ => ih _
    · exact bind (filterByPredicate hp _ _) fun _ => ih _
    · exact liftE _

theorem forLoop {b : E XSeq} (h : E.Keeps b) (n : Str) (l : XSeq) : E.Keeps (Amxml.forLoop n b l) := by
  induction l with
  | nil => exact pure _
  | cons x l ih =>
    intro env v env' he
    unfold Amxml.forLoop at he
    rw [E.bind_run, modifyE_run] at he
    simp only at he
    rw [E.bind_run] at he
    cases hb : b (env.setVar n [x]) with
    | error e => rw [hb] at he; cases he
    | ok r =>
      obtain ⟨w, e⟩ := r
      rw [hb] at he
      have := h _ _ _ hb
      subst this
      simp only at he
      rw [E.bind_run, modifyE_run] at he
      have e0 : (env.setVar n [x]).removeVar n = env := by
        cases env; simp [Env.setVar, Env.removeVar, removeFirst]
      simp only [e0] at he
      exact bind ih (fun _ => pure _) _ _ _ he

/-- A binding that is made for the duration of a body. -/
theorem letBind {b : E XSeq} (h : E.Keeps b) (n : Str) (v : XSeq) : E.Keeps (do
    modifyE fun env => env.setVar n v
    let r ← b
    modifyE fun env => env.removeVar n
    Pure.pure r : E XSeq) := by
  intro env w env' he
  rw [E.bind_run, modifyE_run] at he
  simp only at he
  rw [E.bind_run] at he
  cases hb : b (env.setVar n v) with
  | error e => rw [hb] at he; cases he
  | ok r =>
    obtain ⟨x, e⟩ := r
    rw [hb] at he
    have := h _ _ _ hb
    subst this
    cases he
    cases env; simp [Env.setVar, Env.removeVar, removeFirst]

end E.Keeps

theorem Spec.Quiet.left {x : XNode} (h : Quiet x) : Quiet x.left := by
  cases x with
  | nil => trivial
  | node t n l r => exact h.2.2.2.2.1

theorem Spec.Quiet.right {x : XNode} (h : Quiet x) : Quiet x.right := by
  cases x with
  | nil => trivial
  | node t n l r => exact h.2.2.2.2.2

theorem Spec.Quiet.chain {x : XNode} (h : Quiet x) : ∀ y ∈ x.chain, Quiet y := by
  induction x with
  | nil => intro y hy; simp [XNode.chain] at hy
  | node t n l r _ ih =>
    intro y hy
    have hc : (XNode.node t n l r).chain = [] ∨ (XNode.node t n l r).chain = .node t n l r :: r.chain := by
      cases t <;> first | exact Or.inl rfl | exact Or.inr rfl
    rcases hc with hc | hc
    · rw [hc] at hy; cases hy
    · rw [hc, List.mem_cons] at hy
      rcases hy with rfl | hy
      · exact h
      · exact ih h.2.2.2.2.2 y hy

theorem findCtxFn_quiet {name : Str} {k : Nat} (h1 : name ≠ S "fn:for-each") (h2 : name ≠ S "fn:filter") :
    findCtxFn name k ≠ some .forEach ∧ findCtxFn name k ≠ some .filter := by
  have key : ∀ f, findCtxFn name k = some f → ∃ e ∈ funcContextTbl, e.2.1 = name ∧ e.2.2 = f := by
    intro f hf
    unfold findCtxFn at hf
    rw [Option.map_eq_some_iff] at hf
    obtain ⟨e, he, hf⟩ := hf
    have := List.find?_some he
    simp only [Bool.and_eq_true, beq_iff_eq] at this
    exact ⟨e, List.mem_of_find?_eq_some he, this.2, hf⟩
  have tbl : ∀ e ∈ funcContextTbl, (e.2.2 = .forEach → e.2.1 = S "fn:for-each") ∧ (e.2.2 = .filter → e.2.1 = S "fn:filter") := by
    decide +kernel
  constructor
  · intro h
    obtain ⟨e, he, hn, hf⟩ := key _ h
    exact h1 (hn ▸ (tbl e he).1 hf)
  · intro h
    obtain ⟨e, he, hn, hf⟩ := key _ h
    exact h2 (hn ▸ (tbl e he).2 hf)

theorem evaluateFunction_keeps (h : Heap) (call : XNode → List XSeq → XSeq → E XSeq) {name : Str} (args : List XSeq) (c : XSeq)
    (h1 : name ≠ S "fn:for-each") (h2 : name ≠ S "fn:filter") : E.Keeps (evaluateFunction h call name args c) := by
  unfold evaluateFunction
  have hq := findCtxFn_quiet (k := args.length) h1 h2
  split
  · rename_i f hf
    cases f <;> first
      | exact E.Keeps.liftE _
      | (exact absurd hf hq.1)
      | (exact absurd hf hq.2)
      | (intro env v env' he; cases he; rfl)
  · split
    · exact E.Keeps.liftE _
    · exact E.Keeps.liftE _

namespace E.Keeps

/-- Evaluating a quiet expression keeps the environment. -/
theorem evalStep (h : Heap) (call : XNode → List XSeq → XSeq → E XSeq) (ev : Evaluator)
    (H : ∀ c x, Quiet x → E.Keeps (ev c x)) (c : XSeq) (x : XNode) (hx : Quiet x) : E.Keeps (Amxml.evalStep h call ev c x) := by
  have hl := hx.left
  have hr := hx.right
  have orEmpty : ∀ c y, Quiet y → E.Keeps (Amxml.evalOrEmpty ev c y) := fun c y hy => E.Keeps.ite (E.Keeps.pure _) (H _ _ hy)
  have loc : E.Keeps (locationPath h ev c x) := by
    refine E.Keeps.bind (E.Keeps.listE _ ?_) fun _ => E.Keeps.pure _
    intro i _
    unfold Amxml.locStep
    split
    · exact E.Keeps.liftE _
    · exact E.Keeps.filterByPredicates _ (fun p hp c => H _ _ (hr.chain p hp).left) _
  have notq : x.ty ≠ .someVarBind ∧ x.ty ≠ .everyVarBind ∧ x.ty ≠ .applyArgument ∧
      (x.ty = .functionCall → x.name ≠ S "fn:for-each" ∧ x.name ≠ S "fn:filter") := by
    cases x with
    | nil => simp [XNode.ty]
    | node t n l r => exact ⟨hx.1, hx.2.1, hx.2.2.1, hx.2.2.2.1⟩
  unfold Amxml.evalStep
  split
  case h_2 => exact bind (orEmpty _ _ hl) fun _ => ite (pure _) (pathOver h (fun _ => H _ _ hr) _)
  case h_3 => exact bind (orEmpty _ _ hl) fun _ => ite (pure _) (concatE (fun _ => H _ _ hr) _)
  all_goals first
    | exact loc
    | exact liftE _
    | exact pure _
    | exact H _ _ hr
    | exact orEmpty _ _ hl
    | (exact absurd ‹_› notq.1)
    | (exact absurd ‹_› notq.2.1)
    | (exact absurd ‹_› notq.2.2.1)
    | exact bind (H _ _ hl) fun _ => pure _
    | exact bind (H _ _ hl) fun _ => liftE _
    | exact bind (H _ _ hr) fun _ => liftE _
    | exact bind (H _ _ hl) fun _ => bind (liftE _) fun _ => pure _
    | exact bind (H _ _ hl) fun _ => filterByPredicate (fun _ => H _ _ hr.left) _ _
    | exact bind (H _ _ hl) fun _ => bind (liftE _) fun _ => ite (pure _) (bind (H _ _ hr) fun _ => bind (liftE _) fun _ => pure _)
    | exact bind (H _ _ hl) fun _ => bind (liftE _) fun _ => ite (bind (H _ _ hr) fun _ => bind (liftE _) fun _ => pure _) (pure _)
    | exact bind (H _ _ hl) fun _ => ite (liftE _) (bind (liftE _) fun _ => ite (H _ _ hr.left) (H _ _ hr.right))
    | exact bind (H _ _ hl) fun _ => forLoop (H _ _ hr) _ _
    | exact bind (H _ _ hl) fun _ => letBind (H _ _ hr) _ _
    | (intro env v env' he; cases he; rfl)
    | skip
  · rename_i he
    refine bind (listE _ ?_) fun _ => evaluateFunction_keeps h call _ _ (notq.2.2.2 he).1 (notq.2.2.2 he).2
    intro a ha
    unfold Amxml.callArg
    split
    · exact H _ _ (hr.chain a ha).left
    · exact liftE _
  · refine bind (listE _ ?_) fun _ => pure _
    intro a ha
    have ha := (hl.chain a ha).left
    exact ite (liftE _) (ite (liftE _) (bind (H _ _ ha.left) fun _ => bind (liftE _) fun _ => bind (H _ _ ha.right) fun _ => pure _))
  · refine bind (listE _ ?_) fun _ => pure _
    intro a ha
    exact ite (liftE _) (H _ _ (hl.chain a ha).left)
  · split
    · exact bind (H _ _ hl) fun _ => bind (H _ _ hr) fun _ => liftE _
    · exact liftE _

end E.Keeps

theorem eval_keeps (h : Heap) (n : Nat) (c : XSeq) (x : XNode) (hx : Quiet x) : E.Keeps (eval h n c x) := by
  induction n generalizing c x with
  | zero => intro env v env' he; cases he
  | succ n ih => exact E.Keeps.evalStep h _ _ ih c x hx

theorem evaluate_keeps (h : Heap) (c : XSeq) (x : XNode) (hx : Quiet x) : E.Keeps (evaluate h c x) := by
  intro env v env' he
  obtain ⟨n, hn⟩ := eval_of_evaluate h c x env
  exact eval_keeps h n c x hx env v env' (by rw [hn n (Nat.le_refl n), he])

end Amxml
