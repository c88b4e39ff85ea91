import Verif.Lemmas.Scope

/-!
# No evaluation changes the position and the size of the focus
-/

namespace Amxml
open Spec

/-- Whenever `a` succeeds, position and last are as before. -/
def E.Focus {α : Type} (a : E α) : Prop := ∀ env v env', a env = .ok (v, env') → env'.position = env.position ∧ env'.last = env.last

namespace E.Focus

theorem pure {α : Type} (x : α) : E.Focus (Pure.pure x : E α) := by
  intro env v env' h
  cases h; exact ⟨rfl, rfl⟩

theorem liftE {α : Type} (r : Except XErr α) : E.Focus (Amxml.liftE r) := by
  intro env v env' h
  cases r with
  | ok a => cases h; exact ⟨rfl, rfl⟩
  | error e => cases h

theorem setVar (n : Str) (v : XSeq) : E.Focus (modifyE fun env => env.setVar n v) := by
  intro env w env' h
  cases h; exact ⟨rfl, rfl⟩

theorem removeVar (n : Str) : E.Focus (modifyE fun env => env.removeVar n) := by
  intro env w env' h
  cases h; exact ⟨rfl, rfl⟩

theorem removeVars (ns : List Str) : E.Focus (modifyE fun env => ns.foldr (fun n e => e.removeVar n) env) := by
  intro env w env' h
  cases h
  induction ns with
  | nil => exact ⟨rfl, rfl⟩
  | cons n ns ih => exact ih

theorem bind {α β : Type} {a : E α} {f : α → E β} (ha : E.Focus a) (hf : ∀ x, E.Focus (f x)) : E.Focus (a >>= f) := by
  intro env v env' h
  rw [E.bind_run] at h
  cases he : a env with
  | error e => rw [he] at h; cases h
  | ok r =>
    obtain ⟨x, e⟩ := r
    rw [he] at h
    have h1 := ha env x e he
    have h2 := hf x _ _ _ h
    exact ⟨h2.1.trans h1.1, h2.2.trans h1.2⟩

theorem ite {α : Type} {p : Prop} [Decidable p] {a b : E α} (ha : E.Focus a) (hb : E.Focus b) :
    E.Focus (if p then a else b) := by
  split
  · exact ha
  · exact hb

theorem concatE {f : XItem → E XSeq} (h : ∀ x, E.Focus (f x)) (l : XSeq) : E.Focus (Amxml.concatE f l) := by
  induction l with
  | nil => exact pure _
  | cons x l ih => exact bind (h x) fun _ => bind ih fun _ => pure _

theorem listE {α β : Type} {f : α → E β} (l : List α) (h : ∀ x, E.Focus (f x)) : E.Focus (Amxml.listE f l) := by
  induction l with
  | nil => exact pure _
  | cons x l ih => exact bind (h x) fun _ => bind ih fun _ => pure _

theorem pathLoop {f : XItem → E XSeq} (h : ∀ x, E.Focus (f x)) (l : XSeq) (n a : Bool) : E.Focus (Amxml.pathLoop f n a l) := by
  induction l generalizing n a with
  | nil => exact pure _
  | cons x l ih => exact bind (h x) fun v => ite (ih _ _) (ite (liftE _) (bind (ih _ _) fun _ => pure _))

theorem pathOver (h : Heap) {f : XItem → E XSeq} (hf : ∀ x, E.Focus (f x)) (l : XSeq) : E.Focus (Amxml.pathOver h f l) :=
  ite (bind (pathLoop hf _ _ _) fun _ => ite (pure _) (pure _)) (liftE _)

theorem atPosition (ev : Evaluator) (p : XNode) (i l : Nat) (x : XItem) : E.Focus (Amxml.atPosition ev p i l x) := by
  intro env v env' h
  unfold Amxml.atPosition at h
  split at h
  · cases h; exact ⟨rfl, rfl⟩
  · cases h

theorem filterLoop (ev : Evaluator) (p : XNode) (rev : Bool) (last : Nat) (l : XSeq) (i : Nat) : E.Focus (Amxml.filterLoop ev p rev last i l) := by
  induction l generalizing i with
  | nil => exact pure _
  | cons x l ih => exact bind (atPosition _ _ _ _ _) fun _ => bind (ih _) fun _ => pure _

theorem filterByPredicate (ev : Evaluator) (p : XNode) (s : XSeq) (rev : Bool) : E.Focus (Amxml.filterByPredicate ev s p rev) :=
  ite (liftE _) (filterLoop _ _ _ _ _ _)

theorem filterByPredicates (ev : Evaluator) (ps : List XNode) (s : XSeq) : E.Focus (Amxml.filterByPredicates ev ps s) := by
  induction ps generalizing s with
  | nil => exact pure _
  | cons p ps ih =>
    unfold Amxml.filterByPredicates
    split
    · exact bind (filterByPredicate _ _ _ _) fun _ => ih _
    · exact bind (filterByPredicate _ _ _ _) fun _ => ih _
    · exact liftE _

theorem forLoop {b : E XSeq} (h : E.Focus b) (n : Str) (l : XSeq) : E.Focus (Amxml.forLoop n b l) := by
  induction l with
  | nil => exact pure _
  | cons x l ih => exact bind (setVar _ _) fun _ => bind h fun _ => bind (removeVar _) fun _ => bind ih fun _ => pure _

theorem quantLoop {b : E XSeq} (h : E.Focus b) (n : Str) (stop : Bool) (l : XSeq) : E.Focus (Amxml.quantLoop n stop b l) := by
  induction l with
  | nil => exact pure _
  | cons x l ih =>
    exact bind (setVar _ _) fun _ => bind h fun _ => bind (liftE _) fun _ => ite (pure _) (bind (removeVar _) fun _ => ih)

theorem bindParams (h : Heap) (vs : List XSeq) (ps : List (Str × XNode)) : E.Focus (Amxml.bindParams h ps vs) := by
  induction vs generalizing ps with
  | nil => cases ps <;> exact pure _
  | cons v vs ih =>
    cases ps with
    | nil => exact liftE _
    | cons p ps => exact bind (liftE _) fun _ => ite (bind (setVar _ _) fun _ => ih _) (liftE _)

theorem callInline (h : Heap) {ev : Evaluator} (H : ∀ c x, E.Focus (ev c x)) (f : XNode) (args : List XSeq) (c : XSeq) :
    E.Focus (Amxml.callInline h ev f args c) :=
  bind (bindParams _ _ _) fun _ => bind (H _ _) fun _ => bind (removeVars _) fun _ => pure _

theorem evaluateFunction (h : Heap) {call : XNode → List XSeq → XSeq → E XSeq} (H : ∀ f a c, E.Focus (call f a c)) (name : Str) (args : List XSeq)
    (c : XSeq) : E.Focus (Amxml.evaluateFunction h call name args c) := by
  unfold Amxml.evaluateFunction
  split
  · rename_i f hf
    cases f <;> first
      | exact liftE _
      | exact bind (liftE _) fun _ => concatE (fun _ => H _ _ _) _
      | exact bind (liftE _) fun _ => concatE (fun _ => bind (H _ _ _) fun _ => bind (liftE _) fun _ => pure _) _
      | (intro env v env' he; cases he; exact ⟨rfl, rfl⟩)
  · split
    · exact liftE _
    · exact liftE _

theorem partialArgs {ev : Evaluator} (H : ∀ c x, E.Focus (ev c x)) (c : XSeq) (l : List XNode) (args : List XSeq) :
    E.Focus (Amxml.partialArgs ev c l args) := by
  induction l generalizing args with
  | nil => cases args <;> exact pure _
  | cons a l ih =>
    unfold Amxml.partialArgs
    split
    · exact bind (H _ _) fun _ => bind (ih _) fun _ => pure _
    · split
      · exact liftE _
      · exact bind (ih _) fun _ => pure _
    · exact liftE _

theorem callStep (h : Heap) {ev : Evaluator} (H : ∀ c x, E.Focus (ev c x)) {call : XNode → List XSeq → XSeq → E XSeq}
    (K : ∀ f a c, E.Focus (call f a c)) (f : XNode) (args : List XSeq) (c : XSeq) : E.Focus (Amxml.callStep h ev call f args c) := by
  unfold Amxml.callStep
  split
  · exact callInline h H _ _ _
  · split
    · exact ite (evaluateFunction h K _ _ _) (liftE _)
    · exact liftE _
  · exact bind (partialArgs H _ _ _) fun _ => evaluateFunction h K _ _ _
  · exact liftE _

theorem callFunctionF (h : Heap) {ev : Evaluator} (H : ∀ c x, E.Focus (ev c x)) (n : Nat) (f : XNode) (args : List XSeq) (c : XSeq) :
    E.Focus (Amxml.callFunctionF h ev n f args c) := by
  induction n generalizing f args c with
  | zero => exact liftE _
  | succ n ih => exact callStep h H ih f args c

theorem applyTo (h : Heap) {ev : Evaluator} (H : ∀ c x, E.Focus (ev c x)) (c : XSeq) (args : List XSeq) (v : XSeq) :
    E.Focus (Amxml.applyTo h ev c args v) := by
  unfold Amxml.applyTo
  split
  · exact ite (callInline h H _ _ _) (liftE _)
  · refine bind (liftE _) fun _ => ?_
    split
    · exact pure _
    · exact liftE _
  · refine bind (liftE _) fun _ => ?_
    split
    · exact pure _
    · exact liftE _
  · exact liftE _

theorem evalStep (h : Heap) {call : XNode → List XSeq → XSeq → E XSeq} (K : ∀ f a c, E.Focus (call f a c)) {ev : Evaluator}
    (H : ∀ c x, E.Focus (ev c x)) (c : XSeq) (x : XNode) : E.Focus (Amxml.evalStep h call ev c x) := by
  have orEmpty : ∀ c y, E.Focus (Amxml.evalOrEmpty ev c y) := fun c y => ite (pure _) (H _ _)
  have loc : E.Focus (locationPath h ev c x) := by
    refine bind (listE _ ?_) fun _ => pure _
    intro i
    unfold Amxml.locStep
    split
    · exact liftE _
    · exact filterByPredicates _ _ _
  unfold Amxml.evalStep
  split
  case h_2 => exact bind (orEmpty _ _) fun _ => ite (pure _) (pathOver h (fun _ => H _ _) _)
  case h_3 => exact bind (orEmpty _ _) fun _ => ite (pure _) (concatE (fun _ => H _ _) _)
  all_goals first
    | exact loc
    | exact liftE _
    | exact pure _
    | exact H _ _
    | exact orEmpty _ _
    | exact bind (H _ _) fun _ => pure _
    | exact bind (H _ _) fun _ => liftE _
    | exact bind (H _ _) fun _ => bind (liftE _) fun _ => pure _
    | exact bind (H _ _) fun _ => filterByPredicate _ _ _ _
    | exact bind (H _ _) fun _ => bind (listE _ fun _ => H _ _) fun _ => applyTo h H _ _ _
    | exact bind (H _ _) fun _ => bind (liftE _) fun _ => ite (pure _) (bind (H _ _) fun _ => bind (liftE _) fun _ => pure _)
    | exact bind (H _ _) fun _ => bind (liftE _) fun _ => ite (bind (H _ _) fun _ => bind (liftE _) fun _ => pure _) (pure _)
    | exact bind (H _ _) fun _ => ite (liftE _) (bind (liftE _) fun _ => ite (H _ _) (H _ _))
    | exact bind (H _ _) fun _ => forLoop (H _ _) _ _
    | exact bind (H _ _) fun _ => quantLoop (H _ _) _ _ _
    | exact bind (H _ _) fun _ => bind (setVar _ _) fun _ => bind (H _ _) fun _ => bind (removeVar _) fun _ => pure _
    | (intro env v env' he; cases he; exact ⟨rfl, rfl⟩)
    | skip
  · refine bind (listE _ ?_) fun _ => evaluateFunction h K _ _ _
    intro a
    unfold Amxml.callArg
    split
    · exact H _ _
    · exact liftE _
  · refine bind (listE _ ?_) fun _ => pure _
    intro a
    exact ite (liftE _) (ite (liftE _) (bind (H _ _) fun _ => bind (liftE _) fun _ => bind (H _ _) fun _ => pure _))
  · refine bind (listE _ ?_) fun _ => pure _
    intro a
    exact ite (liftE _) (H _ _)
  · split
    · exact bind (H _ _) fun _ => bind (H _ _) fun _ => liftE _
    · exact liftE _

end E.Focus

theorem eval_focus (h : Heap) (n : Nat) (c : XSeq) (x : XNode) : E.Focus (eval h n c x) := by
  induction n generalizing c x with
  | zero => intro env v env' he; cases he
  | succ n ih => exact E.Focus.evalStep h (E.Focus.callFunctionF h ih n) ih c x

theorem evaluate_focus (h : Heap) (c : XSeq) (x : XNode) : E.Focus (evaluate h c x) := by
  intro env v env' he
  obtain ⟨n, hn⟩ := eval_of_evaluate h c x env
  exact eval_focus h n c x env v env' (by rw [hn n (Nat.le_refl n), he])

end Amxml
