import Verif.Model.Eval

/-!
# More recursion depth does not change the result of an evaluation
-/

namespace Amxml

/-- `b` agrees with `a` wherever `a` does not run out of depth. -/
def E.Le {α : Type} (a b : E α) : Prop := ∀ env, a env ≠ .error .outOfFuel → b env = a env

/-- The same for evaluators. -/
def Evaluator.Le (ev ev' : Evaluator) : Prop := ∀ c x, E.Le (ev c x) (ev' c x)

theorem E.bind_run {α β : Type} (a : E α) (f : α → E β) (env : Env) :
    (a >>= f) env = match a env with
      | .ok (x, e) => f x e
      | .error e => .error e := by
  show (StateT.bind a f) env = _
  unfold StateT.bind
  cases a env with
  | ok r => rfl
  | error e => rfl

theorem E.pure_run {α : Type} (x : α) (env : Env) : (pure x : E α) env = .ok (x, env) := rfl

theorem liftE_ok {α : Type} (x : α) (env : Env) : liftE (.ok x) env = .ok (x, env) := rfl
theorem liftE_error {α : Type} (e : XErr) (env : Env) : (liftE (.error e) : E α) env = .error e := rfl
theorem modifyE_run (f : Env → Env) (env : Env) : modifyE f env = .ok ((), f env) := rfl

namespace E.Le

theorem refl {α : Type} (a : E α) : E.Le a a := fun _ _ => rfl

theorem bind {α β : Type} {a a' : E α} {f f' : α → E β} (h : E.Le a a') (hf : ∀ x, E.Le (f x) (f' x)) :
    E.Le (a >>= f) (a' >>= f') := by
  intro env hne
  rw [E.bind_run] at hne
  rw [E.bind_run, E.bind_run]
  cases ha : a env with
  | error e =>
    rw [ha] at hne
    rw [h env (by rw [ha]; intro hc; cases hc; exact hne rfl), ha]
  | ok r =>
    rw [ha] at hne
    rw [h env (by rw [ha]; simp), ha]
    exact hf _ _ hne

theorem ite {α : Type} {p : Prop} [Decidable p] {a a' b b' : E α} (h : E.Le a a') (hb : E.Le b b') :
    E.Le (if p then a else b) (if p then a' else b') := by
  split
  · exact h
  · exact hb

theorem concatE {f f' : XItem → E XSeq} (h : ∀ x, E.Le (f x) (f' x)) (l : XSeq) :
    E.Le (Amxml.concatE f l) (Amxml.concatE f' l) := by
  induction l with
  | nil => exact refl _
  | cons x l ih => exact bind (h x) fun _ => bind ih fun _ => refl _

theorem listE {α β : Type} {f f' : α → E β} (h : ∀ x, E.Le (f x) (f' x)) (l : List α) :
    E.Le (Amxml.listE f l) (Amxml.listE f' l) := by
  induction l with
  | nil => exact refl _
  | cons x l ih => exact bind (h x) fun _ => bind ih fun _ => refl _

theorem pathLoop {f f' : XItem → E XSeq} (h : ∀ x, E.Le (f x) (f' x)) (l : XSeq) (n a : Bool) :
    E.Le (Amxml.pathLoop f n a l) (Amxml.pathLoop f' n a l) := by
  induction l generalizing n a with
  | nil => exact refl _
  | cons x l ih =>
    refine bind (h x) fun v => ite (ih _ _) ?_
    exact ite (refl _) (bind (ih _ _) fun _ => refl _)

theorem pathOver (h : Heap) {f f' : XItem → E XSeq} (hf : ∀ x, E.Le (f x) (f' x)) (l : XSeq) :
    E.Le (Amxml.pathOver h f l) (Amxml.pathOver h f' l) :=
  ite (bind (pathLoop hf _ _ _) fun _ => refl _) (refl _)

section
variable {ev ev' : Evaluator} (H : Evaluator.Le ev ev')
include H

theorem atPosition (p : XNode) (i l : Nat) (x : XItem) :
    E.Le (Amxml.atPosition ev p i l x) (Amxml.atPosition ev' p i l x) := by
  intro env hne
  unfold Amxml.atPosition at *
  have := H [x] p { env with position := i, last := l }
  cases he : ev [x] p { env with position := i, last := l } with
  | error e =>
    rw [he] at hne
    rw [this (by rw [he]; exact hne), he]
  | ok r => rw [this (by rw [he]; simp), he]

theorem filterLoop (p : XNode) (rev : Bool) (last : Nat) (l : XSeq) (i : Nat) :
    E.Le (Amxml.filterLoop ev p rev last i l) (Amxml.filterLoop ev' p rev last i l) := by
  induction l generalizing i with
  | nil => exact refl _
  | cons x l ih => exact bind (atPosition H _ _ _ _) fun _ => bind (ih _) fun _ => refl _

theorem filterByPredicate (s : XSeq) (p : XNode) (rev : Bool) :
    E.Le (Amxml.filterByPredicate ev s p rev) (Amxml.filterByPredicate ev' s p rev) :=
  ite (refl _) (filterLoop H _ _ _ _ _)

theorem filterByPredicates (ps : List XNode) (s : XSeq) :
    E.Le (Amxml.filterByPredicates ev ps s) (Amxml.filterByPredicates ev' ps s) := by
  induction ps generalizing s with
  | nil => exact refl _
  | cons p ps ih =>
    unfold Amxml.filterByPredicates
    split
    · exact bind (filterByPredicate H _ _ _) fun _ => ih _
    · exact bind (filterByPredicate H _ _ _) fun _ => ih _
    · exact refl _

theorem locStep (h : Heap) (x : XNode) (i : NodeId) : E.Le (Amxml.locStep h ev x i) (Amxml.locStep h ev' x i) := by
  unfold Amxml.locStep
  split
  · exact refl _
  · exact filterByPredicates H _ _

theorem locationPath (h : Heap) (c : XSeq) (x : XNode) :
    E.Le (Amxml.locationPath h ev c x) (Amxml.locationPath h ev' c x) :=
  bind (listE (fun i => locStep H h x i) _) fun _ => refl _

theorem callInline (h : Heap) (f : XNode) (args : List XSeq) (c : XSeq) :
    E.Le (Amxml.callInline h ev f args c) (Amxml.callInline h ev' f args c) :=
  bind (refl _) fun _ => bind (H _ _) fun _ => refl _

theorem partialArgs (c : XSeq) (l : List XNode) (args : List XSeq) :
    E.Le (Amxml.partialArgs ev c l args) (Amxml.partialArgs ev' c l args) := by
  induction l generalizing args with
  | nil => exact refl _
  | cons a l ih =>
    unfold Amxml.partialArgs
    split
    · exact bind (H _ _) fun _ => bind (ih _) fun _ => refl _
    · split
      · exact refl _
      · exact bind (ih _) fun _ => refl _
    · exact refl _

end

theorem forLoop {b b' : E XSeq} (h : E.Le b b') (n : Str) (l : XSeq) :
    E.Le (Amxml.forLoop n b l) (Amxml.forLoop n b' l) := by
  induction l with
  | nil => exact refl _
  | cons x l ih => exact bind (refl _) fun _ => bind h fun _ => bind (refl _) fun _ => bind ih fun _ => refl _

theorem quantLoop {b b' : E XSeq} (h : E.Le b b') (n : Str) (s : Bool) (l : XSeq) :
    E.Le (Amxml.quantLoop n s b l) (Amxml.quantLoop n s b' l) := by
  induction l with
  | nil => exact refl _
  | cons x l ih =>
    exact bind (refl _) fun _ => bind h fun _ => bind (refl _) fun _ => ite (refl _) (bind (refl _) fun _ => ih)

theorem applyCtxFn (h : Heap) {cl cl' : XNode → List XSeq → XSeq → E XSeq} (H : ∀ f a c, E.Le (cl f a c) (cl' f a c))
    (f : CtxFn) (args : List XSeq) (c : XSeq) : E.Le (Amxml.applyCtxFn h cl f args c) (Amxml.applyCtxFn h cl' f args c) := by
  cases f <;> first
    | exact refl _
    | exact bind (refl _) fun _ => concatE (fun x => H _ _ _) _
    | exact bind (refl _) fun _ => concatE (fun x => bind (H _ _ _) fun _ => refl _) _

theorem evaluateFunction (h : Heap) {cl cl' : XNode → List XSeq → XSeq → E XSeq} (H : ∀ f a c, E.Le (cl f a c) (cl' f a c))
    (name : Str) (args : List XSeq) (c : XSeq) :
    E.Le (Amxml.evaluateFunction h cl name args c) (Amxml.evaluateFunction h cl' name args c) := by
  unfold Amxml.evaluateFunction
  split
  · exact applyCtxFn h H _ _ _
  · exact refl _

theorem callStep (h : Heap) {ev ev' : Evaluator} (H : Evaluator.Le ev ev') {cl cl' : XNode → List XSeq → XSeq → E XSeq}
    (hm : ∀ f a c, E.Le (cl f a c) (cl' f a c)) (f : XNode) (args : List XSeq) (c : XSeq) :
    E.Le (Amxml.callStep h ev cl f args c) (Amxml.callStep h ev' cl' f args c) := by
  unfold Amxml.callStep
  split
  · exact callInline H _ _ _ _
  · split
    · exact ite (evaluateFunction h hm _ _ _) (refl _)
    · exact refl _
  · exact bind (partialArgs H _ _ _) fun _ => evaluateFunction h hm _ _ _
  · exact refl _

theorem callFunctionF (h : Heap) {ev ev' : Evaluator} (H : Evaluator.Le ev ev') (n m : Nat) (hnm : n ≤ m) (f : XNode)
    (args : List XSeq) (c : XSeq) : E.Le (Amxml.callFunctionF h ev n f args c) (Amxml.callFunctionF h ev' m f args c) := by
  induction n generalizing m f args c with
  | zero => intro env hne; exact absurd rfl hne
  | succ n ih =>
    obtain ⟨m, rfl⟩ : ∃ k, m = k + 1 := ⟨m - 1, by omega⟩
    exact callStep h H (fun f a c => ih m (by omega) f a c) f args c

theorem callArg {ev ev' : Evaluator} (H : Evaluator.Le ev ev') (c : XSeq) (a : XNode) :
    E.Le (Amxml.callArg ev c a) (Amxml.callArg ev' c a) := by
  unfold Amxml.callArg
  split
  · exact H _ _
  · exact refl _

theorem applyTo (h : Heap) {ev ev' : Evaluator} (H : Evaluator.Le ev ev') (c : XSeq) (args : List XSeq) (v : XSeq) :
    E.Le (Amxml.applyTo h ev c args v) (Amxml.applyTo h ev' c args v) := by
  unfold Amxml.applyTo
  split
  · exact ite (callInline H _ _ _ _) (refl _)
  · exact refl _
  · exact refl _
  · exact refl _

theorem mapEntryE {ev ev' : Evaluator} (H : Evaluator.Le ev ev') (c : XSeq) (m : XNode) :
    E.Le (Amxml.mapEntryE ev c m) (Amxml.mapEntryE ev' c m) :=
  ite (refl _) (ite (refl _) (bind (H _ _) fun _ => bind (refl _) fun _ => bind (H _ _) fun _ => refl _))

theorem arrayEntryE {ev ev' : Evaluator} (H : Evaluator.Le ev ev') (c : XSeq) (m : XNode) :
    E.Le (Amxml.arrayEntryE ev c m) (Amxml.arrayEntryE ev' c m) := ite (refl _) (H _ _)

theorem evalOrEmpty {ev ev' : Evaluator} (H : Evaluator.Le ev ev') (c : XSeq) (x : XNode) :
    E.Le (Amxml.evalOrEmpty ev c x) (Amxml.evalOrEmpty ev' c x) := ite (refl _) (H _ _)

theorem evalStep (h : Heap) {ev ev' : Evaluator} (H : Evaluator.Le ev ev') {cl cl' : XNode → List XSeq → XSeq → E XSeq}
    (hm : ∀ f a c, E.Le (cl f a c) (cl' f a c)) (c : XSeq) (x : XNode) :
    E.Le (Amxml.evalStep h cl ev c x) (Amxml.evalStep h cl' ev' c x) := by
  unfold Amxml.evalStep
  split
  · exact refl _
  · exact bind (evalOrEmpty H _ _) fun _ => ite (refl _) (pathOver h (fun _ => H _ _) _)
  · exact bind (evalOrEmpty H _ _) fun _ => ite (refl _) (concatE (fun _ => H _ _) _)
  all_goals first
    | exact locationPath H _ _ _
    | exact refl _
    | exact H _ _
    | exact bind (H _ _) fun _ => refl _
    | exact bind (H _ _) fun _ => bind (refl _) fun _ => refl _
    | exact bind (H _ _) fun _ => filterByPredicate H _ _ _
    | exact bind (H _ _) fun _ => bind (listE (fun _ => H _ _) _) fun _ => applyTo h H _ _ _
    | exact bind (H _ _) fun _ => bind (refl _) fun _ => ite (refl _) (bind (H _ _) fun _ => refl _)
    | exact bind (H _ _) fun _ => bind (refl _) fun _ => ite (bind (H _ _) fun _ => refl _) (refl _)
    | exact bind (H _ _) fun _ => ite (refl _) (bind (refl _) fun _ => ite (H _ _) (H _ _))
    | exact bind (H _ _) fun _ => forLoop (H _ _) _ _
    | exact bind (H _ _) fun _ => quantLoop (H _ _) _ _ _
    | exact bind (H _ _) fun _ => bind (refl _) fun _ => bind (H _ _) fun _ => refl _
    | exact bind (listE (fun _ => callArg H _ _) _) fun _ => evaluateFunction h hm _ _ _
    | exact bind (listE (fun _ => mapEntryE H _ _) _) fun _ => refl _
    | exact bind (listE (fun _ => arrayEntryE H _ _) _) fun _ => refl _
    | exact evalOrEmpty H _ _
    | skip
  split
  · exact bind (H _ _) fun _ => bind (H _ _) fun _ => refl _
  · exact refl _

end E.Le

/-- Raising the recursion depth keeps every result other than running out of depth. -/
theorem eval_mono (h : Heap) {n m : Nat} (hnm : n ≤ m) : Evaluator.Le (eval h n) (eval h m) := by
  induction n generalizing m with
  | zero => intro c x env hne; exact absurd rfl hne
  | succ n ih =>
    obtain ⟨m, rfl⟩ : ∃ k, m = k + 1 := ⟨m - 1, by omega⟩
    intro c x
    exact E.Le.evalStep h (ih (by omega)) (E.Le.callFunctionF h (ih (by omega)) n m (by omega)) c x

/-! ## The limit -/

/-- `F n` settles, for every environment, on the result of `a`. -/
def E.Conv {α : Type} (F : Nat → E α) (a : E α) : Prop := ∀ env, ∃ n, ∀ m, n ≤ m → F m env = a env

/-- The function that a chain of approximations settles on; `outOfFuel` where they all run out of depth. -/
noncomputable def E.lim {α : Type} (F : Nat → E α) : E α := fun env =>
  open Classical in
  if h : ∃ n, F n env ≠ .error .outOfFuel then F h.choose env else .error .outOfFuel

theorem E.lim_conv {α : Type} (F : Nat → E α) (h : ∀ n m, n ≤ m → E.Le (F n) (F m)) : E.Conv F (E.lim F) := by
  intro env
  unfold E.lim
  split
  · rename_i hex
    exact ⟨hex.choose, fun m hm => h _ m hm env hex.choose_spec⟩
  · rename_i hno
    refine ⟨0, fun m _ => ?_⟩
    exact Classical.not_not.mp fun hc => hno ⟨m, hc⟩

theorem E.Conv.unique {α : Type} {F : Nat → E α} {a b : E α} (h : E.Conv F a) (h' : E.Conv F b) : a = b := by
  funext env
  obtain ⟨n, hn⟩ := h env
  obtain ⟨m, hm⟩ := h' env
  rw [← hn (max n m) (by omega), ← hm (max n m) (by omega)]

theorem E.Conv.shift {α : Type} {F : Nat → E α} {a : E α} (h : E.Conv F a) : E.Conv (fun n => F (n + 1)) a := by
  intro env
  obtain ⟨n, hn⟩ := h env
  exact ⟨n, fun m hm => hn (m + 1) (by omega)⟩

namespace E.Conv

theorem refl {α : Type} (a : E α) : E.Conv (fun _ => a) a := fun _ => ⟨0, fun _ _ => rfl⟩

theorem bind {α β : Type} {F : Nat → E α} {a : E α} {G : Nat → α → E β} {g : α → E β} (h : E.Conv F a)
    (hf : ∀ x, E.Conv (fun n => G n x) (g x)) : E.Conv (fun n => F n >>= G n) (a >>= g) := by
  intro env
  obtain ⟨n, hn⟩ := h env
  cases ha : a env with
  | error e =>
    refine ⟨n, fun m hm => ?_⟩
    show (F m >>= G m) env = _
    rw [E.bind_run, E.bind_run, hn m hm, ha]
  | ok r =>
    obtain ⟨x, e⟩ := r
    obtain ⟨k, hk⟩ := hf x e
    refine ⟨max n k, fun m hm => ?_⟩
    show (F m >>= G m) env = _
    rw [E.bind_run, E.bind_run, hn m (by omega), ha]
    exact hk m (by omega)

theorem ite {α : Type} {p : Prop} [Decidable p] {F G : Nat → E α} {a b : E α} (h : E.Conv F a) (hb : E.Conv G b) :
    E.Conv (fun n => if p then F n else G n) (if p then a else b) := by
  by_cases hp : p
  · simp only [if_pos hp]; exact h
  · simp only [if_neg hp]; exact hb

theorem concatE {f : Nat → XItem → E XSeq} {f' : XItem → E XSeq} (h : ∀ x, E.Conv (fun n => f n x) (f' x)) (l : XSeq) :
    E.Conv (fun n => Amxml.concatE (f n) l) (Amxml.concatE f' l) := by
  induction l with
  | nil => exact refl _
  | cons x l ih => exact bind (h x) fun _ => bind ih fun _ => refl _

theorem listE {α β : Type} {f : Nat → α → E β} {f' : α → E β} (h : ∀ x, E.Conv (fun n => f n x) (f' x)) (l : List α) :
    E.Conv (fun n => Amxml.listE (f n) l) (Amxml.listE f' l) := by
  induction l with
  | nil => exact refl _
  | cons x l ih => exact bind (h x) fun _ => bind ih fun _ => refl _

theorem pathLoop {f : Nat → XItem → E XSeq} {f' : XItem → E XSeq} (h : ∀ x, E.Conv (fun n => f n x) (f' x)) (l : XSeq)
    (n a : Bool) : E.Conv (fun k => Amxml.pathLoop (f k) n a l) (Amxml.pathLoop f' n a l) := by
  induction l generalizing n a with
  | nil => exact refl _
  | cons x l ih =>
    refine bind (h x) fun v => ite (ih _ _) ?_
    exact ite (refl _) (bind (ih _ _) fun _ => refl _)

theorem pathOver (h : Heap) {f : Nat → XItem → E XSeq} {f' : XItem → E XSeq} (hf : ∀ x, E.Conv (fun n => f n x) (f' x))
    (l : XSeq) : E.Conv (fun n => Amxml.pathOver h (f n) l) (Amxml.pathOver h f' l) :=
  ite (bind (pathLoop hf _ _ _) fun _ => refl _) (refl _)

section
variable {ev : Nat → Evaluator} {ev' : Evaluator} (H : ∀ c x, E.Conv (fun n => ev n c x) (ev' c x))
include H

theorem atPosition (p : XNode) (i l : Nat) (x : XItem) :
    E.Conv (fun n => Amxml.atPosition (ev n) p i l x) (Amxml.atPosition ev' p i l x) := by
  intro env
  obtain ⟨n, hn⟩ := H [x] p { env with position := i, last := l }
  refine ⟨n, fun m hm => ?_⟩
  show Amxml.atPosition (ev m) p i l x env = _
  have hm' : ev m [x] p { env with position := i, last := l } = _ := hn m hm
  unfold Amxml.atPosition
  rw [hm']

theorem filterLoop (p : XNode) (rev : Bool) (last : Nat) (l : XSeq) (i : Nat) :
    E.Conv (fun n => Amxml.filterLoop (ev n) p rev last i l) (Amxml.filterLoop ev' p rev last i l) := by
  induction l generalizing i with
  | nil => exact refl _
  | cons x l ih => exact bind (atPosition H _ _ _ _) fun _ => bind (ih _) fun _ => refl _

theorem filterByPredicate (s : XSeq) (p : XNode) (rev : Bool) :
    E.Conv (fun n => Amxml.filterByPredicate (ev n) s p rev) (Amxml.filterByPredicate ev' s p rev) :=
  ite (refl _) (filterLoop H _ _ _ _ _)

theorem filterByPredicates (ps : List XNode) (s : XSeq) :
    E.Conv (fun n => Amxml.filterByPredicates (ev n) ps s) (Amxml.filterByPredicates ev' ps s) := by
  induction ps generalizing s with
  | nil => exact refl _
  | cons p ps ih =>
    simp only [Amxml.filterByPredicates]
    split
    · exact bind (filterByPredicate H _ _ _) fun _ => ih _
    · exact bind (filterByPredicate H _ _ _) fun _ => ih _
    · exact refl _

theorem locStep (h : Heap) (x : XNode) (i : NodeId) :
    E.Conv (fun n => Amxml.locStep h (ev n) x i) (Amxml.locStep h ev' x i) := by
  unfold Amxml.locStep
  split
  · exact refl _
  · exact filterByPredicates H _ _

theorem locationPath (h : Heap) (c : XSeq) (x : XNode) :
    E.Conv (fun n => Amxml.locationPath h (ev n) c x) (Amxml.locationPath h ev' c x) :=
  bind (listE (fun i => locStep H h x i) _) fun _ => refl _

theorem callInline (h : Heap) (f : XNode) (args : List XSeq) (c : XSeq) :
    E.Conv (fun n => Amxml.callInline h (ev n) f args c) (Amxml.callInline h ev' f args c) :=
  bind (refl _) fun _ => bind (H _ _) fun _ => refl _

theorem partialArgs (c : XSeq) (l : List XNode) (args : List XSeq) :
    E.Conv (fun n => Amxml.partialArgs (ev n) c l args) (Amxml.partialArgs ev' c l args) := by
  induction l generalizing args with
  | nil => exact refl _
  | cons a l ih =>
    simp only [Amxml.partialArgs]
    split
    · exact bind (H _ _) fun _ => bind (ih _) fun _ => refl _
    · cases args with
      | nil => exact refl _
      | cons v args => exact bind (ih _) fun _ => refl _
    · exact refl _

theorem callArg (c : XSeq) (a : XNode) : E.Conv (fun n => Amxml.callArg (ev n) c a) (Amxml.callArg ev' c a) := by
  unfold Amxml.callArg
  split
  · exact H _ _
  · exact refl _

theorem applyTo (h : Heap) (c : XSeq) (args : List XSeq) (v : XSeq) :
    E.Conv (fun n => Amxml.applyTo h (ev n) c args v) (Amxml.applyTo h ev' c args v) := by
  unfold Amxml.applyTo
  split
  · exact ite (callInline H _ _ _ _) (refl _)
  · exact refl _
  · exact refl _
  · exact refl _

theorem mapEntryE (c : XSeq) (m : XNode) : E.Conv (fun n => Amxml.mapEntryE (ev n) c m) (Amxml.mapEntryE ev' c m) :=
  ite (refl _) (ite (refl _) (bind (H _ _) fun _ => bind (refl _) fun _ => bind (H _ _) fun _ => refl _))

theorem arrayEntryE (c : XSeq) (m : XNode) : E.Conv (fun n => Amxml.arrayEntryE (ev n) c m) (Amxml.arrayEntryE ev' c m) :=
  ite (refl _) (H _ _)

theorem evalOrEmpty (c : XSeq) (x : XNode) : E.Conv (fun n => Amxml.evalOrEmpty (ev n) c x) (Amxml.evalOrEmpty ev' c x) :=
  ite (refl _) (H _ _)

end

theorem forLoop {b : Nat → E XSeq} {b' : E XSeq} (h : E.Conv b b') (n : Str) (l : XSeq) :
    E.Conv (fun k => Amxml.forLoop n (b k) l) (Amxml.forLoop n b' l) := by
  induction l with
  | nil => exact refl _
  | cons x l ih => exact bind (refl _) fun _ => bind h fun _ => bind (refl _) fun _ => bind ih fun _ => refl _

theorem quantLoop {b : Nat → E XSeq} {b' : E XSeq} (h : E.Conv b b') (n : Str) (s : Bool) (l : XSeq) :
    E.Conv (fun k => Amxml.quantLoop n s (b k) l) (Amxml.quantLoop n s b' l) := by
  induction l with
  | nil => exact refl _
  | cons x l ih =>
    exact bind (refl _) fun _ => bind h fun _ => bind (refl _) fun _ => ite (refl _) (bind (refl _) fun _ => ih)

section
variable (h : Heap) {cl : Nat → XNode → List XSeq → XSeq → E XSeq} {cl' : XNode → List XSeq → XSeq → E XSeq}
  (K : ∀ f a c, E.Conv (fun n => cl n f a c) (cl' f a c))
include K

theorem applyCtxFn (f : CtxFn) (args : List XSeq) (c : XSeq) :
    E.Conv (fun n => Amxml.applyCtxFn h (cl n) f args c) (Amxml.applyCtxFn h cl' f args c) := by
  cases f <;> first
    | exact refl _
    | exact bind (refl _) fun _ => concatE (fun x => K _ _ _) _
    | exact bind (refl _) fun f => concatE (fun x => bind (K f [[x]] c) fun v => refl (do
        let b ← liftE (XSeq.ebv v)
        pure (if b then [x] else []))) _

theorem evaluateFunction (name : Str) (args : List XSeq) (c : XSeq) :
    E.Conv (fun n => Amxml.evaluateFunction h (cl n) name args c) (Amxml.evaluateFunction h cl' name args c) := by
  unfold Amxml.evaluateFunction
  split
  · exact applyCtxFn h K _ _ _
  · exact refl _

variable {ev : Nat → Evaluator} {ev' : Evaluator} (H : ∀ c x, E.Conv (fun n => ev n c x) (ev' c x))
include H

theorem callStep (f : XNode) (args : List XSeq) (c : XSeq) :
    E.Conv (fun n => Amxml.callStep h (ev n) (cl n) f args c) (Amxml.callStep h ev' cl' f args c) := by
  unfold Amxml.callStep
  split
  · exact callInline H _ _ _ _
  · split
    · exact ite (evaluateFunction h K _ _ _) (refl _)
    · exact refl _
  · exact bind (partialArgs H _ _ _) fun _ => evaluateFunction h K _ _ _
  · exact refl _

theorem evalStep (c : XSeq) (x : XNode) :
    E.Conv (fun n => Amxml.evalStep h (cl n) (ev n) c x) (Amxml.evalStep h cl' ev' c x) := by
  unfold Amxml.evalStep
  split
  · exact refl _
  · exact bind (evalOrEmpty H _ _) fun _ => ite (refl _) (pathOver h (fun _ => H _ _) _)
  · exact bind (evalOrEmpty H _ _) fun _ => ite (refl _) (concatE (fun _ => H _ _) _)
  all_goals first
    | exact locationPath H _ _ _
    | exact refl _
    | exact H _ _
    | exact bind (H _ _) fun _ => refl _
    | exact bind (H _ _) fun _ => bind (refl _) fun _ => refl _
    | exact bind (H _ _) fun _ => filterByPredicate H _ _ _
    | exact bind (H _ _) fun _ => bind (listE (fun _ => H _ _) _) fun _ => applyTo H h _ _ _
    | exact bind (H _ _) fun _ => bind (refl _) fun _ => ite (refl _) (bind (H _ _) fun _ => refl _)
    | exact bind (H _ _) fun _ => bind (refl _) fun _ => ite (bind (H _ _) fun _ => refl _) (refl _)
    | exact bind (H _ _) fun _ => ite (refl _) (bind (refl _) fun _ => ite (H _ _) (H _ _))
    | exact bind (H _ _) fun _ => forLoop (H _ _) _ _
    | exact bind (H _ _) fun _ => quantLoop (H _ _) _ _ _
    | exact bind (H _ _) fun _ => bind (refl _) fun _ => bind (H _ _) fun _ => refl _
    | exact bind (listE (fun _ => callArg H _ _) _) fun _ => evaluateFunction h K _ _ _
    | exact bind (listE (fun _ => mapEntryE H _ _) _) fun _ => refl _
    | exact bind (listE (fun _ => arrayEntryE H _ _) _) fun _ => refl _
    | exact evalOrEmpty H _ _
    | skip
  split
  · exact bind (H _ _) fun _ => bind (H _ _) fun _ => refl _
  · exact refl _

end

end E.Conv

/-- `call_function`, without a bound on the depth; `outOfFuel` now stands for a call that never returns. -/
noncomputable def call (h : Heap) (f : XNode) (args : List XSeq) (c : XSeq) : E XSeq :=
  E.lim fun n => callFunctionF h (eval h n) n f args c

/-- `evaluate_xnode`, without a bound on the depth; `outOfFuel` now stands for an evaluation that never returns. -/
noncomputable def evaluate (h : Heap) : Evaluator := fun c x => E.lim fun n => eval h n c x

theorem evaluate_conv (h : Heap) (c : XSeq) (x : XNode) : E.Conv (fun n => eval h n c x) (evaluate h c x) :=
  E.lim_conv _ fun _ _ hnm => eval_mono h hnm c x

theorem call_conv (h : Heap) (f : XNode) (args : List XSeq) (c : XSeq) :
    E.Conv (fun n => callFunctionF h (eval h n) n f args c) (call h f args c) :=
  E.lim_conv _ fun n m hnm => E.Le.callFunctionF h (eval_mono h hnm) n m hnm f args c

/-- **The evaluator's own recursion, without depth.** -/
theorem evaluate_eq (h : Heap) (c : XSeq) (x : XNode) : evaluate h c x = evalStep h (call h) (evaluate h) c x :=
  E.Conv.unique (F := fun n => eval h (n + 1) c x) (evaluate_conv h c x).shift
    (E.Conv.evalStep h (call_conv h) (evaluate_conv h) c x)

/-- An evaluation that ends within some depth has that result. -/
theorem evaluate_of_eval {h : Heap} {n : Nat} {c : XSeq} {x : XNode} {env : Env} {r : Except XErr (XSeq × Env)}
    (he : eval h n c x env = r) (hr : r ≠ .error .outOfFuel) : evaluate h c x env = r := by
  obtain ⟨k, hk⟩ := evaluate_conv h c x env
  rw [← hk (max n k) (by omega)]
  show eval h (max n k) c x env = r
  rw [eval_mono h (n := n) (m := max n k) (by omega) c x env (by rw [he]; exact hr), he]

/-- And every result is found at some depth, and at all greater ones. -/
theorem eval_of_evaluate (h : Heap) (c : XSeq) (x : XNode) (env : Env) :
    ∃ n, ∀ m, n ≤ m → eval h m c x env = evaluate h c x env := evaluate_conv h c x env

end Amxml
