import Verif.Lemmas.SameFn

/-!
# The evaluator does not depend on the identity of nodes
-/

namespace Amxml
open Spec
open List (Forall₂)

section
variable {h h' : Heap} {R : NodeId → NodeId → Prop}

/-- Environments that are equal but for nodes. -/
structure SameEnv (R : NodeId → NodeId → Prop) (e e' : Env) : Prop where
  position : e.position = e'.position
  last : e.last = e'.last
  vars : Forall₂ (Both Eq (SameSeq R)) e.vars e'.vars

/-- Evaluations that have the same outcome in environments that are the same. -/
def SameM {α β : Type} (R : NodeId → NodeId → Prop) (P : α → β → Prop) (m : E α) (m' : E β) : Prop :=
  ∀ e e', SameEnv R e e' → SameOutcome (Both P (SameEnv R)) (m e) (m' e')

theorem SameM.bind {α β γ δ : Type} {P : α → β → Prop} {Q : γ → δ → Prop} {m : E α} {m' : E β} {f : α → E γ} {g : β → E δ}
    (hm : SameM R P m m') (hf : ∀ a b, P a b → SameM R Q (f a) (g b)) : SameM R Q (m >>= f) (m' >>= g) := by
  intro e e' he
  have := hm e e' he
  show SameOutcome _ ((m e).bind fun p => f p.1 p.2) ((m' e').bind fun p => g p.1 p.2)
  refine this.bind fun a b hab => ?_
  cases hab with
  | mk h1 h2 => exact hf _ _ h1 _ _ h2

theorem SameM.pure {α β : Type} {P : α → β → Prop} {a : α} {b : β} (hab : P a b) : SameM R P (Pure.pure a) (Pure.pure b) :=
  fun _ _ he => .ok (.mk hab he)

theorem SameM.lift {α β : Type} {P : α → β → Prop} {x : Except XErr α} {y : Except XErr β} (hx : SameOutcome P x y) : SameM R P (liftE x) (liftE y) := by
  intro e e' he
  cases hx with
  | ok hab => exact .ok (.mk hab he)
  | error _ => exact .error _

theorem SameM.fail {α β : Type} {P : α → β → Prop} (e : XErr) : SameM R P (liftE (.error e) : E α) (liftE (.error e) : E β) := .lift (.error e)

theorem SameM.ite {α β : Type} {P : α → β → Prop} {c : Prop} [Decidable c] {x y : E α} {x' y' : E β}
    (h1 : SameM R P x x') (h2 : SameM R P y y') : SameM R P (if c then x else y) (if c then x' else y') := by
  split
  · exact h1
  · exact h2

theorem SameM.modify {f g : Env → Env} (hf : ∀ e e', SameEnv R e e' → SameEnv R (f e) (g e')) : SameM R Eq (modifyE f) (modifyE g) :=
  fun e e' he => .ok (.mk rfl (hf e e' he))

theorem SameEnv.set (n : Str) {v w} (hv : SameSeq R v w) {e e'} (he : SameEnv R e e') : SameEnv R (e.setVar n v) (e'.setVar n w) :=
  ⟨he.position, he.last, .cons (.mk rfl hv) he.vars⟩

theorem removeFirst_same (n : Str) {l m} (hl : Forall₂ (Both Eq (SameSeq R)) l m) : Forall₂ (Both Eq (SameSeq R)) (removeFirst n l) (removeFirst n m) := by
  induction hl with
  | nil => exact .nil
  | cons h1 h2 ih =>
    cases h1 with
    | mk e hs =>
      subst e
      simp only [removeFirst]
      split
      · exact h2
      · exact .cons (.mk rfl hs) ih

theorem SameEnv.remove (n : Str) {e e'} (he : SameEnv R e e') : SameEnv R (e.removeVar n) (e'.removeVar n) :=
  ⟨he.position, he.last, removeFirst_same n he.vars⟩

theorem SameEnv.get (n : Str) {e e'} (he : SameEnv R e e') : Option.Rel (SameSeq R) (e.getVar n) (e'.getVar n) := by
  have hv := he.vars
  unfold Env.getVar
  revert hv
  generalize e.vars = l
  generalize e'.vars = m
  intro hv
  induction hv with
  | nil => exact .none
  | cons h1 h2 ih =>
    cases h1 with
    | mk e hs =>
      subst e
      simp only [List.find?_cons]
      split
      · exact .some hs
      · exact ih

/-- Evaluators that map the same context and expression to the same value. -/
def SameEv (R : NodeId → NodeId → Prop) (ev ev' : Evaluator) : Prop := ∀ {c c'} (x : XNode), SameSeq R c c' → SameM R (SameSeq R) (ev c x) (ev' c' x)

/-- Calls of function items that map the same arguments to the same value. -/
def SameCall (R : NodeId → NodeId → Prop) (f f' : XNode → List XSeq → XSeq → E XSeq) : Prop :=
  ∀ {a a' c c'} (x : XNode), Forall₂ (SameSeq R) a a' → SameSeq R c c' → SameM R (SameSeq R) (f x a c) (f' x a' c')

theorem concatE_same {f f' : XItem → E XSeq} (hf : ∀ x y, SameItem R x y → SameM R (SameSeq R) (f x) (f' y)) {s t} (hs : SameSeq R s t) :
    SameM R (SameSeq R) (concatE f s) (concatE f' t) := by
  induction hs with
  | nil => exact .pure .nil
  | cons h1 _ ih => exact (hf _ _ h1).bind fun _ _ hv => ih.bind fun _ _ hr => .pure (Forall₂.append hv hr)

theorem listE_same {α β γ δ : Type} {P : α → β → Prop} {Q : γ → δ → Prop} {f : α → E γ} {f' : β → E δ} (hf : ∀ x y, P x y → SameM R Q (f x) (f' y))
    {s t} (hs : Forall₂ P s t) : SameM R (Forall₂ Q) (listE f s) (listE f' t) := by
  induction hs with
  | nil => exact .pure .nil
  | cons h1 _ ih => exact (hf _ _ h1).bind fun _ _ hv => ih.bind fun _ _ hr => .pure (.cons hv hr)

theorem list_eq_same {α : Type} (l : List α) : Forall₂ Eq l l := by
  induction l with
  | nil => exact .nil
  | cons a l ih => exact .cons rfl ih

theorem listX_same {α γ δ : Type} {Q : γ → δ → Prop} {f : α → E γ} {f' : α → E δ} (hf : ∀ x, SameM R Q (f x) (f' x)) (l : List α) :
    SameM R (Forall₂ Q) (listE f l) (listE f' l) := listE_same (P := Eq) (fun x y e => e ▸ hf x) (list_eq_same l)

theorem pathLoop_same {f f' : XItem → E XSeq} (hf : ∀ x y, SameItem R x y → SameM R (SameSeq R) (f x) (f' y)) {s t} (hs : SameSeq R s t) :
    ∀ n a, SameM R (Both Eq (SameSeq R)) (pathLoop f n a s) (pathLoop f' n a t) := by
  induction hs with
  | nil => intro n a; exact .pure (.mk rfl .nil)
  | cons h1 _ ih =>
    intro n a
    simp only [pathLoop]
    refine (hf _ _ h1).bind fun v w hv => ?_
    rw [isEmpty_same hv, isNoAtom_same hv]
    refine .ite (ih _ _) (.ite (.fail _) ((ih _ _).bind fun r r' hr => ?_))
    cases hr with
    | mk e hr => subst e; exact .pure (.mk rfl (Forall₂.append hv hr))

theorem pathOver_same (I : Iso h h' R) {f f' : XItem → E XSeq} (hf : ∀ x y, SameItem R x y → SameM R (SameSeq R) (f x) (f' y)) {s t} (hs : SameSeq R s t) :
    SameM R (SameSeq R) (pathOver h f s) (pathOver h' f' t) := by
  unfold pathOver
  rw [isNoAtom_same hs]
  refine .ite ((pathLoop_same hf hs _ _).bind fun r r' hr => ?_) (.fail _)
  cases hr with
  | mk e hr =>
    subst e
    exact .ite (.pure (ofNodes_same (sortByDocOrder_same I (toNodeset_same hr)))) (.pure hr)

theorem atPosition_same {ev ev' : Evaluator} (hev : SameEv R ev ev') (p : XNode) (n l : Nat) {x y} (hx : SameItem R x y) :
    SameM R (SameSeq R) (atPosition ev p n l x) (atPosition ev' p n l y) := by
  intro e e' he
  have := hev p (oneOf hx) { e with position := n, last := l } { e' with position := n, last := l } ⟨rfl, rfl, he.vars⟩
  revert this
  unfold atPosition
  generalize ev [x] p { e with position := n, last := l } = a
  generalize ev' [y] p { e' with position := n, last := l } = b
  intro this
  cases this with
  | error _ => exact .error _
  | ok hab =>
    cases hab with
    | mk h1 h2 => exact .ok (.mk h1 ⟨he.position, he.last, h2.vars⟩)

theorem filterLoop_same {ev ev' : Evaluator} (hev : SameEv R ev ev') (p : XNode) (rev : Bool) (last : Nat) {s t} (hs : SameSeq R s t) :
    ∀ i, SameM R (SameSeq R) (filterLoop ev p rev last i s) (filterLoop ev' p rev last i t) := by
  induction hs with
  | nil => intro i; exact .pure .nil
  | cons h1 _ ih =>
    intro i
    simp only [filterLoop]
    refine (atPosition_same hev p _ last h1).bind fun v w hv => (ih _).bind fun r r' hr => ?_
    rw [keeps_same _ hv]
    generalize keeps _ w = k
    cases k
    · exact .pure hr
    · exact .pure (.cons h1 hr)

theorem filterByPredicate_same {ev ev' : Evaluator} (hev : SameEv R ev ev') {s t} (hs : SameSeq R s t) (p : XNode) (rev : Bool) :
    SameM R (SameSeq R) (filterByPredicate ev s p rev) (filterByPredicate ev' t p rev) := by
  unfold filterByPredicate
  rw [hs.length_eq]
  exact .ite (.fail _) (filterLoop_same hev p rev _ hs 0)

theorem filterByPredicates_same {ev ev' : Evaluator} (hev : SameEv R ev ev') (ps : List XNode) : ∀ {s t}, SameSeq R s t →
    SameM R (SameSeq R) (filterByPredicates ev ps s) (filterByPredicates ev' ps t) := by
  induction ps with
  | nil => intro s t hs; exact .pure hs
  | cons p ps ih =>
    intro s t hs
    simp only [filterByPredicates]
    split
    · exact (filterByPredicate_same hev hs _ _).bind fun _ _ hr => ih hr
    · exact (filterByPredicate_same hev hs _ _).bind fun _ _ hr => ih hr
    · exact .fail _

theorem locStep_same (I : Iso h h' R) {ev ev' : Evaluator} (hev : SameEv R ev ev') (x : XNode) {i j} (hi : R i j) :
    SameM R (SameSeq R) (locStep h ev x i) (locStep h' ev' x j) := by
  unfold locStep
  have := axisNodes_same I hi x
  revert this
  generalize axisNodes h i x = a
  generalize axisNodes h' j x = b
  intro this
  cases this with
  | none => exact .fail _
  | some hl => exact filterByPredicates_same hev _ (ofNodes_same hl)

theorem locationPath_same (I : Iso h h' R) {ev ev' : Evaluator} (hev : SameEv R ev ev') (x : XNode) {c c'} (hc : SameSeq R c c') :
    SameM R (SameSeq R) (locationPath h ev c x) (locationPath h' ev' c' x) :=
  (listE_same (fun _ _ hi => locStep_same I hev x hi) (toNodeset_same hc)).bind fun _ _ hr =>
    .pure (ofNodes_same (List.rel_flatMap hr fun _ _ hs => toNodeset_same hs))

theorem forLoop_same (n : Str) {b b' : E XSeq} (hb : SameM R (SameSeq R) b b') {s t} (hs : SameSeq R s t) :
    SameM R (SameSeq R) (forLoop n b s) (forLoop n b' t) := by
  induction hs with
  | nil => exact .pure .nil
  | cons h1 _ ih =>
    simp only [forLoop]
    exact (SameM.modify fun _ _ he => he.set n (oneOf h1)).bind fun _ _ _ => hb.bind fun _ _ hv =>
      (SameM.modify fun _ _ he => he.remove n).bind fun _ _ _ => ih.bind fun _ _ hr => .pure (Forall₂.append hv hr)

theorem quantLoop_same (n : Str) (stop : Bool) {b b' : E XSeq} (hb : SameM R (SameSeq R) b b') {s t} (hs : SameSeq R s t) :
    SameM R (SameSeq R) (quantLoop n stop b s) (quantLoop n stop b' t) := by
  induction hs with
  | nil => exact .pure (xbool_same _)
  | cons h1 _ ih =>
    simp only [quantLoop]
    refine (SameM.modify fun _ _ he => he.set n (oneOf h1)).bind fun _ _ _ => hb.bind fun _ _ hv => ?_
    rw [ebv_same hv]
    refine (SameM.lift (same_eq _)).bind fun x y e => ?_
    subst e
    exact .ite (.pure (xbool_same _)) ((SameM.modify fun _ _ he => he.remove n).bind fun _ _ _ => ih)

theorem bindParams_same (I : Iso h h' R) {v w} (hv : Forall₂ (SameSeq R) v w) : ∀ ps, SameM R Eq (bindParams h ps v) (bindParams h' ps w) := by
  induction hv with
  | nil => intro ps; cases ps <;> exact .pure rfl
  | cons h1 _ ih =>
    intro ps
    cases ps with
    | nil => exact .fail _
    | cons p ps =>
      simp only [bindParams]
      rw [matchSequenceType_same I h1]
      refine (SameM.lift (same_eq _)).bind fun x y e => ?_
      subst e
      exact .ite ((SameM.modify fun _ _ he => he.set p.1 h1).bind fun _ _ _ => ih ps) (.fail _)

theorem removeAll_same (l : List Str) {e e'} (he : SameEnv R e e') :
    SameEnv R (l.foldr (fun n e => e.removeVar n) e) (l.foldr (fun n e => e.removeVar n) e') := by
  induction l with
  | nil => exact he
  | cons n l ih => exact ih.remove n

theorem callInline_same (I : Iso h h' R) {ev ev' : Evaluator} (hev : SameEv R ev ev') (f : XNode) {a a' c c'} (ha : Forall₂ (SameSeq R) a a') (hc : SameSeq R c c') :
    SameM R (SameSeq R) (callInline h ev f a c) (callInline h' ev' f a' c') :=
  (bindParams_same I ha _).bind fun _ _ _ => (hev f.left hc).bind fun _ _ hv =>
    (SameM.modify fun _ _ he => removeAll_same _ he).bind fun _ _ _ => .pure hv

theorem applyCtxFn_same (I : Iso h h' R) {call call'} (hcall : SameCall R call call') (f : CtxFn) {a a' c c'} (ha : Forall₂ (SameSeq R) a a') (hc : SameSeq R c c') :
    SameM R (SameSeq R) (applyCtxFn h call f a c) (applyCtxFn h' call' f a' c') := by
  cases f
  · exact .lift (fnNilled_same I hc)
  · exact .lift (fnString_same I hc)
  · exact .lift (.ok (atomize_same I hc))
  · exact .lift (fnNumber_same I hc)
  · exact .lift (fnStringLength_same hc)
  · exact .lift (fnNormalizeSpace_same hc)
  · exact .lift (fnNodeString_same (fun hi => I.name hi) hc)
  · exact .lift (fnNodeString_same (fun hi => by rw [I.name hi]) hc)
  · exact .lift (fnNodeString_same (fun hi => I.uri hi) hc)
  · exact .lift (fnLang_same I (arg_same ha 0) hc)
  · exact .lift (fnRoot_same I hc)
  · intro e e' he
    simp only [applyCtxFn, he.position]
    exact .ok (.mk (oneOf (.integer _)) he)
  · intro e e' he
    simp only [applyCtxFn, he.last]
    exact .ok (.mk (oneOf (.integer _)) he)
  · refine SameM.bind (.lift (fn1_same (arg_same ha 1))) fun f f' e => ?_
    subst e
    exact concatE_same (fun x y hx => hcall f (.cons (oneOf hx) .nil) hc) (arg_same ha 0)
  · refine SameM.bind (.lift (fn1_same (arg_same ha 1))) fun f f' e => ?_
    subst e
    refine concatE_same (fun x y hx => (hcall f (.cons (oneOf hx) .nil) hc).bind fun v w hv => ?_) (arg_same ha 0)
    rw [ebv_same hv]
    refine (SameM.lift (same_eq _)).bind fun b b' e => ?_
    subst e
    split
    · exact .pure (oneOf hx)
    · exact .pure .nil

theorem evaluateFunction_same (I : Iso h h' R) {call call'} (hcall : SameCall R call call') (n : Str) {a a' c c'} (ha : Forall₂ (SameSeq R) a a') (hc : SameSeq R c c') :
    SameM R (SameSeq R) (evaluateFunction h call n a c) (evaluateFunction h' call' n a' c') := by
  unfold evaluateFunction
  rw [ha.length_eq]
  split
  · exact applyCtxFn_same I hcall _ ha hc
  · split
    · rename_i f hf; exact .lift (findPureFn_same I hf a a' ha)
    · exact .fail _

theorem partialArgs_same {ev ev' : Evaluator} (hev : SameEv R ev ev') {c c'} (hc : SameSeq R c c') (l : List XNode) : ∀ {a a'}, Forall₂ (SameSeq R) a a' →
    SameM R (Forall₂ (SameSeq R)) (partialArgs ev c l a) (partialArgs ev' c' l a') := by
  induction l with
  | nil => intro a a' ha; exact .pure .nil
  | cons x l ih =>
    intro a a' ha
    simp only [partialArgs]
    split
    · exact (hev _ hc).bind fun _ _ hv => (ih ha).bind fun _ _ hr => .pure (.cons hv hr)
    · cases ha with
      | nil => exact .fail _
      | cons h1 h2 => exact (ih h2).bind fun _ _ hr => .pure (.cons h1 hr)
    · exact .fail _

theorem callStep_same (I : Iso h h' R) {ev ev' : Evaluator} (hev : SameEv R ev ev') {call call'} (hcall : SameCall R call call') :
    SameCall R (callStep h ev call) (callStep h' ev' call') := by
  intro a a' c c' f ha hc
  unfold callStep
  split
  · exact callInline_same I hev f ha hc
  · split
    · rw [ha.length_eq]
      exact .ite (evaluateFunction_same I hcall _ ha hc) (.fail _)
    · exact .fail _
  · exact (partialArgs_same hev hc _ ha).bind fun _ _ hr => evaluateFunction_same I hcall _ hr hc
  · exact .fail _

theorem callFunctionF_same (I : Iso h h' R) {ev ev' : Evaluator} (hev : SameEv R ev ev') (n : Nat) : SameCall R (callFunctionF h ev n) (callFunctionF h' ev' n) := by
  induction n with
  | zero => intro a a' c c' f ha hc; exact .fail _
  | succ n ih => exact callStep_same I hev ih

theorem firstArg_same {a a'} (ha : Forall₂ (SameSeq R) a a') : SameOutcome (SameItem R) (firstArg a) (firstArg a') := by
  cases ha with
  | nil => exact .error _
  | cons h1 _ => exact item1_same h1

theorem applyTo_same (I : Iso h h' R) {ev ev' : Evaluator} (hev : SameEv R ev ev') {a a' c c'} (ha : Forall₂ (SameSeq R) a a') (hc : SameSeq R c c') {s t} (hs : SameSeq R s t) :
    SameM R (SameSeq R) (applyTo h ev c a s) (applyTo h' ev' c' a' t) := by
  cases hs with
  | nil => exact .fail _
  | cons h1 h2 =>
    cases h2 with
    | cons _ _ => cases h1 <;> exact .fail _
    | nil =>
      cases h1 with
      | fn f =>
        simp only [applyTo]
        exact .ite (callInline_same I hev f ha hc) (.fail _)
      | map hm =>
        simp only [applyTo]
        refine (SameM.lift (firstArg_same ha)).bind fun k l hk => ?_
        have := mapGet_same I hm hk
        revert this
        generalize mapGet h _ k = u
        generalize mapGet h' _ l = v
        intro this
        cases this with
        | none => exact .fail _
        | some hv => exact .pure hv
      | array hm =>
        simp only [applyTo]
        refine (SameM.lift (firstArg_same ha)).bind fun k l hk => ?_
        have := arrayGet_same I hm hk
        revert this
        generalize arrayGet h _ k = u
        generalize arrayGet h' _ l = v
        intro this
        cases this with
        | none => exact .fail _
        | some hv => exact .pure hv
      | _ => exact .fail _

theorem lookupAll_same (I : Iso h h' R) {m m'} (hm : Forall₂ (Both (SameItem R) (SameSeq R)) m m') {k k'} (hk : SameSeq R k k') :
    SameOutcome (SameSeq R) (lookupAll h m k) (lookupAll h' m' k') := by
  induction hk with
  | nil => exact .ok .nil
  | cons h1 _ ih =>
    simp only [lookupAll]
    have := mapGet_same I hm h1
    revert this
    generalize mapGet h _ _ = u
    generalize mapGet h' _ _ = v
    intro this
    cases this with
    | none => exact .error _
    | some hv => exact ih.map fun _ _ hr => Forall₂.append hv hr

theorem lookupWildcard_same (I : Iso h h' R) {c c'} (hc : SameSeq R c c') : SameOutcome (SameSeq R) (lookupWildcard h c) (lookupWildcard h' c') := by
  cases hc with
  | nil => exact .error _
  | cons h1 h2 =>
    cases h2 with
    | cons _ _ => cases h1 <;> exact .error _
    | nil =>
      cases h1 with
      | map hm => exact lookupAll_same I hm (List.rel_map (fun a b hab => by cases hab; assumption) hm)
      | array hm => exact .ok (List.rel_flatten hm)
      | _ => exact .error _

theorem lookupKeys_same (I : Iso h h' R) {k k'} (hk : SameSeq R k k') {c c'} (hc : SameSeq R c c') : SameOutcome (SameSeq R) (lookupKeys h k c) (lookupKeys h' k' c') := by
  cases hc with
  | nil => exact .error _
  | cons h1 h2 =>
    cases h2 with
    | cons _ _ => cases h1 <;> exact .error _
    | nil =>
      cases h1 with
      | map hm => exact .ok (List.rel_flatMap hk fun _ _ hx => getD_same (mapGet_same I hm hx) .nil)
      | array hm => exact .ok (List.rel_flatMap hk fun _ _ hx => getD_same (arrayGet_same I hm hx) .nil)
      | _ => exact .error _

/-- Operators that map the same operands to the same value. -/
def SameOp (R : NodeId → NodeId → Prop) (f f' : XSeq → XSeq → Except XErr XSeq) : Prop :=
  ∀ {a b a' b'}, SameSeq R a a' → SameSeq R b b' → SameOutcome (SameSeq R) (f a b) (f' a' b')

theorem binaryOp_same (I : Iso h h' R) (t : XNodeType) : Option.Rel (SameOp R) (binaryOp h t) (binaryOp h' t) := by
  unfold binaryOp
  split
  · exact .some fun ha hb => .ok (Forall₂.append ha hb)
  · exact .some (generalComparison_same I _ (numCmp_same _ _) (boolCmp_same _))
  · exact .some (generalComparison_same I _ (negCmp_same (numCmp_same _ _)) (negCmp_same (boolCmp_same _)))
  · exact .some (generalComparison_same I _ (numCmp_same _ _) (boolCmp_same _))
  · exact .some (generalComparison_same I _ (negCmp_same (numCmp_same _ _)) (negCmp_same (boolCmp_same _)))
  · exact .some (generalComparison_same I _ (numCmp_same _ _) (boolCmp_same _))
  · exact .some (generalComparison_same I _ (negCmp_same (numCmp_same _ _)) (negCmp_same (boolCmp_same _)))
  · exact .some (valueEq_same I)
  · exact .some (valueNe_same I)
  · exact .some (valueLt_same I)
  · exact .some (valueLe_same I)
  · exact .some (valueGt_same I)
  · exact .some (valueGe_same I)
  · exact .some (opNumeric_same (numOp_same _ _) (numOp_simple _ _))
  · exact .some (opNumeric_same (numOp_same _ _) (numOp_simple _ _))
  · exact .some (opNumeric_same (numOp_same _ _) (numOp_simple _ _))
  · exact .some (opNumeric_same numDiv_same numDiv_simple)
  · exact .some (opNumeric_same numIDiv_same numIDiv_simple)
  · exact .some (opNumeric_same numMod_same numMod_simple)
  · exact .some fun ha hb => fnConcat_same I (.cons ha (.cons hb .nil))
  · exact .some (opUnion_same I)
  · exact .some (opIntersect_same I)
  · exact .some (opExcept_same I)
  · exact .some opTo_same
  · exact .some (opIs_same I)
  · exact .some (opBefore_same I)
  · exact .some (opAfter_same I)
  · exact .none

theorem evalOrEmpty_same {ev ev' : Evaluator} (hev : SameEv R ev ev') {c c'} (hc : SameSeq R c c') (x : XNode) :
    SameM R (SameSeq R) (evalOrEmpty ev c x) (evalOrEmpty ev' c' x) := .ite (.pure .nil) (hev x hc)

theorem truth_same {α β : Type} {P : α → β → Prop} {v w} (hv : SameSeq R v w) {f : Bool → E α} {g : Bool → E β} (hf : ∀ b, SameM R P (f b) (g b)) :
    SameM R P (liftE (XSeq.ebv v) >>= f) (liftE (XSeq.ebv w) >>= g) := by
  rw [ebv_same hv]
  exact (SameM.lift (same_eq _)).bind fun x y e => e ▸ hf x

theorem evalStep_same (I : Iso h h' R) {ev ev' : Evaluator} (hev : SameEv R ev ev') {call call'} (hcall : SameCall R call call') :
    SameEv R (evalStep h call ev) (evalStep h' call' ev') := by
  intro c c' x hc
  unfold evalStep
  split
  all_goals try exact locationPath_same I hev x hc
  · exact .fail _
  · exact (evalOrEmpty_same hev hc _).bind fun _ _ hl => .ite (.pure hl) (pathOver_same I (fun _ _ hi => hev _ (oneOf hi)) hl)
  · exact (evalOrEmpty_same hev hc _).bind fun _ _ hl => .ite (.pure hl) (concatE_same (fun _ _ hi => hev _ (oneOf hi)) hl)
  · exact .pure hc
  · exact (hev _ hc).bind fun _ _ hv => filterByPredicate_same hev hv _ _
  · exact (hev _ hc).bind fun _ _ hv => (listX_same (fun a : XNode => hev a.left hc) _).bind fun _ _ ha => applyTo_same I hev ha hc hv
  · exact (hev _ hc).bind fun _ _ hl => truth_same hl fun b => .ite (.pure (xbool_same _)) ((hev _ hc).bind fun _ _ hr => truth_same hr fun b => .pure (xbool_same _))
  · exact (hev _ hc).bind fun _ _ hl => truth_same hl fun b => .ite ((hev _ hc).bind fun _ _ hr => truth_same hr fun b => .pure (xbool_same _)) (.pure (xbool_same _))
  · exact (hev _ hc).bind fun _ _ hr => .lift (opUnary_same numUPlus_same numUPlus_simple hr)
  · exact (hev _ hc).bind fun _ _ hr => .lift (opUnary_same numUMinus_same numUMinus_simple hr)
  · exact (hev _ hc).bind fun _ _ hv => .ite (.fail _) (truth_same hv fun b => .ite (hev _ hc) (hev _ hc))
  · exact hev _ hc
  · exact hev _ hc
  · exact hev _ hc
  · exact hev _ hc
  · exact (hev _ hc).bind fun _ _ hs => forLoop_same _ (hev _ hc) hs
  · exact (hev _ hc).bind fun _ _ hv => (SameM.modify fun _ _ he => he.set _ hv).bind fun _ _ _ => (hev _ hc).bind fun _ _ hr =>
      (SameM.modify fun _ _ he => he.remove _).bind fun _ _ _ => .pure hr
  · exact (hev _ hc).bind fun _ _ hs => quantLoop_same _ _ (hev _ hc) hs
  · exact (hev _ hc).bind fun _ _ hs => quantLoop_same _ _ (hev _ hc) hs
  · refine (hev _ hc).bind fun _ _ hv => ?_
    rw [matchSequenceType_same I hv]
    exact (SameM.lift (same_eq _)).bind fun a b e => e ▸ .pure (xbool_same _)
  · refine (hev _ hc).bind fun _ _ hv => ?_
    rw [castableAs_same I hv]
    exact .pure (xbool_same _)
  · exact (hev _ hc).bind fun _ _ hv => .lift (castAs_same I hv _)
  · refine (listX_same (fun a => ?_) _).bind fun _ _ ha => evaluateFunction_same I hcall _ ha hc
    unfold callArg
    split
    · exact hev _ hc
    · exact .fail _
  · exact .pure (oneOf (.string _))
  · exact .pure (oneOf (.integer _))
  · exact .pure (oneOf (.decimal _))
  · exact .pure (oneOf (.double _))
  · exact .pure (oneOf (.fn _))
  · exact .pure (oneOf (.fn _))
  · exact .pure (oneOf (.fn _))
  · refine (listX_same (Q := Both (SameItem R) (SameSeq R)) (fun m => ?_) _).bind fun _ _ he => .pure (oneOf (.map he))
    unfold mapEntryE
    exact .ite (.fail _) (.ite (.fail _) ((hev _ hc).bind fun _ _ hk => (SameM.lift (item1_same hk)).bind fun _ _ hk => (hev _ hc).bind fun _ _ hv => .pure (.mk hk hv)))
  · refine (listX_same (Q := SameSeq R) (fun m => ?_) _).bind fun _ _ he => .pure (oneOf (.array he))
    unfold arrayEntryE
    exact .ite (.fail _) (hev _ hc)
  · exact (hev _ hc).bind fun _ _ hv => .pure (oneOf (.array (List.rel_map (fun _ _ hx => oneOf hx) hv)))
  · exact .lift (lookupWildcard_same I hc)
  · exact (hev _ hc).bind fun _ _ hk => .lift (lookupKeys_same I hk hc)
  · intro e e' he
    exact .ok (.mk (getD_same (he.get _) .nil) he)
  · exact evalOrEmpty_same hev hc _
  · have := binaryOp_same I x.ty
    revert this
    generalize binaryOp h _ = u
    generalize binaryOp h' _ = v
    intro this
    cases this with
    | none => exact .fail _
    | some hf => exact (hev _ hc).bind fun _ _ hl => (hev _ hc).bind fun _ _ hr => .lift (hf hl hr)

theorem eval_same (I : Iso h h' R) (n : Nat) : SameEv R (eval h n) (eval h' n) := by
  induction n with
  | zero => intro c c' x hc; exact .fail _
  | succ n ih => exact evalStep_same I ih (callFunctionF_same I ih n)

theorem matchXPath_same (I : Iso h h' R) (n : Nat) {i j} (hi : R i j) (x : XNode) : SameOutcome (SameSeq R) (matchXPath h n i x) (matchXPath h' n j x) := by
  have := eval_same I n x (oneOf (.node hi)) Env.new Env.new ⟨rfl, rfl, .nil⟩
  revert this
  unfold matchXPath
  generalize eval h n _ x Env.new = a
  generalize eval h' n _ x Env.new = b
  intro this
  cases this with
  | error e => exact .error e
  | ok hab => cases hab with | mk h1 h2 => exact .ok h1

theorem evalXPath_same (I : Iso h h' R) (n : Nat) {i j} (hi : R i j) (q : Str) : SameOutcome (SameSeq R) (evalXPath h n i q) (evalXPath h' n j q) := by
  unfold evalXPath
  split
  · exact matchXPath_same I n hi _
  · exact .error _

/-! ## the texts of values -/

theorem displayNode_same (I : Iso h h' R) {i j} (hi : R i j) : displayNode h i = displayNode h' j := by
  have : ((h.node i).attributes.flatMap fun a => ' ' :: (h.node a).name ++ S "=\"" ++ (h.node a).value ++ S "\"") =
      ((h'.node j).attributes.flatMap fun a => ' ' :: (h'.node a).name ++ S "=\"" ++ (h'.node a).value ++ S "\"") := by
    have ha := I.attributes hi
    revert ha
    generalize (h.node i).attributes = l
    generalize (h'.node j).attributes = m
    intro ha
    induction ha with
    | nil => rfl
    | cons h1 _ ih => simp only [List.flatMap_cons, I.name h1, I.value h1, ih]
  unfold displayNode
  rw [I.ntype hi, I.name hi, I.value hi, this]

mutual
theorem displayItem_same (I : Iso h h' R) : ∀ {x y}, SameItem R x y → displayItem h x = displayItem h' y
  | .array a, y, hx => by
    cases hx with
    | array ha => rw [displayItem, displayItem, displayMembers_same I ha]
  | .map m, y, hx => by
    cases hx with
    | map hm => rw [displayItem, displayItem, displayEntries_same I hm]
  | .node i, y, hx => by
    cases hx with
    | node hi => rw [displayItem, displayItem, displayNode_same I hi]
  | .fn _, y, hx => by cases hx; rw [displayItem, displayItem]
  | .string _, y, hx => by cases hx; rw [displayItem, displayItem]
  | .integer _, y, hx => by cases hx; rw [displayItem, displayItem]
  | .decimal _, y, hx => by cases hx; rw [displayItem, displayItem]
  | .double _, y, hx => by cases hx; rw [displayItem, displayItem]
  | .boolean _, y, hx => by cases hx; rw [displayItem, displayItem]
theorem displayItems_same (I : Iso h h' R) : ∀ {s t}, SameSeq R s t → displayItems h s = displayItems h' t
  | [], [], _ => by rw [displayItems, displayItems]
  | x :: s, y :: t, hs => by
    rw [displayItems, displayItems]
    cases hs with
    | cons h1 h2 => rw [displayItem_same I h1, displayItems_same I h2]
theorem displayEntries_same (I : Iso h h' R) : ∀ {s t}, Forall₂ (Both (SameItem R) (SameSeq R)) s t → displayEntries h s = displayEntries h' t
  | [], [], _ => by rw [displayEntries, displayEntries]
  | (k, v) :: s, (l, w) :: t, hs => by
    rw [displayEntries, displayEntries]
    cases hs with
    | cons h1 h2 =>
      cases h1 with
      | mk g1 g2 => rw [displayItem_same I g1, displayItems_same I g2, displayEntries_same I h2]
theorem displayMembers_same (I : Iso h h' R) : ∀ {s t}, Forall₂ (SameSeq R) s t → displayMembers h s = displayMembers h' t
  | [], [], _ => by rw [displayMembers, displayMembers]
  | x :: s, y :: t, hs => by
    rw [displayMembers, displayMembers]
    cases hs with
    | cons h1 h2 => rw [displayItems_same I h1, displayMembers_same I h2]
end

theorem displaySeq_same (I : Iso h h' R) {s t} (hs : SameSeq R s t) : displaySeq h s = displaySeq h' t := by
  unfold displaySeq; rw [displayItems_same I hs]

end

end Amxml
