import Verif.Lemmas.Safety

/-!
# Evaluation gives no errors that tell about the text of the query

`Late r`: if `r` is an error it is neither a syntax error nor an unimplemented feature. The library functions and operators are covered by Lemmas/Safety.lean;
here are the evaluator and its loops, for every bound on the depth of the recursion.
-/

namespace Amxml
namespace Stage
open Safety

/-- Not an error that tells about the text of the query. -/
def Kind (e : XErr) : Prop := e ≠ .syntaxError ∧ e ≠ .unimplemented

/-- The result is a value or such an error. -/
def Late {α : Type} (r : Except XErr α) : Prop := ∀ e, r = .error e → Kind e

/-- The evaluation gives a value or such an error. -/
def LateE {α : Type} (m : E α) : Prop := ∀ env, Late (m env)

/-- The condition on function items that all meet. -/
abbrev Every : XNode → Prop := fun _ => True

mutual
theorem cleanItem_every : ∀ x : XItem, CleanItem Every x
  | .fn _ => trivial
  | .map e => by rw [CleanItem]; exact cleanEntries_every e
  | .array a => by rw [CleanItem]; exact cleanMembers_every a
  | .node _ => trivial
  | .string _ => trivial
  | .integer _ => trivial
  | .decimal _ => trivial
  | .double _ => trivial
  | .boolean _ => trivial
theorem cleanEntries_every : ∀ l : List (XItem × List XItem), CleanEntries Every l
  | [] => trivial
  | (k, v) :: l => ⟨⟨cleanItem_every k, clean_every v⟩, cleanEntries_every l⟩
theorem cleanMembers_every : ∀ l : List (List XItem), CleanMembers Every l
  | [] => trivial
  | s :: l => ⟨clean_every s, cleanMembers_every l⟩
theorem clean_every : ∀ s : List XItem, Clean Every s
  | [] => trivial
  | x :: s => ⟨cleanItem_every x, clean_every s⟩
end

theorem Late.of {α : Type} {p : α → Prop} {r : Except XErr α} (h : Safe False p r) : Late r := by
  intro e he
  subst he
  exact ⟨h.2.2.1, h.2.2.2⟩

theorem Late.ok {α : Type} (a : α) : Late (.ok a : Except XErr α) := nofun
theorem Late.type {α : Type} : Late (.error .typeError : Except XErr α) := by rintro _ ⟨⟩; exact ⟨nofun, nofun⟩
theorem Late.dynamic {α : Type} : Late (.error .dynamicError : Except XErr α) := by rintro _ ⟨⟩; exact ⟨nofun, nofun⟩
theorem Late.occur {α : Type} : Late (.error .cantOccur : Except XErr α) := by rintro _ ⟨⟩; exact ⟨nofun, nofun⟩
theorem Late.panic {α : Type} : Late (.error .panic : Except XErr α) := by rintro _ ⟨⟩; exact ⟨nofun, nofun⟩
theorem Late.fuel {α : Type} : Late (.error .outOfFuel : Except XErr α) := by rintro _ ⟨⟩; exact ⟨nofun, nofun⟩

namespace LateE

theorem lift {α : Type} {r : Except XErr α} (h : Late r) : LateE (liftE r) := by
  intro env e he
  cases r with
  | ok a => cases he
  | error b => cases he; exact h _ rfl

theorem pure {α : Type} (a : α) : LateE (Pure.pure a : E α) := fun _ => nofun
theorem modify (f : Env → Env) : LateE (modifyE f) := fun _ => nofun
theorem type {α : Type} : LateE (liftE (.error .typeError) : E α) := lift Late.type
theorem dynamic {α : Type} : LateE (liftE (.error .dynamicError) : E α) := lift Late.dynamic
theorem occur {α : Type} : LateE (liftE (.error .cantOccur) : E α) := lift Late.occur
theorem panic {α : Type} : LateE (liftE (.error .panic) : E α) := lift Late.panic

theorem bind {α β : Type} {m : E α} {f : α → E β} (h : LateE m) (hf : ∀ a, LateE (f a)) : LateE (m >>= f) := by
  intro env e he
  rw [E.bind_run] at he
  cases hm : m env with
  | ok r => rw [hm] at he; exact hf r.1 r.2 e he
  | error b => rw [hm] at he; cases he; exact h env _ hm

theorem ite {α : Type} {p : Prop} [Decidable p] {a b : E α} (h : LateE a) (hb : LateE b) : LateE (if p then a else b) := by
  split
  · exact h
  · exact hb

theorem concatE {f : XItem → E XSeq} (h : ∀ x, LateE (f x)) (l : XSeq) : LateE (Amxml.concatE f l) := by
  induction l with
  | nil => exact pure _
  | cons x l ih => exact bind (h x) fun _ => bind ih fun _ => pure _

theorem listE {α β : Type} {f : α → E β} (h : ∀ x, LateE (f x)) (l : List α) : LateE (Amxml.listE f l) := by
  induction l with
  | nil => exact pure _
  | cons x l ih => exact bind (h x) fun _ => bind ih fun _ => pure _

theorem pathLoop {f : XItem → E XSeq} (h : ∀ x, LateE (f x)) (l : XSeq) (n a : Bool) : LateE (Amxml.pathLoop f n a l) := by
  induction l generalizing n a with
  | nil => exact pure _
  | cons x l ih => exact bind (h x) fun v => ite (ih _ _) (ite type (bind (ih _ _) fun _ => pure _))

theorem pathOver (h : Heap) {f : XItem → E XSeq} (hf : ∀ x, LateE (f x)) (l : XSeq) : LateE (Amxml.pathOver h f l) :=
  ite (bind (pathLoop hf _ _ _) fun _ => ite (pure _) (pure _)) type

section
variable {ev : Evaluator} (H : ∀ c x, LateE (ev c x))
include H

theorem atPosition (p : XNode) (i l : Nat) (x : XItem) : LateE (Amxml.atPosition ev p i l x) := by
  intro env e he
  unfold Amxml.atPosition at he
  split at he
  · cases he
  · rename_i b hb
    cases he
    exact H _ _ _ _ hb

theorem filterLoop (p : XNode) (rev : Bool) (last : Nat) (l : XSeq) (i : Nat) : LateE (Amxml.filterLoop ev p rev last i l) := by
  induction l generalizing i with
  | nil => exact pure _
  | cons x l ih => exact bind (atPosition H _ _ _ _) fun _ => bind (ih _) fun _ => pure _

theorem filterByPredicate (s : XSeq) (p : XNode) (rev : Bool) : LateE (Amxml.filterByPredicate ev s p rev) := ite occur (filterLoop H _ _ _ _ _)

theorem filterByPredicates (ps : List XNode) (s : XSeq) : LateE (Amxml.filterByPredicates ev ps s) := by
  induction ps generalizing s with
  | nil => exact pure _
  | cons p ps ih =>
    unfold Amxml.filterByPredicates
    split
    · exact bind (filterByPredicate H _ _ _) fun _ => ih _
    · exact bind (filterByPredicate H _ _ _) fun _ => ih _
    · exact occur

theorem locStep (h : Heap) (x : XNode) (i : NodeId) : LateE (Amxml.locStep h ev x i) := by
  unfold Amxml.locStep
  split
  · exact occur
  · exact filterByPredicates H _ _

theorem locationPath (h : Heap) (c : XSeq) (x : XNode) : LateE (Amxml.locationPath h ev c x) :=
  bind (listE (fun i => locStep H h x i) _) fun _ => pure _

omit H in
theorem sequenceType (h : Heap) (s : XSeq) (x : XNode) : LateE (liftE (matchSequenceType h s x)) := lift (.of (safe_sequenceType h s x))

omit H in
theorem bindParams (h : Heap) (ps : List (Str × XNode)) (args : List XSeq) : LateE (Amxml.bindParams h ps args) := by
  induction args generalizing ps with
  | nil => cases ps <;> exact pure _
  | cons v vs ih =>
    cases ps with
    | nil => exact panic
    | cons p ps => exact bind (sequenceType h _ _) fun _ => ite (bind (modify _) fun _ => ih _) type

theorem callInline (h : Heap) (f : XNode) (args : List XSeq) (c : XSeq) : LateE (Amxml.callInline h ev f args c) :=
  bind (bindParams h _ _) fun _ => bind (H _ _) fun _ => bind (modify _) fun _ => pure _

theorem partialArgs (c : XSeq) (l : List XNode) (args : List XSeq) : LateE (Amxml.partialArgs ev c l args) := by
  induction l generalizing args with
  | nil => exact pure _
  | cons a l ih =>
    unfold Amxml.partialArgs
    split
    · exact bind (H _ _) fun _ => bind (ih _) fun _ => pure _
    · split
      · exact dynamic
      · exact bind (ih _) fun _ => pure _
    · exact occur

theorem callArg (c : XSeq) (a : XNode) : LateE (Amxml.callArg ev c a) := by
  unfold Amxml.callArg
  split
  · exact H _ _
  · exact occur

theorem applyTo (h : Heap) (c : XSeq) (args : List XSeq) (v : XSeq) : LateE (Amxml.applyTo h ev c args v) := by
  have hf : LateE (liftE (firstArg args)) := by
    cases args with
    | nil => exact panic
    | cons a _ => exact lift (.of (safe_item1 (P := Every) (clean_every a)))
  unfold Amxml.applyTo
  split
  · exact ite (callInline H _ _ _ _) occur
  · exact bind hf fun _ => by split; exacts [pure _, dynamic]
  · exact bind hf fun _ => by split; exacts [pure _, dynamic]
  · exact occur

theorem mapEntryE (c : XSeq) (m : XNode) : LateE (Amxml.mapEntryE ev c m) :=
  ite occur (ite occur (bind (H _ _) fun _ => bind (lift (.of (safe_item1 (P := Every) (clean_every _)))) fun _ => bind (H _ _) fun _ => pure _))

theorem arrayEntryE (c : XSeq) (m : XNode) : LateE (Amxml.arrayEntryE ev c m) := ite occur (H _ _)

theorem evalOrEmpty (c : XSeq) (x : XNode) : LateE (Amxml.evalOrEmpty ev c x) := ite (pure _) (H _ _)

end

theorem ebv (v : XSeq) : LateE (liftE (XSeq.ebv v)) := lift (.of (safe_ebv v))

theorem forLoop {b : E XSeq} (h : LateE b) (n : Str) (l : XSeq) : LateE (Amxml.forLoop n b l) := by
  induction l with
  | nil => exact pure _
  | cons x l ih => exact bind (modify _) fun _ => bind h fun _ => bind (modify _) fun _ => bind ih fun _ => pure _

theorem quantLoop {b : E XSeq} (h : LateE b) (n : Str) (s : Bool) (l : XSeq) : LateE (Amxml.quantLoop n s b l) := by
  induction l with
  | nil => exact pure _
  | cons x l ih => exact bind (modify _) fun _ => bind h fun _ => bind (ebv _) fun _ => ite (pure _) (bind (modify _) fun _ => ih)

theorem applyCtxFn (h : Heap) {cl : XNode → List XSeq → XSeq → E XSeq} (H : ∀ f a c, LateE (cl f a c)) (f : CtxFn) (args : List XSeq) (c : XSeq) :
    LateE (Amxml.applyCtxFn h cl f args c) := by
  have ca : ∀ s, Clean Every s := clean_every
  cases f with
  | nilled0 => exact lift (.of (safe_nilled (P := Every) h c))
  | string0 => exact lift (.of (safe_string (P := Every) h (ca c)))
  | data0 => exact lift (Late.ok _)
  | number0 => exact lift (.of (safe_number (P := Every) h c))
  | stringLength0 => exact lift (.of (safe_length (P := Every) c))
  | normalizeSpace0 => exact lift (.of (safe_normalize (P := Every) c))
  | name0 => exact lift (.of (safe_nodeString (P := Every) _ c))
  | localName0 => exact lift (.of (safe_nodeString (P := Every) _ c))
  | namespaceUri0 => exact lift (.of (safe_nodeString (P := Every) _ c))
  | lang1 => exact lift (.of (safe_lang (P := Every) h _ _))
  | root0 => exact lift (.of (safe_root (P := Every) h c))
  | position => exact fun _ => nofun
  | last => exact fun _ => nofun
  | forEach => exact bind (lift (.of (safe_fn1 (P := Every) (ca _)))) fun f => concatE (fun x => H _ _ _) _
  | filter =>
    exact bind (lift (.of (safe_fn1 (P := Every) (ca _)))) fun f => concatE (fun x => bind (H _ _ _) fun _ => bind (ebv _) fun _ => pure _) _

theorem evaluateFunction (h : Heap) {cl : XNode → List XSeq → XSeq → E XSeq} (H : ∀ f a c, LateE (cl f a c)) (name : Str) (args : List XSeq) (c : XSeq) :
    LateE (Amxml.evaluateFunction h cl name args c) := by
  unfold Amxml.evaluateFunction
  split
  · exact applyCtxFn h H _ _ _
  · split
    · rename_i f hf
      unfold findPureFn at hf
      cases e : funcTbl.find? fun e => (e.1 == some args.length || e.1 == none) && e.2.1 == name with
      | none => rw [e] at hf; cases hf
      | some b =>
        rw [e] at hf
        cases hf
        exact lift (.of (safe_table (P := Every) b (List.mem_of_find?_eq_some e) nofun h args fun a _ => clean_every a))
    · exact occur

theorem callStep (h : Heap) {ev : Evaluator} (H : ∀ c x, LateE (ev c x)) {cl : XNode → List XSeq → XSeq → E XSeq} (hm : ∀ f a c, LateE (cl f a c))
    (f : XNode) (args : List XSeq) (c : XSeq) : LateE (Amxml.callStep h ev cl f args c) := by
  unfold Amxml.callStep
  split
  · exact callInline H _ _ _ _
  · split
    · exact ite (evaluateFunction h hm _ _ _) type
    · exact panic
  · exact bind (partialArgs H _ _ _) fun _ => evaluateFunction h hm _ _ _
  · exact occur

theorem callFunctionF (h : Heap) {ev : Evaluator} (H : ∀ c x, LateE (ev c x)) (n : Nat) (f : XNode) (args : List XSeq) (c : XSeq) :
    LateE (Amxml.callFunctionF h ev n f args c) := by
  induction n generalizing f args c with
  | zero => exact lift Late.fuel
  | succ n ih => exact callStep h H ih f args c

theorem lookupWildcard (h : Heap) (c : XSeq) : LateE (liftE (Amxml.lookupWildcard h c)) := by
  have hl : ∀ e l, Late (lookupAll h e l) := by
    intro e l
    induction l with
    | nil => exact Late.ok _
    | cons k l ih =>
      rw [lookupAll]
      split
      · exact Late.panic
      · cases hr : lookupAll h e l with
        | ok r => exact Late.ok _
        | error b => rintro _ ⟨⟩; exact ih _ hr
  refine lift ?_
  unfold Amxml.lookupWildcard
  split
  · exact hl _ _
  · exact Late.ok _
  · exact Late.type

theorem lookupKeys (h : Heap) (k c : XSeq) : LateE (liftE (Amxml.lookupKeys h k c)) := by
  refine lift ?_
  unfold Amxml.lookupKeys
  split
  · exact Late.ok _
  · exact Late.ok _
  · exact Late.type

theorem evalStep (h : Heap) {ev : Evaluator} (H : ∀ c x, LateE (ev c x)) {cl : XNode → List XSeq → XSeq → E XSeq} (hm : ∀ f a c, LateE (cl f a c))
    (c : XSeq) (x : XNode) : LateE (Amxml.evalStep h cl ev c x) := by
  unfold Amxml.evalStep
  split
  · exact panic
  · exact bind (evalOrEmpty H _ _) fun _ => ite (pure _) (pathOver h (fun _ => H _ _) _)
  · exact bind (evalOrEmpty H _ _) fun _ => ite (pure _) (concatE (fun _ => H _ _) _)
  all_goals first
    | exact locationPath H _ _ _
    | exact pure _
    | exact fun env => Late.ok _
    | exact H _ _
    | exact bind (H _ _) fun _ => pure _
    | exact bind (H _ _) fun _ => filterByPredicate H _ _ _
    | exact bind (H _ _) fun _ => bind (listE (fun _ => H _ _) _) fun _ => applyTo H h _ _ _
    | exact bind (H _ _) fun _ => bind (ebv _) fun _ => ite (pure _) (bind (H _ _) fun _ => bind (ebv _) fun _ => pure _)
    | exact bind (H _ _) fun _ => bind (ebv _) fun _ => ite (bind (H _ _) fun _ => bind (ebv _) fun _ => pure _) (pure _)
    | exact bind (H _ _) fun _ => ite occur (bind (ebv _) fun _ => ite (H _ _) (H _ _))
    | exact bind (H _ _) fun _ => forLoop (H _ _) _ _
    | exact bind (H _ _) fun _ => quantLoop (H _ _) _ _ _
    | exact bind (H _ _) fun _ => bind (modify _) fun _ => bind (H _ _) fun _ => bind (modify _) fun _ => pure _
    | exact bind (H _ _) fun _ => bind (sequenceType h _ _) fun _ => pure _
    | exact bind (listE (fun _ => callArg H _ _) _) fun _ => evaluateFunction h hm _ _ _
    | exact bind (listE (fun _ => mapEntryE H _ _) _) fun _ => pure _
    | exact bind (listE (fun _ => arrayEntryE H _ _) _) fun _ => pure _
    | exact evalOrEmpty H _ _
    | exact lookupWildcard h _
    | exact bind (H _ _) fun _ => lookupKeys h _ _
    | exact bind (H _ _) fun _ => lift (.of (safe_castAs (P := Every) h _ _))
    | exact bind (H _ _) fun _ => lift (.of (safe_opUnary (P := Every) safe_numUPlus (clean_every _)))
    | exact bind (H _ _) fun _ => lift (.of (safe_opUnary (P := Every) (safe_numUMinus nofun) (clean_every _)))
    | skip
  split
  · rename_i f hf
    exact bind (H _ _) fun _ => bind (H _ _) fun _ => lift (.of (safe_binaryOp (P := Every) h hf nofun (clean_every _) (clean_every _)))
  · exact occur

theorem eval (h : Heap) (n : Nat) : ∀ c x, LateE (Amxml.eval h n c x) := by
  induction n with
  | zero => exact fun _ _ => lift Late.fuel
  | succ n ih => exact fun c x => evalStep h ih (callFunctionF h ih n) c x

end LateE
end Stage
end Amxml
