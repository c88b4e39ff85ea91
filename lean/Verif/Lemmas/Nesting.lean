import Verif.Lemmas.Parser
import Verif.Spec.Nesting

/-!
# The depth of the parser's recursion

`Nest n p q` says of two parsers that they agree on token lists with fewer than `n` openings, and that the first leaves no more openings than it found.
-/

namespace Amxml
namespace Parser
open Spec (opens openings)

/-- The two parsers agree on lists with fewer than `n` openings, and leave no more than they find. -/
def Nest {α : Type} (n : Nat) (p q : P α) : Prop := ∀ ts, openings ts < n → p ts = q ts ∧
  ∀ a r, p ts = .ok (a, r) → openings r ≤ openings ts

theorem openings_nil : openings [] = 0 := rfl

theorem openings_cons (k : Tok) (ts : List Tok) : openings (k :: ts) = openings ts + if opens k.ty then 1 else 0 := by
  unfold openings
  cases h : opens k.ty <;> simp [h]

theorem openings_tail (ts : List Tok) : openings ts.tail ≤ openings ts := by
  cases ts with
  | nil => exact Nat.le_refl _
  | cons k ts => rw [openings_cons]; simp

theorem Nest.mono {α : Type} {n m : Nat} {p q : P α} (h : Nest n p q) (hm : m ≤ n) : Nest m p q :=
  fun ts ht => h ts (Nat.lt_of_lt_of_le ht hm)

theorem Nest.zero {α : Type} (p q : P α) : Nest 0 p q := fun ts ht => absurd ht (by omega)

theorem Nest.of {α : Type} {n : Nat} {p : P α} (h : ∀ ts a r, p ts = .ok (a, r) → openings r ≤ openings ts) : Nest n p p :=
  fun ts _ => ⟨rfl, h ts⟩

theorem Nest.pure {α : Type} (n : Nat) (a : α) : Nest n (pure a : P α) (pure a) := by
  apply Nest.of
  intro ts b r h
  simp [pure_run] at h
  simp [h.2]

theorem Nest.fail {α : Type} (n : Nat) (e : XErr) : Nest n (Parser.fail e : P α) (Parser.fail e) := by
  apply Nest.of
  intro ts b r h
  simp [Parser.fail] at h

theorem Nest.bind {α β : Type} {n : Nat} {p q : P α} {f g : α → P β} (hp : Nest n p q) (hf : ∀ a, Nest n (f a) (g a)) :
    Nest n (p >>= f) (q >>= g) := by
  intro ts ht
  obtain ⟨h1, h2⟩ := hp ts ht
  rw [bind_run, bind_run, ← h1]
  cases hpt : p ts with
  | error e => exact ⟨rfl, fun b r h => by cases h⟩
  | ok a =>
    obtain ⟨a, r⟩ := a
    have hr := h2 a r hpt
    obtain ⟨k1, k2⟩ := hf a r (by omega)
    exact ⟨k1, fun b r' h => Nat.le_trans (k2 b r' h) hr⟩

theorem Nest.peek (n : Nat) : Nest n peek peek := by
  apply Nest.of
  intro ts b r h
  simp [Parser.peek] at h
  simp [h.2]

theorem Nest.advance (n : Nat) : Nest n advance advance := by
  apply Nest.of
  intro ts b r h
  simp [Parser.advance] at h
  subst h
  exact openings_tail ts

/-- A token that opens something is read before `p`. -/
theorem Nest.open {α : Type} {n : Nat} {t : TType} (ho : opens t = true) {p p' q q' : P α} (hp : Nest n p p')
    (hq : Nest (n + 1) q q') : Nest (n + 1) (ifTok t p q) (ifTok t p' q') := by
  intro ts ht
  cases ts with
  | nil => simpa [Parser.ifTok] using hq [] ht
  | cons k r =>
    simp only [Parser.ifTok]
    by_cases hk : k.ty = t
    · rw [openings_cons, hk, ho] at ht ⊢
      simp only [if_true] at ht ⊢
      obtain ⟨h1, h2⟩ := hp r (by omega)
      exact ⟨h1, fun a r' h => by have := h2 a r' h; omega⟩
    · simp only [hk, if_false]
      exact hq (k :: r) ht

theorem Nest.ifTok {α : Type} {n : Nat} {t : TType} {p p' q q' : P α} (hp : Nest n p p') (hq : Nest n q q') :
    Nest n (ifTok t p q) (ifTok t p' q') := by
  intro ts ht
  cases ts with
  | nil => simpa [Parser.ifTok] using hq [] ht
  | cons k r =>
    simp only [Parser.ifTok]
    by_cases hk : k.ty = t
    · simp only [hk, if_true]
      have := openings_cons k r
      obtain ⟨h1, h2⟩ := hp r (by omega)
      exact ⟨h1, fun a r' h => by have := h2 a r' h; omega⟩
    · simp only [hk, if_false]
      exact hq (k :: r) ht

theorem Nest.expect (n : Nat) (t : TType) : Nest n (expect t) (expect t) := Nest.ifTok (Nest.pure n ()) (Nest.fail n _)

/-- A token that opens something is read before what follows. -/
theorem Nest.expect_open {α : Type} {n : Nat} {t : TType} (ho : opens t = true) {f g : Unit → P α} (hf : Nest n (f ()) (g ())) :
    Nest (n + 1) (Parser.expect t >>= f) (Parser.expect t >>= g) := by
  have h : ∀ f : Unit → P α, (Parser.expect t >>= f) = Parser.ifTok t (f ()) (Parser.fail .syntaxError) := by
    intro f
    funext ts
    rw [bind_run]
    unfold Parser.expect Parser.ifTok
    cases ts with
    | nil => rfl
    | cons k r =>
      simp only
      by_cases hk : k.ty = t <;> simp [hk, pure_run, Parser.fail]
  rw [h, h]
  exact Nest.open ho hf (Nest.fail _ _)

theorem Nest.expectName (n : Nat) (w : Str) : Nest n (expectName w) (expectName w) := by
  apply Nest.of
  intro ts a r h
  cases ts with
  | nil => simp [Parser.expectName] at h
  | cons k ts =>
    simp only [Parser.expectName] at h
    split at h
    · cases h
    · simp at h; subst h; rw [openings_cons]; omega

theorem Nest.ite {α : Type} {n : Nat} {c : Prop} [Decidable c] {p p' q q' : P α} (hp : Nest n p p') (hq : Nest n q q') :
    Nest n (if c then p else q) (if c then p' else q') := by
  split
  · exact hp
  · exact hq

theorem Nest.orIfNil {n : Nat} {p p' q q' : P XNode} (hp : Nest n p p') (hq : Nest n q q') :
    Nest n (orIfNil p q) (orIfNil p' q') := by
  unfold Parser.orIfNil
  exact Nest.bind hp fun x => Nest.ite hq (Nest.pure n x)

theorem Nest.looping {α : Type} {n : Nat} {f g : Nat → P α} (h : ∀ k, Nest n (f k) (g k)) : Nest n (looping f) (looping g) :=
  fun ts ht => h (ts.length + 1) ts ht

/-! ## Names -/

theorem Nest.qname (n : Nat) (pre : Str) : Nest n (qname pre) (qname pre) := by
  apply Nest.of
  intro ts a r h
  unfold Parser.qname at h
  repeat' split at h
  all_goals first | cases h; done | (simp at h; obtain ⟨-, rfl⟩ := h; simp only [openings_cons]; omega) | (simp at h; obtain ⟨-, rfl⟩ := h; exact Nat.le_refl _)

theorem Nest.uriName (n : Nat) : Nest n uriName uriName := by
  apply Nest.of
  intro ts a r h
  unfold Parser.uriName at h
  split at h
  all_goals (simp at h; obtain ⟨-, rfl⟩ := h; first | exact Nat.le_refl _ | (simp only [openings_cons]; omega))

theorem Nest.wildcard (n : Nat) : Nest n wildcard wildcard := by
  apply Nest.of
  intro ts a r h
  unfold Parser.wildcard at h
  split at h
  all_goals (simp at h; obtain ⟨-, rfl⟩ := h; first | exact Nat.le_refl _ | (simp only [openings_cons]; omega))

theorem Nest.eqname (n : Nat) (pre : Str) : Nest n (eqname pre) (eqname pre) :=
  Nest.bind (Nest.qname n pre) fun q => Nest.ite (Nest.uriName n) (Nest.pure n q)

theorem Nest.eqnameRequired (n : Nat) (pre : Str) : Nest n (eqnameRequired pre) (eqnameRequired pre) :=
  Nest.bind (Nest.eqname n pre) fun q => Nest.ite (Nest.fail n _) (Nest.pure n q)

/-- Applies the rules above. -/
syntax "nests" : tactic
macro_rules
  | `(tactic| nests) => `(tactic| repeat' (first
      | assumption
      | exact Nest.pure _ _ | exact Nest.fail _ _ | exact Nest.peek _ | exact Nest.advance _ | exact Nest.expectName _ _
      | exact Nest.qname _ _ | exact Nest.eqname _ _ | exact Nest.eqnameRequired _ _ | exact Nest.wildcard _ | exact Nest.uriName _
      | exact Nest.expect _ _
      | apply Nest.bind | apply Nest.ite | apply Nest.orIfNil | apply Nest.looping
      | apply Nest.ifTok | intro _))

/-! ## Kind tests -/

theorem Nest.kindTestSubNone (n : Nat) (t : TType) (x : XNodeType) : Nest n (kindTestSubNone t x) (kindTestSubNone t x) := by
  unfold Parser.kindTestSubNone; nests

theorem Nest.kindTestSubOne (n : Nat) (t : TType) (x : XNodeType) : Nest n (kindTestSubOne t x) (kindTestSubOne t x) := by
  unfold Parser.kindTestSubOne; nests

theorem Nest.nameOrStar (n : Nat) : Nest n nameOrStar nameOrStar := by unfold Parser.nameOrStar; nests

theorem Nest.optQuestion (n : Nat) (t : Str) : Nest n (optQuestion t) (optQuestion t) := by unfold Parser.optQuestion; nests

theorem Nest.elementTest (n : Nat) : Nest n elementTest elementTest := by
  have h1 := Nest.nameOrStar n
  have h2 := Nest.optQuestion n
  unfold Parser.elementTest
  refine Nest.ifTok (Nest.bind (Nest.expect _ _) fun _ => Nest.bind h1 fun a => Nest.bind ?_ fun _ => ?_) (Nest.pure _ _)
  · unfold elementTypeName
    exact Nest.ite (Nest.pure _ _) (Nest.ifTok (Nest.bind (Nest.eqnameRequired _ _) h2) (Nest.pure _ _))
  · nests

theorem Nest.attributeTest (n : Nat) : Nest n attributeTest attributeTest := by
  have h1 := Nest.nameOrStar n
  unfold Parser.attributeTest
  refine Nest.ifTok (Nest.bind (Nest.expect _ _) fun _ => Nest.bind h1 fun a => Nest.bind ?_ fun _ => ?_) (Nest.pure _ _)
  · unfold attributeTypeName; nests
  · nests

theorem Nest.documentTest (n : Nat) : Nest n documentTest documentTest := by
  have h1 := Nest.elementTest n
  have h2 := Nest.kindTestSubOne n .schemaElementTest .schemaElementTest
  unfold Parser.documentTest
  refine Nest.ifTok (Nest.bind (Nest.expect _ _) fun _ => Nest.bind (Nest.orIfNil h1 h2) fun _ => ?_) (Nest.pure _ _)
  nests

theorem Nest.piTest (n : Nat) : Nest n piTest piTest := by
  unfold Parser.piTest
  refine Nest.ifTok (Nest.bind (Nest.expect _ _) fun _ => Nest.bind (Nest.peek _) fun k => Nest.bind ?_ fun _ => ?_) (Nest.pure _ _)
  · unfold piName; split <;> nests
  · nests

theorem Nest.kindTest (n : Nat) : Nest n kindTest kindTest := by
  unfold Parser.kindTest
  refine Nest.bind ?_ fun x => Nest.ite (Nest.pure _ _) (Nest.pure _ _)
  exact Nest.orIfNil (Nest.documentTest n) <| Nest.orIfNil (Nest.elementTest n) <| Nest.orIfNil (Nest.attributeTest n) <|
    Nest.orIfNil (Nest.kindTestSubOne _ _ _) <| Nest.orIfNil (Nest.kindTestSubOne _ _ _) <| Nest.orIfNil (Nest.piTest n) <|
    Nest.orIfNil (Nest.kindTestSubNone _ _ _) <| Nest.orIfNil (Nest.kindTestSubNone _ _ _) <|
    Nest.orIfNil (Nest.kindTestSubNone _ _ _) (Nest.kindTestSubNone _ _ _)

/-! ## Sequence types -/

theorem Nest.commaList {n : Nat} {p p' : P XNode} (hp : Nest n p p') : ∀ k, Nest n (commaList p k) (commaList p' k)
  | 0 => Nest.fail _ _
  | k + 1 => by
    have ih := Nest.commaList hp k
    unfold Parser.commaList
    exact Nest.ifTok (Nest.bind hp fun x => Nest.bind ih fun l => Nest.pure _ _) (Nest.pure _ _)

theorem Nest.sequenceTypeOf {n : Nat} {p p' : P XNode} (hp : Nest n p p') : Nest n (sequenceTypeOf p) (sequenceTypeOf p') := by
  unfold Parser.sequenceTypeOf
  refine Nest.bind (Nest.kindTestSubNone _ _ _) fun e =>
    Nest.ite (Nest.bind hp fun x => Nest.ite (Nest.pure _ _) (Nest.bind (Nest.peek _) fun k => ?_)) (Nest.pure _ _)
  split <;> nests

theorem Nest.sequenceTypeList {n : Nat} {p p' : P XNode} (hp : Nest n p p') :
    Nest n (sequenceTypeList p) (sequenceTypeList p') := by
  have h := Nest.sequenceTypeOf hp
  unfold Parser.sequenceTypeList
  exact Nest.bind h fun x => Nest.ite (Nest.pure _ _)
    (Nest.bind (Nest.looping fun k => Nest.commaList h k) fun l => Nest.pure _ _)

theorem Nest.functionTest {n : Nat} {p p' : P XNode} (hp : Nest n p p') : Nest (n + 1) (functionTest p) (functionTest p') := by
  unfold Parser.functionTest
  refine Nest.ifTok (Nest.expect_open rfl (Nest.ifTok ?_ ?_)) (Nest.pure _ _)
  · nests
  · exact Nest.bind (Nest.sequenceTypeList hp) fun _ => Nest.bind (Nest.expect _ _) fun _ => Nest.bind (Nest.expectName _ _) fun _ =>
      Nest.bind (Nest.sequenceTypeOf hp) fun _ => Nest.pure _ _

theorem Nest.mapTest {n : Nat} {p p' : P XNode} (hp : Nest n p p') : Nest (n + 1) (mapTest p) (mapTest p') := by
  unfold Parser.mapTest
  refine Nest.ifTok (Nest.expect_open rfl (Nest.bind (Nest.ifTok (Nest.pure _ _) ?_) fun _ =>
    Nest.bind (Nest.expect _ _) fun _ => Nest.pure _ _)) (Nest.pure _ _)
  exact Nest.bind (Nest.eqnameRequired _ _) fun _ => Nest.bind (Nest.expect _ _) fun _ =>
    Nest.bind (Nest.sequenceTypeOf hp) fun _ => Nest.pure _ _

theorem Nest.arrayTest {n : Nat} {p p' : P XNode} (hp : Nest n p p') : Nest (n + 1) (arrayTest p) (arrayTest p') := by
  unfold Parser.arrayTest
  exact Nest.ifTok (Nest.expect_open rfl (Nest.bind (Nest.ifTok (Nest.pure _ _) (Nest.sequenceTypeOf hp)) fun _ =>
    Nest.bind (Nest.expect _ _) fun _ => Nest.pure _ _)) (Nest.pure _ _)

theorem Nest.parenthesizedItemType {n : Nat} {p p' : P XNode} (hp : Nest n p p') :
    Nest (n + 1) (parenthesizedItemType p) (parenthesizedItemType p') := by
  unfold Parser.parenthesizedItemType
  exact Nest.open rfl (Nest.bind hp fun _ => Nest.bind (Nest.expect _ _) fun _ => Nest.pure _ _) (Nest.pure _ _)

theorem Nest.atomicType (n : Nat) : Nest n atomicType atomicType := by unfold Parser.atomicType; nests

theorem Nest.itemTypeStep {n : Nat} {p p' : P XNode} (hp : Nest n p p') : Nest (n + 1) (itemTypeStep p) (itemTypeStep p') := by
  unfold Parser.itemTypeStep
  exact Nest.orIfNil (Nest.kindTest _) <| Nest.orIfNil (Nest.kindTestSubNone _ _ _) <| Nest.orIfNil (Nest.functionTest hp) <|
    Nest.orIfNil (Nest.mapTest hp) <| Nest.orIfNil (Nest.arrayTest hp) <| Nest.orIfNil (Nest.atomicType _) (Nest.parenthesizedItemType hp)

theorem Nest.itemTypeF : ∀ k m, k ≤ m → Nest k (itemTypeF k) (itemTypeF m)
  | 0, _, _ => Nest.zero _ _
  | k + 1, 0, h => absurd h (by omega)
  | k + 1, m + 1, h => Nest.itemTypeStep (Nest.itemTypeF k m (by omega))

theorem Nest.itemTypeF_self : ∀ k n, Nest n (Parser.itemTypeF k) (Parser.itemTypeF k)
  | 0, _ => Nest.fail _ _
  | k + 1, n => (Nest.itemTypeStep (Nest.itemTypeF_self k n)).mono (by omega)

theorem Nest.itemType (n : Nat) : Nest n itemType itemType := Nest.looping fun k => Nest.itemTypeF_self k n

theorem Nest.sequenceType (n : Nat) : Nest n sequenceType sequenceType := Nest.sequenceTypeOf (Nest.itemType n)

theorem Nest.singleType (n : Nat) : Nest n singleType singleType := by
  unfold Parser.singleType
  refine Nest.bind (Nest.eqname _ _) fun q => Nest.ite (Nest.pure _ _) (Nest.bind (Nest.peek _) fun k => Nest.bind ?_ fun _ => Nest.pure _ _)
  unfold singleTypeName
  split <;> nests

/-! ## Operators -/

theorem Nest.caseTok {α β : Type} {n : Nat} {tbl : TType → Option β} {f f' : P α}
    {g g' : Tok → β → P α} (hf : Nest n f f') (hg : ∀ k b, Nest n (g k b) (g' k b)) :
    Nest n (caseTok tbl f g) (caseTok tbl f' g') := by
  intro ts hts
  unfold Parser.caseTok
  have ht := openings_tail ts
  split
  · exact hf _ hts
  · obtain ⟨h1, h2⟩ := hg (ts.head?.getD Lexer.eofTok) _ ts.tail (by omega)
    exact ⟨h1, fun a r h => Nat.le_trans (h2 a r h) ht⟩

theorem Nest.binOpLoop {n : Nat} {p p' : P XNode} (hp : Nest n p p') (tbl : TType → Option XNodeType)
    (once : Bool) : ∀ k x, Nest n (binOpLoop p tbl once k x) (binOpLoop p' tbl once k x)
  | 0, _ => Nest.fail _ _
  | k + 1, x => by
    rw [binOpLoop_eq, binOpLoop_eq]
    exact Nest.caseTok (Nest.pure _ _) (fun k' b => Nest.bind hp fun y => Nest.ite (Nest.pure _ _) (Nest.binOpLoop hp tbl once k _))

theorem Nest.binOp {n : Nat} {p p' : P XNode} (hp : Nest n p p') (tbl : TType → Option XNodeType)
    (once : Bool) : Nest n (binOp p tbl once) (binOp p' tbl once) := by
  unfold Parser.binOp
  exact Nest.bind hp fun x => Nest.looping fun k => Nest.binOpLoop hp tbl once k x

theorem Nest.expr {n : Nat} {es es' : P XNode} (he : Nest n es es') : Nest n (expr es) (expr es') := Nest.binOp he _ _

/-! ## Steps -/

theorem Nest.predicate {n : Nat} {es es' : P XNode} (he : Nest n es es') : Nest (n + 1) (predicate es) (predicate es') := by
  unfold Parser.predicate
  exact Nest.open rfl (Nest.bind (Nest.expr he) fun _ => Nest.bind (Nest.expect _ _) fun _ => Nest.pure _ _) (Nest.pure _ _)

theorem Nest.predicateList {n : Nat} {es es' : P XNode} (he : Nest n es es') (rev : Bool) :
    ∀ k, Nest (n + 1) (predicateList es rev k) (predicateList es' rev k)
  | 0 => Nest.fail _ _
  | k + 1 => by
    have ih := Nest.predicateList he rev k
    unfold Parser.predicateList
    exact Nest.bind (Nest.predicate he) fun _ => Nest.ite (Nest.pure _ _) (Nest.bind ih fun _ => Nest.pure _ _)

theorem Nest.nodeTest {n : Nat} {es es' : P XNode} (he : Nest n es es') (a : XNodeType) :
    Nest (n + 1) (nodeTest es a) (nodeTest es' a) := by
  have hl : Nest (n + 1) (Parser.looping (Parser.predicateList es (isReverseAxis a)))
      (Parser.looping (Parser.predicateList es' (isReverseAxis a))) :=
    Nest.looping fun k => Nest.predicateList he _ k
  unfold Parser.nodeTest
  refine Nest.bind (Nest.wildcard _) fun w => Nest.bind ?_ fun q => Nest.ite ?_ ?_
  · unfold nodeTestName; exact Nest.ite (Nest.eqname _ _) (Nest.pure _ _)
  · exact Nest.bind (Nest.kindTest _) fun k => Nest.ite (Nest.pure _ _) (Nest.bind hl fun _ => Nest.pure _ _)
  · exact Nest.bind hl fun _ => Nest.pure _ _

theorem Nest.axisStep {n : Nat} {es es' : P XNode} (he : Nest n es es') : Nest (n + 1) (axisStep es) (axisStep es') := by
  have hn := Nest.nodeTest he
  unfold Parser.axisStep
  refine Nest.bind (Nest.peek _) fun k => ?_
  split
  · refine Nest.bind (Nest.advance _) fun _ => Nest.bind (Nest.expect _ _) fun _ => ?_
    split
    · exact hn _
    · exact Nest.fail _ _
  · exact Nest.bind (Nest.advance _) fun _ => hn _
  · exact Nest.bind (Nest.advance _) fun _ => Nest.pure _ _
  · exact hn _

/-! ## Primary expressions -/

theorem Nest.argument {n : Nat} {es es' : P XNode} (he : Nest n es es') : Nest n (argument es) (argument es') := by
  unfold Parser.argument
  exact Nest.bind he fun x => Nest.ite (Nest.ifTok (Nest.pure _ _) (Nest.pure _ _)) (Nest.pure _ _)

theorem Nest.argumentListSub {n : Nat} {es es' : P XNode} (he : Nest n es es') :
    Nest n (argumentListSub es) (argumentListSub es') := by
  have h := Nest.argument he
  unfold Parser.argumentListSub
  exact Nest.bind h fun x => Nest.ite (Nest.pure _ _)
    (Nest.bind (Nest.looping fun k => Nest.commaList h k) fun l => Nest.pure _ _)

theorem Nest.argumentList {n : Nat} {es es' : P XNode} (he : Nest n es es') :
    Nest (n + 1) (argumentList es) (argumentList es') := by
  unfold Parser.argumentList
  exact Nest.expect_open rfl (Nest.bind (Nest.argumentListSub he) fun _ => Nest.bind (Nest.expect _ _) fun _ => Nest.pure _ _)

theorem Nest.literal (n : Nat) : Nest n literal literal := by
  unfold Parser.literal
  refine Nest.bind (Nest.peek _) fun k => ?_
  split <;> nests

theorem Nest.varref (n : Nat) : Nest n varref varref := by unfold Parser.varref; nests

theorem Nest.parenthesized {n : Nat} {es es' : P XNode} (he : Nest n es es') :
    Nest (n + 1) (parenthesized es) (parenthesized es') := by
  unfold Parser.parenthesized
  exact Nest.open rfl (Nest.bind (Nest.expr he) fun _ => Nest.bind (Nest.expect _ _) fun _ => Nest.pure _ _) (Nest.pure _ _)

theorem Nest.contextItem (n : Nat) : Nest n contextItem contextItem := by unfold Parser.contextItem; nests

theorem Nest.functionCall {n : Nat} {es es' : P XNode} (he : Nest n es es') :
    Nest (n + 1) (functionCall es) (functionCall es') := by
  intro ts hts
  obtain ⟨-, h2⟩ := Nest.eqname (n + 1) (S "fn") ts hts
  unfold Parser.functionCall
  cases hq : Parser.eqname (S "fn") ts with
  | error e => exact ⟨rfl, fun a r h => by cases h⟩
  | ok q =>
    obtain ⟨f, r⟩ := q
    have hr := h2 f r hq
    have hnil : ∀ (a : XNode) (r' : List Tok), (Except.ok (XNode.nil, ts) : Except XErr (XNode × List Tok)) = .ok (a, r') →
        openings r' ≤ openings ts := by
      intro a r' h; simp at h; simp [h.2]
    simp only
    split
    · exact ⟨rfl, hnil⟩
    · split
      · obtain ⟨k1, k2⟩ := Nest.bind (Nest.argumentList he) (f := fun args => match functionCallOf f args with
            | .ok x => Pure.pure x
            | .error e => Parser.fail e) (g := fun args => match functionCallOf f args with
            | .ok x => Pure.pure x
            | .error e => Parser.fail e) (fun args => by
              split
              · exact Nest.pure _ _
              · exact Nest.fail _ _) _ (Nat.lt_of_le_of_lt hr hts)
        exact ⟨k1, fun a r' h => Nat.le_trans (k2 a r' h) hr⟩
      · exact ⟨rfl, hnil⟩

theorem Nest.namedFunctionRef (n : Nat) : Nest n namedFunctionRef namedFunctionRef := by
  apply Nest.of
  intro ts a r h
  unfold Parser.namedFunctionRef at h
  cases hq : Parser.eqname (S "fn") ts with
  | error e => rw [hq] at h; cases h
  | ok q =>
    obtain ⟨f, r0⟩ := q
    have hr := (Nest.eqname (openings ts + 1) (S "fn") ts (by omega)).2 f r0 hq
    rw [hq] at h
    simp only at h
    repeat' split at h
    all_goals (simp at h; obtain ⟨-, rfl⟩ := h; first | exact Nat.le_refl _ | (simp only [openings_cons] at hr; omega))

theorem Nest.asType (n : Nat) : Nest n asType asType := by
  apply Nest.of
  intro ts a r h
  cases ts with
  | nil => simp [Parser.asType] at h; simp [h]
  | cons k ts =>
    simp only [Parser.asType] at h
    split at h
    · have := (Nest.sequenceType (openings ts + 1) ts (by omega)).2 a r h
      rw [openings_cons]; omega
    · simp at h; simp [h.2.symm]

theorem Nest.param (n : Nat) : Nest n param param := by
  unfold Parser.param
  exact Nest.ifTok (Nest.bind (Nest.eqnameRequired _ _) fun _ => Nest.bind (Nest.asType _) fun _ => Nest.pure _ _) (Nest.pure _ _)

theorem Nest.paramList (n : Nat) : Nest n paramList paramList := by
  unfold Parser.paramList
  exact Nest.bind (Nest.param _) fun x => Nest.ite (Nest.pure _ _)
    (Nest.bind (Nest.looping fun k => Nest.commaList (Nest.param n) k) fun l => Nest.pure _ _)

theorem Nest.functionBody {n : Nat} {es es' : P XNode} (he : Nest n es es') :
    Nest (n + 1) (functionBody es) (functionBody es') := by
  unfold Parser.functionBody
  exact Nest.expect_open rfl (Nest.bind (Nest.expr he) fun _ => Nest.bind (Nest.expect _ _) fun _ => Nest.pure _ _)

theorem Nest.inlineFunction {n : Nat} {es es' : P XNode} (he : Nest n es es') :
    Nest (n + 1) (inlineFunction es) (inlineFunction es') := by
  unfold Parser.inlineFunction
  exact Nest.ifTok (Nest.bind (Nest.expect _ _) fun _ => Nest.bind (Nest.paramList _) fun _ => Nest.bind (Nest.expect _ _) fun _ =>
    Nest.bind (Nest.asType _) fun _ => Nest.bind (Nest.functionBody he) fun _ => Nest.pure _ _) (Nest.pure _ _)

theorem Nest.mapEntry {n : Nat} {es es' : P XNode} (he : Nest n es es') : Nest n (mapEntry es) (mapEntry es') := by
  unfold Parser.mapEntry
  exact Nest.bind he fun _ => Nest.ite (Nest.pure _ _) (Nest.bind (Nest.expect _ _) fun _ => Nest.bind he fun _ =>
    Nest.ite (Nest.fail _ _) (Nest.pure _ _))

theorem Nest.mapEntries {n : Nat} {es es' : P XNode} (he : Nest n es es') : Nest n (mapEntries es) (mapEntries es') := by
  have h := Nest.mapEntry he
  unfold Parser.mapEntries
  exact Nest.bind h fun x => Nest.ite (Nest.pure _ _)
    (Nest.bind (Nest.looping fun k => Nest.commaList h k) fun l => Nest.pure _ _)

theorem Nest.mapConstructor {n : Nat} {es es' : P XNode} (he : Nest n es es') :
    Nest (n + 1) (mapConstructor es) (mapConstructor es') := by
  unfold Parser.mapConstructor
  exact Nest.ifTok (Nest.expect_open rfl (Nest.bind (Nest.mapEntries he) fun _ => Nest.bind (Nest.expect _ _) fun _ =>
    Nest.pure _ _)) (Nest.pure _ _)

theorem Nest.exprInArray {n : Nat} {es es' : P XNode} (he : Nest n es es') : Nest n (exprInArray es) (exprInArray es') := by
  unfold Parser.exprInArray
  exact Nest.bind he fun x => Nest.ite (Nest.pure _ _)
    (Nest.bind (Nest.looping fun k => Nest.commaList he k) fun l => Nest.pure _ _)

theorem Nest.squareArray {n : Nat} {es es' : P XNode} (he : Nest n es es') :
    Nest (n + 1) (squareArray es) (squareArray es') := by
  unfold Parser.squareArray
  exact Nest.open rfl (Nest.bind (Nest.exprInArray he) fun _ => Nest.bind (Nest.expect _ _) fun _ => Nest.pure _ _) (Nest.pure _ _)

theorem Nest.curlyArray {n : Nat} {es es' : P XNode} (he : Nest n es es') :
    Nest (n + 1) (curlyArray es) (curlyArray es') := by
  unfold Parser.curlyArray
  exact Nest.ifTok (Nest.expect_open rfl (Nest.bind (Nest.expr he) fun _ => Nest.bind (Nest.expect _ _) fun _ =>
    Nest.pure _ _)) (Nest.pure _ _)

theorem Nest.unaryLookup {n : Nat} {es es' : P XNode} (he : Nest n es es') :
    Nest (n + 1) (unaryLookup es) (unaryLookup es') := by
  intro ts hts
  unfold Parser.unaryLookup
  split
  · rename_i k r
    split
    · exact ⟨rfl, fun a r h => by simp at h; obtain ⟨-, rfl⟩ := h; simp only [openings_cons]; omega⟩
    · exact ⟨rfl, fun a r h => by simp at h; obtain ⟨-, rfl⟩ := h; simp only [openings_cons]; omega⟩
    · exact ⟨rfl, fun a r h => by simp at h; obtain ⟨-, rfl⟩ := h; simp only [openings_cons]; omega⟩
    · rename_i k' r'
      obtain ⟨h1, h2⟩ := Nest.bind (Nest.parenthesized he) (f := fun x => (Pure.pure (.node .unaryLookupByExpr [] x .nil) : P XNode))
        (fun x => Nest.pure _ _) (⟨.leftParen, k'⟩ :: r') (by rw [openings_cons] at hts; omega)
      refine ⟨h1, fun a r h => ?_⟩
      have := h2 a r h
      rw [openings_cons ⟨.question, k⟩]
      omega
    · exact ⟨rfl, fun a r h => by simp at h; obtain ⟨rfl, rfl⟩ := h; exact Nat.le_refl _⟩
  · exact ⟨rfl, fun a r h => by simp at h; obtain ⟨rfl, rfl⟩ := h; exact Nat.le_refl _⟩

theorem Nest.primary {n : Nat} {es es' : P XNode} (he : Nest n es es') : Nest (n + 1) (primary es) (primary es') := by
  unfold Parser.primary
  exact Nest.orIfNil (Nest.literal _) <| Nest.orIfNil (Nest.varref _) <| Nest.orIfNil (Nest.parenthesized he) <|
    Nest.orIfNil (Nest.contextItem _) <| Nest.orIfNil (Nest.functionCall he) <|
    Nest.orIfNil (Nest.orIfNil (Nest.namedFunctionRef _) (Nest.inlineFunction he)) <| Nest.orIfNil (Nest.mapConstructor he) <|
    Nest.orIfNil (Nest.orIfNil (Nest.curlyArray he) (Nest.squareArray he)) (Nest.unaryLookup he)

theorem Nest.postfixOp {n : Nat} {es es' : P XNode} (he : Nest n es es') :
    Nest (n + 1) (postfixOp es) (postfixOp es') := by
  unfold Parser.postfixOp
  refine Nest.bind (Nest.peek _) fun k => ?_
  split
  · exact Nest.bind (Nest.predicate he) fun _ => Nest.pure _ _
  · exact Nest.bind (Nest.argumentList he) fun _ => Nest.pure _ _
  · exact Nest.unaryLookup he
  · exact Nest.pure _ _

theorem Nest.postfixLoop {n : Nat} {es es' : P XNode} (he : Nest n es es') :
    ∀ k x, Nest (n + 1) (postfixLoop es k x) (postfixLoop es' k x)
  | 0, _ => Nest.fail _ _
  | k + 1, x => by
    unfold Parser.postfixLoop
    exact Nest.bind (Nest.postfixOp he) fun _ => Nest.ite (Nest.pure _ _) (Nest.postfixLoop he k _)

theorem Nest.postfixExpr {n : Nat} {es es' : P XNode} (he : Nest n es es') :
    Nest (n + 1) (postfixExpr es) (postfixExpr es') := by
  unfold Parser.postfixExpr
  exact Nest.bind (Nest.primary he) fun x => Nest.ite (Nest.pure _ _) (Nest.looping fun k => Nest.postfixLoop he k x)

theorem Nest.stepExpr {n : Nat} {es es' : P XNode} (he : Nest n es es') : Nest (n + 1) (stepExpr es) (stepExpr es') :=
  Nest.orIfNil (Nest.postfixExpr he) (Nest.axisStep he)

theorem Nest.relativePathLoop {n : Nat} {es es' : P XNode} (he : Nest n es es') :
    ∀ k, Nest (n + 1) (relativePathLoop es k) (relativePathLoop es' k)
  | 0 => Nest.fail _ _
  | k + 1 => by
    rw [relativePathLoop_eq, relativePathLoop_eq]
    exact Nest.caseTok (Nest.pure _ _) (fun _ b => Nest.bind (Nest.stepExpr he) fun _ => Nest.bind (Nest.relativePathLoop he k) fun _ =>
      Nest.ite (Nest.pure _ _) (Nest.pure _ _))

theorem Nest.relativePath {n : Nat} {es es' : P XNode} (he : Nest n es es') :
    Nest (n + 1) (relativePath es) (relativePath es') := by
  unfold Parser.relativePath
  exact Nest.bind (Nest.stepExpr he) fun x => Nest.ite (Nest.pure _ _)
    (Nest.bind (Nest.looping fun k => Nest.relativePathLoop he k) fun r => Nest.ite (Nest.pure _ _) (Nest.pure _ _))

theorem Nest.pathExpr {n : Nat} {es es' : P XNode} (he : Nest n es es') : Nest (n + 1) (pathExpr es) (pathExpr es') := by
  have h := Nest.relativePath he
  unfold Parser.pathExpr
  refine Nest.bind (Nest.peek _) fun k => ?_
  split
  · exact Nest.bind (Nest.advance _) fun _ => Nest.bind h fun _ => Nest.pure _ _
  · exact Nest.bind (Nest.advance _) fun _ => Nest.bind h fun _ => Nest.pure _ _
  · exact h

theorem Nest.valueExpr {n : Nat} {es es' : P XNode} (he : Nest n es es') : Nest (n + 1) (valueExpr es) (valueExpr es') :=
  Nest.binOp (Nest.pathExpr he) _ _

theorem Nest.unaryExpr {n : Nat} {es es' : P XNode} (he : Nest n es es') : Nest (n + 1) (unaryExpr es) (unaryExpr es') := by
  have h := Nest.valueExpr he
  unfold Parser.unaryExpr
  exact Nest.ifTok (Nest.bind h fun _ => Nest.pure _ _) (Nest.ifTok (Nest.bind h fun _ => Nest.pure _ _) h)

theorem Nest.arrowLoop {n : Nat} {es es' : P XNode} (he : Nest n es es') :
    ∀ k x, Nest (n + 1) (arrowLoop es k x) (arrowLoop es' k x)
  | 0, _ => Nest.fail _ _
  | k + 1, x => by
    have ih := fun x => Nest.arrowLoop he k x
    have ha := Nest.argumentList he
    unfold Parser.arrowLoop
    refine Nest.ifTok (Nest.bind (Nest.eqname _ _) fun f => Nest.ite ?_ (Nest.bind ha fun _ => ih _)) (Nest.pure _ _)
    exact Nest.bind (Nest.varref _) fun v => Nest.ite (Nest.fail _ _) (Nest.bind ha fun _ => ih _)

theorem Nest.arrowExpr {n : Nat} {es es' : P XNode} (he : Nest n es es') : Nest (n + 1) (arrowExpr es) (arrowExpr es') := by
  unfold Parser.arrowExpr
  exact Nest.bind (Nest.unaryExpr he) fun x => Nest.looping fun k => Nest.arrowLoop he k x

theorem Nest.typeOp {n : Nat} {p p' q : P XNode} (hp : Nest n p p') (hq : Nest n q q) (t : TType) (x : XNodeType) :
    Nest n (typeOp p t x q) (typeOp p' t x q) := by
  unfold Parser.typeOp
  exact Nest.bind hp fun _ => Nest.ifTok (Nest.bind hq fun _ => Nest.ite (Nest.fail _ _) (Nest.pure _ _)) (Nest.pure _ _)

theorem Nest.instanceofExpr {n : Nat} {es es' : P XNode} (he : Nest n es es') :
    Nest (n + 1) (instanceofExpr es) (instanceofExpr es') :=
  Nest.typeOp (Nest.typeOp (Nest.typeOp (Nest.typeOp (Nest.arrowExpr he) (Nest.singleType _) _ _) (Nest.singleType _) _ _)
    (Nest.sequenceType _) _ _) (Nest.sequenceType _) _ _

theorem Nest.orExpr {n : Nat} {es es' : P XNode} (he : Nest n es es') : Nest (n + 1) (orExpr es) (orExpr es') :=
  Nest.binOp (Nest.binOp (Nest.binOp (Nest.binOp (Nest.binOp (Nest.binOp (Nest.binOp (Nest.binOp (Nest.binOp (Nest.instanceofExpr he) _ _) _ _)
    _ _) _ _) _ _) _ _) _ _) _ _) _ _

theorem Nest.ifExpr {n : Nat} {es es' : P XNode} (he : Nest n es es') : Nest (n + 1) (ifExpr es) (ifExpr es') := by
  unfold Parser.ifExpr
  exact Nest.ifTok (Nest.expect_open rfl (Nest.bind (Nest.expr he) fun _ => Nest.ite (Nest.fail _ _)
    (Nest.bind (Nest.expect _ _) fun _ => Nest.bind (Nest.expectName _ _) fun _ => Nest.bind he fun _ => Nest.ite (Nest.fail _ _)
    (Nest.bind (Nest.expectName _ _) fun _ => Nest.bind he fun _ => Nest.ite (Nest.fail _ _) (Nest.pure _ _))))) (Nest.pure _ _)

theorem Nest.binding {n : Nat} {es es' : P XNode} (he : Nest n es es') (t : XNodeType) {sep : P Unit} (hs : Nest n sep sep) :
    Nest n (binding es t sep) (binding es' t sep) := by
  unfold Parser.binding
  exact Nest.ifTok (Nest.bind (Nest.eqnameRequired _ _) fun _ => Nest.bind hs fun _ => Nest.bind he fun _ => Nest.pure _ _) (Nest.pure _ _)

theorem Nest.bindings {n : Nat} {es es' : P XNode} (he : Nest n es es') (t : XNodeType) {sep : P Unit} (hs : Nest n sep sep) :
    ∀ k, Nest n (bindings es t sep k) (bindings es' t sep k)
  | 0 => Nest.fail _ _
  | k + 1 => by
    have ih := Nest.bindings he t hs k
    unfold Parser.bindings
    exact Nest.bind (Nest.binding he t hs) fun _ => Nest.ite (Nest.pure _ _) (Nest.ifTok (Nest.bind ih fun _ => Nest.pure _ _) (Nest.pure _ _))

theorem Nest.bindingExpr {n : Nat} {es es' : P XNode} (he : Nest n es es') (top bind : XNodeType) (name : Str) {sep : P Unit}
    (hs : Nest n sep sep) (kw : Str) : Nest n (bindingExpr es top bind name sep kw) (bindingExpr es' top bind name sep kw) := by
  unfold Parser.bindingExpr
  exact Nest.bind (Nest.looping fun k => Nest.bindings he bind hs k) fun _ => Nest.bind (Nest.expectName _ _) fun _ =>
    Nest.bind he fun _ => Nest.pure _ _

theorem Nest.exprSingleStep {n : Nat} {es es' : P XNode} (he : Nest n es es') :
    Nest (n + 1) (exprSingleStep es) (exprSingleStep es') := by
  unfold Parser.exprSingleStep
  exact Nest.open rfl (Nest.bindingExpr he _ _ _ (Nest.expectName _ _) _) <| Nest.open rfl (Nest.bindingExpr he _ _ _ (Nest.expect _ _) _) <|
    Nest.open rfl (Nest.bindingExpr he _ _ _ (Nest.expectName _ _) _) <| Nest.open rfl (Nest.bindingExpr he _ _ _ (Nest.expectName _ _) _) <|
    Nest.orIfNil (Nest.ifExpr he) (Nest.orExpr he)

theorem Nest.exprSingleF : ∀ k m, k ≤ m → Nest k (exprSingleF k) (exprSingleF m)
  | 0, _, _ => Nest.zero _ _
  | k + 1, 0, h => absurd h (by omega)
  | k + 1, m + 1, h => Nest.exprSingleStep (Nest.exprSingleF k m (by omega))

end Parser
end Amxml
