import Verif.Model.Parser

/-!
# The parser's bounds are never reached

`R n p q` says of two parsers that on token lists shorter than `n` they agree, read only forward, and fail only with
a syntax error or a feature not implemented. With `q = p` the last two remain. From agreement the equations of the parser follow
in which no bounds appear.
-/

namespace Amxml
namespace Parser

/-- The errors the parser reports. -/
def Fine (e : XErr) : Prop := e = .syntaxError ∨ e = .unimplemented

/-- The two parsers agree on lists shorter than `n`, never move back, and fail with fine errors only. -/
def R {α : Type} (n : Nat) (p q : P α) : Prop := ∀ ts, ts.length < n → p ts = q ts ∧
  (∀ a r, p ts = .ok (a, r) → r.length ≤ ts.length) ∧ ∀ e, p ts = .error e → Fine e

theorem bind_run {α β : Type} (p : P α) (f : α → P β) (ts : List Tok) :
    (p >>= f) ts = match p ts with
      | .ok (a, r) => f a r
      | .error e => .error e := by
  show (StateT.bind p f) ts = _
  unfold StateT.bind
  cases h : p ts with
  | error e => simp [bind, Except.bind]
  | ok a => simp [bind, Except.bind]

theorem pure_run {α : Type} (a : α) (ts : List Tok) : (pure a : P α) ts = .ok (a, ts) := rfl

theorem R.mono {α : Type} {n m : Nat} {p q : P α} (h : R n p q) (hm : m ≤ n) : R m p q :=
  fun ts ht => h ts (Nat.lt_of_lt_of_le ht hm)

theorem R.zero {α : Type} (p q : P α) : R 0 p q := fun ts ht => absurd ht (by omega)

theorem R.pure {α : Type} (n : Nat) (a : α) : R n (pure a : P α) (pure a) := by
  intro ts _
  refine ⟨rfl, ?_, ?_⟩
  · intro b r h
    simp [pure_run] at h
    simp [h.2]
  · intro e h
    simp [pure_run] at h

theorem R.fail {α : Type} (n : Nat) {e : XErr} (he : Fine e) : R n (Parser.fail e : P α) (Parser.fail e) := by
  intro ts _
  refine ⟨rfl, ?_, ?_⟩
  · intro b r h; simp [Parser.fail] at h
  · intro e' h
    simp [Parser.fail] at h
    exact h ▸ he

theorem fine_syntax : Fine .syntaxError := Or.inl rfl
theorem fine_unimplemented : Fine .unimplemented := Or.inr rfl

theorem R.bind {α β : Type} {n : Nat} {p q : P α} {f g : α → P β} (hp : R n p q) (hf : ∀ a, R n (f a) (g a)) :
    R n (p >>= f) (q >>= g) := by
  intro ts ht
  obtain ⟨h1, h2, h3⟩ := hp ts ht
  rw [bind_run, bind_run, ← h1]
  cases hpt : p ts with
  | error e =>
    refine ⟨rfl, ?_, ?_⟩
    · intro b r h; cases h
    · intro e' h
      cases h
      exact h3 e hpt
  | ok a =>
    obtain ⟨a, r⟩ := a
    have hr := h2 a r hpt
    obtain ⟨k1, k2, k3⟩ := hf a r (by omega)
    refine ⟨k1, ?_, k3⟩
    intro b r' h
    have := k2 b r' h
    omega

theorem R.peek (n : Nat) : R n peek peek := by
  intro ts _
  refine ⟨rfl, ?_, ?_⟩
  · intro b r h
    simp [Parser.peek] at h
    simp [h.2]
  · intro e h
    simp [Parser.peek] at h

theorem R.advance (n : Nat) : R n advance advance := by
  intro ts _
  refine ⟨rfl, ?_, ?_⟩
  · intro b r h
    simp [Parser.advance] at h
    subst h
    simp
  · intro e h
    simp [Parser.advance] at h

/-- A token is read before `p`. -/
theorem R.ifTok {α : Type} {n : Nat} {t : TType} {p p' q q' : P α} (hp : R n p p') (hq : R (n + 1) q q') :
    R (n + 1) (ifTok t p q) (ifTok t p' q') := by
  intro ts ht
  cases ts with
  | nil => simpa [Parser.ifTok] using hq [] ht
  | cons k r =>
    simp only [Parser.ifTok]
    by_cases hk : k.ty = t
    · simp only [hk, if_true]
      obtain ⟨h1, h2, h3⟩ := hp r (by simp at ht; omega)
      refine ⟨h1, ?_, h3⟩
      intro a r' h
      have := h2 a r' h
      simp
      omega
    · simp only [hk, if_false]
      exact hq (k :: r) ht

theorem R.ifTok' {α : Type} {n : Nat} {t : TType} {p p' q q' : P α} (hp : R n p p') (hq : R n q q') :
    R n (Parser.ifTok t p q) (Parser.ifTok t p' q') := by
  cases n with
  | zero => exact R.zero _ _
  | succ n => exact R.ifTok (hp.mono (by omega)) hq

theorem R.expect (n : Nat) (t : TType) : R n (expect t) (expect t) :=
  R.ifTok' (R.pure n ()) (R.fail n fine_syntax)

/-- A token is read before what follows. -/
theorem R.expect_bind {α : Type} {n : Nat} {t : TType} {f g : Unit → P α} (hf : R n (f ()) (g ())) :
    R (n + 1) (Parser.expect t >>= f) (Parser.expect t >>= g) := by
  have h : ∀ f : Unit → P α, (Parser.expect t >>= f) = Parser.ifTok t (f ()) (Parser.fail .syntaxError) := by
    intro f
    funext ts
    rw [bind_run]
    unfold Parser.expect Parser.ifTok
    cases ts with
    | nil => rfl
    | cons k r =>
      simp only
      by_cases hk : k.ty = t <;> simp [hk, pure_run, Parser.fail]
  rw [h, h]
  exact R.ifTok hf (R.fail _ fine_syntax)

theorem R.expectName (n : Nat) (w : Str) : R n (expectName w) (expectName w) := by
  intro ts _
  refine ⟨rfl, ?_, ?_⟩
  · intro a r h
    cases ts with
    | nil => simp [Parser.expectName] at h
    | cons k ts =>
      simp only [Parser.expectName] at h
      split at h
      · cases h
      · simp at h; simp [h]
  · intro e h
    cases ts with
    | nil => simp [Parser.expectName] at h; exact Or.inl h.symm
    | cons k ts =>
      simp only [Parser.expectName] at h
      split at h
      · simp at h; exact Or.inl h.symm
      · cases h

theorem R.ite {α : Type} {n : Nat} {c : Prop} [Decidable c] {p p' q q' : P α} (hp : R n p p') (hq : R n q q') :
    R n (if c then p else q) (if c then p' else q') := by
  split
  · exact hp
  · exact hq

theorem R.orIfNil {n : Nat} {p p' q q' : P XNode} (hp : R n p p') (hq : R n q q') :
    R n (orIfNil p q) (orIfNil p' q') := by
  unfold Parser.orIfNil
  exact R.bind hp fun x => R.ite hq (R.pure n x)

theorem R.looping {α : Type} {n : Nat} {f g : Nat → P α} (h : ∀ k, k ≤ n → R k (f k) (g k)) :
    R n (looping f) (looping g) := by
  intro ts ht
  exact h (ts.length + 1) (by omega) ts (by omega)

/-! ## Names -/

theorem R.of {α : Type} {n : Nat} {p : P α} (h2 : ∀ ts a r, p ts = .ok (a, r) → r.length ≤ ts.length)
    (h3 : ∀ ts e, p ts = .error e → Fine e) : R n p p := fun ts _ => ⟨rfl, h2 ts, h3 ts⟩

theorem R.qname (n : Nat) (pre : Str) : R n (qname pre) (qname pre) := by
  apply R.of
  · intro ts a r h
    unfold Parser.qname at h
    repeat' split at h
    all_goals first | cases h; done | (simp at h; obtain ⟨-, rfl⟩ := h; simp; try omega)
  · intro ts e h
    unfold Parser.qname at h
    repeat' split at h
    all_goals first | cases h; done | (simp at h; exact h ▸ fine_syntax)

theorem R.uriName (n : Nat) : R n uriName uriName := by
  apply R.of
  · intro ts a r h
    unfold Parser.uriName at h
    split at h
    all_goals (simp at h; obtain ⟨-, rfl⟩ := h; simp; try omega)
  · intro ts e h
    unfold Parser.uriName at h
    split at h <;> cases h

theorem R.wildcard (n : Nat) : R n wildcard wildcard := by
  apply R.of
  · intro ts a r h
    unfold Parser.wildcard at h
    split at h
    all_goals (simp at h; obtain ⟨-, rfl⟩ := h; simp; try omega)
  · intro ts e h
    unfold Parser.wildcard at h
    split at h <;> cases h

theorem R.eqname (n : Nat) (pre : Str) : R n (eqname pre) (eqname pre) :=
  R.bind (R.qname n pre) fun q => R.ite (R.uriName n) (R.pure n q)

theorem R.eqnameRequired (n : Nat) (pre : Str) : R n (eqnameRequired pre) (eqnameRequired pre) :=
  R.bind (R.eqname n pre) fun q => R.ite (R.fail n fine_syntax) (R.pure n q)

/-- Applies the rules above. -/
syntax "parse" : tactic
macro_rules
  | `(tactic| parse) => `(tactic| repeat' (first
      | assumption
      | exact R.pure _ _ | exact R.fail _ fine_syntax | exact R.fail _ fine_unimplemented | exact R.peek _ | exact R.advance _ | exact R.expectName _ _
      | exact R.qname _ _ | exact R.eqname _ _ | exact R.eqnameRequired _ _ | exact R.wildcard _ | exact R.uriName _
      | apply R.expect_bind | exact R.expect _ _
      | apply R.bind | apply R.ite | apply R.orIfNil
      | apply R.ifTok | apply R.ifTok' | intro _))

/-! ## Kind tests -/

theorem R.kindTestSubNone (n : Nat) (t : TType) (x : XNodeType) : R n (kindTestSubNone t x) (kindTestSubNone t x) := by
  unfold Parser.kindTestSubNone; parse

theorem R.kindTestSubOne (n : Nat) (t : TType) (x : XNodeType) : R n (kindTestSubOne t x) (kindTestSubOne t x) := by
  unfold Parser.kindTestSubOne; parse

theorem R.nameOrStar (n : Nat) : R n nameOrStar nameOrStar := by unfold Parser.nameOrStar; parse

theorem R.optQuestion (n : Nat) (t : Str) : R n (optQuestion t) (optQuestion t) := by unfold Parser.optQuestion; parse

theorem R.elementTest (n : Nat) : R n elementTest elementTest := by
  have h1 := R.nameOrStar n
  have h2 := R.optQuestion n
  unfold Parser.elementTest
  refine R.ifTok' (R.bind (R.expect _ _) fun _ => R.bind h1 fun a => R.bind ?_ fun _ => ?_) (R.pure _ _)
  · unfold elementTypeName
    exact R.ite (R.pure _ _) (R.ifTok' (R.bind (R.eqnameRequired _ _) h2) (R.pure _ _))
  · parse

theorem R.attributeTest (n : Nat) : R n attributeTest attributeTest := by
  have h1 := R.nameOrStar n
  unfold Parser.attributeTest
  refine R.ifTok' (R.bind (R.expect _ _) fun _ => R.bind h1 fun a => R.bind ?_ fun _ => ?_) (R.pure _ _)
  · unfold attributeTypeName; parse
  · parse

theorem R.documentTest (n : Nat) : R n documentTest documentTest := by
  have h1 := R.elementTest n
  have h2 := R.kindTestSubOne n .schemaElementTest .schemaElementTest
  unfold Parser.documentTest
  refine R.ifTok' (R.bind (R.expect _ _) fun _ => R.bind (R.orIfNil h1 h2) fun _ => ?_) (R.pure _ _)
  parse

theorem R.piTest (n : Nat) : R n piTest piTest := by
  unfold Parser.piTest
  refine R.ifTok' (R.bind (R.expect _ _) fun _ => R.bind (R.peek _) fun k => R.bind ?_ fun _ => ?_) (R.pure _ _)
  · unfold piName; split <;> parse
  · parse

theorem R.kindTest (n : Nat) : R n kindTest kindTest := by
  unfold Parser.kindTest
  refine R.bind ?_ fun x => R.ite (R.pure _ _) (R.pure _ _)
  exact R.orIfNil (R.documentTest n) <| R.orIfNil (R.elementTest n) <| R.orIfNil (R.attributeTest n) <|
    R.orIfNil (R.kindTestSubOne _ _ _) <| R.orIfNil (R.kindTestSubOne _ _ _) <| R.orIfNil (R.piTest n) <|
    R.orIfNil (R.kindTestSubNone _ _ _) <| R.orIfNil (R.kindTestSubNone _ _ _) <|
    R.orIfNil (R.kindTestSubNone _ _ _) (R.kindTestSubNone _ _ _)

/-! ## Sequence types -/

theorem R.commaList {n : Nat} {p p' : P XNode} (hp : R n p p') :
    ∀ k m, k ≤ n + 1 → k ≤ m → R k (commaList p k) (commaList p' m)
  | 0, _, _, _ => R.zero _ _
  | k + 1, 0, _, h => absurd h (by omega)
  | k + 1, m + 1, h1, h2 => by
    have ih := R.commaList hp k m (by omega) (by omega)
    have hp' := hp.mono (show k ≤ n by omega)
    unfold Parser.commaList
    exact R.ifTok (R.bind hp' fun x => R.bind ih fun l => R.pure _ _) (R.pure _ _)

theorem R.sequenceTypeOf {n : Nat} {p p' : P XNode} (hp : R n p p') : R n (sequenceTypeOf p) (sequenceTypeOf p') := by
  unfold Parser.sequenceTypeOf
  refine R.bind (R.kindTestSubNone _ _ _) fun e => R.ite (R.bind hp fun x => R.ite (R.pure _ _) (R.bind (R.peek _) fun k => ?_))
    (R.pure _ _)
  split <;> parse

theorem R.sequenceTypeList {n : Nat} {p p' : P XNode} (hp : R n p p') :
    R n (sequenceTypeList p) (sequenceTypeList p') := by
  have h := R.sequenceTypeOf hp
  unfold Parser.sequenceTypeList
  exact R.bind h fun x => R.ite (R.pure _ _)
    (R.bind (R.looping fun k hk => R.commaList h k k (by omega) (by omega)) fun l => R.pure _ _)

theorem R.functionTest {n : Nat} {p p' : P XNode} (hp : R n p p') : R (n + 1) (functionTest p) (functionTest p') := by
  unfold Parser.functionTest
  refine R.ifTok (R.bind (R.expect _ _) fun _ => R.ifTok' ?_ ?_) (R.pure _ _)
  · parse
  · exact R.bind (R.sequenceTypeList hp) fun _ => R.bind (R.expect _ _) fun _ => R.bind (R.expectName _ _) fun _ =>
      R.bind (R.sequenceTypeOf hp) fun _ => R.pure _ _

theorem R.mapTest {n : Nat} {p p' : P XNode} (hp : R n p p') : R (n + 1) (mapTest p) (mapTest p') := by
  unfold Parser.mapTest
  refine R.ifTok (R.bind (R.expect _ _) fun _ => R.bind (R.ifTok' (R.pure _ _) ?_) fun _ =>
    R.bind (R.expect _ _) fun _ => R.pure _ _) (R.pure _ _)
  exact R.bind (R.eqnameRequired _ _) fun _ => R.bind (R.expect _ _) fun _ =>
    R.bind (R.sequenceTypeOf hp) fun _ => R.pure _ _

theorem R.arrayTest {n : Nat} {p p' : P XNode} (hp : R n p p') : R (n + 1) (arrayTest p) (arrayTest p') := by
  unfold Parser.arrayTest
  exact R.ifTok (R.bind (R.expect _ _) fun _ => R.bind (R.ifTok' (R.pure _ _) (R.sequenceTypeOf hp)) fun _ =>
    R.bind (R.expect _ _) fun _ => R.pure _ _) (R.pure _ _)

theorem R.parenthesizedItemType {n : Nat} {p p' : P XNode} (hp : R n p p') :
    R (n + 1) (parenthesizedItemType p) (parenthesizedItemType p') := by
  unfold Parser.parenthesizedItemType
  exact R.ifTok (R.bind hp fun _ => R.bind (R.expect _ _) fun _ => R.pure _ _) (R.pure _ _)

theorem R.atomicType (n : Nat) : R n atomicType atomicType := by unfold Parser.atomicType; parse

theorem R.itemTypeStep {n : Nat} {p p' : P XNode} (hp : R n p p') : R (n + 1) (itemTypeStep p) (itemTypeStep p') := by
  unfold Parser.itemTypeStep
  exact R.orIfNil (R.kindTest _) <| R.orIfNil (R.kindTestSubNone _ _ _) <| R.orIfNil (R.functionTest hp) <|
    R.orIfNil (R.mapTest hp) <| R.orIfNil (R.arrayTest hp) <| R.orIfNil (R.atomicType _) (R.parenthesizedItemType hp)

theorem R.itemTypeF : ∀ k m, k ≤ m → R k (itemTypeF k) (itemTypeF m)
  | 0, _, _ => R.zero _ _
  | k + 1, 0, h => absurd h (by omega)
  | k + 1, m + 1, h => R.itemTypeStep (R.itemTypeF k m (by omega))

theorem R.itemType (n : Nat) : R n itemType itemType := R.looping fun k _ => R.itemTypeF k k (by omega)

theorem R.sequenceType (n : Nat) : R n sequenceType sequenceType := R.sequenceTypeOf (R.itemType n)

theorem R.singleType (n : Nat) : R n singleType singleType := by
  unfold Parser.singleType
  refine R.bind (R.eqname _ _) fun q => R.ite (R.pure _ _) (R.bind (R.peek _) fun k => R.bind ?_ fun _ => R.pure _ _)
  unfold singleTypeName
  split <;> parse

/-! ## Operators -/

theorem peek_bind {α : Type} (f : Tok → P α) (ts : List Tok) :
    (peek >>= f) ts = f (ts.head?.getD Lexer.eofTok) ts := by rw [bind_run]; rfl

theorem advance_bind {α : Type} (f : Unit → P α) (ts : List Tok) : (advance >>= f) ts = f () ts.tail := by
  rw [bind_run]; rfl

/-- If the next token is one of some kinds it is read and `g` follows. -/
def caseTok {α β : Type} (tbl : TType → Option β) (f : P α) (g : Tok → β → P α) : P α := fun ts =>
  match tbl (ts.head?.getD Lexer.eofTok).ty with
  | none => f ts
  | some b => g (ts.head?.getD Lexer.eofTok) b ts.tail

theorem R.caseTok {α β : Type} {n : Nat} {tbl : TType → Option β} (ht : tbl .eof = none) {f f' : P α}
    {g g' : Tok → β → P α} (hf : R (n + 1) f f') (hg : ∀ k b, R n (g k b) (g' k b)) :
    R (n + 1) (caseTok tbl f g) (caseTok tbl f' g') := by
  intro ts hts
  unfold Parser.caseTok
  cases ts with
  | nil =>
    have : tbl (([] : List Tok).head?.getD Lexer.eofTok).ty = none := ht
    simp only [this]
    exact hf _ hts
  | cons k ts =>
    simp only [List.head?_cons, Option.getD_some]
    cases hk : tbl k.ty with
    | none => exact hf _ hts
    | some b =>
      simp only [List.tail_cons]
      obtain ⟨h1, h2, h3⟩ := hg k b ts (by simp at hts; omega)
      exact ⟨h1, fun a r h => by have := h2 a r h; simp; omega, h3⟩

theorem binOpLoop_eq (p : P XNode) (tbl : TType → Option XNodeType) (once : Bool) (n : Nat) (x : XNode) :
    binOpLoop p tbl once (n + 1) x = caseTok tbl (pure x) (fun k t => p >>= fun y =>
      if once then pure (.node t k.name x y) else binOpLoop p tbl once n (.node t k.name x y)) := by
  funext ts
  rw [binOpLoop, peek_bind]
  unfold caseTok
  cases hk : tbl (ts.head?.getD Lexer.eofTok).ty with
  | none => rfl
  | some t => rfl

theorem R.binOpLoop {n : Nat} {p p' : P XNode} (hp : R n p p') {tbl : TType → Option XNodeType} (ht : tbl .eof = none)
    (once : Bool) : ∀ k m x, k ≤ n + 1 → k ≤ m → R k (binOpLoop p tbl once k x) (binOpLoop p' tbl once m x)
  | 0, _, _, _, _ => R.zero _ _
  | k + 1, 0, _, _, h => absurd h (by omega)
  | k + 1, m + 1, x, h1, h2 => by
    have ih := fun x => R.binOpLoop hp ht once k m x (by omega) (by omega)
    have hp' := hp.mono (show k ≤ n by omega)
    rw [binOpLoop_eq, binOpLoop_eq]
    exact R.caseTok ht (R.pure _ _) (fun k' b => R.bind hp' fun y => R.ite (R.pure _ _) (ih _))

theorem R.binOp {n : Nat} {p p' : P XNode} (hp : R n p p') {tbl : TType → Option XNodeType} (ht : tbl .eof = none)
    (once : Bool) : R n (binOp p tbl once) (binOp p' tbl once) := by
  unfold Parser.binOp
  exact R.bind hp fun x => R.looping fun k hk => R.binOpLoop hp ht once k k x (by omega) (by omega)

theorem R.expr {n : Nat} {es es' : P XNode} (he : R n es es') : R n (expr es) (expr es') := R.binOp he rfl _

/-! ## Steps -/

theorem R.predicate {n : Nat} {es es' : P XNode} (he : R n es es') : R (n + 1) (predicate es) (predicate es') := by
  unfold Parser.predicate
  exact R.ifTok (R.bind (R.expr he) fun _ => R.bind (R.expect _ _) fun _ => R.pure _ _) (R.pure _ _)

/-- Like `R`, and the parser reads something unless it yields a nil node. -/
def RC (n : Nat) (p q : P XNode) : Prop :=
  R n p q ∧ ∀ ts, ts.length < n → ∀ a r, p ts = .ok (a, r) → a.isNil = false → r.length < ts.length

theorem RC.ifTok {n : Nat} {t : TType} {p p' : P XNode} (hp : R n p p') :
    RC (n + 1) (ifTok t p (Pure.pure .nil)) (ifTok t p' (Pure.pure .nil)) := by
  refine ⟨R.ifTok hp (R.pure _ _), fun ts hts a r h hn => ?_⟩
  cases ts with
  | nil => simp [Parser.ifTok, pure_run] at h; rw [← h.1] at hn; cases hn
  | cons k ts =>
    simp only [Parser.ifTok] at h
    split at h
    · have := (hp ts (by simp at hts; omega)).2.1 a r h
      simp; omega
    · simp [pure_run] at h; rw [← h.1] at hn; cases hn

theorem RC.predicate {n : Nat} {es es' : P XNode} (he : R n es es') : RC (n + 1) (predicate es) (predicate es') := by
  unfold Parser.predicate
  exact RC.ifTok (R.bind (R.expr he) fun _ => R.bind (R.expect _ _) fun _ => R.pure _ _)

/-- What follows a parser that has read something unless its result is nil. -/
theorem RC.bind {α : Type} {n : Nat} {p p' : P XNode} (hp : RC (n + 1) p p') {f f' g g' : XNode → P α}
    (hf : ∀ x, R (n + 1) (f x) (f' x)) (hg : ∀ x, R n (g x) (g' x)) :
    R (n + 1) (p >>= fun x => if x.isNil then f x else g x) (p' >>= fun x => if x.isNil then f' x else g' x) := by
  intro ts hts
  obtain ⟨h1, h2, h3⟩ := hp.1 ts hts
  rw [bind_run, bind_run, ← h1]
  cases hpt : p ts with
  | error e =>
    refine ⟨rfl, ?_, ?_⟩
    · intro a r h; cases h
    · intro e' h; cases h; exact h3 e hpt
  | ok a =>
    obtain ⟨a, r⟩ := a
    have hr := h2 a r hpt
    cases hn : a.isNil with
    | true =>
      simp only [hn, if_true]
      obtain ⟨k1, k2, k3⟩ := hf a r (by omega)
      exact ⟨k1, fun b r' h => by have := k2 b r' h; omega, k3⟩
    | false =>
      have hlt := hp.2 ts hts a r hpt hn
      simp only [hn]
      obtain ⟨k1, k2, k3⟩ := hg a r (by omega)
      exact ⟨k1, fun b r' h => by have := k2 b r' h; omega, k3⟩

theorem R.predicateList {n : Nat} {es es' : P XNode} (he : R n es es') (rev : Bool) :
    ∀ k m, k ≤ n + 1 → k ≤ m → R k (predicateList es rev k) (predicateList es' rev m)
  | 0, _, _, _ => R.zero _ _
  | k + 1, 0, _, h => absurd h (by omega)
  | k + 1, m + 1, h1, h2 => by
    have ih := R.predicateList he rev k m (by omega) (by omega)
    have he' := he.mono (show k ≤ n by omega)
    unfold Parser.predicateList
    exact RC.bind (RC.predicate he') (fun _ => R.pure _ _) (fun _ => R.bind ih fun _ => R.pure _ _)

theorem R.nodeTest {n : Nat} {es es' : P XNode} (he : R n es es') (a : XNodeType) :
    R (n + 1) (nodeTest es a) (nodeTest es' a) := by
  have hl : R (n + 1) (Parser.looping (Parser.predicateList es (isReverseAxis a)))
      (Parser.looping (Parser.predicateList es' (isReverseAxis a))) :=
    R.looping fun k hk => R.predicateList he _ k k hk (by omega)
  unfold Parser.nodeTest
  refine R.bind (R.wildcard _) fun w => R.bind ?_ fun q => R.ite ?_ ?_
  · unfold nodeTestName; exact R.ite (R.eqname _ _) (R.pure _ _)
  · exact R.bind (R.kindTest _) fun k => R.ite (R.pure _ _) (R.bind hl fun _ => R.pure _ _)
  · exact R.bind hl fun _ => R.pure _ _

theorem axisOf_fine {n : Str} {e : XErr} (h : axisOf n = .error e) : Fine e := by
  unfold axisOf at h
  repeat' split at h
  all_goals first | cases h; done | (simp at h; subst h; first | exact fine_syntax | exact fine_unimplemented)

theorem R.axisStep {n : Nat} {es es' : P XNode} (he : R n es es') : R (n + 1) (axisStep es) (axisStep es') := by
  have hn := R.nodeTest he
  unfold Parser.axisStep
  refine R.bind (R.peek _) fun k => ?_
  split
  · refine R.bind (R.advance _) fun _ => R.bind (R.expect _ _) fun _ => ?_
    split
    · exact hn _
    · rename_i e h; exact R.fail _ (axisOf_fine h)
  · exact R.bind (R.advance _) fun _ => hn _
  · exact R.bind (R.advance _) fun _ => R.pure _ _
  · exact hn _

/-! ## Primary expressions -/

theorem R.argument {n : Nat} {es es' : P XNode} (he : R n es es') : R n (argument es) (argument es') := by
  unfold Parser.argument
  exact R.bind he fun x => R.ite (R.ifTok' (R.pure _ _) (R.pure _ _)) (R.pure _ _)

theorem R.argumentListSub {n : Nat} {es es' : P XNode} (he : R n es es') :
    R n (argumentListSub es) (argumentListSub es') := by
  have h := R.argument he
  unfold Parser.argumentListSub
  exact R.bind h fun x => R.ite (R.pure _ _)
    (R.bind (R.looping fun k hk => R.commaList h k k (by omega) (by omega)) fun l => R.pure _ _)

theorem R.argumentList {n : Nat} {es es' : P XNode} (he : R n es es') :
    R (n + 1) (argumentList es) (argumentList es') := by
  unfold Parser.argumentList
  exact R.expect_bind (R.bind (R.argumentListSub he) fun _ => R.bind (R.expect _ _) fun _ => R.pure _ _)

theorem R.literal (n : Nat) : R n literal literal := by
  unfold Parser.literal
  refine R.bind (R.peek _) fun k => ?_
  split <;> parse

theorem R.varref (n : Nat) : R n varref varref := by unfold Parser.varref; parse

theorem R.parenthesized {n : Nat} {es es' : P XNode} (he : R n es es') :
    R (n + 1) (parenthesized es) (parenthesized es') := by
  unfold Parser.parenthesized
  exact R.ifTok (R.bind (R.expr he) fun _ => R.bind (R.expect _ _) fun _ => R.pure _ _) (R.pure _ _)

theorem R.contextItem (n : Nat) : R n contextItem contextItem := by unfold Parser.contextItem; parse

theorem functionCallOf_fine {f : Str} {args : XNode} {e : XErr} (h : functionCallOf f args = .error e) : Fine e := by
  unfold functionCallOf at h
  split at h
  · cases h
  · simp at h; exact h ▸ fine_syntax

theorem R.functionCall {n : Nat} {es es' : P XNode} (he : R n es es') :
    R (n + 1) (functionCall es) (functionCall es') := by
  intro ts hts
  obtain ⟨-, h2, h3⟩ := R.eqname (n + 1) (S "fn") ts hts
  unfold Parser.functionCall
  cases hq : Parser.eqname (S "fn") ts with
  | error e =>
    refine ⟨rfl, ?_, ?_⟩
    · intro a r h; cases h
    · intro e' h; cases h; exact h3 e hq
  | ok q =>
    obtain ⟨f, r⟩ := q
    have hr := h2 f r hq
    have hnil : ∀ (a : XNode) (r' : List Tok), (Except.ok (XNode.nil, ts) : Except XErr (XNode × List Tok)) = .ok (a, r') →
        r'.length ≤ ts.length := by
      intro a r' h; simp at h; simp [h.2]
    simp only
    split
    · exact ⟨rfl, hnil, fun e h => by cases h⟩
    · split
      · obtain ⟨k1, k2, k3⟩ := R.bind (R.argumentList he) (f := fun args => match functionCallOf f args with
            | .ok x => Pure.pure x
            | .error e => Parser.fail e) (g := fun args => match functionCallOf f args with
            | .ok x => Pure.pure x
            | .error e => Parser.fail e) (fun args => by
              split
              · exact R.pure _ _
              · rename_i e h; exact R.fail _ (functionCallOf_fine h)) _ (Nat.lt_of_le_of_lt hr hts)
        exact ⟨k1, fun a r' h => Nat.le_trans (k2 a r' h) hr, k3⟩
      · exact ⟨rfl, hnil, fun e h => by cases h⟩

theorem R.namedFunctionRef (n : Nat) : R n namedFunctionRef namedFunctionRef := by
  apply R.of
  · intro ts a r h
    unfold Parser.namedFunctionRef at h
    cases hq : Parser.eqname (S "fn") ts with
    | error e => rw [hq] at h; cases h
    | ok q =>
      obtain ⟨f, r0⟩ := q
      have hr := (R.eqname (ts.length + 1) (S "fn") ts (by omega)).2.1 f r0 hq
      rw [hq] at h
      simp only at h
      repeat' split at h
      all_goals (simp at h; obtain ⟨-, rfl⟩ := h; simp at hr ⊢; try omega)
  · intro ts e h
    unfold Parser.namedFunctionRef at h
    cases hq : Parser.eqname (S "fn") ts with
    | error e' =>
      rw [hq] at h
      cases h
      exact (R.eqname (ts.length + 1) (S "fn") ts (by omega)).2.2 _ hq
    | ok q =>
      rw [hq] at h
      simp only at h
      repeat' split at h
      all_goals cases h

theorem R.asType (n : Nat) : R n asType asType := by
  intro ts hts
  refine ⟨rfl, ?_, ?_⟩
  · intro a r h
    cases ts with
    | nil => simp [Parser.asType] at h; simp [h]
    | cons k ts =>
      simp only [Parser.asType] at h
      split at h
      · have := (R.sequenceType n ts (by simp at hts; omega)).2.1 a r h
        simp; omega
      · simp at h; simp [h.2.symm]
  · intro e h
    cases ts with
    | nil => simp [Parser.asType] at h
    | cons k ts =>
      simp only [Parser.asType] at h
      split at h
      · exact (R.sequenceType n ts (by simp at hts; omega)).2.2 e h
      · cases h

theorem R.param (n : Nat) : R n param param := by
  unfold Parser.param
  exact R.ifTok' (R.bind (R.eqnameRequired _ _) fun _ => R.bind (R.asType _) fun _ => R.pure _ _) (R.pure _ _)

theorem R.paramList (n : Nat) : R n paramList paramList := by
  unfold Parser.paramList
  exact R.bind (R.param _) fun x => R.ite (R.pure _ _)
    (R.bind (R.looping fun k hk => R.commaList (R.param n) k k (by omega) (by omega)) fun l => R.pure _ _)

theorem R.functionBody {n : Nat} {es es' : P XNode} (he : R n es es') :
    R n (functionBody es) (functionBody es') := by
  unfold Parser.functionBody
  exact R.bind (R.expect _ _) fun _ => R.bind (R.expr he) fun _ => R.bind (R.expect _ _) fun _ => R.pure _ _

theorem R.inlineFunction {n : Nat} {es es' : P XNode} (he : R n es es') :
    R (n + 1) (inlineFunction es) (inlineFunction es') := by
  unfold Parser.inlineFunction
  exact R.ifTok (R.bind (R.expect _ _) fun _ => R.bind (R.paramList _) fun _ => R.bind (R.expect _ _) fun _ =>
    R.bind (R.asType _) fun _ => R.bind (R.functionBody he) fun _ => R.pure _ _) (R.pure _ _)

theorem R.mapEntry {n : Nat} {es es' : P XNode} (he : R n es es') : R n (mapEntry es) (mapEntry es') := by
  unfold Parser.mapEntry
  exact R.bind he fun _ => R.ite (R.pure _ _) (R.bind (R.expect _ _) fun _ => R.bind he fun _ =>
    R.ite (R.fail _ fine_syntax) (R.pure _ _))

theorem R.mapEntries {n : Nat} {es es' : P XNode} (he : R n es es') : R n (mapEntries es) (mapEntries es') := by
  have h := R.mapEntry he
  unfold Parser.mapEntries
  exact R.bind h fun x => R.ite (R.pure _ _)
    (R.bind (R.looping fun k hk => R.commaList h k k (by omega) (by omega)) fun l => R.pure _ _)

theorem R.mapConstructor {n : Nat} {es es' : P XNode} (he : R n es es') :
    R (n + 1) (mapConstructor es) (mapConstructor es') := by
  unfold Parser.mapConstructor
  exact R.ifTok (R.bind (R.expect _ _) fun _ => R.bind (R.mapEntries he) fun _ => R.bind (R.expect _ _) fun _ =>
    R.pure _ _) (R.pure _ _)

theorem R.exprInArray {n : Nat} {es es' : P XNode} (he : R n es es') : R n (exprInArray es) (exprInArray es') := by
  unfold Parser.exprInArray
  exact R.bind he fun x => R.ite (R.pure _ _)
    (R.bind (R.looping fun k hk => R.commaList he k k (by omega) (by omega)) fun l => R.pure _ _)

theorem R.squareArray {n : Nat} {es es' : P XNode} (he : R n es es') :
    R (n + 1) (squareArray es) (squareArray es') := by
  unfold Parser.squareArray
  exact R.ifTok (R.bind (R.exprInArray he) fun _ => R.bind (R.expect _ _) fun _ => R.pure _ _) (R.pure _ _)

theorem R.curlyArray {n : Nat} {es es' : P XNode} (he : R n es es') :
    R (n + 1) (curlyArray es) (curlyArray es') := by
  unfold Parser.curlyArray
  exact R.ifTok (R.bind (R.expect _ _) fun _ => R.bind (R.expr he) fun _ => R.bind (R.expect _ _) fun _ =>
    R.pure _ _) (R.pure _ _)

theorem RC.unaryLookup {n : Nat} {es es' : P XNode} (he : R n es es') :
    RC (n + 1) (unaryLookup es) (unaryLookup es') := by
  have key : ∀ ts, ts.length < n + 1 → Parser.unaryLookup es ts = Parser.unaryLookup es' ts ∧
      (∀ a r, Parser.unaryLookup es ts = .ok (a, r) → r.length ≤ ts.length ∧ (a.isNil = false → r.length < ts.length)) ∧
      ∀ e, Parser.unaryLookup es ts = .error e → Fine e := by
    intro ts hts
    unfold Parser.unaryLookup
    split
    · rename_i k r
      split
      · exact ⟨rfl, fun a r h => by simp at h; obtain ⟨-, rfl⟩ := h; simp; omega, fun e h => by cases h⟩
      · exact ⟨rfl, fun a r h => by simp at h; obtain ⟨-, rfl⟩ := h; simp; omega, fun e h => by cases h⟩
      · exact ⟨rfl, fun a r h => by simp at h; obtain ⟨-, rfl⟩ := h; simp; omega, fun e h => by cases h⟩
      · rename_i k' r'
        obtain ⟨h1, h2, h3⟩ := R.bind (R.parenthesized he) (f := fun x => (Pure.pure (.node .unaryLookupByExpr [] x .nil) : P XNode))
          (fun x => R.pure _ _) (⟨.leftParen, k'⟩ :: r') (by simp at hts ⊢; omega)
        refine ⟨h1, fun a r h => ?_, h3⟩
        have := h2 a r h
        simp at this ⊢
        omega
      · exact ⟨rfl, fun a r h => by simp at h; obtain ⟨rfl, rfl⟩ := h; simp [XNode.isNil, XNode.ty], fun e h => by cases h⟩
    · exact ⟨rfl, fun a r h => by simp at h; obtain ⟨rfl, rfl⟩ := h; simp [XNode.isNil, XNode.ty], fun e h => by cases h⟩
  exact ⟨fun ts hts => ⟨(key ts hts).1, fun a r h => ((key ts hts).2.1 a r h).1, (key ts hts).2.2⟩,
    fun ts hts a r h => ((key ts hts).2.1 a r h).2⟩

theorem R.primary {n : Nat} {es es' : P XNode} (he : R n es es') : R (n + 1) (primary es) (primary es') := by
  unfold Parser.primary
  exact R.orIfNil (R.literal _) <| R.orIfNil (R.varref _) <| R.orIfNil (R.parenthesized he) <|
    R.orIfNil (R.contextItem _) <| R.orIfNil (R.functionCall he) <|
    R.orIfNil (R.orIfNil (R.namedFunctionRef _) (R.inlineFunction he)) <| R.orIfNil (R.mapConstructor he) <|
    R.orIfNil (R.orIfNil (R.curlyArray he) (R.squareArray he)) (RC.unaryLookup he).1

theorem postfixOp_run (es : P XNode) (k : Tok) (ts : List Tok) : postfixOp es (k :: ts) =
    if k.ty = .leftBracket then (predicate es >>= fun x => pure (.node .predicateTop [] x .nil)) (k :: ts)
    else if k.ty = .leftParen then (argumentList es >>= fun x => pure (.node .argumentListTop [] x .nil)) (k :: ts)
    else if k.ty = .question then unaryLookup es (k :: ts)
    else .ok (.nil, k :: ts) := by
  obtain ⟨t, nm⟩ := k
  cases t <;> rfl

theorem RC.postfixOp {n : Nat} {es es' : P XNode} (he : R n es es') :
    RC (n + 1) (postfixOp es) (postfixOp es') := by
  have hp := R.predicate he
  have ha := R.argumentList he
  have hu := RC.unaryLookup he
  constructor
  · unfold Parser.postfixOp
    refine R.bind (R.peek _) fun k => ?_
    split
    · exact R.bind hp fun _ => R.pure _ _
    · exact R.bind ha fun _ => R.pure _ _
    · exact hu.1
    · exact R.pure _ _
  · intro ts hts a r h hn
    cases ts with
    | nil =>
      have h0 : Parser.postfixOp es [] = .ok (.nil, []) := rfl
      rw [h0] at h
      simp at h; rw [← h.1] at hn; cases hn
    | cons k ts =>
      rw [postfixOp_run] at h
      split at h
      · rename_i hk
        rw [bind_run] at h
        unfold Parser.predicate Parser.ifTok at h
        simp only [hk, if_true] at h
        have hx := R.bind (R.expr he) (f := fun x => Parser.expect .rightBracket >>= fun _ => (Pure.pure x : P XNode))
          (fun x => R.bind (R.expect _ _) fun _ => R.pure _ _) ts (by simp at hts; omega)
        revert h
        cases hq : (Parser.expr es >>= fun x => Parser.expect .rightBracket >>= fun _ => (Pure.pure x : P XNode)) ts with
        | error e => intro h; cases h
        | ok q =>
          obtain ⟨x, r1⟩ := q
          intro h
          have := hx.2.1 x r1 hq
          simp [pure_run] at h
          simp [← h.2]
          omega
      split at h
      · rename_i hk
        rw [bind_run] at h
        have hal : Parser.argumentList es (k :: ts) =
            (Parser.argumentListSub es >>= fun x => Parser.expect .rightParen >>= fun _ => (Pure.pure x : P XNode)) ts := by
          unfold Parser.argumentList
          rw [bind_run]
          simp [Parser.expect, Parser.ifTok, hk, pure_run]
        rw [hal] at h
        have hx := R.bind (R.argumentListSub he) (f := fun x => Parser.expect .rightParen >>= fun _ => (Pure.pure x : P XNode))
          (fun x => R.bind (R.expect _ _) fun _ => R.pure _ _) ts (by simp at hts; omega)
        revert h
        cases hq : (Parser.argumentListSub es >>= fun x => Parser.expect .rightParen >>= fun _ => (Pure.pure x : P XNode)) ts with
        | error e => intro h; cases h
        | ok q =>
          obtain ⟨x, r1⟩ := q
          intro h
          have := hx.2.1 x r1 hq
          simp [pure_run] at h
          simp [← h.2]
          omega
      split at h
      · exact hu.2 _ hts a r h hn
      · simp at h; rw [← h.1] at hn; cases hn

theorem R.postfixLoop {n : Nat} {es es' : P XNode} (he : R n es es') :
    ∀ k m x, k ≤ n + 1 → k ≤ m → R k (postfixLoop es k x) (postfixLoop es' m x)
  | 0, _, _, _, _ => R.zero _ _
  | k + 1, 0, _, _, h => absurd h (by omega)
  | k + 1, m + 1, x, h1, h2 => by
    have ih := fun x => R.postfixLoop he k m x (by omega) (by omega)
    have he' := he.mono (show k ≤ n by omega)
    unfold Parser.postfixLoop
    exact RC.bind (RC.postfixOp he') (fun _ => R.pure _ _) (fun _ => ih _)

theorem R.postfixExpr {n : Nat} {es es' : P XNode} (he : R n es es') :
    R (n + 1) (postfixExpr es) (postfixExpr es') := by
  unfold Parser.postfixExpr
  exact R.bind (R.primary he) fun x => R.ite (R.pure _ _)
    (R.looping fun k hk => R.postfixLoop he k k x hk (by omega))

theorem R.stepExpr {n : Nat} {es es' : P XNode} (he : R n es es') : R (n + 1) (stepExpr es) (stepExpr es') :=
  R.orIfNil (R.postfixExpr he) (R.axisStep he)

/-- The two tokens that continue a path. -/
def slashOps : TType → Option Bool
  | .slash => some false
  | .slashSlash => some true
  | _ => none

theorem relativePathLoop_eq (es : P XNode) (n : Nat) : relativePathLoop es (n + 1) =
    caseTok slashOps (pure .nil) (fun _ b => stepExpr es >>= fun x => relativePathLoop es n >>= fun r =>
        if b then pure (.node .operatorPath (S "parse_relative_path_expr SlashSlash 1") descendantOrSelf
            (.node .operatorPath (S "parse_relative_path_expr SlashSlash 2") x r))
        else pure (.node .operatorPath (S "parse_relative_path_expr Slash") x r)) := by
  funext ts
  rw [relativePathLoop, peek_bind]
  unfold caseTok
  generalize ts.head?.getD Lexer.eofTok = k
  obtain ⟨t, nm⟩ := k
  cases t <;> rfl

theorem R.relativePathLoop {n : Nat} {es es' : P XNode} (he : R n es es') :
    ∀ k m, k ≤ n + 1 → k ≤ m → R k (relativePathLoop es k) (relativePathLoop es' m)
  | 0, _, _, _ => R.zero _ _
  | k + 1, 0, _, h => absurd h (by omega)
  | k + 1, m + 1, h1, h2 => by
    have ih := R.relativePathLoop he k m (by omega) (by omega)
    have hs := (R.stepExpr he).mono (show k ≤ n + 1 by omega)
    rw [relativePathLoop_eq, relativePathLoop_eq]
    exact R.caseTok rfl (R.pure _ _) (fun _ b => R.bind hs fun _ => R.bind ih fun _ =>
      R.ite (R.pure _ _) (R.pure _ _))

theorem R.relativePath {n : Nat} {es es' : P XNode} (he : R n es es') :
    R (n + 1) (relativePath es) (relativePath es') := by
  unfold Parser.relativePath
  exact R.bind (R.stepExpr he) fun x => R.ite (R.pure _ _)
    (R.bind (R.looping fun k hk => R.relativePathLoop he k k hk (by omega)) fun r => R.ite (R.pure _ _) (R.pure _ _))

theorem R.pathExpr {n : Nat} {es es' : P XNode} (he : R n es es') : R (n + 1) (pathExpr es) (pathExpr es') := by
  have h := R.relativePath he
  unfold Parser.pathExpr
  refine R.bind (R.peek _) fun k => ?_
  split
  · exact R.bind (R.advance _) fun _ => R.bind h fun _ => R.pure _ _
  · exact R.bind (R.advance _) fun _ => R.bind h fun _ => R.pure _ _
  · exact h

theorem R.valueExpr {n : Nat} {es es' : P XNode} (he : R n es es') : R (n + 1) (valueExpr es) (valueExpr es') :=
  R.binOp (R.pathExpr he) rfl _

theorem R.unaryExpr {n : Nat} {es es' : P XNode} (he : R n es es') : R (n + 1) (unaryExpr es) (unaryExpr es') := by
  have h := R.valueExpr he
  unfold Parser.unaryExpr
  exact R.ifTok' (R.bind h fun _ => R.pure _ _) (R.ifTok' (R.bind h fun _ => R.pure _ _) h)

theorem R.arrowLoop {n : Nat} {es es' : P XNode} (he : R n es es') :
    ∀ k m x, k ≤ n + 1 → k ≤ m → R k (arrowLoop es k x) (arrowLoop es' m x)
  | 0, _, _, _, _ => R.zero _ _
  | k + 1, 0, _, _, h => absurd h (by omega)
  | k + 1, m + 1, x, h1, h2 => by
    have ih := fun x => R.arrowLoop he k m x (by omega) (by omega)
    have ha := (R.argumentList he).mono (show k ≤ n + 1 by omega)
    unfold Parser.arrowLoop
    refine R.ifTok (R.bind (R.eqname _ _) fun f => R.ite ?_ (R.bind ha fun _ => ih _)) (R.pure _ _)
    exact R.bind (R.varref _) fun v => R.ite (R.fail _ fine_syntax) (R.bind ha fun _ => ih _)

theorem R.arrowExpr {n : Nat} {es es' : P XNode} (he : R n es es') : R (n + 1) (arrowExpr es) (arrowExpr es') := by
  unfold Parser.arrowExpr
  exact R.bind (R.unaryExpr he) fun x => R.looping fun k hk => R.arrowLoop he k k x hk (by omega)

theorem R.typeOp {n : Nat} {p p' q : P XNode} (hp : R n p p') (hq : R n q q) (t : TType) (x : XNodeType) :
    R n (typeOp p t x q) (typeOp p' t x q) := by
  unfold Parser.typeOp
  exact R.bind hp fun _ => R.ifTok' (R.bind hq fun _ => R.ite (R.fail _ fine_syntax) (R.pure _ _)) (R.pure _ _)

theorem R.instanceofExpr {n : Nat} {es es' : P XNode} (he : R n es es') :
    R (n + 1) (instanceofExpr es) (instanceofExpr es') :=
  R.typeOp (R.typeOp (R.typeOp (R.typeOp (R.arrowExpr he) (R.singleType _) _ _) (R.singleType _) _ _)
    (R.sequenceType _) _ _) (R.sequenceType _) _ _

theorem R.orExpr {n : Nat} {es es' : P XNode} (he : R n es es') : R (n + 1) (orExpr es) (orExpr es') :=
  R.binOp (R.binOp (R.binOp (R.binOp (R.binOp (R.binOp (R.binOp (R.binOp (R.binOp (R.instanceofExpr he) rfl _) rfl _)
    rfl _) rfl _) rfl _) rfl _) rfl _) rfl _) rfl _

theorem R.ifExpr {n : Nat} {es es' : P XNode} (he : R n es es') : R (n + 1) (ifExpr es) (ifExpr es') := by
  unfold Parser.ifExpr
  exact R.ifTok (R.bind (R.expect _ _) fun _ => R.bind (R.expr he) fun _ => R.ite (R.fail _ fine_syntax)
    (R.bind (R.expect _ _) fun _ => R.bind (R.expectName _ _) fun _ => R.bind he fun _ => R.ite (R.fail _ fine_syntax)
    (R.bind (R.expectName _ _) fun _ => R.bind he fun _ => R.ite (R.fail _ fine_syntax) (R.pure _ _)))) (R.pure _ _)

theorem R.binding {n : Nat} {es es' : P XNode} (he : R n es es') (t : XNodeType) {sep : P Unit} (hs : R n sep sep) :
    R n (binding es t sep) (binding es' t sep) := by
  unfold Parser.binding
  exact R.ifTok' (R.bind (R.eqnameRequired _ _) fun _ => R.bind hs fun _ => R.bind he fun _ => R.pure _ _) (R.pure _ _)

theorem R.bindings {n : Nat} {es es' : P XNode} (he : R n es es') (t : XNodeType) {sep : P Unit} (hs : R n sep sep) :
    ∀ k m, k ≤ n → k ≤ m → R k (bindings es t sep k) (bindings es' t sep m)
  | 0, _, _, _ => R.zero _ _
  | k + 1, 0, _, h => absurd h (by omega)
  | k + 1, m + 1, h1, h2 => by
    have ih := R.bindings he t hs k m (by omega) (by omega)
    have hb := (R.binding he t hs).mono h1
    unfold Parser.bindings
    exact R.bind hb fun _ => R.ite (R.pure _ _) (R.ifTok (R.bind ih fun _ => R.pure _ _) (R.pure _ _))

theorem R.bindingExpr {n : Nat} {es es' : P XNode} (he : R n es es') (top bind : XNodeType) (name : Str) {sep : P Unit}
    (hs : R n sep sep) (kw : Str) : R n (bindingExpr es top bind name sep kw) (bindingExpr es' top bind name sep kw) := by
  unfold Parser.bindingExpr
  exact R.bind (R.looping fun k hk => R.bindings he bind hs k k hk (by omega)) fun _ => R.bind (R.expectName _ _) fun _ =>
    R.bind he fun _ => R.pure _ _

theorem R.exprSingleStep {n : Nat} {es es' : P XNode} (he : R n es es') :
    R (n + 1) (exprSingleStep es) (exprSingleStep es') := by
  unfold Parser.exprSingleStep
  exact R.ifTok (R.bindingExpr he _ _ _ (R.expectName _ _) _) <| R.ifTok (R.bindingExpr he _ _ _ (R.expect _ _) _) <|
    R.ifTok (R.bindingExpr he _ _ _ (R.expectName _ _) _) <| R.ifTok (R.bindingExpr he _ _ _ (R.expectName _ _) _) <|
    R.orIfNil (R.ifExpr he) (R.orExpr he)

theorem R.exprSingleF : ∀ k m, k ≤ m → R k (exprSingleF k) (exprSingleF m)
  | 0, _, _ => R.zero _ _
  | k + 1, 0, h => absurd h (by omega)
  | k + 1, m + 1, h => R.exprSingleStep (R.exprSingleF k m (by omega))

theorem R.exprSingle (n : Nat) : R n exprSingle exprSingle := R.looping fun k _ => R.exprSingleF k k (by omega)

/-! ## Equations without bounds -/

/-- Two loops that agree for all sufficient bounds are the same with the bound the parser uses. -/
theorem looping_eq {α : Type} {f : Nat → P α} (h : ∀ k m, k ≤ m → R k (f k) (f m)) (m : Nat) (ts : List Tok)
    (hm : ts.length < m) : looping f ts = f m ts :=
  (h (ts.length + 1) m (by omega) ts (by omega)).1

theorem exprSingle_F (m : Nat) (ts : List Tok) (hm : ts.length < m) : exprSingle ts = exprSingleF m ts :=
  looping_eq R.exprSingleF m ts hm

theorem exprSingle_agrees (n : Nat) : R n (exprSingleF n) exprSingle := by
  intro ts hts
  obtain ⟨-, h2, h3⟩ := R.exprSingleF n n (by omega) ts hts
  exact ⟨(exprSingle_F n ts hts).symm, h2, h3⟩

/-- The parser of `ExprSingle` as the code has it. -/
theorem exprSingle_eq (ts : List Tok) : exprSingle ts = exprSingleStep exprSingle ts := by
  rw [exprSingle_F (ts.length + 1) ts (by omega)]
  show exprSingleStep (exprSingleF ts.length) ts = _
  exact ((R.exprSingleStep (exprSingle_agrees ts.length)) ts (by omega)).1

end Parser
end Amxml
