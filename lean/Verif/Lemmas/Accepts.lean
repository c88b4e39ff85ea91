import Verif.Spec.Accepts
import Verif.Lemmas.Parser

/-!
# The parser reads only what `Reads True` allows

`Gives p Q`: whenever `p` succeeds, the tokens it has taken and its result satisfy `Q`.
-/

namespace Amxml
namespace Parser
open Spec

/-- The words between the parts of an expression. -/
def connectives : List Str := [S "as", S "in", S "then", S "else", S "return", S "satisfies"]

/-- Tokens as the lexer makes them. -/
def SaneTok (k : Tok) : Prop :=
  (k.ty = .name → k.name ≠ []) ∧ (k.ty = .bracedURILiteral → k.name ≠ []) ∧ (k.ty = .colon → k.name = S ":") ∧
    (k.ty = .asterisk → k.name = S "*") ∧ (k.ty = .colonAsterisk → k.name = S ":*") ∧ (k.ty = .asteriskColon → k.name = S "*:") ∧
    (k.ty = .question → k.name = S "?") ∧ k.ty ≠ .eof ∧ (k.name ∈ connectives → k.ty = .name ∨ k.ty = .stringLiteral)

instance (k : Tok) : Decidable (SaneTok k) := by unfold SaneTok; infer_instance

/-- Tokens as the lexer makes them. -/
def Sane (ts : List Tok) : Prop := ∀ k ∈ ts, SaneTok k

theorem Sane.tail {k : Tok} {ts : List Tok} (h : Sane (k :: ts)) : Sane ts := fun j hj => h j (by simp [hj])
theorem Sane.right {us ts : List Tok} (h : Sane (us ++ ts)) : Sane ts := fun j hj => h j (by simp [hj])

/-- Whenever `p` succeeds, what it took and its result satisfy `Q`. -/
def Gives {α : Type} (p : P α) (Q : List Tok → α → Prop) : Prop :=
  ∀ ts x r, Sane ts → p ts = .ok (x, r) → ∃ us, ts = us ++ r ∧ Q us x

variable {α β : Type}

theorem Gives.mono {p : P α} {Q Q' : List Tok → α → Prop} (h : Gives p Q) (H : ∀ us x, Q us x → Q' us x) : Gives p Q' := by
  intro ts x r hs hp
  obtain ⟨us, e, hq⟩ := h ts x r hs hp
  exact ⟨us, e, H us x hq⟩

theorem gives_pure {a : α} : Gives (pure a : P α) (fun us x => us = [] ∧ x = a) := by
  intro ts x r _ h
  cases h
  exact ⟨[], rfl, rfl, rfl⟩

theorem gives_fail {e : XErr} {Q : List Tok → α → Prop} : Gives (fail e : P α) Q := by
  intro ts x r _ h
  cases h

theorem gives_bind {p : P α} {f : α → P β} {Q : List Tok → α → Prop} {Q' : α → List Tok → β → Prop} (hp : Gives p Q) (hf : ∀ a, Gives (f a) (Q' a)) :
    Gives (p >>= f) (fun us y => ∃ a us1 us2, us = us1 ++ us2 ∧ Q us1 a ∧ Q' a us2 y) := by
  intro ts y r hs h
  rw [bind_run] at h
  cases hr : p ts with
  | error e => rw [hr] at h; cases h
  | ok v =>
    obtain ⟨a, r'⟩ := v
    rw [hr] at h
    obtain ⟨us1, e, h1⟩ := hp ts a r' hs hr
    subst e
    obtain ⟨us2, e2, h2⟩ := hf a r' y r hs.right h
    exact ⟨us1 ++ us2, by rw [e2, List.append_assoc], a, us1, us2, rfl, h1, h2⟩

theorem gives_ifTok {t : TType} {p q : P α} {Q Q' : List Tok → α → Prop} (hp : Gives p Q) (hq : Gives q Q') :
    Gives (ifTok t p q) (fun us x => (∃ s us', us = ⟨t, s⟩ :: us' ∧ Q us' x) ∨ Q' us x) := by
  intro ts x r hs h
  cases ts with
  | nil =>
    obtain ⟨us, e, h'⟩ := hq [] x r hs h
    exact ⟨us, e, .inr h'⟩
  | cons k ts =>
    unfold Parser.ifTok at h
    simp only at h
    by_cases hk : k.ty = t
    · rw [if_pos hk] at h
      obtain ⟨us, e, h'⟩ := hp ts x r hs.tail h
      refine ⟨k :: us, by rw [e]; rfl, .inl ⟨k.name, us, ?_, h'⟩⟩
      subst hk; rfl
    · rw [if_neg hk] at h
      obtain ⟨us, e, h'⟩ := hq _ x r hs h
      exact ⟨us, e, .inr h'⟩

theorem gives_expect {t : TType} : Gives (expect t) (fun us _ => ∃ s, us = [⟨t, s⟩]) := by
  refine (gives_ifTok (Q' := fun _ _ => False) gives_pure gives_fail).mono ?_
  rintro us x (⟨s, us', rfl, rfl, -⟩ | h)
  · exact ⟨s, rfl⟩
  · exact h.elim

theorem gives_expectName {w : Str} (hw : w ∈ connectives) : Gives (expectName w) (fun us _ => ∃ k, us = [k] ∧ Word True w k) := by
  intro ts x r hs h
  cases ts with
  | nil => cases h
  | cons k ts =>
    unfold Parser.expectName at h
    simp only at h
    by_cases hk : k.ty ≠ .name ∧ k.name ≠ w
    · rw [if_pos hk] at h; cases h
    · rw [if_neg hk] at h
      cases h
      refine ⟨[k], rfl, k, rfl, .inr ⟨trivial, ?_⟩⟩
      have hk' : k.ty = .name ∨ k.name = w := Classical.byContradiction fun hc => hk ⟨fun e => hc (.inl e), fun e => hc (.inr e)⟩
      rcases hk' with e | e
      · exact .inl e
      · rcases (hs k (by simp)).2.2.2.2.2.2.2.2 (e ▸ hw) with h1 | h1
        · exact .inl h1
        · exact .inr (by obtain ⟨t, n⟩ := k; simp only at h1 e; rw [h1, e])

theorem isNil_iff {x : XNode} : x.isNil = true ↔ x = .nil ∨ ∃ n l r, x = .node .nil n l r := by
  unfold XNode.isNil
  cases x with
  | nil => simp [XNode.ty]
  | node t n l r => simp [XNode.ty]

theorem gives_orIfNil {p q : P XNode} {Q Q' : List Tok → XNode → Prop} (hp : Gives p Q) (hq : Gives q Q') :
    Gives (orIfNil p q) (fun us x => Q us x ∧ x.isNil = false ∨ ∃ y us1 us2, us = us1 ++ us2 ∧ Q us1 y ∧ y.isNil = true ∧ Q' us2 x) := by
  refine (gives_bind (Q' := fun a us x => (a.isNil = true ∧ Q' us x) ∨ (a.isNil = false ∧ us = [] ∧ x = a)) hp fun a => ?_).mono ?_
  · by_cases ha : a.isNil = true
    · rw [if_pos ha]; exact hq.mono fun us x h => .inl ⟨ha, h⟩
    · rw [if_neg ha]; exact gives_pure.mono fun us x h => .inr ⟨by simpa using ha, h⟩
  · rintro us x ⟨a, us1, us2, rfl, h1, (⟨ha, h2⟩ | ⟨ha, rfl, rfl⟩)⟩
    · exact .inr ⟨a, us1, us2, rfl, h1, ha, h2⟩
    · exact .inl ⟨by simpa using h1, ha⟩

theorem gives_looping {f : Nat → P α} {Q : List Tok → α → Prop} (hf : ∀ n, Gives (f n) Q) : Gives (looping f) Q :=
  fun ts x r hs h => hf _ ts x r hs h

theorem gives_ite {c : Prop} [Decidable c] {p q : P α} {Q Q' : List Tok → α → Prop} (hp : c → Gives p Q) (hq : ¬ c → Gives q Q') :
    Gives (if c then p else q) (fun us x => c ∧ Q us x ∨ ¬ c ∧ Q' us x) := by
  by_cases h : c
  · rw [if_pos h]; exact (hp h).mono fun _ _ => fun H => .inl ⟨h, H⟩
  · rw [if_neg h]; exact (hq h).mono fun _ _ => fun H => .inr ⟨h, H⟩

/-- A look at the next token. -/
theorem gives_peek {f : Tok → P α} {Q : List Tok → α → Prop} (h0 : ∀ x r, f Lexer.eofTok [] = .ok (x, r) → r = [] ∧ Q [] x)
    (h1 : ∀ k ts x r, Sane (k :: ts) → f k (k :: ts) = .ok (x, r) → ∃ us, k :: ts = us ++ r ∧ Q us x) : Gives (peek >>= f) Q := by
  intro ts x r hs h
  cases ts with
  | nil =>
    obtain ⟨e, h'⟩ := h0 x r h
    exact ⟨[], by rw [e]; rfl, h'⟩
  | cons k ts => exact h1 k ts x r hs h

/-! ## Names -/

theorem gives_qname {pre : Str} : Gives (qname pre) (fun us n => us = [] ∧ n = [] ∨ n ≠ [] ∧ ∃ bad, NameD pre us n bad) := by
  intro ts n r hs h
  unfold Parser.qname at h
  split at h
  · rename_i m r0
    have hm : m ≠ [] := (hs ⟨.name, m⟩ (by simp)).1 rfl
    split at h
    · rename_i c r1
      have hc : c = S ":" := (hs ⟨.colon, c⟩ (by simp)).2.2.1 rfl
      subst hc
      split at h
      · cases h
        exact ⟨_, rfl, .inr ⟨by simp [hm], _, .prefixed⟩⟩
      · cases h
    · cases h
      refine ⟨[⟨.name, m⟩], rfl, .inr ⟨?_, _, .ncname hm⟩⟩
      split
      · exact hm
      · simp
  · cases h
    exact ⟨[], rfl, .inl ⟨rfl, rfl⟩⟩

theorem gives_uriName {pre : Str} : Gives uriName (fun us n => us = [] ∧ n = [] ∨ n ≠ [] ∧ ∃ bad, NameD pre us n bad) := by
  intro ts n r hs h
  unfold Parser.uriName at h
  split at h
  · rename_i u m r0
    have hu : u ≠ [] := (hs ⟨.bracedURILiteral, u⟩ (by simp)).2.1 rfl
    cases h
    exact ⟨_, rfl, .inr ⟨by simp [hu], _, .uri hu⟩⟩
  · cases h
    exact ⟨[], rfl, .inl ⟨rfl, rfl⟩⟩

/-- A name, or nothing. -/
def NameOr (pre : Str) (us : List Tok) (n : Str) : Prop := us = [] ∧ n = [] ∨ n ≠ [] ∧ ∃ bad, NameD pre us n bad

theorem gives_eqname {pre : Str} : Gives (eqname pre) (NameOr pre) := by
  refine (gives_bind gives_qname fun q => gives_ite (fun _ => gives_uriName (pre := pre)) (fun _ => gives_pure)).mono ?_
  rintro us n ⟨q, us1, us2, rfl, h1, (⟨hq, h2⟩ | ⟨hq, rfl, rfl⟩)⟩
  · rcases h1 with ⟨rfl, -⟩ | ⟨h, -⟩
    · exact h2
    · exact absurd hq h
  · rcases h1 with ⟨-, h⟩ | h
    · exact absurd h hq
    · exact .inr (by simpa using h)

theorem gives_eqnameRequired {pre : Str} : Gives (eqnameRequired pre) (fun us n => ∃ bad, NameD pre us n bad) := by
  refine (gives_bind gives_eqname fun n => gives_ite (Q := fun _ _ => False) (fun _ => gives_fail) (fun _ => gives_pure)).mono ?_
  rintro us n ⟨q, us1, us2, rfl, h1, (⟨-, h⟩ | ⟨hq, rfl, rfl⟩)⟩
  · exact h.elim
  · rcases h1 with ⟨-, h⟩ | ⟨-, h⟩
    · exact absurd h hq
    · simpa using h

theorem gives_wildcard : Gives wildcard (fun us n => us = [] ∧ n = [] ∨ n ≠ [] ∧ WildcardD us n) := by
  intro ts n r hs h
  unfold Parser.wildcard at h
  split at h
  · rename_i m r0
    have : m = S "*" := (hs ⟨.asterisk, m⟩ (by simp)).2.2.2.1 rfl
    subst this
    cases h
    exact ⟨_, rfl, .inr ⟨by decide, .star⟩⟩
  · rename_i m c r0
    cases h
    have hm : m ≠ [] := (hs ⟨.name, m⟩ (by simp)).1 rfl
    have : c = S ":*" := (hs ⟨.colonAsterisk, c⟩ (by simp)).2.2.2.2.1 rfl
    subst this
    exact ⟨_, rfl, .inr ⟨by simp [hm], .anyLocal hm⟩⟩
  · rename_i c m r0
    cases h
    have : c = S "*:" := (hs ⟨.asteriskColon, c⟩ (by simp)).2.2.2.2.2.1 rfl
    subst this
    exact ⟨_, rfl, .inr ⟨by simp [S], .anyPrefix⟩⟩
  · rename_i u m r0
    cases h
    have hu : u ≠ [] := (hs ⟨.bracedURILiteral, u⟩ (by simp)).2.1 rfl
    have : m = S "*" := (hs ⟨.asterisk, m⟩ (by simp)).2.2.2.1 rfl
    subst this
    exact ⟨_, rfl, .inr ⟨by simp [hu], .anyLocalUri hu⟩⟩
  · cases h
    exact ⟨[], rfl, .inl ⟨rfl, rfl⟩⟩

/-! ## Kind tests -/

theorem notNil {t : XNodeType} {n : Str} {l r : XNode} (h : t ≠ .nil) : (XNode.node t n l r).isNil = false := by
  unfold XNode.isNil; cases t <;> first | rfl | exact absurd rfl h

/-- A kind test, or nothing. -/
def KindOr (us : List Tok) (x : XNode) : Prop := us = [] ∧ x = .nil ∨ x.isNil = false ∧ KindTestD us x

theorem gives_orNothing {p q : P XNode} {K : List Tok → XNode → Prop} (hp : Gives p fun us x => us = [] ∧ x = .nil ∨ x.isNil = false ∧ K us x)
    (hq : Gives q fun us x => us = [] ∧ x = .nil ∨ x.isNil = false ∧ K us x) :
    Gives (Parser.orIfNil p q) fun us x => us = [] ∧ x = .nil ∨ x.isNil = false ∧ K us x := by
  refine (gives_orIfNil hp hq).mono ?_
  rintro us x (⟨h, hx⟩ | ⟨y, us1, us2, rfl, h1, hy, h2⟩)
  · exact h
  · rcases h1 with ⟨rfl, -⟩ | ⟨h, -⟩
    · exact h2
    · rw [hy] at h; cases h

theorem gives_kindTestSubNone {t : TType} {y : XNodeType} : Gives (kindTestSubNone t y)
    fun us x => us = [] ∧ x = .nil ∨ ∃ s l r, us = [⟨t, s⟩, ⟨.leftParen, l⟩, ⟨.rightParen, r⟩] ∧ x = leaf y [] := by
  refine (gives_ifTok (gives_bind gives_expect fun _ => gives_bind gives_expect fun _ => gives_pure) gives_pure).mono ?_
  rintro us x (⟨s, us', rfl, _, _, _, rfl, ⟨l, rfl⟩, _, _, _, rfl, ⟨r, rfl⟩, rfl, rfl⟩ | h)
  · exact .inr ⟨s, l, r, rfl, rfl⟩
  · exact .inl h

theorem gives_kindSimple {t : TType} {y : XNodeType} (ht : (t, y) ∈ simpleTests) (hy : y ≠ .nil) : Gives (Parser.kindTestSubNone t y) KindOr := by
  refine gives_kindTestSubNone.mono ?_
  rintro us x (h | ⟨s, l, r, rfl, rfl⟩)
  · exact .inl h
  · exact .inr ⟨notNil hy, .simple ht⟩

theorem gives_kindTestSubOne {t : TType} {y : XNodeType} : Gives (kindTestSubOne t y)
    fun us x => us = [] ∧ x = .nil ∨ ∃ s l ns n bad r, NameD [] ns n bad ∧ us = ⟨t, s⟩ :: ⟨.leftParen, l⟩ :: ns ++ [⟨.rightParen, r⟩] ∧ x = leaf y n := by
  refine (gives_ifTok (gives_bind gives_expect fun _ => gives_bind gives_eqnameRequired fun _ => gives_bind gives_expect fun _ => gives_pure)
    gives_pure).mono ?_
  rintro us x (⟨s, us', rfl, _, _, _, rfl, ⟨l, rfl⟩, n, ns, _, rfl, ⟨bad, hn⟩, _, _, _, rfl, ⟨r, rfl⟩, rfl, rfl⟩ | h)
  · exact .inr ⟨s, l, ns, n, bad, r, hn, by simp, rfl⟩
  · exact .inl h

theorem gives_nameOrStar : Gives nameOrStar fun us n => us = [] ∧ n = [] ∨ n ≠ [] ∧ ((∃ bad, NameD [] us n bad) ∨ ∃ s, us = [⟨.asterisk, s⟩] ∧ n = S "*") := by
  refine (gives_bind gives_eqname fun n => gives_ite (fun _ => gives_ifTok gives_pure gives_pure) (fun _ => gives_pure)).mono ?_
  rintro us n ⟨q, us1, us2, rfl, h1, (⟨hq, (⟨s, us', rfl, rfl, rfl⟩ | ⟨rfl, rfl⟩)⟩ | ⟨hq, rfl, rfl⟩)⟩
  · rcases h1 with ⟨rfl, -⟩ | ⟨h, -⟩
    · exact .inr ⟨by decide, .inr ⟨s, rfl, rfl⟩⟩
    · exact absurd hq h
  · rcases h1 with ⟨rfl, -⟩ | ⟨h, -⟩
    · exact .inl ⟨rfl, rfl⟩
    · exact absurd hq h
  · rcases h1 with ⟨-, h⟩ | ⟨h, h'⟩
    · exact absurd h hq
    · exact .inr ⟨h, .inl (by simpa using h')⟩

theorem gives_elementArgs : Gives (do let n ← Parser.nameOrStar; let t ← elementTypeName n; pure (n, t) : P (Str × Str))
    fun us p => ElementArgsD us (if p.1 = [] then S "*" else p.1) p.2 := by
  refine (gives_bind gives_nameOrStar fun n => gives_bind (gives_ite (fun _ => gives_pure)
    (fun _ => gives_ifTok (gives_bind gives_eqnameRequired fun t => gives_ifTok gives_pure gives_pure) gives_pure)) fun t => gives_pure).mono ?_
  rintro us p ⟨n, us1, us2, rfl, h1, t, us3, us4, rfl, h2, rfl, rfl⟩
  simp only [List.append_nil]
  rcases h1 with ⟨rfl, rfl⟩ | ⟨hn, h1⟩
  · rcases h2 with ⟨-, rfl, rfl⟩ | ⟨h, -⟩
    · exact .none
    · exact absurd rfl h
  · rw [if_neg hn]
    rcases h2 with ⟨h, -⟩ | ⟨-, h2⟩
    · exact absurd h hn
    rcases h1 with ⟨bad, h1⟩ | ⟨s, rfl, rfl⟩
    · rcases h2 with ⟨c, us', rfl, t', us5, us6, rfl, ⟨bad', ht⟩, (⟨q, us7, rfl, rfl, rfl⟩ | ⟨rfl, rfl⟩)⟩ | ⟨rfl, rfl⟩
      · simpa using ElementArgsD.nameNillable (c := c) (q := q) h1 ht
      · simpa using ElementArgsD.nameType (c := c) h1 ht
      · simpa using ElementArgsD.name h1
    · rcases h2 with ⟨c, us', rfl, t', us5, us6, rfl, ⟨bad', ht⟩, (⟨q, us7, rfl, rfl, rfl⟩ | ⟨rfl, rfl⟩)⟩ | ⟨rfl, rfl⟩
      · simpa using ElementArgsD.starNillable (s := s) (c := c) (q := q) ht
      · simpa using ElementArgsD.starType (s := s) (c := c) ht
      · exact .star

theorem gives_attributeArgs : Gives (do let n ← Parser.nameOrStar; let t ← attributeTypeName n; pure (n, t) : P (Str × Str))
    fun us p => AttributeArgsD us (if p.1 = [] then S "*" else p.1) p.2 := by
  refine (gives_bind gives_nameOrStar fun n => gives_bind (gives_ite (fun _ => gives_pure)
    (fun _ => gives_ifTok gives_eqnameRequired gives_pure)) fun t => gives_pure).mono ?_
  rintro us p ⟨n, us1, us2, rfl, h1, t, us3, us4, rfl, h2, rfl, rfl⟩
  simp only [List.append_nil]
  rcases h1 with ⟨rfl, rfl⟩ | ⟨hn, h1⟩
  · rcases h2 with ⟨-, rfl, rfl⟩ | ⟨h, -⟩
    · exact .none
    · exact absurd rfl h
  · rw [if_neg hn]
    rcases h2 with ⟨h, -⟩ | ⟨-, h2⟩
    · exact absurd h hn
    rcases h1 with ⟨bad, h1⟩ | ⟨s, rfl, rfl⟩
    · rcases h2 with ⟨c, us', rfl, ⟨bad', ht⟩⟩ | ⟨rfl, rfl⟩
      · simpa using AttributeArgsD.nameType (c := c) h1 ht
      · simpa using AttributeArgsD.name h1
    · rcases h2 with ⟨c, us', rfl, ⟨bad', ht⟩⟩ | ⟨rfl, rfl⟩
      · simpa using AttributeArgsD.starType (s := s) (c := c) ht
      · exact .star

theorem gives_elementTest : Gives elementTest fun us x => us = [] ∧ x = .nil ∨ ∃ s l ts n t r, ElementArgsD ts n t ∧
    us = ⟨.elementTest, s⟩ :: ⟨.leftParen, l⟩ :: ts ++ [⟨.rightParen, r⟩] ∧ x = elementTree n t := by
  have e : Parser.elementTest = Parser.ifTok .elementTest (do
      Parser.expect .leftParen
      let p ← (do let n ← Parser.nameOrStar; let t ← elementTypeName n; pure (n, t) : P (Str × Str))
      Parser.expect .rightParen
      pure (.node .elementTest (if p.1 = [] then S "*" else p.1) (leaf .kindTestTypeName p.2) .nil)) (Pure.pure .nil) := by
    unfold Parser.elementTest
    simp only [bind_assoc, pure_bind]
  rw [e]
  refine (gives_ifTok (gives_bind gives_expect fun _ => gives_bind gives_elementArgs fun _ => gives_bind gives_expect fun _ => gives_pure)
    gives_pure).mono ?_
  rintro us x (⟨s, us', rfl, _, _, _, rfl, ⟨l, rfl⟩, p, ts, _, rfl, hn, _, _, _, rfl, ⟨r, rfl⟩, rfl, rfl⟩ | h)
  · exact .inr ⟨s, l, ts, _, _, r, hn, by simp, rfl⟩
  · exact .inl h

theorem gives_elementKind : Gives Parser.elementTest KindOr := by
  refine gives_elementTest.mono ?_
  rintro us x (h | ⟨s, l, ts, n, t, r, h, rfl, rfl⟩)
  · exact .inl h
  · exact .inr ⟨rfl, .element h⟩

theorem gives_attributeKind : Gives attributeTest KindOr := by
  have e : Parser.attributeTest = Parser.ifTok .attributeTest (do
      Parser.expect .leftParen
      let p ← (do let n ← Parser.nameOrStar; let t ← attributeTypeName n; pure (n, t) : P (Str × Str))
      Parser.expect .rightParen
      pure (.node .attributeTest (if p.1 = [] then S "*" else p.1) (leaf .kindTestTypeName p.2) .nil)) (Pure.pure .nil) := by
    unfold Parser.attributeTest
    simp only [bind_assoc, pure_bind]
  rw [e]
  refine (gives_ifTok (gives_bind gives_expect fun _ => gives_bind gives_attributeArgs fun _ => gives_bind gives_expect fun _ => gives_pure)
    gives_pure).mono ?_
  rintro us x (⟨s, us', rfl, _, _, _, rfl, ⟨l, rfl⟩, p, ts, _, rfl, hn, _, _, _, rfl, ⟨r, rfl⟩, rfl, rfl⟩ | h)
  · refine .inr ⟨rfl, ?_⟩
    have := KindTestD.attr (s := s) (l := l) (r := r) hn
    simpa [tip, leaf] using this
  · exact .inl h

theorem gives_documentKind : Gives documentTest KindOr := by
  refine (gives_ifTok (gives_bind gives_expect fun _ => gives_bind (gives_orIfNil gives_elementTest gives_kindTestSubOne) fun _ =>
    gives_bind gives_expect fun _ => gives_pure) gives_pure).mono ?_
  rintro us x (⟨s, us', rfl, _, _, _, rfl, ⟨l, rfl⟩, y, ts, _, rfl, hn, _, _, _, rfl, ⟨r, rfl⟩, rfl, rfl⟩ | h)
  · refine .inr ⟨rfl, ?_⟩
    rcases hn with ⟨(⟨rfl, rfl⟩ | ⟨s', l', ts', n, t, r', h, rfl, rfl⟩), hy⟩ | ⟨z, us1, us2, rfl, h1, hz, h2⟩
    · cases hy
    · have := KindTestD.documentElement (s := s) (l := l) (s' := s') (l' := l') (r' := r') (r := r) h
      simpa using this
    · rcases h1 with ⟨rfl, rfl⟩ | ⟨s', l', ts', n, t, r', h, rfl, rfl⟩
      · rcases h2 with ⟨rfl, rfl⟩ | ⟨s', l', ns, n, bad, r', h, rfl, rfl⟩
        · exact .document
        · have := KindTestD.documentSchemaElement (s := s) (l := l) (s' := s') (l' := l') (r' := r') (r := r) h
          simpa [tip, leaf] using this
      · cases hz
  · exact .inl h

theorem gives_piKind : Gives piTest KindOr := by
  refine (gives_ifTok (gives_bind gives_expect fun _ => gives_peek (Q := fun us x => (∃ r, us = [⟨.rightParen, r⟩] ∧ x = leaf .pITest []) ∨
    ∃ t n r, t ∈ [TType.name, .stringLiteral] ∧ us = [⟨t, n⟩, ⟨.rightParen, r⟩] ∧ x = leaf .pITest n) ?_ ?_) gives_pure).mono ?_
  · intro x r h
    cases h
  · intro k ts x r hs h
    have key : ∀ n, Gives (do Parser.expect .rightParen; Pure.pure (leaf .pITest n) : P XNode) fun us x => (∃ r, us = [⟨.rightParen, r⟩]) ∧ x = leaf .pITest n := by
      intro n
      refine (gives_bind gives_expect fun _ => gives_pure).mono ?_
      rintro us x ⟨_, _, _, rfl, ⟨r, rfl⟩, rfl, rfl⟩
      exact ⟨⟨r, rfl⟩, rfl⟩
    obtain ⟨ty, n⟩ := k
    unfold piName at h
    split at h
    · rename_i ht; simp only at ht; subst ht
      obtain ⟨us, e, ⟨r', rfl⟩, rfl⟩ := key n ts x r hs.tail h
      exact ⟨[⟨.name, n⟩, ⟨.rightParen, r'⟩], by rw [e]; rfl, .inr ⟨_, n, r', by simp, rfl, rfl⟩⟩
    · rename_i ht; simp only at ht; subst ht
      obtain ⟨us, e, ⟨r', rfl⟩, rfl⟩ := key n ts x r hs.tail h
      exact ⟨[⟨.stringLiteral, n⟩, ⟨.rightParen, r'⟩], by rw [e]; rfl, .inr ⟨_, n, r', by simp, rfl, rfl⟩⟩
    · obtain ⟨us, e, ⟨r', rfl⟩, rfl⟩ := key [] _ x r hs h
      exact ⟨_, e, .inl ⟨r', rfl, rfl⟩⟩
    · cases h
  · rintro us x (⟨s, us', rfl, _, _, _, rfl, ⟨l, rfl⟩, (⟨r, rfl, rfl⟩ | ⟨t, n, r, ht, rfl, rfl⟩)⟩ | h)
    · exact .inr ⟨rfl, .pi⟩
    · exact .inr ⟨rfl, .piName ht⟩
    · exact .inl h

theorem gives_schemaKind {t : TType} {y : XNodeType} (h : t = .schemaElementTest ∧ y = .schemaElementTest ∨ t = .schemaAttributeTest ∧ y = .schemaAttributeTest) :
    Gives (Parser.kindTestSubOne t y) KindOr := by
  refine gives_kindTestSubOne.mono ?_
  rintro us x (h' | ⟨s, l, ns, n, bad, r, hn, rfl, rfl⟩)
  · exact .inl h'
  · rcases h with ⟨rfl, rfl⟩ | ⟨rfl, rfl⟩
    · exact .inr ⟨rfl, .schemaElement hn⟩
    · exact .inr ⟨rfl, .schemaAttribute hn⟩

theorem gives_kindTest : Gives kindTest fun us x => us = [] ∧ x = .nil ∨ x.isNil = false ∧ ∃ y, KindTestD us y ∧ x = .node .kindTest [] y .nil := by
  refine (gives_bind (Q := KindOr) (gives_orNothing gives_documentKind <| gives_orNothing gives_elementKind <| gives_orNothing gives_attributeKind <|
    gives_orNothing (gives_schemaKind (by simp)) <| gives_orNothing (gives_schemaKind (by simp)) <| gives_orNothing gives_piKind <|
    gives_orNothing (gives_kindSimple (by decide) (by decide)) <| gives_orNothing (gives_kindSimple (by decide) (by decide)) <|
    gives_orNothing (gives_kindSimple (by decide) (by decide)) (gives_kindSimple (by decide) (by decide)))
    fun x => gives_ite (fun _ => gives_pure) (fun _ => gives_pure)).mono ?_
  rintro us x ⟨y, us1, us2, rfl, h1, (⟨hy, rfl, rfl⟩ | ⟨hy, rfl, rfl⟩)⟩
  · rcases h1 with ⟨rfl, rfl⟩ | ⟨h, -⟩
    · exact .inl ⟨rfl, rfl⟩
    · rw [hy] at h; cases h
  · rcases h1 with ⟨rfl, rfl⟩ | ⟨h, h'⟩
    · exact absurd rfl hy
    · exact .inr ⟨rfl, y, by simpa using h', rfl⟩

/-! ## Types -/

theorem ne_nil_of {x : XNode} (h : x.isNil = false) : x ≠ .nil := by rintro rfl; cases h

/-- An item type, or nothing. -/
def ItemOr (us : List Tok) (x : XNode) : Prop := us = [] ∧ x = .nil ∨ x.isNil = false ∧ TypeA True .item us x
/-- A sequence type, or nothing. -/
def SeqOr (us : List Tok) (x : XNode) : Prop := us = [] ∧ x = .nil ∨ x.isNil = false ∧ TypeA True .seq us x

theorem ItemOr.type {us : List Tok} {x : XNode} (h : ItemOr us x) : TypeA True .item us x := by
  rcases h with ⟨rfl, rfl⟩ | ⟨-, h⟩
  · exact .missing trivial
  · exact h

theorem SeqOr.type {us : List Tok} {x : XNode} (h : SeqOr us x) : TypeA True .seq us x := by
  rcases h with ⟨rfl, rfl⟩ | ⟨-, h⟩
  · exact .missingSeq trivial
  · exact h

/-- Phrases, each after a comma. -/
inductive Commas {α : Type} (Q : List Tok → α → Prop) : List Tok → List α → Prop
  | nil : Commas Q [] []
  | cons {c us x vs l} : Q us x → Commas Q vs l → Commas Q (⟨.comma, c⟩ :: us ++ vs) (x :: l)

theorem gives_commaList {p : P XNode} {Q : List Tok → XNode → Prop} (h : Gives p Q) (n : Nat) : Gives (commaList p n) (Commas Q) := by
  induction n with
  | zero => exact gives_fail
  | succ n ih =>
    refine (gives_ifTok (gives_bind h fun x => gives_bind ih fun l => gives_pure) gives_pure).mono ?_
    rintro us x (⟨s, us', rfl, y, us1, us2, rfl, h1, l, us3, us4, rfl, h2, rfl, rfl⟩ | ⟨rfl, rfl⟩)
    · simpa using Commas.cons (c := s) h1 h2
    · exact .nil

theorem gives_sequenceTypeOf {it : P XNode} (h : Gives it ItemOr) : Gives (sequenceTypeOf it) SeqOr := by
  refine (gives_bind gives_kindTestSubNone fun e => gives_ite (fun _ => gives_bind h fun x => gives_ite (fun _ => gives_pure)
    (fun _ => gives_peek (Q := fun us (y : XNode) => us = [] ∧ y = .node .sequenceType [] x .nil ∨ ∃ k, us = [k] ∧ k.ty ∈ occurrence ∧
      y = .node .sequenceType k.name x .nil) ?_ ?_)) (fun _ => gives_pure)).mono ?_
  · intro y r h
    cases h
    exact ⟨rfl, .inl ⟨rfl, rfl⟩⟩
  · intro k ts y r hs h
    obtain ⟨ty, n⟩ := k
    simp only at h
    split at h
    · cases h; exact ⟨[_], rfl, .inr ⟨_, rfl, by simp [occurrence], rfl⟩⟩
    · cases h; exact ⟨[_], rfl, .inr ⟨_, rfl, by simp [occurrence], rfl⟩⟩
    · cases h; exact ⟨[_], rfl, .inr ⟨_, rfl, by simp [occurrence], rfl⟩⟩
    · cases h; exact ⟨[], rfl, .inl ⟨rfl, rfl⟩⟩
  · rintro us x ⟨e, us1, us2, rfl, h1, (⟨he, y, us3, us4, rfl, h2, (⟨hy, rfl, rfl⟩ | ⟨hy, h3⟩)⟩ | ⟨he, rfl, rfl⟩)⟩
    · rcases h1 with ⟨rfl, rfl⟩ | ⟨_, _, _, _, rfl⟩
      · rcases h2 with ⟨rfl, rfl⟩ | ⟨h, -⟩
        · exact .inl ⟨rfl, rfl⟩
        · rw [hy] at h; cases h
      · cases he
    · rcases h1 with ⟨rfl, rfl⟩ | ⟨_, _, _, _, rfl⟩
      · rcases h2 with ⟨rfl, rfl⟩ | ⟨h, h'⟩
        · exact absurd rfl hy
        · rcases h3 with ⟨rfl, rfl⟩ | ⟨k, rfl, hk, rfl⟩
          · exact .inr ⟨rfl, by simpa using TypeA.one h' (ne_nil_of h)⟩
          · exact .inr ⟨rfl, by simpa using TypeA.occurs h' (ne_nil_of h) hk⟩
      · cases he
    · rcases h1 with ⟨rfl, rfl⟩ | ⟨s, l, r, rfl, rfl⟩
      · exact absurd rfl he
      · exact .inr ⟨rfl, .empty⟩

theorem setRight_node (t : XNodeType) (n : Str) (l r r' : XNode) : setRight (.node t n l r) r' = .node t n l r' := rfl

theorem seqs_of {us vs : List Tok} {x : XNode} {l : List XNode} (hx : SeqOr us x) (hl : Commas SeqOr vs l) :
    TypeA True .seqs (us ++ vs) (linkChain ((x :: l).map fun y => .node .param [] y .nil) .nil) := by
  induction hl generalizing us x with
  | nil => simpa [linkChain, XNode.isNil, XNode.ty, setRight] using TypeA.last hx.type
  | @cons c us' y vs l h1 h2 ih =>
    have := TypeA.more (c := c) hx.type (ih h1)
    simpa [linkChain, XNode.isNil, XNode.ty, setRight] using this

theorem gives_sequenceTypeList {it : P XNode} (h : Gives it ItemOr) :
    Gives (sequenceTypeList it) fun us x => us = [] ∧ x = .nil ∨ TypeA True .seqs us x := by
  refine (gives_bind (gives_sequenceTypeOf h) fun x => gives_ite (fun _ => gives_pure)
    (fun _ => gives_bind (gives_looping fun n => gives_commaList (gives_sequenceTypeOf h) n) fun l => gives_pure)).mono ?_
  rintro us z ⟨x, us1, us2, rfl, h1, (⟨hx, rfl, rfl⟩ | ⟨hx, l, us3, us4, rfl, h2, rfl, rfl⟩)⟩
  · rcases h1 with ⟨rfl, rfl⟩ | ⟨h, -⟩
    · exact .inl ⟨rfl, rfl⟩
    · rw [hx] at h; cases h
  · exact .inr (by simpa using seqs_of h1 h2)

theorem gives_functionTest {it : P XNode} (h : Gives it ItemOr) : Gives (functionTest it) ItemOr := by
  refine (gives_ifTok (gives_bind gives_expect fun _ => gives_ifTok (gives_bind gives_expect fun _ => gives_pure)
    (gives_bind (gives_sequenceTypeList h) fun ps => gives_bind gives_expect fun _ => gives_bind (gives_expectName (by decide)) fun _ =>
      gives_bind (gives_sequenceTypeOf h) fun r => gives_pure)) gives_pure).mono ?_
  rintro us x (⟨s, _, rfl, _, _, _, rfl, ⟨l, rfl⟩, (⟨a, _, rfl, _, _, _, rfl, ⟨r, rfl⟩, rfl, rfl⟩ |
    ⟨ps, us1, _, rfl, hp, _, _, _, rfl, ⟨r, rfl⟩, _, _, _, rfl, ⟨k, rfl, hk⟩, y, us2, _, rfl, hy, rfl, rfl⟩)⟩ | h)
  · exact .inr ⟨rfl, .anyFunction⟩
  · refine .inr ⟨rfl, ?_⟩
    rcases hp with ⟨rfl, rfl⟩ | hp
    · simpa using TypeA.function0 (s := s) (l := l) (r := r) hk hy.type
    · simpa using TypeA.function (s := s) (l := l) (r := r) hp hk hy.type
  · exact .inl h

theorem gives_mapTest {it : P XNode} (h : Gives it ItemOr) : Gives (mapTest it) ItemOr := by
  refine (gives_ifTok (gives_bind gives_expect fun _ => gives_bind (gives_ifTok gives_pure (gives_bind gives_eqnameRequired fun k =>
    gives_bind gives_expect fun _ => gives_bind (gives_sequenceTypeOf h) fun v => gives_pure)) fun x => gives_bind gives_expect fun _ => gives_pure)
    gives_pure).mono ?_
  rintro us x (⟨s, _, rfl, _, _, _, rfl, ⟨l, rfl⟩, y, us1, _, rfl, (⟨a, _, rfl, rfl, rfl⟩ |
    ⟨k, ks, _, rfl, ⟨bad, hk⟩, _, _, _, rfl, ⟨c, rfl⟩, v, us2, _, rfl, hv, rfl, rfl⟩), _, _, _, rfl, ⟨r, rfl⟩, rfl, rfl⟩ | h)
  · exact .inr ⟨rfl, .anyMap⟩
  · exact .inr ⟨rfl, by simpa [tip, leaf] using TypeA.map (s := s) (l := l) (c := c) (r := r) hk hv.type⟩
  · exact .inl h

theorem gives_arrayTest {it : P XNode} (h : Gives it ItemOr) : Gives (arrayTest it) ItemOr := by
  refine (gives_ifTok (gives_bind gives_expect fun _ => gives_bind (gives_ifTok gives_pure (gives_sequenceTypeOf h)) fun x =>
    gives_bind gives_expect fun _ => gives_pure) gives_pure).mono ?_
  rintro us x (⟨s, _, rfl, _, _, _, rfl, ⟨l, rfl⟩, y, us1, _, rfl, (⟨a, _, rfl, rfl, rfl⟩ | hv), _, _, _, rfl, ⟨r, rfl⟩, rfl, rfl⟩ | h)
  · exact .inr ⟨rfl, .anyArray⟩
  · exact .inr ⟨rfl, by simpa using TypeA.array (s := s) (l := l) (r := r) hv.type⟩
  · exact .inl h

theorem gives_parenthesizedItemType {it : P XNode} (h : Gives it ItemOr) : Gives (parenthesizedItemType it) ItemOr := by
  refine (gives_ifTok (gives_bind h fun x => gives_bind gives_expect fun _ => gives_pure) gives_pure).mono ?_
  rintro us x (⟨l, _, rfl, y, us1, _, rfl, hv, _, _, _, rfl, ⟨r, rfl⟩, rfl, rfl⟩ | h)
  · exact .inr ⟨rfl, by simpa using TypeA.paren (l := l) (r := r) hv.type⟩
  · exact .inl h

theorem gives_atomicType : Gives atomicType ItemOr := by
  refine (gives_bind gives_eqname fun n => gives_ite (fun _ => gives_pure) (fun _ => gives_pure)).mono ?_
  rintro us x ⟨n, us1, _, rfl, h1, (⟨hn, rfl, rfl⟩ | ⟨hn, rfl, rfl⟩)⟩
  · rcases h1 with ⟨rfl, -⟩ | ⟨h, -⟩
    · exact .inl ⟨rfl, rfl⟩
    · exact absurd hn h
  · rcases h1 with ⟨-, h⟩ | ⟨-, bad, h⟩
    · exact absurd h hn
    · exact .inr ⟨rfl, by simpa [tip, leaf] using TypeA.atomic h⟩

theorem gives_itemTypeF (n : Nat) : Gives (itemTypeF n) ItemOr := by
  induction n with
  | zero => exact gives_fail
  | succ n ih =>
    refine gives_orNothing (gives_kindTest.mono ?_) <| gives_orNothing (gives_kindTestSubNone.mono ?_) <| gives_orNothing (gives_functionTest ih) <|
      gives_orNothing (gives_mapTest ih) <| gives_orNothing (gives_arrayTest ih) <| gives_orNothing gives_atomicType (gives_parenthesizedItemType ih)
    · rintro us x (h | ⟨h, y, hy, rfl⟩)
      · exact .inl h
      · exact .inr ⟨h, .kind hy⟩
    · rintro us x (h | ⟨s, l, r, rfl, rfl⟩)
      · exact .inl h
      · exact .inr ⟨rfl, .anyItem⟩

theorem gives_sequenceType : Gives sequenceType SeqOr := gives_sequenceTypeOf (gives_looping gives_itemTypeF)

theorem gives_singleType : Gives singleType fun us x => us = [] ∧ x = .nil ∨ x.isNil = false ∧ ∃ bad, SingleTypeD us x bad := by
  refine (gives_bind gives_eqname fun n => gives_ite (fun _ => gives_pure) (fun _ => gives_peek
    (Q := fun us (x : XNode) => us = [] ∧ x = .node .singleType [] (leaf .typeName n) .nil ∨
      us = [⟨.question, S "?"⟩] ∧ x = .node .singleType [] (leaf .typeName (n ++ S "?")) .nil) ?_ ?_)).mono ?_
  · intro x r h
    cases h
    exact ⟨rfl, .inl ⟨rfl, rfl⟩⟩
  · intro k ts x r hs h
    obtain ⟨ty, m⟩ := k
    unfold singleTypeName at h
    split at h
    · rename_i ht; simp only at ht; subst ht
      have : m = S "?" := (hs ⟨.question, m⟩ (by simp)).2.2.2.2.2.2.1 rfl
      subst this
      cases h
      exact ⟨[_], rfl, .inr ⟨rfl, rfl⟩⟩
    · cases h
      exact ⟨[], rfl, .inl ⟨rfl, rfl⟩⟩
  · rintro us x ⟨n, us1, _, rfl, h1, (⟨hn, rfl, rfl⟩ | ⟨hn, h2⟩)⟩
    · rcases h1 with ⟨rfl, -⟩ | ⟨h, -⟩
      · exact .inl ⟨rfl, rfl⟩
      · exact absurd hn h
    · rcases h1 with ⟨-, h⟩ | ⟨-, bad, h⟩
      · exact absurd h hn
      · rcases h2 with ⟨rfl, rfl⟩ | ⟨rfl, rfl⟩
        · exact .inr ⟨rfl, _, by simpa [tip, leaf] using SingleTypeD.plain h⟩
        · exact .inr ⟨rfl, _, .optional h⟩

theorem gives_asType : Gives asType (AsA True) := by
  intro ts x r hs h
  unfold asType at h
  split at h
  · rename_i k ts'
    by_cases hk : k.ty = .name ∧ k.name = S "as"
    · rw [if_pos hk] at h
      obtain ⟨us, e, h'⟩ := gives_sequenceType _ x r hs.tail h
      refine ⟨k :: us, by rw [e]; rfl, ?_⟩
      obtain ⟨ty, n⟩ := k
      obtain ⟨h1, h2⟩ := hk
      simp only at h1 h2
      subst h1 h2
      exact .as h'.type
    · rw [if_neg hk] at h
      cases h
      exact ⟨[], rfl, .none⟩
  · cases h
    exact ⟨[], rfl, .none⟩

/-- A parameter, or nothing. -/
def ParamOr (us : List Tok) (x : XNode) : Prop :=
  us = [] ∧ x = .nil ∨ ∃ d ns n bad ts t, NameD [] ns n bad ∧ AsA True ts t ∧ us = ⟨.dollar, d⟩ :: ns ++ ts ∧ x = .node .param n t .nil

theorem gives_param : Gives param ParamOr := by
  refine (gives_ifTok (gives_bind gives_eqnameRequired fun n => gives_bind gives_asType fun t => gives_pure) gives_pure).mono ?_
  rintro us x (⟨d, _, rfl, n, ns, _, rfl, ⟨bad, hn⟩, t, ts, _, rfl, ht, rfl, rfl⟩ | h)
  · exact .inr ⟨d, ns, n, bad, ts, t, hn, ht, by simp, rfl⟩
  · exact .inl h

theorem params_of {us vs : List Tok} {x : XNode} {l : List XNode} (hx : ParamOr us x) (hl : Commas ParamOr vs l) :
    ParamsA True (us ++ vs) (linkChain (x :: l) .nil) := by
  induction hl generalizing us x with
  | nil =>
    rcases hx with ⟨rfl, rfl⟩ | ⟨d, ns, n, bad, ts, t, hn, ht, rfl, rfl⟩
    · exact .missing trivial
    · simpa [linkChain, XNode.isNil, XNode.ty, setRight] using ParamsA.last (d := d) hn ht
  | @cons c us' y vs l h1 h2 ih =>
    rcases hx with ⟨rfl, rfl⟩ | ⟨d, ns, n, bad, ts, t, hn, ht, rfl, rfl⟩
    · exact .missingMore trivial (ih h1)
    · have := ParamsA.more (d := d) (c := c) hn ht (ih h1)
      simpa [linkChain, XNode.isNil, XNode.ty, setRight] using this

theorem gives_paramList : Gives paramList fun us x => us = [] ∧ x = .nil ∨ ParamsA True us x ∧ x ≠ .nil := by
  refine (gives_bind gives_param fun x => gives_ite (fun _ => gives_pure)
    (fun _ => gives_bind (gives_looping fun n => gives_commaList gives_param n) fun l => gives_pure)).mono ?_
  rintro us z ⟨x, us1, us2, rfl, h1, (⟨hx, rfl, rfl⟩ | ⟨hx, l, us3, us4, rfl, h2, rfl, rfl⟩)⟩
  · rcases h1 with ⟨rfl, rfl⟩ | ⟨_, _, _, _, _, _, _, _, _, rfl⟩
    · exact .inl ⟨rfl, rfl⟩
    · cases hx
  · refine .inr ⟨by simpa using params_of h1 h2, ?_⟩
    rcases h1 with ⟨rfl, rfl⟩ | ⟨_, _, _, _, _, _, _, _, _, rfl⟩
    · exact absurd rfl hx
    · simp [linkChain, XNode.isNil, XNode.ty, setRight]

/-! ## Expressions -/

theorem binary_ne_nil {l : Nat} {k : TType} {t : XNodeType} (h : (l, k, t) ∈ binary) : t ≠ .nil ∧ k ≠ .eof := by
  have : ∀ e ∈ binary, e.2.2 ≠ .nil ∧ e.2.1 ≠ .eof := by decide
  exact this _ h

theorem axis_ne_nil {w : Str} {a : XNodeType} {rev : Bool} (h : (w, a, rev) ∈ axisNames) : a ≠ .nil := by
  have : ∀ e ∈ axisNames, e.2.1 ≠ .nil := by decide
  exact this _ h

theorem typeOp_ne_nil {lax : Prop} {l : Nat} {k : TType} {t : XNodeType} {ts : List Tok} {x : XNode} (h : TypeOpA lax l k t ts x) : t ≠ .nil := by
  cases h <;> decide

theorem nil_of {lax : Prop} {c : Cat} {us : List Tok} {x : XNode} (h : Reads lax c us x) : x.isNil = true → x = .nil := by
  induction h with
  | tighter _ _ _ ih | relative _ ih | oneStep _ ih | expression _ ih | primary _ ih | lookup _ ih | present _ ih | elems _ _ ih | lastElem _ ih => exact ih
  | bindMissing _ _ _ ih => exact ih
  | left h _ _ _ _ _ | nonassoc h _ _ _ _ _ => rw [notNil (binary_ne_nil h).1]; simp
  | typeOp _ h _ => rw [notNil (typeOp_ne_nil h)]; simp
  | @clause c _ _ _ _ _ => cases c <;> (unfold Clause.tree; rw [notNil (by decide)]; simp)
  | @bindLast c _ _ _ _ _ _ _ _ _ _ _ _ _ _ _ _ _ => cases c <;> (unfold Clause.bind; rw [notNil (by decide)]; simp)
  | @bindMore c _ _ _ _ _ _ _ _ _ _ _ _ _ _ _ _ => cases c <;> (unfold Clause.bind; rw [notNil (by decide)]; simp)
  | axis h _ _ _ => rw [notNil (axis_ne_nil h)]; simp
  | @preds rev _ _ _ _ _ _ _ _ _ _ _ => rw [notNil (by cases rev <;> decide)]; simp
  | call _ _ _ _ => rw [notNil (by split <;> decide)]; simp
  | @moreElems k ts x c us y _ _ ih1 _ =>
    intro h
    cases x with
    | nil => rfl
    | node t n l r => exact absurd (ih1 (by simpa [followedBy, XNode.isNil, XNode.ty] using h)) (by simp)
  | _ => first | (intro _; rfl) | (intro h; exact absurd h (by decide)) | (intro h; simp [XNode.isNil, XNode.ty, tip] at h)

theorem elem_right {lax : Prop} {k : ListKind} {us : List Tok} {x : XNode} (h : Reads lax (.elem k) us x) : followedBy x .nil = x := by
  cases h <;> rfl

theorem setRight_eq (x r : XNode) : setRight x r = followedBy x r := rfl

theorem elems_of {k : ListKind} {us vs : List Tok} {x : XNode} {l : List XNode} (hx : Reads True (.elem k) us x)
    (hl : Commas (Reads True (.elem k)) vs l) : Reads True (.elems k) (us ++ vs) (linkChain (x :: l) .nil) := by
  have hc : ∀ (x : XNode) (us : List Tok) (y : XNode), Reads True (.elem k) us x → (if x.isNil then XNode.nil else setRight x y) = followedBy x y := by
    intro x us y h
    by_cases hn : x.isNil = true
    · rw [if_pos hn, nil_of h hn]; rfl
    · rw [if_neg hn, setRight_eq]
  induction hl generalizing us x with
  | nil =>
    rw [linkChain, hc x us _ hx, linkChain, elem_right hx, List.append_nil]
    exact .lastElem hx
  | @cons c us' y vs l h1 h2 ih =>
    rw [linkChain, hc x us _ hx]
    exact .moreElems hx (ih h1)

/-! ### Operators -/

theorem gives_binOpLoop {sub : P XNode} {tbl : TType → Option XNodeType} {once : Bool} {l : Nat} (hs : Gives sub (Reads True (.level (l + 1))))
    (ht : ∀ k t, tbl k = some t → (l, k, t) ∈ binary) (ho : once = true ↔ l ∉ leftAssoc) (h1 : 1 ≤ l) (h2 : l < 19) (n : Nat) (x : XNode) :
    Gives (binOpLoop sub tbl once n x) fun us z => ∀ a, Reads True (.level (l + 1)) a x ∨ once = false ∧ Reads True (.level l) a x →
      Reads True (.level l) (a ++ us) z := by
  have up : ∀ a x, (Reads True (.level (l + 1)) a x ∨ once = false ∧ Reads True (.level l) a x) → Reads True (.level l) a x := by
    rintro a x (h | ⟨-, h⟩)
    · exact .tighter h1 h2 h
    · exact h
  induction n generalizing x with
  | zero => exact gives_fail
  | succ n ih =>
    refine gives_peek ?_ ?_
    · intro z r h
      have : tbl Lexer.eofTok.ty = none := by
        cases e : tbl Lexer.eofTok.ty with
        | none => rfl
        | some t => exact absurd rfl (binary_ne_nil (ht _ _ e)).2
      rw [this] at h
      cases h
      exact ⟨rfl, fun a ha => by simpa using up a x ha⟩
    · intro k ts z r hsane h
      cases e : tbl k.ty with
      | none =>
        rw [e] at h
        cases h
        exact ⟨[], rfl, fun a ha => by simpa using up a x ha⟩
      | some t =>
        rw [e] at h
        have hm := ht _ _ e
        cases once with
        | true =>
          have g := gives_bind (f := fun y => (Pure.pure (XNode.node t k.name x y) : P XNode)) hs fun y => gives_pure
          obtain ⟨us, e', y, us1, us2, rfl, hy, rfl, rfl⟩ := g ts z r hsane.tail h
          refine ⟨k :: us1, by rw [e']; simp, fun a ha => ?_⟩
          rcases ha with ha | ⟨h, -⟩
          · simpa using Reads.nonassoc hm (ho.1 rfl) ha hy
          · cases h
        | false =>
          have g := gives_bind (f := fun y => binOpLoop sub tbl false n (XNode.node t k.name x y)) hs fun y => ih _
          obtain ⟨us, e', y, us1, us2, rfl, hy, hz⟩ := g ts z r hsane.tail h
          refine ⟨k :: (us1 ++ us2), by rw [e']; rfl, fun a ha => ?_⟩
          have hl : l ∈ leftAssoc := Classical.byContradiction fun hc => absurd (ho.2 hc) (by simp)
          have := hz (a ++ k :: us1) (.inr ⟨rfl, .left hm hl (up a x ha) hy⟩)
          simpa using this

theorem gives_binOp {sub : P XNode} {tbl : TType → Option XNodeType} {once : Bool} {l : Nat} (hs : Gives sub (Reads True (.level (l + 1))))
    (ht : ∀ k t, tbl k = some t → (l, k, t) ∈ binary) (ho : once = true ↔ l ∉ leftAssoc) (h1 : 1 ≤ l) (h2 : l < 19) :
    Gives (binOp sub tbl once) (Reads True (.level l)) := by
  refine (gives_bind hs fun x => gives_looping fun n => gives_binOpLoop hs ht ho h1 h2 n x).mono ?_
  rintro us z ⟨x, us1, us2, rfl, hx, hz⟩
  exact hz us1 (.inl hx)

theorem gives_expr {es : P XNode} (h : Gives es (Reads True (.level 2))) : Gives (expr es) (Reads True (.level 1)) :=
  gives_binOp h (by intro k t h; cases k <;> simp [commaOps] at h <;> subst h <;> decide) (by decide) (by decide) (by decide)

/-- `(…)`, `[…]` and `{…}` around an expression that may be missing. -/
theorem option_of {us : List Tok} {x : XNode} (h : Reads True (.level 1) us x) : Reads True .option us x := .present h

/-! ### Steps -/

theorem gives_predicateList {es : P XNode} (h : Gives es (Reads True (.level 2))) (rev : Bool) (n : Nat) :
    Gives (predicateList es rev n) (Reads True (.preds rev)) := by
  induction n with
  | zero => exact gives_fail
  | succ n ih =>
    refine (gives_bind (gives_ifTok (gives_bind (gives_expr h) fun x => gives_bind gives_expect fun _ => gives_pure) gives_pure) fun x =>
      gives_ite (fun _ => gives_pure) (fun _ => gives_bind ih fun r => gives_pure)).mono ?_
    rintro us z ⟨x, us1, us2, rfl, (⟨l, _, rfl, y, a, _, rfl, ha, _, _, _, rfl, ⟨r, rfl⟩, rfl, rfl⟩ | ⟨rfl, rfl⟩),
      (⟨hx, rfl, rfl⟩ | ⟨hx, w, us3, _, rfl, hw, rfl, rfl⟩)⟩
    · have := nil_of ha hx
      subst this
      simpa using Reads.missingPred (rev := rev) (l := l) (r := r) trivial ha
    · simpa using Reads.preds (l := l) (r := r) ha (by rintro rfl; exact hx rfl) hw
    · exact .noPreds
    · exact absurd rfl hx

theorem gives_nodeTest {es : P XNode} (h : Gives es (Reads True (.level 2))) (axis : XNodeType) (hax : axis ≠ .nil) :
    Gives (nodeTest es axis) fun us x => us = [] ∧ x = .nil ∨ x.isNil = false ∧ ∃ ts n y bad ps p, NodeTestD ts n y bad ∧
      Reads True (.preds (isReverseAxis axis)) ps p ∧ us = ts ++ ps ∧ x = .node axis n y p := by
  have hp := fun n => gives_predicateList h (isReverseAxis axis) n
  refine (gives_bind gives_wildcard fun w => gives_bind (gives_ite (fun _ => gives_eqname) (fun _ => gives_pure)) fun n =>
    gives_ite (fun _ => gives_bind gives_kindTest fun k => gives_ite (fun _ => gives_pure)
      (fun _ => gives_bind (gives_looping hp) fun ps => gives_pure)) (fun _ => gives_bind (gives_looping hp) fun ps => gives_pure)).mono ?_
  rintro us z ⟨w, us1, _, rfl, hw, n, us2, us3, rfl, hn, hz⟩
  have key : us1 ++ us2 = [] ∧ n = [] ∨ n ≠ [] ∧ ∃ bad, NodeTestD (us1 ++ us2) n .nil bad := by
    rcases hn with ⟨rfl, hn⟩ | ⟨hne, rfl, rfl⟩
    · rcases hw with ⟨rfl, -⟩ | ⟨h, -⟩
      · rcases hn with ⟨rfl, rfl⟩ | ⟨h, bad, h'⟩
        · exact .inl ⟨rfl, rfl⟩
        · exact .inr ⟨h, _, .name h'⟩
      · exact absurd rfl h
    · rcases hw with ⟨-, h⟩ | ⟨h, h'⟩
      · exact absurd h hne
      · exact .inr ⟨h, _, by simpa using NodeTestD.wildcard h'⟩
  rcases hz with ⟨he, k, us4, us5, rfl, hk, hz⟩ | ⟨hne, p, ps, _, rfl, hp, rfl, rfl⟩
  · rcases key with ⟨e, -⟩ | ⟨h, -⟩
    · obtain ⟨rfl, rfl⟩ := List.append_eq_nil_iff.1 e
      rcases hz with ⟨hk', rfl, rfl⟩ | ⟨hk', p, ps, _, rfl, hp, rfl, rfl⟩
      · rcases hk with ⟨rfl, -⟩ | ⟨h, -⟩
        · exact .inl ⟨rfl, rfl⟩
        · rw [hk'] at h; cases h
      · rcases hk with ⟨rfl, rfl⟩ | ⟨-, y, hy, rfl⟩
        · exact absurd rfl hk'
        · exact .inr ⟨notNil hax, us4, [], _, _, ps, p, .kind hy, hp, by simp, rfl⟩
    · exact absurd he h
  · rcases key with ⟨-, e⟩ | ⟨-, bad, h'⟩
    · exact absurd e hne
    · exact .inr ⟨notNil hax, us1 ++ us2, n, _, bad, ps, p, h', hp, by simp, rfl⟩

theorem axisOf_ok {n : Str} {a : XNodeType} (h : axisOf n = .ok a) : (n, a, isReverseAxis a) ∈ axisNames := by
  unfold axisOf at h
  cases hf : axisTbl.find? fun e => e.1 == n with
  | none => rw [hf] at h; cases h
  | some e =>
    rw [hf] at h
    simp only at h
    by_cases hn : e.2 = .axisNamespace
    · rw [if_pos hn] at h; cases h
    · rw [if_neg hn] at h
      cases h
      have hm := List.mem_of_find?_eq_some hf
      have he : e.1 = n := by simpa using List.find?_some hf
      subst he
      have : ∀ e ∈ axisTbl, e.2 ≠ .axisNamespace → (e.1, e.2, isReverseAxis e.2) ∈ axisNames := by decide
      exact this e hm hn

theorem gives_axisStep {es : P XNode} (h : Gives es (Reads True (.level 2))) : Gives (axisStep es) (Reads True .step) := by
  have child : Gives (nodeTest es .axisChild) (Reads True .step) := by
    refine (gives_nodeTest h .axisChild (by decide)).mono ?_
    rintro us x (⟨rfl, rfl⟩ | ⟨-, ts, n, y, bad, ps, p, ht, hp, rfl, rfl⟩)
    · exact .missing trivial
    · exact .child ht (.inl trivial) hp
  refine gives_peek ?_ ?_
  · intro x r hx
    obtain ⟨us, e, h'⟩ := child [] x r (fun _ h => by cases h) hx
    obtain ⟨rfl, rfl⟩ := List.append_eq_nil_iff.1 e.symm
    exact ⟨rfl, h'⟩
  · intro k ts x r hs hx
    obtain ⟨ty, w⟩ := k
    simp only at hx
    split at hx
    · have g : Gives (do Parser.expect .colonColon
                         match axisOf w with
                         | .ok a => nodeTest es a
                         | .error e => Parser.fail e : P XNode) fun us x => Reads True .step (⟨.axisName, w⟩ :: us) x := by
        refine (gives_bind (Q' := fun _ us x => ∀ s, Reads True .step (⟨.axisName, w⟩ :: ⟨.colonColon, s⟩ :: us) x) gives_expect fun _ => ?_).mono ?_
        · cases ha : axisOf w with
          | error e => exact gives_fail
          | ok a =>
            have hm := axisOf_ok ha
            refine (gives_nodeTest h a (axis_ne_nil hm)).mono ?_
            rintro us x (⟨rfl, rfl⟩ | ⟨-, ts, n, y, bad, ps, p, ht, hp, rfl, rfl⟩) s
            · exact .missingTest trivial hm
            · exact .axis hm ht hp
        · rintro us x ⟨_, _, us2, rfl, ⟨s, rfl⟩, h⟩
          exact h s
      obtain ⟨us, e, h'⟩ := g ts x r hs.tail hx
      exact ⟨_ :: us, by rw [e]; rfl, h'⟩
    · obtain ⟨us, e, h'⟩ := gives_nodeTest h .axisAttribute (by decide) ts x r hs.tail hx
      refine ⟨⟨.at, w⟩ :: us, by rw [e]; rfl, ?_⟩
      rcases h' with ⟨rfl, rfl⟩ | ⟨-, ts, n, y, bad, ps, p, ht, hp, rfl, rfl⟩
      · exact .missingName trivial
      · exact .atStep ht hp
    · cases hx
      exact ⟨[_], rfl, .parent⟩
    · exact child _ x r hs hx

/-! ### Lists -/

theorem gives_argument {es : P XNode} (h : Gives es (Reads True (.level 2))) :
    Gives (argument es) fun us x => Reads True (.elem .argument) us x ∧ (x.isNil = true → Reads True (.level 2) us .nil) := by
  refine (gives_bind h fun x => gives_ite (fun _ => gives_ifTok gives_pure gives_pure) (fun _ => gives_pure)).mono ?_
  rintro us z ⟨x, us1, us2, rfl, hx, (⟨hn, (⟨q, _, rfl, rfl, rfl⟩ | ⟨rfl, rfl⟩)⟩ | ⟨hn, rfl, rfl⟩)⟩
  · have := nil_of hx hn
    subst this
    exact ⟨.missingPlaceholder trivial hx, fun h => by cases h⟩
  · have := nil_of hx hn
    subst this
    rw [List.append_nil]
    exact ⟨.missingArgument trivial hx, fun _ => hx⟩
  · rw [List.append_nil]
    exact ⟨.argument hx (by rintro rfl; exact hn rfl), fun h => by cases h⟩

theorem Commas.mono {Q Q' : List Tok → XNode → Prop} (H : ∀ us x, Q us x → Q' us x) {us : List Tok} {l : List XNode} (h : Commas Q us l) :
    Commas Q' us l := by
  induction h with
  | nil => exact .nil
  | cons h _ ih => exact .cons (H _ _ h) ih

theorem linkChain_ne_nil {x : XNode} {l : List XNode} (h : x.isNil = false) : linkChain (x :: l) .nil ≠ .nil := by
  rw [linkChain, h]
  cases x with
  | nil => cases h
  | node t n a b => simp [setRight]

theorem gives_argumentListSub {es : P XNode} (h : Gives es (Reads True (.level 2))) :
    Gives (argumentListSub es) (Reads True (.list .argument)) := by
  refine (gives_bind (gives_argument h) fun x => gives_ite (fun _ => gives_pure)
    (fun _ => gives_bind (gives_looping fun n => gives_commaList (gives_argument h) n) fun l => gives_pure)).mono ?_
  rintro us z ⟨x, us1, _, rfl, ⟨hx, hx'⟩, (⟨hn, rfl, rfl⟩ | ⟨hn, l, us2, _, rfl, hl, rfl, rfl⟩)⟩
  · simpa using Reads.nothing trivial (hx' hn)
  · have := elems_of hx (hl.mono fun _ _ h => h.1)
    simpa using Reads.elems this (linkChain_ne_nil (by simpa using hn))

theorem gives_argumentList {es : P XNode} (h : Gives es (Reads True (.level 2))) :
    Gives (argumentList es) fun us x => ∃ l a r, Reads True (.list .argument) a x ∧ us = ⟨.leftParen, l⟩ :: a ++ [⟨.rightParen, r⟩] := by
  refine (gives_bind gives_expect fun _ => gives_bind (gives_argumentListSub h) fun x => gives_bind gives_expect fun _ => gives_pure).mono ?_
  rintro us z ⟨_, _, _, rfl, ⟨l, rfl⟩, x, a, _, rfl, ha, _, _, _, rfl, ⟨r, rfl⟩, rfl, rfl⟩
  exact ⟨l, a, r, ha, by simp⟩

theorem gives_mapEntry {es : P XNode} (h : Gives es (Reads True (.level 2))) :
    Gives (mapEntry es) fun us x => Reads True (.elem .entry) us (.node .mapConstruct [] x .nil) ∧ (x.isNil = true → Reads True (.level 2) us .nil) := by
  refine (gives_bind h fun k => gives_ite (fun _ => gives_pure) (fun _ => gives_bind gives_expect fun _ => gives_bind h fun v =>
    gives_ite (Q := fun _ _ => False) (fun _ => gives_fail) (fun _ => gives_pure))).mono ?_
  rintro us z ⟨x, us1, _, rfl, hx, (⟨hn, rfl, rfl⟩ | ⟨hn, _, _, _, rfl, ⟨c, rfl⟩, v, us2, _, rfl, hv, (⟨-, hf⟩ | ⟨hvn, rfl, rfl⟩)⟩)⟩
  · have := nil_of hx hn
    subst this
    rw [List.append_nil]
    exact ⟨.missingEntry trivial hx, fun _ => hx⟩
  · exact hf.elim
  · refine ⟨?_, fun h => by cases h⟩
    simpa using Reads.entry (c := c) hx (by rintro rfl; exact hn rfl) hv (by rintro rfl; exact hvn rfl)

theorem wrapped {k : ListKind} {t : XNodeType} {us : List Tok} {l : List XNode}
    (h : Commas (fun us x => Reads True (.elem k) us (.node t [] x .nil)) us l) :
    Commas (Reads True (.elem k)) us (l.map fun y => .node t [] y .nil) := by
  induction h with
  | nil => exact .nil
  | cons h _ ih => exact .cons h ih

theorem gives_mapEntries {es : P XNode} (h : Gives es (Reads True (.level 2))) :
    Gives (mapEntries es) (Reads True (.list .entry)) := by
  refine (gives_bind (gives_mapEntry h) fun x => gives_ite (fun _ => gives_pure)
    (fun _ => gives_bind (gives_looping fun n => gives_commaList (gives_mapEntry h) n) fun l => gives_pure)).mono ?_
  rintro us z ⟨x, us1, _, rfl, ⟨hx, hx'⟩, (⟨hn, rfl, rfl⟩ | ⟨hn, l, us2, _, rfl, hl, rfl, rfl⟩)⟩
  · simpa using Reads.nothing trivial (hx' hn)
  · have := elems_of hx (wrapped (hl.mono fun _ _ h => h.1))
    simpa using Reads.elems this (linkChain_ne_nil rfl)

theorem gives_exprInArray {es : P XNode} (h : Gives es (Reads True (.level 2))) :
    Gives (exprInArray es) (Reads True (.list .member)) := by
  refine (gives_bind h fun x => gives_ite (fun _ => gives_pure)
    (fun _ => gives_bind (gives_looping fun n => gives_commaList h n) fun l => gives_pure)).mono ?_
  rintro us z ⟨x, us1, _, rfl, hx, (⟨hn, rfl, rfl⟩ | ⟨hn, l, us2, _, rfl, hl, rfl, rfl⟩)⟩
  · have := nil_of hx hn
    subst this
    simpa using Reads.nothing trivial hx
  · have := elems_of (.member hx) (wrapped (hl.mono fun _ _ h => .member h))
    simpa using Reads.elems this (linkChain_ne_nil rfl)

/-! ### Primary expressions -/

/-- A phrase, or nothing. -/
def Or (c : Cat) (us : List Tok) (x : XNode) : Prop := us = [] ∧ x = .nil ∨ x.isNil = false ∧ Reads True c us x

theorem gives_literal : Gives literal (Or .primary) := by
  refine gives_peek ?_ ?_
  · intro x r h
    cases h
    exact ⟨rfl, .inl ⟨rfl, rfl⟩⟩
  · intro k ts x r hs h
    obtain ⟨ty, n⟩ := k
    simp only at h
    split at h
    · cases h; exact ⟨[_], rfl, .inr ⟨rfl, .string⟩⟩
    · cases h; exact ⟨[_], rfl, .inr ⟨rfl, .integer⟩⟩
    · cases h; exact ⟨[_], rfl, .inr ⟨rfl, .decimal⟩⟩
    · cases h; exact ⟨[_], rfl, .inr ⟨rfl, .double⟩⟩
    · cases h; exact ⟨[], rfl, .inl ⟨rfl, rfl⟩⟩

theorem gives_varref : Gives varref fun us x => us = [] ∧ x = .nil ∨ ∃ d vs v bad, NameD [] vs v bad ∧ us = ⟨.dollar, d⟩ :: vs ∧ x = tip .varRef v := by
  refine (gives_ifTok (gives_bind gives_eqnameRequired fun n => gives_pure) gives_pure).mono ?_
  rintro us x (⟨d, _, rfl, n, ns, _, rfl, ⟨bad, hn⟩, rfl, rfl⟩ | h)
  · exact .inr ⟨d, ns, n, bad, hn, by simp, rfl⟩
  · exact .inl h

theorem gives_parenthesized {es : P XNode} (h : Gives es (Reads True (.level 2))) :
    Gives (parenthesized es) fun us x => us = [] ∧ x = .nil ∨ ∃ l a y r, Reads True .option a y ∧
      us = ⟨.leftParen, l⟩ :: a ++ [⟨.rightParen, r⟩] ∧ x = .node .parenthesizedExpr [] y .nil := by
  refine (gives_ifTok (gives_bind (gives_expr h) fun x => gives_bind gives_expect fun _ => gives_pure) gives_pure).mono ?_
  rintro us x (⟨l, _, rfl, y, a, _, rfl, ha, _, _, _, rfl, ⟨r, rfl⟩, rfl, rfl⟩ | h)
  · exact .inr ⟨l, a, y, r, .present ha, by simp, rfl⟩
  · exact .inl h

theorem functionCallOf_ok {f : Str} {args x : XNode} (h : functionCallOf f args = .ok x) : Callable f args.chain.length ∧
    x = .node (if ∃ y ∈ args.chain, y.ty = .argumentPlaceholder then .partialFunctionCall else .functionCall) f .nil args := by
  unfold functionCallOf at h
  by_cases hc : checkFunctionSpec f args.chain.length = true
  · rw [if_pos hc] at h
    cases h
    refine ⟨hc, ?_⟩
    congr 1
    by_cases he : ∃ y ∈ args.chain, y.ty = .argumentPlaceholder
    · rw [if_pos he, if_pos (by simpa using he)]
    · rw [if_neg he, if_neg (by simpa using he)]
  · rw [if_neg hc] at h
    cases h

theorem gives_functionCall {es : P XNode} (h : Gives es (Reads True (.level 2))) : Gives (functionCall es) (Or .primary) := by
  intro ts x r hs hx
  unfold functionCall at hx
  cases he : eqname (S "fn") ts with
  | error e => rw [he] at hx; cases hx
  | ok v =>
    obtain ⟨f, r1⟩ := v
    rw [he] at hx
    simp only at hx
    by_cases hf : f = []
    · rw [if_pos hf] at hx
      cases hx
      exact ⟨[], rfl, .inl ⟨rfl, rfl⟩⟩
    · rw [if_neg hf] at hx
      obtain ⟨fs, e, hn⟩ := gives_eqname ts f r1 hs he
      rcases hn with ⟨-, hn⟩ | ⟨-, bad, hn⟩
      · exact absurd hn hf
      split at hx
      · rename_i s r2
        have g : Gives (do let args ← argumentList es
                           match functionCallOf f args with
                           | .ok x => Pure.pure x
                           | .error e => Parser.fail e : P XNode) fun us x => x.isNil = false ∧ Reads True .primary (fs ++ us) x := by
          refine (gives_bind (Q' := fun args us x => us = [] ∧ functionCallOf f args = .ok x) (gives_argumentList h) fun args => ?_).mono ?_
          · cases hc : functionCallOf f args with
            | error e => exact gives_fail
            | ok y =>
              refine gives_pure.mono ?_
              rintro us x ⟨rfl, rfl⟩
              exact ⟨rfl, rfl⟩
          · rintro us x ⟨args, _, _, rfl, ⟨l, a, r, ha, rfl⟩, rfl, hc⟩
            obtain ⟨hcall, rfl⟩ := functionCallOf_ok hc
            refine ⟨notNil (by split <;> decide), ?_⟩
            simpa using Reads.call (l := l) (r := r) hn ha hcall
        subst e
        obtain ⟨us, e, h'⟩ := g _ x r hs.right hx
        exact ⟨fs ++ us, by rw [e, List.append_assoc], .inr h'⟩
      · cases hx
        exact ⟨[], rfl, .inl ⟨rfl, rfl⟩⟩

theorem gives_namedFunctionRef : Gives namedFunctionRef (Or .primary) := by
  intro ts x r hs hx
  unfold namedFunctionRef at hx
  cases he : eqname (S "fn") ts with
  | error e => rw [he] at hx; cases hx
  | ok v =>
    obtain ⟨f, r1⟩ := v
    rw [he] at hx
    simp only at hx
    by_cases hf : f = []
    · rw [if_pos hf] at hx
      cases hx
      exact ⟨[], rfl, .inl ⟨rfl, rfl⟩⟩
    · rw [if_neg hf] at hx
      obtain ⟨fs, e, hn⟩ := gives_eqname ts f r1 hs he
      rcases hn with ⟨-, hn⟩ | ⟨-, bad, hn⟩
      · exact absurd hn hf
      split at hx
      · rename_i s n r2
        cases hx
        exact ⟨fs ++ [⟨.sharp, s⟩, ⟨.integerLiteral, n⟩], by rw [e]; simp, .inr ⟨rfl, .reference hn⟩⟩
      · cases hx
        exact ⟨[], rfl, .inl ⟨rfl, rfl⟩⟩

theorem gives_inlineFunction {es : P XNode} (h : Gives es (Reads True (.level 2))) : Gives (inlineFunction es) (Or .primary) := by
  have hb : Gives (functionBody es) fun us x => ∃ c b d, Reads True .option b x ∧ us = ⟨.leftCurly, c⟩ :: b ++ [⟨.rightCurly, d⟩] := by
    refine (gives_bind gives_expect fun _ => gives_bind (gives_expr h) fun x => gives_bind gives_expect fun _ => gives_pure).mono ?_
    rintro us z ⟨_, _, _, rfl, ⟨l, rfl⟩, x, a, _, rfl, ha, _, _, _, rfl, ⟨r, rfl⟩, rfl, rfl⟩
    exact ⟨l, a, r, .present ha, by simp⟩
  refine (gives_ifTok (gives_bind gives_expect fun _ => gives_bind gives_paramList fun ps => gives_bind gives_expect fun _ =>
    gives_bind gives_asType fun t => gives_bind hb fun b => gives_pure) gives_pure).mono ?_
  rintro us x (⟨s, _, rfl, _, _, _, rfl, ⟨l, rfl⟩, p, ps, _, rfl, hp, _, _, _, rfl, ⟨r, rfl⟩, t, ts, _, rfl, ht, y, _, _, rfl, ⟨c, b, d, hy, rfl⟩, rfl, rfl⟩ | h)
  · refine .inr ⟨rfl, ?_⟩
    rcases hp with ⟨rfl, rfl⟩ | ⟨hp, hpn⟩
    · simpa using Reads.function0 (s := s) (l := l) (r := r) (c := c) (d := d) ht hy
    · simpa using Reads.function (s := s) (l := l) (r := r) (c := c) (d := d) hp hpn ht hy
  · exact .inl h

theorem gives_mapConstructor {es : P XNode} (h : Gives es (Reads True (.level 2))) : Gives (mapConstructor es) (Or .primary) := by
  refine (gives_ifTok (gives_bind gives_expect fun _ => gives_bind (gives_mapEntries h) fun x => gives_bind gives_expect fun _ => gives_pure) gives_pure).mono ?_
  rintro us z (⟨s, _, rfl, _, _, _, rfl, ⟨l, rfl⟩, x, a, _, rfl, ha, _, _, _, rfl, ⟨r, rfl⟩, rfl, rfl⟩ | h)
  · exact .inr ⟨rfl, by simpa using Reads.map (s := s) (c := l) (d := r) ha⟩
  · exact .inl h

theorem gives_curlyArray {es : P XNode} (h : Gives es (Reads True (.level 2))) : Gives (curlyArray es) (Or .primary) := by
  refine (gives_ifTok (gives_bind gives_expect fun _ => gives_bind (gives_expr h) fun x => gives_bind gives_expect fun _ => gives_pure) gives_pure).mono ?_
  rintro us z (⟨s, _, rfl, _, _, _, rfl, ⟨l, rfl⟩, x, a, _, rfl, ha, _, _, _, rfl, ⟨r, rfl⟩, rfl, rfl⟩ | h)
  · exact .inr ⟨rfl, by simpa using Reads.curlyArray (s := s) (c := l) (d := r) (.present ha)⟩
  · exact .inl h

theorem gives_squareArray {es : P XNode} (h : Gives es (Reads True (.level 2))) : Gives (squareArray es) (Or .primary) := by
  refine (gives_ifTok (gives_bind (gives_exprInArray h) fun x => gives_bind gives_expect fun _ => gives_pure) gives_pure).mono ?_
  rintro us z (⟨l, _, rfl, x, a, _, rfl, ha, _, _, _, rfl, ⟨r, rfl⟩, rfl, rfl⟩ | h)
  · exact .inr ⟨rfl, by simpa using Reads.squareArray (l := l) (r := r) ha⟩
  · exact .inl h

theorem gives_unaryLookup {es : P XNode} (h : Gives es (Reads True (.level 2))) : Gives (unaryLookup es) (Or .lookup) := by
  intro ts x r hs hx
  unfold unaryLookup at hx
  split at hx
  · rename_i q r1
    split at hx
    · cases hx; exact ⟨[_, _], rfl, .inr ⟨rfl, .lookupName⟩⟩
    · cases hx; exact ⟨[_, _], rfl, .inr ⟨rfl, .lookupInteger⟩⟩
    · cases hx; exact ⟨[_, _], rfl, .inr ⟨rfl, .lookupAll⟩⟩
    · rename_i s r2
      rw [bind_run] at hx
      cases hp : parenthesized es (⟨.leftParen, s⟩ :: r2) with
      | error e => rw [hp] at hx; cases hx
      | ok v =>
        obtain ⟨y, r3⟩ := v
        rw [hp] at hx
        cases hx
        obtain ⟨us, e, h'⟩ := gives_parenthesized h _ y r hs.tail hp
        rcases h' with ⟨rfl, rfl⟩ | ⟨l, a, z, r', ha, rfl, rfl⟩
        · unfold parenthesized ifTok at hp
          simp only [if_true] at hp
          rw [bind_run] at hp
          cases h1 : expr es r2 with
          | error e => rw [h1] at hp; cases hp
          | ok v =>
            rw [h1] at hp
            simp only at hp
            rw [bind_run] at hp
            cases h2 : Parser.expect .rightParen v.2 with
            | error e => rw [h2] at hp; cases hp
            | ok w => rw [h2] at hp; cases hp
        · exact ⟨⟨.question, q⟩ :: ⟨.leftParen, l⟩ :: a ++ [⟨.rightParen, r'⟩], by rw [e]; rfl, .inr ⟨rfl, .lookupExpr ha⟩⟩
    · cases hx; exact ⟨[], rfl, .inl ⟨rfl, rfl⟩⟩
  · cases hx; exact ⟨[], rfl, .inl ⟨rfl, rfl⟩⟩

theorem gives_primary {es : P XNode} (h : Gives es (Reads True (.level 2))) : Gives (primary es) (Or .primary) := by
  refine gives_orNothing gives_literal <| gives_orNothing (gives_varref.mono ?_) <| gives_orNothing ((gives_parenthesized h).mono ?_) <|
    gives_orNothing ((gives_ifTok gives_pure gives_pure).mono ?_) <| gives_orNothing (gives_functionCall h) <|
    gives_orNothing (gives_orNothing gives_namedFunctionRef (gives_inlineFunction h)) <| gives_orNothing (gives_mapConstructor h) <|
    gives_orNothing (gives_orNothing (gives_curlyArray h) (gives_squareArray h)) ((gives_unaryLookup h).mono ?_)
  · rintro us x (h | ⟨d, vs, v, bad, hn, rfl, rfl⟩)
    · exact .inl h
    · exact .inr ⟨rfl, .varRef hn⟩
  · rintro us x (h | ⟨l, a, y, r, ha, rfl, rfl⟩)
    · exact .inl h
    · exact .inr ⟨rfl, .paren ha⟩
  · rintro us x (⟨s, _, rfl, rfl, rfl⟩ | h)
    · exact .inr ⟨rfl, .context⟩
    · exact .inl h
  · rintro us x (h | ⟨h, h'⟩)
    · exact .inl h
    · exact .inr ⟨h, .lookup h'⟩

/-! ### Postfix expressions and paths -/

/-- What can be applied to an expression. -/
def PostfixOr (us : List Tok) (y : XNode) : Prop :=
  us = [] ∧ y = .nil ∨ y.isNil = false ∧ ∀ a x, Reads True .postfix a x → Reads True .postfix (a ++ us) (.node (applyType y.ty) [] x y)

theorem lookup_ty {us : List Tok} {y : XNode} (h : Reads True .lookup us y) : applyType y.ty = .operatorMap := by
  cases h <;> rfl

theorem gives_postfixOp {es : P XNode} (h : Gives es (Reads True (.level 2))) : Gives (postfixOp es) PostfixOr := by
  refine gives_peek ?_ ?_
  · intro x r h
    cases h
    exact ⟨rfl, .inl ⟨rfl, rfl⟩⟩
  · intro k ts z r hs hx
    obtain ⟨ty, w⟩ := k
    simp only at hx
    split at hx
    · have g : Gives (do let x ← predicate es; Pure.pure (.node .predicateTop [] x .nil) : P XNode) fun us z =>
          us = [] ∨ ∃ l a y r, Reads True (.level 1) a y ∧ us = ⟨.leftBracket, l⟩ :: a ++ [⟨.rightBracket, r⟩] ∧ z = .node .predicateTop [] y .nil := by
        refine (gives_bind (gives_ifTok (gives_bind (gives_expr h) fun x => gives_bind gives_expect fun _ => gives_pure) gives_pure) fun x => gives_pure).mono ?_
        rintro us z ⟨x, _, _, rfl, (⟨l, _, rfl, y, a, _, rfl, ha, _, _, _, rfl, ⟨r, rfl⟩, rfl, rfl⟩ | ⟨rfl, rfl⟩), rfl, rfl⟩
        · exact .inr ⟨l, a, x, r, ha, by simp, rfl⟩
        · exact .inl rfl
      obtain ⟨us, e, h'⟩ := g _ z r hs hx
      rcases h' with rfl | ⟨l, a, y, r', ha, rfl, rfl⟩
      · -- the predicate takes at least the bracket
        exfalso
        rw [bind_run] at hx
        unfold predicate ifTok at hx
        simp only [if_true] at hx
        rw [bind_run] at hx
        cases h1 : expr es ts with
        | error e => rw [h1] at hx; cases hx
        | ok v =>
          obtain ⟨us1, e1, -⟩ := gives_expr h ts v.1 v.2 hs.tail h1
          rw [h1] at hx
          simp only at hx
          rw [bind_run] at hx
          cases h2 : Parser.expect .rightBracket v.2 with
          | error e => rw [h2] at hx; cases hx
          | ok w2 =>
            have hv : Sane v.2 := by rw [e1] at hs; exact hs.tail.right
            obtain ⟨us2, e2, -⟩ := gives_expect _ w2.1 w2.2 hv h2
            rw [h2] at hx
            cases hx
            have e3 := congrArg List.length e
            rw [e1, e2] at e3
            simp at e3
            omega
      · exact ⟨_, e, .inr ⟨rfl, fun b x hb => by simpa [applyType, XNode.ty] using Reads.filter (l := l) (r := r') hb ha⟩⟩
    · have g : Gives (do let x ← argumentList es; Pure.pure (.node .argumentListTop [] x .nil) : P XNode) PostfixOr := by
        refine (gives_bind (gives_argumentList h) fun x => gives_pure).mono ?_
        rintro us z ⟨x, _, _, rfl, ⟨l, a, r, ha, rfl⟩, rfl, rfl⟩
        exact .inr ⟨rfl, fun b x hb => by simpa [applyType, XNode.ty] using Reads.apply (l := l) (r := r) hb ha⟩
      exact g _ z r hs hx
    · obtain ⟨us, e, h'⟩ := gives_unaryLookup h _ z r hs hx
      refine ⟨us, e, ?_⟩
      rcases h' with h' | ⟨hn, h'⟩
      · exact .inl h'
      · exact .inr ⟨hn, fun b x hb => by rw [lookup_ty h']; exact .find hb h'⟩
    · cases hx
      exact ⟨[], rfl, .inl ⟨rfl, rfl⟩⟩

theorem gives_postfixLoop {es : P XNode} (h : Gives es (Reads True (.level 2))) (n : Nat) (x : XNode) :
    Gives (postfixLoop es n x) fun us z => ∀ a, x.isNil = false → Reads True .postfix a x → z.isNil = false ∧ Reads True .postfix (a ++ us) z := by
  induction n generalizing x with
  | zero => exact gives_fail
  | succ n ih =>
    refine (gives_bind (gives_postfixOp h) fun y => gives_ite (fun _ => gives_pure) (fun _ => ih _)).mono ?_
    rintro us z ⟨y, us1, us2, rfl, hy, (⟨hn, rfl, rfl⟩ | ⟨hn, hz⟩)⟩ a hxn hx
    · rcases hy with ⟨rfl, rfl⟩ | ⟨h, -⟩
      · exact ⟨hxn, by simpa using hx⟩
      · rw [hn] at h; cases h
    · rcases hy with ⟨rfl, rfl⟩ | ⟨h, h'⟩
      · exact absurd rfl hn
      · have := hz (a ++ us1) (notNil (by unfold applyType; split <;> decide)) (h' a x hx)
        simpa using this

theorem gives_postfixExpr {es : P XNode} (h : Gives es (Reads True (.level 2))) : Gives (postfixExpr es) (Or .postfix) := by
  refine (gives_bind (gives_primary h) fun x => gives_ite (fun _ => gives_pure) (fun _ => gives_looping fun n => gives_postfixLoop h n x)).mono ?_
  rintro us z ⟨x, us1, us2, rfl, hx, (⟨hn, rfl, rfl⟩ | ⟨hn, hz⟩)⟩
  · rcases hx with ⟨rfl, rfl⟩ | ⟨h, -⟩
    · exact .inl ⟨rfl, rfl⟩
    · rw [hn] at h; cases h
  · rcases hx with ⟨rfl, rfl⟩ | ⟨h, h'⟩
    · exact absurd rfl hn
    · exact .inr (hz us1 h (.primary h'))

theorem gives_stepExpr {es : P XNode} (h : Gives es (Reads True (.level 2))) : Gives (stepExpr es) (Reads True .step) := by
  refine (gives_orIfNil (gives_postfixExpr h) (gives_axisStep h)).mono ?_
  rintro us x (⟨h | ⟨-, h⟩, hx⟩ | ⟨y, us1, us2, rfl, h1, hy, h2⟩)
  · obtain ⟨rfl, rfl⟩ := h; cases hx
  · exact .expression h
  · rcases h1 with ⟨rfl, -⟩ | ⟨h, -⟩
    · exact h2
    · rw [hy] at h; cases h

theorem gives_relativePathLoop {es : P XNode} (h : Gives es (Reads True (.level 2))) (n : Nat) :
    Gives (relativePathLoop es n) fun us x => us = [] ∧ x = .nil ∨ x.isNil = false ∧ Reads True .more us x := by
  induction n with
  | zero => exact gives_fail
  | succ n ih =>
    refine gives_peek ?_ ?_
    · intro x r h
      cases h
      exact ⟨rfl, .inl ⟨rfl, rfl⟩⟩
    · intro k ts z r hs hx
      obtain ⟨ty, w⟩ := k
      simp only at hx
      split at hx
      · have g := gives_bind (f := fun x => do
            let r ← relativePathLoop es n
            (Pure.pure (.node .operatorPath (S "parse_relative_path_expr Slash") x r) : P XNode)) (gives_stepExpr h) fun x => gives_bind ih fun r => gives_pure
        obtain ⟨us, e, x, us1, _, rfl, hx1, y, us2, _, rfl, hy, rfl, rfl⟩ := g ts z r hs.tail hx
        refine ⟨⟨.slash, w⟩ :: us1 ++ us2, by rw [e]; simp, .inr ⟨rfl, ?_⟩⟩
        rcases hy with ⟨rfl, rfl⟩ | ⟨-, hy⟩
        · rw [List.append_nil]; exact .slashLast hx1
        · exact .slashMore hx1 hy
      · have g := gives_bind (f := fun x => do
            let r ← relativePathLoop es n
            (Pure.pure (.node .operatorPath (S "parse_relative_path_expr SlashSlash 1") descendantOrSelf
              (.node .operatorPath (S "parse_relative_path_expr SlashSlash 2") x r)) : P XNode)) (gives_stepExpr h) fun x => gives_bind ih fun r => gives_pure
        obtain ⟨us, e, x, us1, _, rfl, hx1, y, us2, _, rfl, hy, rfl, rfl⟩ := g ts z r hs.tail hx
        refine ⟨⟨.slashSlash, w⟩ :: us1 ++ us2, by rw [e]; simp, .inr ⟨rfl, ?_⟩⟩
        rcases hy with ⟨rfl, rfl⟩ | ⟨-, hy⟩
        · rw [List.append_nil]; exact .dslashLast hx1
        · exact .dslashMore hx1 hy
      · cases hx
        exact ⟨[], rfl, .inl ⟨rfl, rfl⟩⟩

theorem gives_relativePath {es : P XNode} (h : Gives es (Reads True (.level 2))) : Gives (relativePath es) (Reads True .rel) := by
  refine (gives_bind (gives_stepExpr h) fun x => gives_ite (fun _ => gives_pure) (fun _ => gives_bind (gives_looping fun n => gives_relativePathLoop h n)
    fun r => gives_ite (fun _ => gives_pure) (fun _ => gives_pure))).mono ?_
  rintro us z ⟨x, us1, us2, rfl, hx, (⟨hn, rfl, rfl⟩ | ⟨hn, y, us3, _, rfl, hy, (⟨hyn, rfl, rfl⟩ | ⟨hyn, rfl, rfl⟩)⟩)⟩
  · have := nil_of hx hn
    subst this
    rw [List.append_nil]
    exact .oneStep hx
  · rcases hy with ⟨rfl, rfl⟩ | ⟨h, -⟩
    · simpa using Reads.oneStep hx
    · rw [hyn] at h; cases h
  · rcases hy with ⟨rfl, rfl⟩ | ⟨-, hy⟩
    · exact absurd rfl hyn
    · rw [List.append_nil]; exact .steps hx (by rintro rfl; exact hn rfl) hy

theorem gives_pathExpr {es : P XNode} (h : Gives es (Reads True (.level 2))) : Gives (pathExpr es) (Reads True (.level 19)) := by
  have rel : Gives (relativePath es) (Reads True (.level 19)) := (gives_relativePath h).mono fun _ _ => .relative
  refine gives_peek ?_ ?_
  · intro x r hx
    obtain ⟨us, e, h'⟩ := rel [] x r (fun _ h => by cases h) hx
    obtain ⟨rfl, rfl⟩ := List.append_eq_nil_iff.1 e.symm
    exact ⟨rfl, h'⟩
  · intro k ts z r hs hx
    obtain ⟨ty, w⟩ := k
    simp only at hx
    split at hx
    · have g := gives_bind (f := fun r => (Pure.pure (.node .operatorPath (S "parse_path_expr Slash") (leaf .axisRoot (S "node()")) r) : P XNode))
        (gives_relativePath h) fun x => gives_pure
      obtain ⟨us, e, x, us1, _, rfl, hx1, rfl, rfl⟩ := g ts z r hs.tail hx
      exact ⟨⟨.slash, w⟩ :: us1, by rw [e]; simp, .rooted hx1⟩
    · have g := gives_bind (f := fun r => (Pure.pure (.node .operatorPath (S "parse_path_expr SlashSlash 1") (leaf .axisRoot (S "/"))
        (.node .operatorPath (S "parse_path_expr SlashSlash 2") descendantOrSelf r)) : P XNode))
        (gives_relativePath h) fun x => gives_pure
      obtain ⟨us, e, x, us1, _, rfl, hx1, rfl, rfl⟩ := g ts z r hs.tail hx
      exact ⟨⟨.slashSlash, w⟩ :: us1, by rw [e]; simp, .rootedAll hx1⟩
    · exact rel _ z r hs hx

/-! ### Above paths -/

theorem gives_unaryExpr {es : P XNode} (h : Gives es (Reads True (.level 2))) : Gives (unaryExpr es) (Reads True (.level 17)) := by
  have hv : Gives (valueExpr es) (Reads True (.level 18)) :=
    gives_binOp (gives_pathExpr h) (by intro k t h; cases k <;> simp [mapOps] at h <;> subst h <;> decide) (by decide) (by decide) (by decide)
  refine (gives_ifTok (gives_bind hv fun x => gives_pure) (gives_ifTok (gives_bind hv fun x => gives_pure) hv)).mono ?_
  rintro us z (⟨s, _, rfl, x, us1, _, rfl, hx, rfl, rfl⟩ | ⟨s, _, rfl, x, us1, _, rfl, hx, rfl, rfl⟩ | h)
  · simpa using Reads.minus (s := s) hx
  · simpa using Reads.plus (s := s) hx
  · exact .tighter (by decide) (by decide) h

theorem gives_arrowLoop {es : P XNode} (h : Gives es (Reads True (.level 2))) (n : Nat) (x : XNode) :
    Gives (arrowLoop es n x) fun us z => ∀ a, Reads True (.level 16) a x → Reads True (.level 16) (a ++ us) z := by
  induction n generalizing x with
  | zero => exact gives_fail
  | succ n ih =>
    refine (gives_ifTok (gives_bind gives_eqname fun f => gives_ite (fun _ => gives_bind gives_varref fun v =>
      gives_ite (Q := fun _ _ => False) (fun _ => gives_fail) (fun _ => gives_bind (gives_argumentList h) fun args => ih _))
      (fun _ => gives_bind (gives_argumentList h) fun args => ih _)) gives_pure).mono ?_
    rintro us z (⟨k, _, rfl, f, fs, _, rfl, hf, (⟨hfe, v, vs, _, rfl, hv, (⟨-, hff⟩ | ⟨hvn, args, us1, us2, rfl, ⟨l, b, r, hb, rfl⟩, hz⟩)⟩ |
      ⟨hfe, args, us1, us2, rfl, ⟨l, b, r, hb, rfl⟩, hz⟩)⟩ | ⟨rfl, rfl⟩) a ha
    · exact hff.elim
    · rcases hf with ⟨rfl, -⟩ | ⟨hf, -⟩
      · rcases hv with ⟨rfl, rfl⟩ | ⟨d, vs', w, bad, hw, rfl, rfl⟩
        · exact absurd rfl hvn
        · have := hz _ (Reads.arrowVar (k := k) (d := d) (l := l) (r := r) ha hw hb)
          simpa using this
      · exact absurd hfe hf
    · rcases hf with ⟨-, hf⟩ | ⟨-, bad, hf⟩
      · exact absurd hf hfe
      · have := hz _ (Reads.arrow (k := k) (l := l) (r := r) ha hf hb)
        simpa using this
    · simpa using ha

theorem gives_arrowExpr {es : P XNode} (h : Gives es (Reads True (.level 2))) : Gives (arrowExpr es) (Reads True (.level 16)) := by
  refine (gives_bind (gives_unaryExpr h) fun x => gives_looping fun n => gives_arrowLoop h n x).mono ?_
  rintro us z ⟨x, us1, us2, rfl, hx, hz⟩
  exact hz us1 (.tighter (by decide) (by decide) hx)

theorem gives_typeOp {sub type : P XNode} {l : Nat} {t : TType} {y : XNodeType} {Q : List Tok → XNode → Prop} (hs : Gives sub (Reads True (.level (l + 1))))
    (ht : Gives type Q) (hQ : ∀ us x, Q us x → x.isNil = false → TypeOpA True l t y us x) (h1 : 1 ≤ l) (h2 : l < 19) :
    Gives (typeOp sub t y type) (Reads True (.level l)) := by
  refine (gives_bind hs fun x => gives_ifTok (gives_bind ht fun r => gives_ite (Q := fun _ _ => False) (fun _ => gives_fail) (fun _ => gives_pure)) gives_pure).mono ?_
  rintro us z ⟨x, us1, us2, rfl, hx, (⟨s, _, rfl, w, us3, _, rfl, hw, (⟨-, hf⟩ | ⟨hn, rfl, rfl⟩)⟩ | ⟨rfl, rfl⟩)⟩
  · exact hf.elim
  · simpa using Reads.typeOp (k := ⟨t, s⟩) hx (hQ _ _ hw (by simpa using hn))
  · simpa using Reads.tighter h1 h2 hx

theorem gives_orExpr {es : P XNode} (h : Gives es (Reads True (.level 2))) : Gives (orExpr es) (Reads True (.level 3)) := by
  have h15 : Gives (castExpr es) (Reads True (.level 15)) := gives_typeOp (gives_arrowExpr h) gives_singleType (by
    rintro us x (⟨-, rfl⟩ | ⟨-, bad, h⟩) hn
    · cases hn
    · exact .castAs h) (by decide) (by decide)
  have h14 : Gives (castableExpr es) (Reads True (.level 14)) := gives_typeOp h15 gives_singleType (by
    rintro us x (⟨-, rfl⟩ | ⟨-, bad, h⟩) hn
    · cases hn
    · exact .castableAs h) (by decide) (by decide)
  have h13 : Gives (treatExpr es) (Reads True (.level 13)) := gives_typeOp h14 gives_sequenceType
    (fun us x h hn => .treatAs h.type (ne_nil_of hn)) (by decide) (by decide)
  have h12 : Gives (instanceofExpr es) (Reads True (.level 12)) := gives_typeOp h13 gives_sequenceType
    (fun us x h hn => .instanceOf h.type (ne_nil_of hn)) (by decide) (by decide)
  have h11 : Gives (intersectExpr es) (Reads True (.level 11)) :=
    gives_binOp h12 (by intro k t h; cases k <;> simp [intersectOps] at h <;> subst h <;> decide) (by decide) (by decide) (by decide)
  have h10 : Gives (unionExpr es) (Reads True (.level 10)) :=
    gives_binOp h11 (by intro k t h; cases k <;> simp [unionOps] at h <;> subst h <;> decide) (by decide) (by decide) (by decide)
  have h9 : Gives (multiplicativeExpr es) (Reads True (.level 9)) :=
    gives_binOp h10 (by intro k t h; cases k <;> simp [multiplicativeOps] at h <;> subst h <;> decide) (by decide) (by decide) (by decide)
  have h8 : Gives (additiveExpr es) (Reads True (.level 8)) :=
    gives_binOp h9 (by intro k t h; cases k <;> simp [additiveOps] at h <;> subst h <;> decide) (by decide) (by decide) (by decide)
  have h7 : Gives (rangeExpr es) (Reads True (.level 7)) :=
    gives_binOp h8 (by intro k t h; cases k <;> simp [rangeOps] at h <;> subst h <;> decide) (by decide) (by decide) (by decide)
  have h6 : Gives (concatExpr es) (Reads True (.level 6)) :=
    gives_binOp h7 (by intro k t h; cases k <;> simp [concatOps] at h <;> subst h <;> decide) (by decide) (by decide) (by decide)
  have h5 : Gives (comparisonExpr es) (Reads True (.level 5)) :=
    gives_binOp h6 (by intro k t h; cases k <;> simp [comparisonOps] at h <;> subst h <;> decide) (by decide) (by decide) (by decide)
  have h4 : Gives (andExpr es) (Reads True (.level 4)) :=
    gives_binOp h5 (by intro k t h; cases k <;> simp [andOps] at h <;> subst h <;> decide) (by decide) (by decide) (by decide)
  exact gives_binOp h4 (by intro k t h; cases k <;> simp [orOps] at h <;> subst h <;> decide) (by decide) (by decide) (by decide)

theorem gives_ifExpr {es : P XNode} (h : Gives es (Reads True (.level 2))) : Gives (ifExpr es) (Or (.level 2)) := by
  refine (gives_ifTok (gives_bind gives_expect fun _ => gives_bind (gives_expr h) fun c => gives_ite (Q := fun _ _ => False) (fun _ => gives_fail)
    fun _ => gives_bind gives_expect fun _ => gives_bind (gives_expectName (by decide)) fun _ => gives_bind h fun t => gives_ite (Q := fun _ _ => False) (fun _ => gives_fail)
    fun _ => gives_bind (gives_expectName (by decide)) fun _ => gives_bind h fun e => gives_ite (Q := fun _ _ => False) (fun _ => gives_fail) fun _ => gives_pure) gives_pure).mono ?_
  rintro us z (⟨s, _, rfl, _, _, _, rfl, ⟨l, rfl⟩, x, a, _, rfl, hx, (⟨-, hf⟩ | ⟨hxn, _, _, _, rfl, ⟨r, rfl⟩, _, _, _, rfl, ⟨t, rfl, ht⟩, y, b, _, rfl, hy,
    (⟨-, hf⟩ | ⟨hyn, _, _, _, rfl, ⟨e, rfl, he⟩, w, c, _, rfl, hw, (⟨-, hf⟩ | ⟨hwn, rfl, rfl⟩)⟩)⟩)⟩ | h)
  · exact hf.elim
  · exact hf.elim
  · exact hf.elim
  · refine .inr ⟨rfl, ?_⟩
    have := Reads.cond (s := s) (l := l) (r := r) hx (by rintro rfl; exact hxn rfl) ht hy (by rintro rfl; exact hyn rfl) he hw (by rintro rfl; exact hwn rfl)
    simpa using this
  · exact .inl h

/-! ### Clauses -/

/-- A binding of a clause. -/
def Bind1 (c : Clause) (us : List Tok) (y : XNode) : Prop :=
  ∃ d vs v bad k a x, NameD [] vs v bad ∧ c.Sep True k ∧ Reads True (.level 2) a x ∧ us = ⟨.dollar, d⟩ :: vs ++ k :: a ∧ y = .node c.bind v x .nil

/-- The bindings of a clause. -/
inductive Binds (c : Clause) : List Tok → List XNode → Prop
  | stop : Binds c [] []
  | last {us b} : Bind1 c us b → Binds c us [b]
  | more {us b s vs l} : Bind1 c us b → Binds c vs l → Binds c (us ++ ⟨.comma, s⟩ :: vs) (b :: l)

theorem gives_binding {es : P XNode} {c : Clause} {sep : P Unit} (h : Gives es (Reads True (.level 2))) (hs : Gives sep fun us _ => ∃ k, us = [k] ∧ c.Sep True k) :
    Gives (binding es c.bind sep) fun us y => us = [] ∧ y = .nil ∨ Bind1 c us y := by
  refine (gives_ifTok (gives_bind gives_eqnameRequired fun n => gives_bind hs fun _ => gives_bind h fun x => gives_pure) gives_pure).mono ?_
  rintro us z (⟨d, _, rfl, v, vs, _, rfl, ⟨bad, hv⟩, _, _, _, rfl, ⟨k, rfl, hk⟩, x, a, _, rfl, hx, rfl, rfl⟩ | h)
  · exact .inr ⟨d, vs, v, bad, k, a, x, hv, hk, hx, by simp, rfl⟩
  · exact .inl h

theorem bind_ne_nil (c : Clause) : c.bind ≠ .nil := by cases c <;> decide

theorem gives_bindings {es : P XNode} {c : Clause} {sep : P Unit} (h : Gives es (Reads True (.level 2))) (hs : Gives sep fun us _ => ∃ k, us = [k] ∧ c.Sep True k)
    (n : Nat) : Gives (bindings es c.bind sep n) (Binds c) := by
  induction n with
  | zero => exact gives_fail
  | succ n ih =>
    refine (gives_bind (gives_binding h hs) fun b => gives_ite (fun _ => gives_pure) (fun _ => gives_ifTok (gives_bind ih fun l => gives_pure) gives_pure)).mono ?_
    rintro us l ⟨b, us1, us2, rfl, hb, (⟨hn, rfl, rfl⟩ | ⟨hn, (⟨s, _, rfl, l', us3, _, rfl, hl, rfl, rfl⟩ | ⟨rfl, rfl⟩)⟩)⟩
    · rcases hb with ⟨rfl, -⟩ | ⟨_, _, _, _, _, _, _, _, _, _, _, rfl⟩
      · exact .stop
      · rw [notNil (bind_ne_nil c)] at hn; cases hn
    · rcases hb with ⟨rfl, rfl⟩ | hb
      · exact absurd rfl hn
      · simpa using Binds.more (s := s) hb hl
    · rcases hb with ⟨rfl, rfl⟩ | hb
      · exact absurd rfl hn
      · simpa using Binds.last hb

theorem clause_of {c : Clause} {us : List Tok} {l : List XNode} {w : Tok} {b : List Tok} {y : XNode} (h : Binds c us l) (hw : Word True c.keyword w)
    (hy : Reads True (.level 2) b y) : Reads True (.clause c) (us ++ w :: b) (linkChain l y) := by
  induction h with
  | stop => exact .bindMissing trivial hw hy
  | last h =>
    obtain ⟨d, vs, v, bad, k, a, x, hv, hk, hx, rfl, rfl⟩ := h
    rw [linkChain, notNil (bind_ne_nil c)]
    simpa [setRight, linkChain] using Reads.bindLast (d := d) hv hk hx hw hy
  | @more _ _ s _ _ h _ ih =>
    obtain ⟨d, vs, v, bad, k, a, x, hv, hk, hx, rfl, rfl⟩ := h
    rw [linkChain, notNil (bind_ne_nil c)]
    simpa [setRight] using Reads.bindMore (d := d) (s := s) hv hk hx ih

theorem gives_bindingExpr {es : P XNode} {top : XNodeType} {name : Str} (c : Clause) {sep : P Unit} (h : Gives es (Reads True (.level 2)))
    (hs : Gives sep fun us _ => ∃ k, us = [k] ∧ c.Sep True k) (ht : ∀ r, c.tree r = .node top name .nil r) :
    Gives (bindingExpr es top c.bind name sep c.keyword) fun us z => ∃ x, Reads True (.clause c) us x ∧ z = c.tree x := by
  refine (gives_bind (gives_looping fun n => gives_bindings h hs n) fun bs => gives_bind (gives_expectName (by cases c <;> decide)) fun _ => gives_bind h fun x => gives_pure).mono ?_
  rintro us z ⟨l, us1, _, rfl, hl, _, _, _, rfl, ⟨w, rfl, hw⟩, y, b, _, rfl, hy, rfl, rfl⟩
  refine ⟨linkChain l y, ?_, (ht _).symm⟩
  simpa using clause_of hl hw hy

theorem gives_exprSingleF (n : Nat) : Gives (exprSingleF n) (Reads True (.level 2)) := by
  induction n with
  | zero => exact gives_fail
  | succ n ih =>
    have hin : Gives (Parser.expectName (S "in")) fun us _ => ∃ k, us = [k] ∧ Word True (S "in") k := gives_expectName (by decide)
    refine (gives_ifTok (gives_bindingExpr .forC ih hin fun _ => rfl) <| gives_ifTok (gives_bindingExpr .letC ih (gives_expect.mono ?_) fun _ => rfl) <|
      gives_ifTok (gives_bindingExpr .someC ih hin fun _ => rfl) <| gives_ifTok (gives_bindingExpr .everyC ih hin fun _ => rfl) <|
      gives_orIfNil (gives_ifExpr ih) (gives_orExpr ih)).mono ?_
    · rintro us x ⟨s, rfl⟩
      exact ⟨_, rfl, rfl⟩
    · rintro us x (⟨s, us', rfl, y, hy, rfl⟩ | ⟨s, us', rfl, y, hy, rfl⟩ | ⟨s, us', rfl, y, hy, rfl⟩ | ⟨s, us', rfl, y, hy, rfl⟩ | ⟨h | ⟨-, h⟩, hx⟩ | ⟨y, us1, us2, rfl, h1, hy, h2⟩)
      · exact .clause (c := .forC) hy
      · exact .clause (c := .letC) hy
      · exact .clause (c := .someC) hy
      · exact .clause (c := .everyC) hy
      · obtain ⟨rfl, rfl⟩ := h; cases hx
      · exact h
      · rcases h1 with ⟨rfl, -⟩ | ⟨h, -⟩
        · exact .tighter (by decide) (by decide) h2
        · rw [hy] at h; cases h

/-- What the parser accepts can be read by the lax grammar. -/
theorem reads_of_main {ts : List Tok} {x : XNode} (hs : Sane ts) (h : main ts = .ok x) : Reads True (.level 1) ts x := by
  unfold main at h
  cases hr : expr exprSingle ts with
  | error e => rw [hr] at h; cases h
  | ok v =>
    obtain ⟨y, r⟩ := v
    rw [hr] at h
    cases r with
    | cons => cases h
    | nil =>
      cases h
      obtain ⟨us, e, h'⟩ := gives_expr (gives_looping gives_exprSingleF) ts x [] hs hr
      rw [e, List.append_nil]
      exact h'

end Parser
end Amxml
