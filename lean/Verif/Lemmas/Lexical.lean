import Verif.Props.XLexer
import Verif.Spec.Lexical

/-!
# Lemmas: the lexer reads the terminals of the specification
-/

namespace Amxml
namespace Lexer
open Spec

theorem isNameStart_iff (c : Char) : isNameStart c = true ↔ NameStartC c := by
  simp only [isNameStart, charIsInRanges, nameStartRanges, NameStartC, List.any_cons, List.any_nil, Bool.or_eq_true, Bool.and_eq_true, decide_eq_true_eq, Bool.false_eq_true, or_false]
  omega

theorem digit_toNat (c : Char) : ('0' ≤ c ∧ c ≤ '9') ↔ 0x30 ≤ c.toNat ∧ c.toNat ≤ 0x39 := by
  rfl

theorem char_ext_iff (c d : Char) : c = d ↔ c.toNat = d.toNat :=
  ⟨fun h => h ▸ rfl, fun h => Char.ext (UInt32.toNat_inj.1 h)⟩

theorem isDigitX_iff (c : Char) : isDigitX c = true ↔ '0' ≤ c ∧ c ≤ '9' := by
  rw [digit_toNat]
  simp [isDigitX, charIsInRanges]

theorem isNameCharX_iff (c : Char) : isNameCharX c = true ↔ NameC c := by
  unfold NameC
  rw [digit_toNat, ← isNameStart_iff, char_ext_iff c '-', char_ext_iff c '.']
  simp only [isNameCharX, charIsInRanges, List.any_cons, List.any_nil, Bool.or_eq_true, Bool.and_eq_true, decide_eq_true_eq,
    show '-'.toNat = 45 from rfl, show '.'.toNat = 46 from rfl]
  constructor
  · rintro (h | h)
    · exact .inl h
    · right; simp at h; omega
  · rintro (h | h)
    · exact .inl h
    · right; simp; omega

/-- No keyword begins with a character that begins none. -/
theorem matchKeyword_head {c : Char} {s : Str} {ks : List (Str × TType)} (hk : ∀ k ∈ ks, k.1.head? ≠ some c ∧ k.1 ≠ []) :
    matchKeyword ks (c :: s) = none := by
  induction ks with
  | nil => rfl
  | cons k ks ih =>
    rw [matchKeyword]
    have : stripPrefix k.1 (c :: s) = none := by
      rw [stripPrefix_none_iff]
      rintro ⟨t, ht⟩
      obtain ⟨h1, h2⟩ := hk k (by simp)
      cases hk1 : k.1 with
      | nil => exact h2 hk1
      | cons d w =>
        rw [hk1] at ht h1
        simp at ht
        exact h1 (by simp [ht.1])
    rw [this]
    exact ih fun k hk' => hk k (by simp [hk'])

theorem matchKeyword_hit {k : Str × TType} {r : Str} {ks : List (Str × TType)} (hp : ks.Pairwise fun a b => ¬ a.1 <+: b.1) (hk : k ∈ ks)
    (hl : ∀ e ∈ ks, e.1 <+: k.1 ++ r → e.1.length ≤ k.1.length) : matchKeyword ks (k.1 ++ r) = some (⟨k.2, k.1⟩, r) := by
  induction ks with
  | nil => simp at hk
  | cons e ks ih =>
    rw [matchKeyword]
    rw [List.pairwise_cons] at hp
    rcases List.mem_cons.1 hk with rfl | hk'
    · rw [stripPrefix_append]
    · have : stripPrefix e.1 (k.1 ++ r) = none := by
        rw [stripPrefix_none_iff]
        intro h
        have h2 := hl e (by simp) h
        exact hp.1 k hk' (List.prefix_of_prefix_length_le h (List.prefix_append _ _) h2)
      rw [this]
      exact ih hp.2 hk' fun e he => hl e (by simp [he])

theorem keywords_order : keywords.Pairwise fun a b => ¬ a.1 <+: b.1 := by decide

theorem symbols_keywords : ∀ e ∈ symbols, e ∈ keywords ∨ e = (S ".", .dot) := by decide

theorem keywords_symbols : ∀ e ∈ keywords, e ∈ symbols := by decide

theorem symbols_head : ∀ e ∈ symbols, ¬ S "Q{" <+: e.1 ∧ e.1.head? ≠ some 'Q' ∧ e.1 ≠ [] ∧ ∀ c ∈ e.1.head?, isSpaceX c = false ∧ c ≠ EOFC := by decide

theorem keyword_heads : ∀ k ∈ keywords, k.1 ≠ [] ∧ (∀ c ∈ k.1.head?, isNameStart c = false ∧ isDigitX c = false ∧ (c = '.' → k.1 = S "..")) := by
  decide +kernel

theorem stripPrefix_Q {s : Str} (h : ¬ S "Q{" <+: s) : stripPrefix (S "Q{") s = none := stripPrefix_none_iff.2 h

theorem getTok_plain {s : Str} (h1 : ¬ S "(:" <+: s) (h2 : ¬ S "Q{" <+: s) :
    getTok s = match matchKeyword keywords s with | some r => .ok r | none => getTokChar s := by
  unfold getTok
  rw [stripPrefix_none_iff.2 h1, stripPrefix_none_iff.2 h2]
  rfl

theorem takeWhile_stop {f : Char → Bool} {w r : Str} (hw : ∀ c ∈ w, f c = true) (hr : ∀ c ∈ r.head?, f c = false) :
    (w ++ r).takeWhile f = w ∧ (w ++ r).dropWhile f = r := by
  induction w with
  | nil =>
    cases r with
    | nil => simp
    | cons c r => simp [hr c (by simp)]
  | cons c w ih =>
    have := ih fun c hc => hw c (by simp [hc])
    simp [hw c (by simp), this]

theorem fetchDigits_stop {d r : Str} (hd : AllDigits d) (hr : ∀ c ∈ r.head?, isDigitX c = false) : fetchDigits (d ++ r) = (d, r) := by
  have := takeWhile_stop (f := isDigitX) (w := d) (r := r) (fun c hc => (isDigitX_iff c).2 (hd c hc)) hr
  unfold fetchDigits
  rw [this.1, this.2]

theorem digit_head {d : Str} (hn : d ≠ []) (hd : AllDigits d) : ∃ c d', d = c :: d' ∧ isDigitX c = true ∧ AllDigits d' := by
  cases d with
  | nil => exact absurd rfl hn
  | cons c d' => exact ⟨c, d', rfl, (isDigitX_iff c).2 (hd c (by simp)), fun x hx => hd x (by simp [hx])⟩

theorem digit_facts {c : Char} (h : isDigitX c = true) : NameC c ∧ c ≠ '.' ∧ c ≠ 'e' ∧ c ≠ 'E' ∧ c ≠ '(' ∧ c ≠ 'Q' ∧ c ≠ EOFC ∧ c ≠ '+' ∧ c ≠ '-' ∧
    isSpaceX c = false ∧ isNameStart c = false ∧ c ≠ '"' ∧ c ≠ '\'' := by
  refine ⟨.inr (.inr (.inr (.inl ((isDigitX_iff c).1 h)))), ?_, ?_, ?_, ?_, ?_, ?_, ?_, ?_, ?_, ?_, ?_, ?_⟩
  case refine_9 =>
    have h2 := (digit_toNat c).1 ((isDigitX_iff c).1 h)
    cases hs : isSpaceX c with
    | false => rfl
    | true => rcases (isSpaceX_iff c).1 hs with rfl | rfl | rfl | rfl <;> exact absurd h2 (by decide)
  case refine_10 =>
    have h2 := (digit_toNat c).1 ((isDigitX_iff c).1 h)
    rw [Bool.eq_false_iff]
    intro h3
    have := (isNameStart_iff c).1 h3
    simp only [NameStartC] at this
    omega
  all_goals (rintro rfl; revert h; decide)

/-- What follows a number cannot go on with it. -/
theorem number_end {r : Str} (h : ∀ c ∈ r.head?, ¬ NameC c) :
    (∀ c ∈ r.head?, isDigitX c = false) ∧ (∀ c, r.head? = some c → (c == 'e' || c == 'E') = false) ∧ (∀ c, r.head? = some c → (c == '.') = false) := by
  refine ⟨fun c hc => ?_, fun c hc => ?_, fun c hc => ?_⟩
  · rw [Bool.eq_false_iff]
    intro h2
    exact h c hc (digit_facts h2).1
  · rw [Bool.eq_false_iff]
    intro h2
    simp at h2
    rcases h2 with rfl | rfl <;> exact h _ hc (by decide)
  · rw [Bool.eq_false_iff]
    intro h2
    simp at h2
    subst h2
    exact h _ hc (by decide)

theorem fetchAfterE_exp {e r : Str} (he : ExponentL e) (hr : ∀ c ∈ r.head?, isDigitX c = false) : fetchAfterE (e ++ r) = .ok (e, r) := by
  cases he with
  | @plain x d hx hn hd =>
    obtain ⟨c, d', rfl, hc, hd'⟩ := digit_head hn hd
    have h1 := fetchDigits_stop hd hr
    obtain ⟨-, -, -, -, -, -, -, hp, hm, -⟩ := digit_facts hc
    simp only [List.cons_append, fetchAfterE, hx, if_true, hp, hm, or_false, if_false, hc]
    rw [List.cons_append] at h1
    rw [h1]
  | @signed x s d hx hs hn hd =>
    have h1 := fetchDigits_stop hd hr
    simp only [List.cons_append, fetchAfterE, hx, if_true, hs, h1]

/-- The number is read by the code for numbers. -/
theorem exp_head {e : Str} (he : ExponentL e) (r : Str) : ∀ c ∈ (e ++ r).head?, isDigitX c = false ∧ c ≠ '.' := by
  intro c hc
  cases he with
  | plain hx _ _ => simp at hc; subst hc; rcases hx with rfl | rfl <;> decide
  | signed hx _ _ _ => simp at hc; subst hc; rcases hx with rfl | rfl <;> decide

theorem exp_letter {e : Str} (he : ExponentL e) : 'e' ∈ e ∨ 'E' ∈ e := by
  cases he with
  | plain hx _ _ => rcases hx with rfl | rfl <;> simp
  | signed hx _ _ _ => rcases hx with rfl | rfl <;> simp

theorem fetchAfterPeriod_other {s : Str} (h : ∀ c ∈ s.head?, c ≠ '.') : fetchAfterPeriod s = .ok ([], s) :=
  fetchAfterPeriod_none fun c hc => by simpa using h c hc

/-- A mantissa and what is left for the exponent. -/
theorem fetchNumericLiteral_run {m e r : Str} (hm : (m ≠ [] ∧ AllDigits m) ∨ DecimalL m) (he : e = [] ∨ ExponentL e) (hr : ∀ c ∈ r.head?, ¬ NameC c) :
    fetchNumericLiteral (m ++ (e ++ r)) = .ok (m ++ e, r) := by
  obtain ⟨r1, r2, r3⟩ := number_end hr
  have hE : fetchAfterE (e ++ r) = .ok (e, r) := by
    rcases he with rfl | he
    · exact fetchAfterE_none r2
    · exact fetchAfterE_exp he r1
  have hE0 : fetchAfterE r = .ok ([], r) := fetchAfterE_none r2
  have hd : ∀ c ∈ (e ++ r).head?, isDigitX c = false ∧ c ≠ '.' := by
    rcases he with rfl | he
    · intro c hc
      exact ⟨r1 c hc, by simpa using r3 c hc⟩
    · exact exp_head he r
  have hpt : ∀ f, AllDigits f → fetchAfterPeriod ('.' :: (f ++ (e ++ r))) = .ok ('.' :: (f ++ e), r) := by
    intro f hf
    simp only [fetchAfterPeriod]
    rw [fetchDigits_stop hf fun c hc => (hd c hc).1]
    simp only [hE]
    rfl
  rcases hm with ⟨hn, hd1⟩ | hm
  · obtain ⟨c, d', rfl, hc, hd'⟩ := digit_head hn hd1
    simp only [List.cons_append, fetchNumericLiteral, hc, if_true]
    rw [fetchDigits_stop hd' fun c hc => (hd c hc).1]
    simp only
    rw [fetchAfterPeriod_other fun c hc => (hd c hc).2]
    simp only [Except.bind, hE]
    simp [Except.map]
  · cases hm with
    | @point d hn hd1 =>
      have h1 : isDigitX '.' = false := by decide
      simp only [List.cons_append, fetchNumericLiteral, h1, if_true]
      rw [hpt d hd1]
      rfl
    | @digits d f hn hd1 hf =>
      obtain ⟨c, d', rfl, hc, hd'⟩ := digit_head hn hd1
      have e1 : c :: d' ++ '.' :: f ++ (e ++ r) = c :: (d' ++ '.' :: (f ++ (e ++ r))) := by simp
      rw [e1]
      simp only [fetchNumericLiteral, hc, if_true]
      rw [fetchDigits_stop hd' (by intro c hc; simp at hc; subst hc; decide)]
      simp only
      rw [hpt f hf]
      simp only [Except.bind, hE0]
      simp [Except.map]

theorem digits_letters {d : Str} (hd : AllDigits d) : 'e' ∉ d ∧ 'E' ∉ d ∧ '.' ∉ d := by
  refine ⟨?_, ?_, ?_⟩ <;> (intro h; exact absurd (hd _ h) (by decide))

theorem decimal_letters {d : Str} (hd : DecimalL d) : 'e' ∉ d ∧ 'E' ∉ d ∧ '.' ∈ d := by
  cases hd with
  | point _ h => have := digits_letters h; simp [this.1, this.2.1]
  | digits _ h h' => have := digits_letters h; have := digits_letters h'; simp [*]

theorem fetchNumerics_run {m e r : Str} (hm : (m ≠ [] ∧ AllDigits m) ∨ DecimalL m) (he : e = [] ∨ ExponentL e) (hr : ∀ c ∈ r.head?, ¬ NameC c) {t : TType}
    (ht : t = if 'e' ∈ m ++ e ∨ 'E' ∈ m ++ e then .doubleLiteral else if '.' ∈ m ++ e then .decimalLiteral else .integerLiteral) :
    fetchNumerics (m ++ (e ++ r)) = .ok (⟨t, m ++ e⟩, r) := by
  unfold fetchNumerics
  rw [fetchNumericLiteral_run hm he hr, ht]
  simp only [Except.map, Bool.or_eq_true, List.contains_iff_mem]

theorem mantissa_head {m : Str} (hm : (m ≠ [] ∧ AllDigits m) ∨ DecimalL m) :
    ∃ c m', m = c :: m' ∧ (isDigitX c = true ∨ c = '.' ∧ ∃ d m'', m' = d :: m'' ∧ isDigitX d = true) := by
  rcases hm with ⟨hn, hd⟩ | hm
  · obtain ⟨c, d', rfl, hc, -⟩ := digit_head hn hd
    exact ⟨c, d', rfl, .inl hc⟩
  · cases hm with
    | point hn hd =>
      obtain ⟨c, d', rfl, hc, -⟩ := digit_head hn hd
      exact ⟨_, _, rfl, .inr ⟨rfl, c, d', rfl, hc⟩⟩
    | digits hn hd _ =>
      obtain ⟨c, d', rfl, hc, -⟩ := digit_head hn hd
      exact ⟨c, _, rfl, .inl hc⟩

/-- A text that begins with a number goes to the code for numbers. -/
theorem getTok_number {m : Str} (hm : (m ≠ [] ∧ AllDigits m) ∨ DecimalL m) (X : Str) : getTok (m ++ X) = fetchNumerics (m ++ X) := by
  obtain ⟨c, m', rfl, h⟩ := mantissa_head hm
  rcases h with hc | ⟨rfl, d, m'', rfl, hd⟩
  · obtain ⟨-, f1, -, -, f2, f3, f4, -, -, -, f5, f6, f7⟩ := digit_facts hc
    have h1 : ¬ S "(:" <+: c :: (m' ++ X) := by
      rintro ⟨t, ht⟩; simp [S] at ht; exact f2 ht.1.symm
    have h2 : ¬ S "Q{" <+: c :: (m' ++ X) := by
      rintro ⟨t, ht⟩; simp [S] at ht; exact f3 ht.1.symm
    rw [List.cons_append, getTok_plain h1 h2]
    have h3 : matchKeyword keywords (c :: (m' ++ X)) = none := matchKeyword_head fun k hk => ⟨fun h =>
      absurd ((keyword_heads k hk).2 c h).2.1 (by simp [hc]), (keyword_heads k hk).1⟩
    rw [h3]
    simp only [getTokChar, f4, if_false, f5, Bool.false_eq_true, f6, f7, or_self, hc, if_true]
  · have h1 : ¬ S "(:" <+: '.' :: (d :: m'' ++ X) := by
      rintro ⟨t, ht⟩; simp [S] at ht
    have h2 : ¬ S "Q{" <+: '.' :: (d :: m'' ++ X) := by
      rintro ⟨t, ht⟩; simp [S] at ht
    rw [List.cons_append, getTok_plain h1 h2]
    have h3 : matchKeyword keywords ('.' :: (d :: m'' ++ X)) = none := by
      cases hmk : matchKeyword keywords ('.' :: (d :: m'' ++ X)) with
      | none => rfl
      | some p =>
        exfalso
        obtain ⟨k, hk, -, hs, -⟩ := matchKeyword_local keywords_solid (s := '.' :: (d :: m'' ++ X)) (t := p.1) (r := p.2) hmk
        obtain ⟨hne, hh⟩ := keyword_heads k hk
        cases hk1 : k.1 with
        | nil => exact hne hk1
        | cons a w =>
          rw [hk1] at hs
          simp at hs
          have := (hh a (by rw [hk1]; rfl)).2.2 hs.1.symm
          rw [hk1] at this
          simp [S] at this
          obtain ⟨-, rfl⟩ := this
          simp at hs
          exact (digit_facts hd).2.1 hs.2.1
    rw [h3]
    simp only [getTokChar, List.cons_append, hd, if_true, show isNameStart '.' = false by decide, show isDigitX '.' = false by decide]
    rfl

/-- **The lexer reads a terminal.** -/
theorem getTok_lexeme {w r : Str} {t : Tok} (hw : Lexeme w t) (he : Ends w t.ty r) : getTok (w ++ r) = .ok (t, r) := by
  cases hw with
  | @symbol _ t hs =>
    have h2 : ¬ S "Q{" <+: w ++ r := by
      obtain ⟨-, h1, h2, -⟩ := symbols_head _ hs
      rintro ⟨u, hu⟩
      cases w with
      | nil => exact h2 rfl
      | cons c w => simp [S] at hu; exact h1 (by simp [← hu.1])
    rw [getTok_plain he.comment h2]
    rcases symbols_keywords _ hs with hk | hk
    · have := matchKeyword_hit (k := (w, t)) (r := r) keywords_order hk fun e hm hp => he.longest e.1 ⟨e.2, e.1⟩ (.symbol (keywords_symbols e hm)) hp
      rw [this]
    · obtain ⟨rfl, rfl⟩ := Prod.mk.inj hk
      have h3 : matchKeyword keywords (S "." ++ r) = none := by
        cases hmk : matchKeyword keywords (S "." ++ r) with
        | none => rfl
        | some p =>
          exfalso
          obtain ⟨k, hk, -, hs, -⟩ := matchKeyword_local keywords_solid (s := S "." ++ r) (t := p.1) (r := p.2) hmk
          obtain ⟨hne, hh⟩ := keyword_heads k hk
          cases hk1 : k.1 with
          | nil => exact hne hk1
          | cons a v =>
            rw [hk1] at hs
            simp [S] at hs
            have := (hh a (by rw [hk1]; rfl)).2.2 hs.1.symm
            have hl := he.longest k.1 ⟨k.2, k.1⟩ (.symbol (keywords_symbols k hk)) ⟨p.2, by rw [hk1]; simp [S, hs.1.symm, hs.2]⟩
            rw [this] at hl
            simp [S] at hl
      rw [h3]
      show getTokChar ('.' :: r) = _
      have f1 : isNameStart '.' = false := by decide
      have f2 : isDigitX '.' = false := by decide
      simp only [getTokChar, f1, f2, show '.' ≠ EOFC by decide, if_false, Bool.false_eq_true, show ('.' : Char) ≠ '"' by decide,
        show ('.' : Char) ≠ '\'' by decide, or_self, if_true]
      cases r with
      | nil => rfl
      | cons d r =>
        cases hd : isDigitX d with
        | false => simp [hd]
        | true =>
          exfalso
          have hl := he.longest ['.', d] _ (.decimal (.point (d := [d]) (by simp) fun c hc => by
            simp at hc; subst hc; exact (isDigitX_iff _).1 hd)) ⟨r, rfl⟩
          simp [S] at hl
  | @word c w hc hw =>
    have hc' : isNameStart c = true := (isNameStart_iff c).2 hc
    have h2 : ¬ S "Q{" <+: c :: w ++ r := by
      rintro ⟨u, hu⟩
      simp [S] at hu
      obtain ⟨rfl, hu⟩ := hu
      cases w with
      | nil => exact he.word rfl (by simp at hu; simp [← hu])
      | cons d w =>
        simp at hu
        have := hw d (by simp)
        rw [← hu.1] at this
        revert this
        decide
    rw [getTok_plain he.comment h2, List.cons_append]
    have h3 : matchKeyword keywords (c :: (w ++ r)) = none := matchKeyword_head fun k hk => ⟨fun h =>
      absurd ((keyword_heads k hk).2 c h).1 (by simp [hc']), (keyword_heads k hk).1⟩
    rw [h3]
    have h4 := takeWhile_stop (f := isNameCharX) (w := w) (r := r) (fun x hx => (isNameCharX_iff x).2 (hw x hx)) (by
      intro x hx
      rw [Bool.eq_false_iff]
      intro hx2
      cases r with
      | nil => simp at hx
      | cons y r =>
        simp at hx
        subst hx
        have hl := he.longest (c :: (w ++ [y])) _ (.word hc fun z hz => by
          rcases List.mem_append.1 hz with hz | hz
          · exact hw z hz
          · simp at hz; subst hz; exact (isNameCharX_iff z).1 hx2) ⟨r, by simp⟩
        simp at hl; omega)
    have h5 : c ≠ EOFC := by rintro rfl; revert hc'; decide
    simp only [getTokChar, h5, if_false, hc', if_true, h4.1, h4.2]
  | @string q s hq hs => exact C50_literal_token q hq s r hs (by simpa [quoted] using he.string rfl)
  | @uri u h1 h2 h3 =>
    have hf : ∀ v : Str, '}' ∉ v → '\x00' ∉ v → fetchUntil '}' (v ++ '}' :: r) = some (v ++ ['}'], r) := by
      intro v hv hv0
      induction v with
      | nil => rfl
      | cons c v ih =>
        simp only [List.mem_cons, not_or] at hv hv0
        rw [List.cons_append, fetchUntil]
        rw [if_neg (show ¬ c = EOFC from fun h => hv0.1 (by rw [h]; rfl)), if_neg (show ¬ c = '}' from fun h => hv.1 h.symm), ih hv.2 hv0.2]
        rfl
    have e : S "Q{" ++ u ++ S "}" ++ r = S "Q{" ++ (u ++ '}' :: r) := by simp [S]
    unfold getTok
    rw [stripPrefix_none_iff.2 (by rw [e]; rintro ⟨t, ht⟩; simp [S] at ht), e, stripPrefix_append]
    simp only
    have := hf (S "Q{" ++ u) (by simp [S, h2]) (by simp [S, h3])
    have e2 : S "Q{" ++ (u ++ '}' :: r) = S "Q{" ++ u ++ '}' :: r := by simp
    rw [e2, this]
    rfl
  | integer hn hd =>
    have hl := digits_letters hd
    have := fetchNumerics_run (m := w) (e := []) (r := r) (t := .integerLiteral) (.inl ⟨hn, hd⟩) (.inl rfl) (he.number (by simp [numericKinds]))
      (by simp [hl])
    rw [getTok_number (.inl ⟨hn, hd⟩)]
    simpa using this
  | decimal hd =>
    have hl := decimal_letters hd
    have := fetchNumerics_run (m := w) (e := []) (r := r) (t := .decimalLiteral) (.inr hd) (.inl rfl) (he.number (by simp [numericKinds]))
      (by simp [hl])
    rw [getTok_number (.inr hd)]
    simpa using this
  | @double m e hm hx =>
    have hl := exp_letter hx
    have := fetchNumerics_run (m := m) (e := e) (r := r) (t := .doubleLiteral) hm (.inr hx) (he.number (by simp [numericKinds]))
      (by rw [if_pos]; rcases hl with h | h <;> simp [h])
    rw [List.append_assoc, getTok_number hm]
    exact this

/-- A terminal does not begin with white space. -/
theorem lexeme_head {w : Str} {t : Tok} (hw : Lexeme w t) : ∃ c w', w = c :: w' ∧ isSpaceX c = false ∧ c ≠ EOFC := by
  have hnum : ∀ m X : Str, (m ≠ [] ∧ AllDigits m) ∨ DecimalL m → ∃ c w', m ++ X = c :: w' ∧ isSpaceX c = false ∧ c ≠ EOFC := by
    intro m X hm
    obtain ⟨c, m', rfl, h⟩ := mantissa_head hm
    rcases h with hc | ⟨rfl, -⟩
    · obtain ⟨-, -, -, -, -, -, f4, -, -, f8, -⟩ := digit_facts hc
      exact ⟨c, _, rfl, f8, f4⟩
    · exact ⟨_, _, rfl, by decide, by decide⟩
  cases hw with
  | symbol hs =>
    obtain ⟨-, -, h2, h3⟩ := symbols_head _ hs
    cases w with
    | nil => exact absurd rfl h2
    | cons c w => exact ⟨c, w, rfl, h3 c (by simp)⟩
  | @word c w hc _ =>
    have hc' := (isNameStart_iff c).2 hc
    refine ⟨c, w, rfl, ?_, ?_⟩
    · rw [Bool.eq_false_iff]
      intro h
      rcases (isSpaceX_iff c).1 h with rfl | rfl | rfl | rfl <;> (revert hc'; decide)
    · rintro rfl; revert hc'; decide
  | @string q s hq _ => exact ⟨q, _, rfl, by rcases hq with rfl | rfl <;> decide, by rcases hq with rfl | rfl <;> decide⟩
  | uri => exact ⟨'Q', _, rfl, by decide, by decide⟩
  | integer hn hd => simpa using hnum w [] (.inl ⟨hn, hd⟩)
  | decimal hd => simpa using hnum w [] (.inr hd)
  | double hm _ => exact hnum _ _ hm

theorem lexeme_kind {w : Str} {t : Tok} (hw : Lexeme w t) : t.ty ≠ .eof ∧ t.ty ≠ .nop := by
  have hs : ∀ e ∈ symbols, e.2 ≠ .eof ∧ e.2 ≠ .nop := by decide
  cases hw with
  | symbol h => exact hs _ h
  | _ => simp

theorem toks_after_blank {b : Str} (hb : Blank b) (s : Str) : toks (b ++ s) = toks s := by
  induction hb with
  | nil => rfl
  | white c b hc _ ih => rw [List.cons_append, toks_white hc, ih]
  | comment a b ha _ ih => rw [List.append_assoc, toks_comment ha, ih]

/-- The lexer finds the terminals of a text. -/
theorem toks_text {ts : List Tok} {s : Str} (h : Text ts s) : toks s = .ok ts := by
  induction h with
  | nil hb => exact toks_blank hb
  | @cons b w t r ts hb hw he _ ih =>
    rw [toks_after_blank hb, toks_eq]
    obtain ⟨c, w', rfl, hc, hc0⟩ := lexeme_head hw
    have : Lexer.skipSpaces (c :: w' ++ r) = c :: w' ++ r := by simp [Lexer.skipSpaces, hc, hc0]
    rw [this, getTok_lexeme hw he]
    obtain ⟨h1, h2⟩ := lexeme_kind hw
    simp [Except.bind, h1, h2, ih, Except.map]

/-! ## Words -/

theorem wordOperators_iff : ∀ e, e ∈ wordOperators ↔ e ∈ operatorWords := by
  have h1 : ∀ e ∈ wordOperators, e ∈ operatorWords := by decide
  have h2 : ∀ e ∈ operatorWords, e ∈ wordOperators := by decide
  exact fun e => ⟨h1 e, h2 e⟩

theorem operandEnd_prev : ∀ t ∈ operandEnd, prevTypes.contains t = false := by decide
theorem operandStart_prev : ∀ t ∈ operandStart, prevTypes.contains t = true := by decide

theorem operatorTok_word {n : Str} {t prev : TType} (h : (n, t) ∈ wordOperators) (hp : prev ∈ operandEnd) :
    operatorTok prev ⟨.innerName, n⟩ = ⟨t, n⟩ := by
  have hf : ∀ e ∈ wordOperators, operatorWords.find? (fun x => x.1 == e.1) = some e := by decide
  unfold operatorTok
  rw [operandEnd_prev prev hp]
  simp only [Bool.not_false, beq_self_eq_true, Bool.and_self, if_true]
  rw [hf _ h]

theorem operatorTok_other {k : Tok} (prev : TType) (h : k.ty ≠ .innerName) : operatorTok prev k = k := by
  unfold operatorTok
  simp [h]

theorem operatorTok_name {n : Str} {prev : TType} (h : n ∈ wordOperators.map (·.1) → prev ∈ operandStart) :
    operatorTok prev ⟨.innerName, n⟩ = ⟨.innerName, n⟩ := by
  unfold operatorTok
  by_cases hn : n ∈ wordOperators.map (·.1)
  · rw [operandStart_prev prev (h hn)]; simp
  · have : operatorWords.find? (fun e => e.1 == n) = none := by
      rw [List.find?_eq_none]
      intro e he
      simp only [beq_iff_eq]
      rintro rfl
      exact hn (List.mem_map.2 ⟨e, (wordOperators_iff e).2 he, rfl⟩)
    rw [this]
    simp

theorem operatorTok_free {n : Str} (prev : TType) (h : n ∉ wordOperators.map (·.1)) : operatorTok prev ⟨.innerName, n⟩ = ⟨.innerName, n⟩ :=
  operatorTok_name fun h' => absurd h' h

theorem pairs_free : ∀ e ∈ wordPairs, e.1 ∉ wordOperators.map (·.1) ∧ e.2.1 ∉ wordOperators.map (·.1) ∧
    pairWords.find? (fun x => x.1 == e.1 && x.2.1 == e.2.1) = some e ∧ e.2.2 ≠ .nop ∧ e.2.2 ≠ .innerName := by decide

theorem marked_free : ∀ e ∈ markedWords, e.1 ∉ wordOperators.map (·.1) ∧ e.2.1 ≠ .innerName ∧
    nameAndSymbolTbl.find? (fun x => x.1 == e.1 && x.2.1 == e.2.1) = some e := by decide

theorem tbl_marked : ∀ e ∈ nameAndSymbolTbl, e ∈ markedWords ∧ e.2.1 ∈ [TType.leftParen, .dollar, .colonColon, .leftCurly] := by decide

theorem pairWords_pairs : ∀ e ∈ pairWords, e ∈ wordPairs := by decide

/-- The three passes over the tokens. -/
def passes (prev : TType) (us : List Tok) : List Tok := rewriteNameAndSymbol (eliminateNops (rewritePairWords (rewriteOperatorType prev us)))

/-- The tokens before the last pass. -/
def twoPasses (prev : TType) (us : List Tok) : List Tok := eliminateNops (rewritePairWords (rewriteOperatorType prev us))

theorem passes_eq (prev : TType) (us : List Tok) : passes prev us = rewriteNameAndSymbol (twoPasses prev us) := rfl

theorem rewritePairWords_cons {a : Tok} {l : List Tok} (h : ∀ b ∈ l.head?, pairEntry a b = none) : rewritePairWords (a :: l) = a :: rewritePairWords l := by
  cases l with
  | nil => simp [rewritePairWords]
  | cons b r => rw [rewritePairWords, h b (by simp)]

theorem pairEntry_left {a b : Tok} (h : a.ty ≠ .innerName) : pairEntry a b = none := by
  unfold pairEntry; simp [h]

theorem head_rewriteOperatorType (prev : TType) (us : List Tok) : (rewriteOperatorType prev us).head? = us.head?.map (operatorTok prev) := by
  cases us <;> rfl

theorem twoPasses_cons {prev : TType} {a b : Tok} {us : List Tok} (hab : operatorTok prev a = b) (hb : b.ty ≠ .nop)
    (h : ∀ k ∈ us.head?, pairEntry b (operatorTok b.ty k) = none) : twoPasses prev (a :: us) = b :: twoPasses b.ty us := by
  unfold twoPasses
  rw [rewriteOperatorType, hab, rewritePairWords_cons]
  · simp [eliminateNops, hb]
  · intro k hk
    rw [head_rewriteOperatorType] at hk
    cases us with
    | nil => simp at hk
    | cons u us =>
      simp at hk
      subst hk
      exact h u (by simp)

theorem twoPasses_pair {prev : TType} {m n : Str} {t : TType} {us : List Tok} (h : (m, n, t) ∈ wordPairs) :
    twoPasses prev (⟨.innerName, m⟩ :: ⟨.innerName, n⟩ :: us) = ⟨t, m⟩ :: twoPasses .innerName us := by
  obtain ⟨h1, h2, h3, h4, -⟩ := pairs_free _ h
  unfold twoPasses
  rw [rewriteOperatorType, operatorTok_free prev h1, rewriteOperatorType, operatorTok_free _ h2, rewritePairWords]
  have : pairEntry ⟨.innerName, m⟩ ⟨.innerName, n⟩ = some t := by
    unfold pairEntry
    simp only [beq_self_eq_true, Bool.and_self, if_true]
    rw [h3]
    rfl
  rw [this]
  simp only
  rw [rewritePairWords_cons (a := ⟨.nop, n⟩) fun b _ => pairEntry_left (by simp)]
  simp [eliminateNops, h4]

/-- The symbol after a word is there for the last pass. -/
theorem next_symbol {prev : TType} {us : List Tok} (hn : ∀ k ∈ us.head?, k.ty ≠ .nop) :
    (∀ k ∈ us.head?, k.ty ≠ .innerName → nextType (twoPasses prev us) = k.ty) ∧
    ((∀ k ∈ us.head?, k.ty = .innerName) → nextType (twoPasses prev us) ∉ [TType.leftParen, .dollar, .colonColon, .leftCurly]) := by
  cases us with
  | nil => exact ⟨by simp, fun _ => by rw [show nextType (twoPasses prev []) = .eof by simp [twoPasses, rewriteOperatorType, rewritePairWords, eliminateNops, nextType]]; decide⟩
  | cons a us =>
    constructor
    · intro k hk hi
      simp at hk
      subst hk
      rw [twoPasses_cons (operatorTok_other prev hi) (hn a (by simp)) fun b _ => pairEntry_left hi]
      rfl
    · intro hk
      have ha := hk a (by simp)
      obtain ⟨t, n⟩ := a
      simp only at ha
      subst ha
      obtain ⟨b, r, hb, hbt⟩ := rewritePairWords_head (a := operatorTok prev ⟨.innerName, n⟩)
        (l := rewriteOperatorType (operatorTok prev ⟨.innerName, n⟩).ty us) (operatorTok_types prev ⟨.innerName, n⟩ (by simp)).2
      unfold twoPasses
      rw [rewriteOperatorType, hb]
      simp only [eliminateNops, List.filter_cons]
      rw [if_pos (by simpa using hbt)]
      show b.ty ∉ _
      have hop : (operatorTok prev ⟨.innerName, n⟩).ty = .innerName ∨ ∃ e ∈ operatorWords, (operatorTok prev ⟨.innerName, n⟩).ty = e.2 := by
        unfold operatorTok
        split
        · split
          · rename_i e he
            exact .inr ⟨e, List.mem_of_find?_eq_some he, rfl⟩
          · exact .inl rfl
        · exact .inl rfl
      have hbb : b.ty = (operatorTok prev ⟨.innerName, n⟩).ty ∨ ∃ e ∈ pairWords, b.ty = e.2.2 := by
        generalize operatorTok prev ⟨.innerName, n⟩ = a at hb
        generalize rewriteOperatorType a.ty us = l at hb
        cases l with
        | nil => simp [rewritePairWords] at hb; exact .inl (by rw [hb.1])
        | cons c l =>
          rw [rewritePairWords] at hb
          cases hp : pairEntry a c with
          | none => rw [hp] at hb; simp at hb; exact .inl (by rw [hb.1])
          | some t =>
            rw [hp] at hb
            simp at hb
            right
            unfold pairEntry at hp
            split at hp
            · cases hf : pairWords.find? (fun e => e.1 == a.name && e.2.1 == c.name) with
              | none => rw [hf] at hp; simp at hp
              | some e =>
                rw [hf] at hp
                simp at hp
                exact ⟨e, List.mem_of_find?_eq_some hf, by rw [← hb.1, hp]⟩
            · cases hp
      have q1 : ∀ e ∈ operatorWords, e.2 ∉ [TType.leftParen, .dollar, .colonColon, .leftCurly] := by decide
      have q2 : ∀ e ∈ pairWords, e.2.2 ∉ [TType.leftParen, .dollar, .colonColon, .leftCurly] := by decide
      rcases hbb with h | ⟨e, he, h⟩
      · rw [h]
        rcases hop with h | ⟨e, he, h⟩
        · rw [h]; decide
        · rw [h]; exact q1 e he
      · rw [h]; exact q2 e he

/-- No terminal of a text has one of the kinds that only the lexer uses. -/
theorem passes_spells {prev : TType} {ts us : List Tok} (h : Spells prev ts us) (hk : ∀ k ∈ us, k.ty ≠ .nop) : passes prev us = ts := by
  induction h with
  | nil => simp [passes, rewriteOperatorType, rewritePairWords, eliminateNops, rewriteNameAndSymbol]
  | @same prev k ts us hi _ ih =>
    rw [passes_eq, twoPasses_cons (operatorTok_other prev hi) (hk k (by simp)) fun b _ => pairEntry_left hi, rewriteNameAndSymbol, ← passes_eq,
      ih fun k' h' => hk k' (by simp [h'])]
    simp [symbolTok, hi]
  | @operator prev n t ts us hm hp _ ih =>
    have hty : t ≠ .nop ∧ t ≠ .innerName := by
      have : ∀ e ∈ wordOperators, e.2 ≠ .nop ∧ e.2 ≠ .innerName := by decide
      exact this _ hm
    rw [passes_eq, twoPasses_cons (operatorTok_word hm hp) hty.1 fun b _ => pairEntry_left hty.2, rewriteNameAndSymbol, ← passes_eq,
      ih fun k' h' => hk k' (by simp [h'])]
    simp [symbolTok, hty.2]
  | @pair prev m n t ts us hm _ ih =>
    obtain ⟨-, -, -, h4, h5⟩ := pairs_free _ hm
    rw [passes_eq, twoPasses_pair hm, rewriteNameAndSymbol, ← passes_eq, ih fun k' h' => hk k' (by simp [h'])]
    simp [symbolTok, show t ≠ .innerName from h5]
  | @marked prev n s t ts us hm hs _ ih =>
    obtain ⟨h1, h2, h3⟩ := marked_free _ hm
    obtain ⟨k, hk1, hk2⟩ := hs
    simp only at h2
    have hki : k.ty ≠ .innerName := by rw [hk2]; exact h2
    have hkn : ∀ k ∈ us.head?, k.ty ≠ .nop := fun k' h' => hk k' (by
      cases us with
      | nil => simp at h'
      | cons u us => simp at h'; subst h'; simp)
    rw [passes_eq, twoPasses_cons (operatorTok_free prev h1) (by simp), rewriteNameAndSymbol, ← passes_eq, ih fun k' h' => hk k' (by simp [h'])]
    · unfold symbolTok
      simp only [beq_self_eq_true, if_true]
      rw [(next_symbol hkn).1 k hk1 hki, hk2, h3]
    · intro b hb
      have : b = k := by
        rw [Option.mem_def] at hb hk1
        rw [hb] at hk1
        exact Option.some.inj hk1
      subst this
      rw [operatorTok_other _ hki]
      unfold pairEntry
      simp [hki]
  | @name prev n ts us h1 h2 h3 _ ih =>
    have hkn : ∀ k ∈ us.head?, k.ty ≠ .nop := fun k' h' => hk k' (by
      cases us with
      | nil => simp at h'
      | cons u us => simp at h'; subst h'; simp)
    rw [passes_eq, twoPasses_cons (operatorTok_name h1) (by simp), rewriteNameAndSymbol, ← passes_eq, ih fun k' h' => hk k' (by simp [h'])]
    · unfold symbolTok
      simp only [beq_self_eq_true, if_true]
      have : nameAndSymbolTbl.find? (fun e => e.1 == n && e.2.1 == nextType (twoPasses .innerName us)) = none := by
        rw [List.find?_eq_none]
        intro e he
        simp only [Bool.and_eq_true, beq_iff_eq, not_and]
        intro e1 e2
        obtain ⟨hm, hin⟩ := tbl_marked e he
        cases us with
        | nil =>
          rw [e2, show nextType (twoPasses .innerName []) = .eof by simp [twoPasses, rewriteOperatorType, rewritePairWords, eliminateNops, nextType]] at hin
          revert hin
          decide
        | cons u us =>
          by_cases hu : u.ty = .innerName
          · have := (next_symbol (prev := .innerName) hkn).2 (by intro k hk; simp at hk; rw [← hk]; exact hu)
            rw [e2] at hin
            exact this hin
          · rw [(next_symbol (prev := .innerName) hkn).1 u (by simp) hu] at e2
            refine h3 u (by simp) e.2.2 ?_
            rw [← e1, ← e2]
            exact hm
      rw [this]
    · intro b hb
      unfold pairEntry
      split
      · rename_i hc
        simp only [beq_self_eq_true, Bool.true_and, beq_iff_eq] at hc
        have hbi : b.ty = .innerName := by
          by_contra hne
          rw [operatorTok_other _ hne] at hc
          exact hne hc
        have hnm : (operatorTok .innerName b).name = b.name := by
          unfold operatorTok
          split
          · split <;> rfl
          · rfl
        have : pairWords.find? (fun e => e.1 == n && e.2.1 == (operatorTok .innerName b).name) = none := by
          rw [List.find?_eq_none]
          intro e he
          simp only [Bool.and_eq_true, beq_iff_eq, not_and]
          intro e1 e2
          refine h2 b hb hbi e.2.2 ?_
          rw [hnm] at e2
          rw [← e1, ← e2]
          exact pairWords_pairs e he
        rw [this]
        rfl
      · rfl

/-- The lexer reads a text as the tokens of the grammar. -/
theorem new_text {ts us : List Tok} {s : Str} (ht : Text us s) (hs : Spells .eof ts us) (hne : us ≠ []) :
    Lexer.new s = .ok (eofTok :: ts ++ [eofTok]) := by
  rw [new_eq, toks_text ht]
  have h1 : (rewriteOperatorType .eof us).isEmpty = false := by
    rw [rewriteOperatorType_isEmpty]
    cases us with
    | nil => exact absurd rfl hne
    | cons => rfl
  have h2 : passes .eof us = ts := passes_spells hs fun k hk => (toks_types (toks_text ht) k hk).2
  simp only [Except.bind, h1, Bool.false_eq_true, if_false]
  unfold passes at h2
  rw [h2]

/-- Only string literals and braced URIs contain white space. -/
theorem lexeme_white {v : Str} {u : Tok} (hv : Lexeme v u) {c : Char} (hc : IsWhite c) (hm : c ∈ v) :
    v.head? = some '"' ∨ v.head? = some '\'' ∨ S "Q{" <+: v := by
  have hdig : ∀ d, AllDigits d → c ∉ d := by
    intro d hd h
    have := hd c h
    rcases hc with rfl | rfl | rfl | rfl <;> (revert this; decide)
  have hdot : c ≠ '.' := by rcases hc with rfl | rfl | rfl | rfl <;> decide
  have hdec : ∀ d, DecimalL d → c ∉ d := by
    intro d hd
    cases hd with
    | point _ h => simp [hdot, hdig _ h]
    | digits _ h h' => simp [hdot, hdig _ h, hdig _ h']
  cases hv with
  | symbol hs =>
    exfalso
    have : ∀ e ∈ symbols, ∀ x ∈ e.1, isSpaceX x = false := by decide
    have h2 := this _ hs c hm
    rw [(isSpaceX_iff c).2 hc] at h2
    cases h2
  | word h1 h2 =>
    exfalso
    rcases List.mem_cons.1 hm with rfl | h
    · rcases hc with rfl | rfl | rfl | rfl <;> (revert h1; decide)
    · have := h2 _ h
      rcases hc with rfl | rfl | rfl | rfl <;> (revert this; decide)
  | string hq _ => rcases hq with rfl | rfl <;> simp [quoted]
  | uri => exact .inr (.inr ⟨_, by simp only [List.append_assoc]; rfl⟩)
  | integer _ hd => exact absurd hm (hdig _ hd)
  | decimal hd => exact absurd hm (hdec _ hd)
  | double hd hx =>
    exfalso
    rcases List.mem_append.1 hm with h | h
    · rcases hd with ⟨-, hd⟩ | hd
      · exact hdig _ hd h
      · exact hdec _ hd h
    · cases hx with
      | plain he _ hd =>
        rcases List.mem_cons.1 h with rfl | h
        · rcases hc with rfl | rfl | rfl | rfl <;> (revert he; decide)
        · exact hdig _ hd h
      | signed he hs _ hd =>
        rcases List.mem_cons.1 h with rfl | h
        · rcases hc with rfl | rfl | rfl | rfl <;> (revert he; decide)
        · rcases List.mem_cons.1 h with rfl | h
          · rcases hc with rfl | rfl | rfl | rfl <;> (revert hs; decide)
          · exact hdig _ hd h

theorem lexeme_string {w : Str} {t : Tok} (hw : Lexeme w t) (ht : t.ty = .stringLiteral) : w.head? = some '"' ∨ w.head? = some '\'' := by
  cases hw with
  | symbol hs =>
    exfalso
    have : ∀ e ∈ symbols, e.2 ≠ .stringLiteral := by decide
    exact this _ hs ht
  | string hq _ => rcases hq with rfl | rfl <;> simp [quoted]
  | _ => cases ht

theorem lexeme_no_comment {w : Str} {t : Tok} (hw : Lexeme w t) : ¬ S "(:" <+: w := by
  have hh : ∀ c, w.head? = some c → c ≠ '(' → ¬ S "(:" <+: w := by
    rintro c hc hn ⟨z, rfl⟩
    simp [S] at hc
    exact hn hc.symm
  have hnum : ∀ m X : Str, (m ≠ [] ∧ AllDigits m) ∨ DecimalL m → ∃ c, (m ++ X).head? = some c ∧ c ≠ '(' := by
    intro m X hm
    obtain ⟨c, m', rfl, h⟩ := mantissa_head hm
    refine ⟨c, rfl, ?_⟩
    rcases h with h | h
    · rintro rfl; revert h; decide
    · rw [h.1]; decide
  cases hw with
  | symbol hs =>
    have : ∀ e ∈ symbols, ¬ S "(:" <+: e.1 := by decide
    exact this _ hs
  | @word c w h _ => exact hh c rfl (by rintro rfl; revert h; decide)
  | @string q s hq _ => exact hh q rfl (by rcases hq with rfl | rfl <;> decide)
  | uri => exact hh 'Q' rfl (by decide)
  | integer hn hd => obtain ⟨c, h1, h2⟩ := hnum w [] (.inl ⟨hn, hd⟩); exact hh c (by simpa using h1) h2
  | decimal hd => obtain ⟨c, h1, h2⟩ := hnum w [] (.inr hd); exact hh c (by simpa using h1) h2
  | double hm _ => obtain ⟨c, h1, h2⟩ := hnum _ _ hm; exact hh c h1 h2

/-- A terminal other than a string literal or a braced URI ends before white space and at the end of the text. -/
theorem ends_of_white {w r : Str} {t : Tok} (hw : Lexeme w t) (h1 : w.head? ≠ some '"' ∧ w.head? ≠ some '\'' ∧ ¬ S "Q{" <+: w)
    (hr : ∀ c ∈ r.head?, IsWhite c) : Ends w t.ty r := by
  have hs := lexeme_string hw
  have hnc := lexeme_no_comment hw
  obtain ⟨a, w', rfl, -, -⟩ := lexeme_head hw
  have hnw : ∀ c ∈ r.head?, c ≠ '{' ∧ c ≠ ':' ∧ ¬ NameC c ∧ c ≠ '"' ∧ c ≠ '\'' := by
    intro c hc
    rcases hr c hc with rfl | rfl | rfl | rfl <;> decide
  refine ⟨?_, fun _ c hc => (hnw c hc).2.2.1, fun _ h => (hnw _ h).1 rfl, ?_, ?_⟩
  · intro v u hv hp
    by_contra hlt
    have hlt : (a :: w').length < v.length := by omega
    cases r with
    | nil =>
      have := hp.length_le
      simp at this hlt
      omega
    | cons c r =>
      have hw2 : IsWhite c := hr c (by simp)
      have h2 : a :: w' ++ [c] <+: a :: w' ++ c :: r := ⟨r, by simp⟩
      obtain ⟨z, hz⟩ := List.prefix_of_prefix_length_le h2 hp (by simp at hlt ⊢; omega)
      have hm : c ∈ v := by rw [← hz]; simp
      have hh : v.head? = some a := by rw [← hz]; simp
      rcases lexeme_white hv hw2 hm with h | h | ⟨y, hy⟩
      · rw [hh] at h; exact h1.1 (by simpa using h)
      · rw [hh] at h; exact h1.2.1 (by simpa using h)
      · cases w' with
        | nil =>
          rw [← hz] at hy
          simp [S] at hy
          exact (hnw c (by simp)).1 hy.2.1.symm
        | cons b w' =>
          rw [← hz] at hy
          simp [S] at hy
          exact h1.2.2 ⟨w', by obtain ⟨rfl, rfl, -⟩ := hy; rfl⟩
  · intro ht
    rcases hs ht with h | h
    · exact absurd h h1.1
    · exact absurd h h1.2.1
  · rintro ⟨z, hz⟩
    cases w' with
    | nil =>
      cases r with
      | nil => simp [S] at hz
      | cons c r =>
        simp [S] at hz
        exact (hnw c (by simp)).2.1 hz.2.1.symm
    | cons b w' =>
      simp [S] at hz
      obtain ⟨rfl, rfl, -⟩ := hz
      exact hnc ⟨w', rfl⟩

end Lexer
end Amxml
