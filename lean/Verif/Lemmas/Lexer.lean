import Verif.Model.Lexer
import Verif.Lemmas.Entity
import Mathlib.Data.List.Basic
import Mathlib.Tactic.Tauto

/-!
# Facts about the XPath lexer

The central one is `getTok_local`: reading a token depends only on the characters of the token and the one after it, and that one can be replaced by
white space, an opening parenthesis, or the end of the text.
-/

namespace Amxml
namespace Lexer

/-- What follows a token is empty or begins with white space or `(`. -/
def Delim (r : Str) : Prop := ∀ c, r.head? = some c → isSpaceX c = true ∨ c = '('

theorem Delim.nil : Delim [] := by intro c h; simp at h

theorem Delim.paren (r : Str) : Delim ('(' :: r) := by
  intro c h
  simp at h
  exact Or.inr h.symm

theorem Delim.space {c : Char} (hc : isSpaceX c = true) (r : Str) : Delim (c :: r) := by
  intro d h
  simp at h
  exact Or.inl (h ▸ hc)

theorem isSpaceX_iff (c : Char) : isSpaceX c = true ↔ c = ' ' ∨ c = '\t' ∨ c = '\r' ∨ c = '\n' := by
  simp [isSpaceX, or_assoc]

/-- A character class that contains none of the delimiters. -/
def Solid (f : Char → Bool) : Prop :=
  f ' ' = false ∧ f '\t' = false ∧ f '\r' = false ∧ f '\n' = false ∧ f '(' = false

theorem Solid.head {f : Char → Bool} (hf : Solid f) {r : Str} (hr : Delim r) :
    ∀ c, r.head? = some c → f c = false := by
  intro c hc
  rcases hr c hc with h | h
  · rcases (isSpaceX_iff c).1 h with h | h | h | h <;> subst h
    · exact hf.1
    · exact hf.2.1
    · exact hf.2.2.1
    · exact hf.2.2.2.1
  · subst h
    exact hf.2.2.2.2

theorem Solid.append {f : Char → Bool} (hf : Solid f) {p r r' : Str} (h : ∀ c, (p ++ r).head? = some c → f c = false)
    (hr : Delim r') : ∀ c, (p ++ r').head? = some c → f c = false := by
  cases p with
  | nil => simpa using hf.head hr
  | cons a p => simpa using h

theorem solid_digit : Solid isDigitX := by unfold Solid; decide

theorem solid_name : Solid isNameCharX := by unfold Solid; decide

theorem takeWhile_local (f : Char → Bool) (s Y : Str) (hY : ∀ c, Y.head? = some c → f c = false) :
    (s.takeWhile f ++ Y).takeWhile f = s.takeWhile f ∧ (s.takeWhile f ++ Y).dropWhile f = Y := by
  have hY0 : Y.takeWhile f = [] ∧ Y.dropWhile f = Y := by
    cases Y with
    | nil => simp
    | cons c Y => simp [hY c rfl]
  induction s with
  | nil => simpa using hY0
  | cons a s ih =>
    by_cases ha : f a = true
    · simp [ha, ih]
    · simpa [ha] using hY0

theorem dropWhile_head (f : Char → Bool) (s : Str) : ∀ c, (s.dropWhile f).head? = some c → f c = false := by
  induction s with
  | nil => simp
  | cons a s ih =>
    by_cases ha : f a = true
    · simpa [ha] using ih
    · intro c hc
      simp [ha] at hc
      subst hc
      simpa using ha

theorem fetchDigits_append (s : Str) : s = (fetchDigits s).1 ++ (fetchDigits s).2 :=
  (List.takeWhile_append_dropWhile (p := isDigitX) (l := s)).symm

/-- `Y` begins like `r`, or with a delimiter, or is empty. -/
def Like (r Y : Str) : Prop := ∀ c, Y.head? = some c → r.head? = some c ∨ isSpaceX c = true ∨ c = '('

theorem Delim.like {Y : Str} (h : Delim Y) (r : Str) : Like r Y := fun c hc => Or.inr (h c hc)

theorem Like.append {r Y : Str} (h : Like r Y) (p : Str) : Like (p ++ r) (p ++ Y) := by
  cases p with
  | nil => simpa using h
  | cons a p => intro c hc; exact Or.inl (by simpa using hc)

theorem Like.head {f : Char → Bool} (hf : Solid f) {r Y : Str} (h : Like r Y)
    (hr : ∀ c, r.head? = some c → f c = false) : ∀ c, Y.head? = some c → f c = false := by
  intro c hc
  rcases h c hc with h1 | h1
  · exact hr c h1
  · refine hf.head (r := [c]) ?_ c rfl
    intro d hd
    simp at hd
    exact hd ▸ h1

/-! ## Prefixes -/

theorem stripPrefix_none_iff {k s : Str} : stripPrefix k s = none ↔ ¬ k <+: s := by
  constructor
  · rintro h ⟨r, rfl⟩
    rw [stripPrefix_append] at h
    cases h
  · intro h
    cases hs : stripPrefix k s with
    | none => rfl
    | some r => exact absurd ⟨r, (stripPrefix_eq_some.1 hs).symm⟩ h

/-- A keyword that is at most two characters long and has no delimiter in second place. -/
def Short (k : Str) : Prop := k.length ≤ 2 ∧ ∀ c ∈ k.tail, isSpaceX c = false ∧ c ≠ '('

instance (k : Str) : Decidable (Short k) := by unfold Short; infer_instance

/-- A prefix that is not there does not appear when what follows a nonempty beginning is replaced by something that begins
alike. -/
theorem stripPrefix_local {k p r r' : Str} (hk : Short k) (hp : p ≠ [])
    (hr : Like r r') (h : stripPrefix k (p ++ r) = none) : stripPrefix k (p ++ r') = none := by
  rw [stripPrefix_none_iff] at h ⊢
  rintro ⟨t, ht⟩
  apply h
  rcases List.append_eq_append_iff.1 ht with ⟨a, rfl, rfl⟩ | ⟨a, rfl, rfl⟩
  · exact ⟨a ++ r, by simp⟩
  · cases a with
    | nil => exact ⟨r, by simp⟩
    | cons c a =>
      cases p with
      | nil => exact absurd rfl hp
      | cons b p =>
        have hl := hk.1
        have hc := hk.2 c (by simp)
        simp at hl
        have hp0 : p = [] := List.length_eq_zero_iff.1 (by omega)
        have ha0 : a = [] := List.length_eq_zero_iff.1 (by omega)
        subst hp0 ha0
        rcases hr c (by simp) with h1 | h1 | h1
        · cases r with
          | nil => cases h1
          | cons d r =>
            simp at h1
            exact ⟨r, by simp [h1]⟩
        · rw [hc.1] at h1; cases h1
        · exact absurd h1 hc.2

theorem keywords_solid : ∀ k ∈ keywords, k.1 ≠ [] ∧ Short k.1 := by decide

theorem matchKeyword_none_local {ks : List (Str × TType)} {p r r' : Str}
    (hks : ∀ k ∈ ks, Short k.1) (hp : p ≠ []) (hr : Like r r')
    (h : matchKeyword ks (p ++ r) = none) : matchKeyword ks (p ++ r') = none := by
  induction ks with
  | nil => rfl
  | cons k ks ih =>
    cases hs : stripPrefix k.1 (p ++ r) with
    | some x => simp [matchKeyword, hs] at h
    | none =>
      simp only [matchKeyword, hs] at h
      simp only [matchKeyword, stripPrefix_local (hks k (by simp)) hp hr hs]
      exact ih (fun k' hk' => hks k' (by simp [hk'])) h

theorem matchKeyword_local {ks : List (Str × TType)} {s r : Str} {t : Tok}
    (hks : ∀ k ∈ ks, k.1 ≠ [] ∧ Short k.1)
    (h : matchKeyword ks s = some (t, r)) :
    ∃ k ∈ ks, t = ⟨k.2, k.1⟩ ∧ s = k.1 ++ r ∧ ∀ r', Like r r' → matchKeyword ks (k.1 ++ r') = some (t, r') := by
  induction ks with
  | nil => simp [matchKeyword] at h
  | cons k ks ih =>
    cases hs : stripPrefix k.1 s with
    | some x =>
      simp only [matchKeyword, hs, Option.some.injEq, Prod.mk.injEq] at h
      obtain ⟨rfl, rfl⟩ := h
      refine ⟨k, by simp, rfl, stripPrefix_eq_some.1 hs, fun r' _ => ?_⟩
      simp [matchKeyword, stripPrefix_append]
    | none =>
      simp only [matchKeyword, hs] at h
      obtain ⟨k', hk', ht, rfl, hl⟩ := ih (fun k' hk' => hks k' (by simp [hk'])) h
      refine ⟨k', by simp [hk'], ht, rfl, fun r' hr => ?_⟩
      simp only [matchKeyword, stripPrefix_local (hks k (by simp)).2 (hks k' (by simp [hk'])).1 hr hs]
      exact hl r' hr

/-! ## Comments, literals -/

theorem skipComment_local {n : Nat} {s r : Str} (h : skipComment n s = some r) :
    ∃ p, s = p ++ r ∧ (p = [] → n = 0) ∧ ∀ r', skipComment n (p ++ r') = some r' := by
  fun_induction skipComment n s with
  | case1 s => exact ⟨[], by simp_all, fun _ => rfl, fun r' => by simp [skipComment]⟩
  | case2 => cases h
  | case3 => cases h
  | case4 => cases h
  | case5 n s h1 ih =>
    obtain ⟨p, rfl, _, hl⟩ := ih h
    exact ⟨'(' :: ':' :: p, rfl, by simp, fun r' => by simp [skipComment, EOFC, hl r']⟩
  | case6 n d s h1 h2 ih =>
    obtain ⟨p, hp, hn, hl⟩ := ih h
    cases p with
    | nil => simp at hn
    | cons a p =>
      simp at hp
      obtain ⟨rfl, rfl⟩ := hp
      exact ⟨'(' :: d :: p, rfl, by simp, fun r' => by
        have := hl r'
        simp only [List.cons_append] at this ⊢
        rw [skipComment]; simp [h1, h2, this]⟩
  | case7 n s h1 h2 ih =>
    obtain ⟨p, rfl, _, hl⟩ := ih h
    exact ⟨':' :: ')' :: p, rfl, by simp, fun r' => by
      simp only [List.cons_append]; rw [skipComment]; simp [h1, hl r']⟩
  | case8 n d s h1 h2 h3 ih =>
    obtain ⟨p, hp, hn, hl⟩ := ih h
    cases p with
    | nil => simp at hn
    | cons a p =>
      simp at hp
      obtain ⟨rfl, rfl⟩ := hp
      exact ⟨':' :: d :: p, rfl, by simp, fun r' => by
        have := hl r'
        simp only [List.cons_append] at this ⊢
        rw [skipComment]; simp [h1, h2, h3, this]⟩
  | case9 n c d s h1 h2 h3 ih =>
    obtain ⟨p, hp, hn, hl⟩ := ih h
    cases p with
    | nil => simp at hn
    | cons a p =>
      simp at hp
      obtain ⟨rfl, rfl⟩ := hp
      exact ⟨c :: d :: p, rfl, by simp, fun r' => by
        have := hl r'
        simp only [List.cons_append] at this ⊢
        rw [skipComment]; simp [h1, h2, h3, this]⟩

theorem fetchUntil_local {q : Char} {s v r : Str} (h : fetchUntil q s = some (v, r)) :
    s = v ++ r ∧ v ≠ [] ∧ ∀ r', fetchUntil q (v ++ r') = some (v, r') := by
  induction s generalizing v r with
  | nil => cases h
  | cons c s ih =>
    by_cases h1 : c = EOFC
    · simp [fetchUntil, h1] at h
    · by_cases h2 : c = q
      · simp only [fetchUntil, h2] at h
        rw [if_neg (h2 ▸ h1), if_pos trivial] at h
        simp at h
        obtain ⟨rfl, rfl⟩ := h
        refine ⟨by simp [h2], by simp, fun r' => ?_⟩
        have : q ≠ EOFC := h2 ▸ h1
        simp [fetchUntil, this]
      · simp only [fetchUntil, h1, h2, if_false, Option.map_eq_some_iff] at h
        obtain ⟨⟨v', r'⟩, h3, h4⟩ := h
        simp at h4
        obtain ⟨rfl, rfl⟩ := h4
        obtain ⟨rfl, _, hl⟩ := ih h3
        exact ⟨rfl, by simp, fun r' => by simp [fetchUntil, h1, h2, hl r']⟩

theorem fetchString_local {q : Char} {s v r : Str} (h : fetchString q s = some (v, r)) :
    r.head? ≠ some q ∧ ∃ p, s = p ++ r ∧ p ≠ [] ∧
      ∀ r', r'.head? ≠ some q → fetchString q (p ++ r') = some (v, r') := by
  fun_induction fetchString q s generalizing v r with
  | case1 => cases h
  | case2 => cases h
  | case3 h1 =>
    simp at h
    obtain ⟨rfl, rfl⟩ := h
    refine ⟨by simp, [q], rfl, by simp, fun r' hr' => ?_⟩
    cases r' with
    | nil => simp [fetchString, h1]
    | cons d r' =>
      have : d ≠ q := by simpa using hr'
      simp [fetchString, h1, this]
  | case4 => cases h
  | case5 => cases h
  | case6 s h1 ih =>
    simp only [Option.map_eq_some_iff] at h
    obtain ⟨⟨v', r'⟩, h3, h4⟩ := h
    simp at h4
    obtain ⟨rfl, rfl⟩ := h4
    obtain ⟨hr0, p, rfl, hp, hl⟩ := ih h3
    exact ⟨hr0, q :: q :: p, rfl, by simp, fun r' hr' => by simp [fetchString, h1, hl r' hr']⟩
  | case7 d s h1 h2 =>
    simp at h
    obtain ⟨rfl, rfl⟩ := h
    refine ⟨by simpa using h1, [q], rfl, by simp, fun r' hr' => ?_⟩
    cases r' with
    | nil => simp [fetchString, h2]
    | cons d r' =>
      have : d ≠ q := by simpa using hr'
      simp [fetchString, h2, this]
  | case8 c d s h1 h2 ih =>
    simp only [Option.map_eq_some_iff] at h
    obtain ⟨⟨v', r'⟩, h3, h4⟩ := h
    simp at h4
    obtain ⟨rfl, rfl⟩ := h4
    obtain ⟨hr0, p, hps, hp, hl⟩ := ih h3
    cases p with
    | nil => exact absurd rfl hp
    | cons a p =>
      simp at hps
      obtain ⟨rfl, rfl⟩ := hps
      refine ⟨hr0, c :: d :: p, rfl, by simp, fun r' hr' => ?_⟩
      have := hl r' hr'
      simp only [List.cons_append] at this ⊢
      rw [fetchString]
      simp [h1, h2, this]

/-! ## Numbers -/

theorem fetchDigits_local {s : Str} {d x : Str} (h : fetchDigits s = (d, x)) :
    s = d ++ x ∧ (∀ c, x.head? = some c → isDigitX c = false) ∧
    ∀ Y, Like x Y → fetchDigits (d ++ Y) = (d, Y) := by
  simp only [fetchDigits, Prod.mk.injEq] at h
  obtain ⟨rfl, rfl⟩ := h
  refine ⟨by simp, dropWhile_head _ _, fun Y hY => ?_⟩
  obtain ⟨h1, h2⟩ := takeWhile_local isDigitX s Y (hY.head solid_digit (dropWhile_head _ _))
  simp [fetchDigits, h1, h2]

theorem solid_e : Solid (fun c => c == 'e' || c == 'E') := by unfold Solid; decide
theorem solid_period : Solid (fun c => c == '.') := by unfold Solid; decide

theorem fetchAfterE_none {r : Str} (h : ∀ c, r.head? = some c → (c == 'e' || c == 'E') = false) :
    fetchAfterE r = .ok ([], r) := by
  cases r with
  | nil => rfl
  | cons c r =>
    have h1 := h c rfl
    simp at h1
    simp [fetchAfterE, h1]

theorem fetchAfterE_local {s v r : Str} (h : fetchAfterE s = .ok (v, r)) :
    s = v ++ r ∧ ∀ Y, Like r Y → fetchAfterE (v ++ Y) = .ok (v, Y) := by
  cases s with
  | nil =>
    simp [fetchAfterE] at h
    obtain ⟨rfl, rfl⟩ := h
    exact ⟨rfl, fun Y hY => fetchAfterE_none (hY.head solid_e (by simp))⟩
  | cons c s =>
    by_cases hc : c = 'e' ∨ c = 'E'
    · cases s with
      | nil => simp [fetchAfterE, hc] at h
      | cons d s =>
        by_cases hd : d = '+' ∨ d = '-'
        · simp only [fetchAfterE, hc, hd, if_true, Except.ok.injEq, Prod.mk.injEq] at h
          obtain ⟨rfl, rfl⟩ := h
          obtain ⟨h1, h2, h3⟩ := fetchDigits_local (s := s) (d := (fetchDigits s).1) (x := (fetchDigits s).2) rfl
          refine ⟨by rw [List.cons_append, List.cons_append, ← h1], fun Y hY => ?_⟩
          simp [fetchAfterE, hc, hd, h3 Y hY]
        · by_cases hd2 : isDigitX d = true
          · simp only [fetchAfterE, hc, hd, hd2, if_true, if_false, Except.ok.injEq, Prod.mk.injEq] at h
            obtain ⟨rfl, rfl⟩ := h
            obtain ⟨h1, h2, h3⟩ := fetchDigits_local (s := d :: s) (d := (fetchDigits (d :: s)).1)
              (x := (fetchDigits (d :: s)).2) rfl
            refine ⟨by rw [List.cons_append, ← h1], fun Y hY => ?_⟩
            have h4 := h3 Y hY
            have h5 : (fetchDigits (d :: s)).1 = d :: (fetchDigits s).1 := by simp [fetchDigits, hd2]
            simp only [h5, List.cons_append] at h4 ⊢
            simp [fetchAfterE, hc, hd, hd2, h4]
          · simp [fetchAfterE, hc, hd, hd2] at h
    · simp [fetchAfterE, hc] at h
      obtain ⟨rfl, rfl⟩ := h
      exact ⟨rfl, fun Y hY => fetchAfterE_none (hY.head solid_e (by simpa using hc))⟩

theorem fetchAfterPeriod_none {r : Str} (h : ∀ c, r.head? = some c → (c == '.') = false) :
    fetchAfterPeriod r = .ok ([], r) := by
  unfold fetchAfterPeriod
  split
  · have := h _ rfl
    simp at this
  · rfl

theorem fetchAfterPeriod_local {s v r : Str} (h : fetchAfterPeriod s = .ok (v, r)) :
    s = v ++ r ∧ ∀ Y, Like r Y → fetchAfterPeriod (v ++ Y) = .ok (v, Y) := by
  unfold fetchAfterPeriod at h
  split at h
  · rename_i s
    cases he : fetchAfterE (fetchDigits s).2 with
    | error e => simp [he, Except.map] at h
    | ok q =>
      obtain ⟨q1, q2⟩ := q
      simp only [he, Except.map, Except.ok.injEq, Prod.mk.injEq] at h
      obtain ⟨rfl, rfl⟩ := h
      obtain ⟨h1, h2, h3⟩ := fetchDigits_local (s := s) (d := (fetchDigits s).1) (x := (fetchDigits s).2) rfl
      obtain ⟨h4, h5⟩ := fetchAfterE_local he
      refine ⟨?_, fun Y hY => ?_⟩
      · rw [List.cons_append, List.cons_append, List.append_assoc, ← h4, ← h1]
      · have hd := h3 (q1 ++ Y) (by rw [h4]; exact hY.append q1)
        simp only [List.cons_append, List.append_assoc]
        simp [fetchAfterPeriod, hd, h5 Y hY, Except.map]
  · rename_i hn
    simp at h
    obtain ⟨rfl, rfl⟩ := h
    refine ⟨rfl, fun Y hY => fetchAfterPeriod_none (hY.head solid_period ?_)⟩
    intro c hc
    cases s with
    | nil => cases hc
    | cons a s =>
      simp at hc
      subst hc
      by_cases ha : a = '.'
      · exact (hn s (by rw [ha])).elim
      · simpa using ha

theorem fetchNumericLiteral_local {s v r : Str} (h : fetchNumericLiteral s = .ok (v, r))
    (hs : ∀ c, s.head? = some c → isDigitX c = true ∨ c = '.') :
    s = v ++ r ∧ ∀ Y, Like r Y → v ≠ [] → fetchNumericLiteral (v ++ Y) = .ok (v, Y) := by
  cases s with
  | nil =>
    simp [fetchNumericLiteral] at h
    obtain ⟨rfl, rfl⟩ := h
    exact ⟨rfl, fun Y hY hv => absurd rfl hv⟩
  | cons c s =>
    by_cases hc : isDigitX c = true
    · simp only [fetchNumericLiteral, hc, if_true] at h
      cases hp : fetchAfterPeriod (fetchDigits s).2 with
      | error e => simp [hp, Except.bind] at h
      | ok p =>
        obtain ⟨p1, p2⟩ := p
        simp only [hp, Except.bind] at h
        cases he : fetchAfterE p2 with
        | error e => simp [he, Except.map] at h
        | ok q =>
          obtain ⟨q1, q2⟩ := q
          simp only [he, Except.map, Except.ok.injEq, Prod.mk.injEq] at h
          obtain ⟨rfl, rfl⟩ := h
          obtain ⟨h1, h2, h3⟩ := fetchDigits_local (s := s) (d := (fetchDigits s).1) (x := (fetchDigits s).2) rfl
          obtain ⟨h4, h5⟩ := fetchAfterPeriod_local hp
          obtain ⟨h6, h7⟩ := fetchAfterE_local he
          refine ⟨?_, fun Y hY _ => ?_⟩
          · simp only [List.cons_append, List.append_assoc]
            rw [← h6, ← h4, ← h1]
          · have hd := h3 (p1 ++ (q1 ++ Y)) (by rw [h4, h6]; exact (hY.append q1).append p1)
            have hp' := h5 (q1 ++ Y) (by rw [h6]; exact hY.append q1)
            simp only [List.cons_append, List.append_assoc]
            simp [fetchNumericLiteral, hc, hd, hp', h7 Y hY, Except.map, Except.bind]
    · have hc' : c = '.' := by
        rcases hs c rfl with h1 | h1
        · exact absurd h1 hc
        · exact h1
      subst hc'
      have hc2 : isDigitX '.' = false := by decide
      replace h : fetchAfterPeriod ('.' :: s) = .ok (v, r) := h
      obtain ⟨h1, h2⟩ := fetchAfterPeriod_local h
      refine ⟨h1, fun Y hY hv => ?_⟩
      have h3 := h2 Y hY
      cases v with
      | nil => exact absurd rfl hv
      | cons a v =>
        simp at h1
        obtain ⟨rfl, rfl⟩ := h1
        simp only [List.cons_append] at h3 ⊢
        exact h3

theorem fetchNumerics_ty {s : Str} {t : Tok} {r : Str} (h : fetchNumerics s = .ok (t, r)) :
    t.ty = .doubleLiteral ∨ t.ty = .decimalLiteral ∨ t.ty = .integerLiteral := by
  unfold fetchNumerics at h
  cases hv : fetchNumericLiteral s with
  | error e => simp [hv, Except.map] at h
  | ok v =>
    simp only [hv, Except.map, Except.ok.injEq, Prod.mk.injEq] at h
    obtain ⟨rfl, -⟩ := h
    dsimp only
    split
    · tauto
    · split <;> tauto

theorem fetchNumerics_local {s : Str} {t : Tok} {r : Str} (h : fetchNumerics s = .ok (t, r))
    (hs : ∃ c s', s = c :: s' ∧ (isDigitX c = true ∨ c = '.')) :
    ∃ p, s = p ++ r ∧ p ≠ [] ∧ ∀ r', Like r r' → fetchNumerics (p ++ r') = .ok (t, r') := by
  unfold fetchNumerics at h
  cases hv : fetchNumericLiteral s with
  | error e => simp [hv, Except.map] at h
  | ok v =>
    obtain ⟨v, r0⟩ := v
    simp only [hv, Except.map, Except.ok.injEq, Prod.mk.injEq] at h
    obtain ⟨rfl, rfl⟩ := h
    obtain ⟨c, s', rfl, hc⟩ := hs
    obtain ⟨h1, h2⟩ := fetchNumericLiteral_local hv (by intro d hd; simp at hd; exact hd ▸ hc)
    have hne : v ≠ [] := by
      rintro rfl
      by_cases hd : isDigitX c = true
      · simp only [fetchNumericLiteral, hd, if_true] at hv
        revert hv
        cases fetchAfterPeriod (fetchDigits s').2 with
        | error e => simp [Except.bind]
        | ok p =>
          simp only [Except.bind]
          cases fetchAfterE p.2 with
          | error e => simp [Except.map]
          | ok q => simp [Except.map]
      · have hc' : c = '.' := by tauto
        subst hc'
        have hd' : isDigitX '.' = false := by decide
        simp only [fetchNumericLiteral, hd', if_true, fetchAfterPeriod] at hv
        revert hv
        cases fetchAfterE (fetchDigits s').2 with
        | error e => simp [Except.map]
        | ok q => simp [Except.map]
    refine ⟨v, h1, hne, fun r' hr => ?_⟩
    simp [fetchNumerics, h2 r' hr hne, Except.map]

/-! ## One token -/

theorem getTokChar_local {s : Str} {t : Tok} {r : Str} (h : getTokChar s = .ok (t, r)) (ht : t.ty ≠ .eof) :
    t.ty ≠ .nop ∧ ∃ p, s = p ++ r ∧ p ≠ [] ∧ ∀ r', Like r r' → getTokChar (p ++ r') = .ok (t, r') := by
  cases s with
  | nil =>
    simp [getTokChar] at h
    obtain ⟨rfl, rfl⟩ := h
    exact absurd rfl ht
  | cons c s =>
    by_cases h0 : c = EOFC
    · simp [getTokChar, h0] at h
      obtain ⟨rfl, rfl⟩ := h
      exact absurd rfl ht
    by_cases h1 : isNameStart c = true
    · simp only [getTokChar, h0, h1, if_true, if_false, Except.ok.injEq, Prod.mk.injEq] at h
      obtain ⟨rfl, rfl⟩ := h
      refine ⟨by simp, c :: s.takeWhile isNameCharX, by simp, by simp, fun r' hr => ?_⟩
      obtain ⟨h2, h3⟩ := takeWhile_local isNameCharX s r' (hr.head solid_name (dropWhile_head _ _))
      simp [getTokChar, h0, h1, h2, h3]
    by_cases h2 : c = '"' ∨ c = '\''
    · simp only [getTokChar, h0, h1, h2, if_true, if_false] at h
      cases hf : fetchString c s with
      | none => simp [hf] at h
      | some v =>
        obtain ⟨v, r0⟩ := v
        simp [hf] at h
        obtain ⟨rfl, rfl⟩ := h
        obtain ⟨hr0, p, rfl, hp, hl⟩ := fetchString_local hf
        refine ⟨by simp, c :: p, rfl, by simp, fun r' hr => ?_⟩
        have hne : r'.head? ≠ some c := by
          intro hc
          have hS : Solid (fun c => c == '"' || c == '\'') := by unfold Solid; decide
          rcases hr c hc with h5 | h5
          · exact hr0 h5
          · have := hS.head (r := [c]) (by intro d hd; simp at hd; exact hd ▸ h5) c rfl
            simp at this
            tauto
        simp [getTokChar, h0, h1, h2, hl r' hne]
    by_cases h3 : isDigitX c = true
    · simp only [getTokChar, h0, h1, h2, h3, if_true, if_false] at h
      obtain ⟨p, hp, hne, hl⟩ := fetchNumerics_local h ⟨c, s, rfl, Or.inl h3⟩
      refine ⟨by rcases fetchNumerics_ty h with h | h | h <;> simp [h], p, hp, hne, fun r' hr => ?_⟩
      cases p with
      | nil => exact absurd rfl hne
      | cons a p =>
        simp at hp
        obtain ⟨rfl, rfl⟩ := hp
        have := hl r' hr
        simp only [List.cons_append] at this ⊢
        simp only [getTokChar, h0, h1, h2, h3, if_true, if_false]
        exact this
    by_cases h4 : c = '.'
    · subst h4
      cases s with
      | nil =>
        simp [getTokChar, h0, h1, h3] at h
        obtain ⟨rfl, rfl⟩ := h
        refine ⟨by simp, ['.'], rfl, by simp, fun r' hr => ?_⟩
        cases r' with
        | nil => simp [getTokChar, h0, h1, h3]
        | cons d r' =>
          have hd := hr.head solid_digit (by simp) d rfl
          simp [getTokChar, h0, h1, h3, hd]
      | cons d s =>
        by_cases hd : isDigitX d = true
        · simp only [getTokChar, h0, h1, h2, h3, hd, if_true, if_false] at h
          obtain ⟨p, hp, hne, hl⟩ := fetchNumerics_local h ⟨'.', d :: s, rfl, Or.inr rfl⟩
          refine ⟨by rcases fetchNumerics_ty h with h | h | h <;> simp [h], p, hp, hne, fun r' hr => ?_⟩
          have hlen : 2 ≤ p.length := by
            by_contra hlt
            cases p with
            | nil => exact hne rfl
            | cons a p =>
              cases p with
              | cons b p => simp at hlt
              | nil =>
                simp at hp
                obtain ⟨rfl, rfl⟩ := hp
                have h5 : (fetchDigits (d :: s)).1 = d :: (fetchDigits s).1 := by simp [fetchDigits, hd]
                have hd' : isDigitX '.' = false := by decide
                simp only [fetchNumerics, fetchNumericLiteral, hd', fetchAfterPeriod, if_true] at h
                revert h
                cases he : fetchAfterE (fetchDigits (d :: s)).2 with
                | error e => simp [Except.map]
                | ok q =>
                  obtain ⟨q1, q2⟩ := q
                  have h6 := (fetchAfterE_local he).1
                  have h7 := (fetchDigits_local (s := d :: s) (d := (fetchDigits (d :: s)).1)
                    (x := (fetchDigits (d :: s)).2) rfl).1
                  intro h
                  simp [Except.map] at h
                  have h8 : (d :: s).length = (fetchDigits (d :: s)).1.length + (q1.length + q2.length) := by
                    conv_lhs => rw [h7, h6]
                    simp
                  rw [h.2, h5] at h8
                  simp at h8
                  omega
          cases p with
          | nil => simp at hlen
          | cons a p =>
            cases p with
            | nil => simp at hlen
            | cons b p =>
              simp at hp
              obtain ⟨rfl, rfl, rfl⟩ := hp
              have := hl r' hr
              simp only [List.cons_append] at this ⊢
              simp only [getTokChar, h0, h1, h2, h3, hd, if_true, if_false]
              exact this
        · simp [getTokChar, h0, h1, h3, hd] at h
          obtain ⟨rfl, rfl⟩ := h
          refine ⟨by simp, ['.'], rfl, by simp, fun r' hr => ?_⟩
          cases r' with
          | nil => simp [getTokChar, h0, h1, h3]
          | cons d r' =>
            have hd := hr.head solid_digit (by simpa using hd) d rfl
            simp [getTokChar, h0, h1, h3, hd]
    · simp only [getTokChar, h0, h1, h2, h3, h4, if_false] at h
      cases h

theorem keywords_ty : ∀ k ∈ keywords, k.2 ≠ .nop ∧ k.2 ≠ .eof := by decide

/-- Reading a token depends only on its characters and on the character that follows; a delimiter may be put in that
character's place. -/
theorem getTok_local {s : Str} {t : Tok} {r : Str} (h : getTok s = .ok (t, r)) (ht : t.ty ≠ .eof) :
    ∃ p, s = p ++ r ∧ p ≠ [] ∧ ∀ r', Like r r' → getTok (p ++ r') = .ok (t, r') := by
  have hc1 : Short (S "(:") := by decide
  have hq1 : Short (S "Q{") := by decide
  unfold getTok at h
  cases hc : stripPrefix (S "(:") s with
  | some r0 =>
    simp only [hc] at h
    cases hk : skipComment 1 r0 with
    | none => simp [hk] at h
    | some r1 =>
      simp [hk] at h
      obtain ⟨rfl, rfl⟩ := h
      obtain ⟨p, rfl, -, hl⟩ := skipComment_local hk
      refine ⟨S "(:" ++ p, by rw [stripPrefix_eq_some.1 hc, List.append_assoc], by simp [S], fun r' _ => ?_⟩
      rw [List.append_assoc]
      simp [getTok, stripPrefix_append, hl r']
  | none =>
    simp only [hc] at h
    cases hq : stripPrefix (S "Q{") s with
    | some r0 =>
      simp only [hq] at h
      cases hk : fetchUntil '}' s with
      | none => simp [hk] at h
      | some r1 =>
        obtain ⟨v, r1⟩ := r1
        simp [hk] at h
        obtain ⟨rfl, rfl⟩ := h
        obtain ⟨rfl, hv, hl⟩ := fetchUntil_local hk
        refine ⟨v, rfl, hv, fun r' hr => ?_⟩
        have h2 : ∃ r2, stripPrefix (S "Q{") (v ++ r') = some r2 := by
          have h3 := stripPrefix_eq_some.1 hq
          have hv2 := hl []
          cases v with
          | nil => exact absurd rfl hv
          | cons a v =>
            cases v with
            | nil =>
              exfalso
              have ha : a = 'Q' := by simp [S] at h3; exact h3.1
              subst ha
              simp [fetchUntil, EOFC] at hv2
            | cons b v =>
              simp [S] at h3
              obtain ⟨rfl, rfl, -⟩ := h3
              exact ⟨v ++ r', by simp [stripPrefix, S]⟩
        obtain ⟨r2, h2⟩ := h2
        simp [getTok, stripPrefix_local hc1 hv hr hc, h2, hl r']
    | none =>
      simp only [hq] at h
      cases hm : matchKeyword keywords s with
      | some r0 =>
        simp [hm] at h
        subst h
        obtain ⟨k, hk, rfl, rfl, hl⟩ := matchKeyword_local keywords_solid hm
        have hne := (keywords_solid k hk).1
        refine ⟨k.1, rfl, hne, fun r' hr => ?_⟩
        simp [getTok, stripPrefix_local hc1 hne hr hc, stripPrefix_local hq1 hne hr hq, hl r' hr]
      | none =>
        simp only [hm] at h
        obtain ⟨-, p, rfl, hp, hl⟩ := getTokChar_local h ht
        refine ⟨p, rfl, hp, fun r' hr => ?_⟩
        simp [getTok, stripPrefix_local hc1 hp hr hc, stripPrefix_local hq1 hp hr hq,
          matchKeyword_none_local (fun k hk => (keywords_solid k hk).2) hp hr hm, hl r' hr]

/-- A token is a placeholder exactly if it is a comment. -/
theorem getTok_nop {s : Str} {t : Tok} {r : Str} (h : getTok s = .ok (t, r)) :
    t.ty = .nop ↔ S "(:" <+: s := by
  unfold getTok at h
  cases hc : stripPrefix (S "(:") s with
  | some r0 =>
    simp only [hc] at h
    cases hk : skipComment 1 r0 with
    | none => simp [hk] at h
    | some r1 =>
      simp [hk] at h
      obtain ⟨rfl, rfl⟩ := h
      simp only [true_iff]
      exact ⟨r0, (stripPrefix_eq_some.1 hc).symm⟩
  | none =>
    have hn := stripPrefix_none_iff.1 hc
    simp only [hn, iff_false]
    simp only [hc] at h
    cases hq : stripPrefix (S "Q{") s with
    | some r0 =>
      simp only [hq] at h
      cases hk : fetchUntil '}' s with
      | none => simp [hk] at h
      | some r1 =>
        simp [hk] at h
        obtain ⟨rfl, rfl⟩ := h
        simp
    | none =>
      simp only [hq] at h
      cases hm : matchKeyword keywords s with
      | some r0 =>
        simp [hm] at h
        subst h
        obtain ⟨k, hk, rfl, -, -⟩ := matchKeyword_local keywords_solid hm
        exact (keywords_ty k hk).1
      | none =>
        simp only [hm] at h
        by_cases ht : t.ty = .eof
        · simp [ht]
        · exact (getTokChar_local h ht).1

theorem skipSpaces_length (s : Str) : (skipSpaces s).length ≤ s.length := by
  induction s with
  | nil => simp [skipSpaces]
  | cons c s ih =>
    simp only [skipSpaces]
    split
    · simp
    · split
      · simp; omega
      · simp

theorem getTok_length {s : Str} {t : Tok} {r : Str} (h : getTok s = .ok (t, r)) (ht : t.ty ≠ .eof) :
    r.length < s.length := by
  obtain ⟨p, rfl, hp, -⟩ := getTok_local h ht
  have := List.length_pos_of_ne_nil hp
  simp; omega

/-- Enough turns are enough. -/
theorem rawTokens_stable {n m : Nat} {s : Str} (hn : s.length < n) (hm : s.length < m) :
    rawTokens n s = rawTokens m s := by
  induction n generalizing m s with
  | zero => omega
  | succ n ih =>
    cases m with
    | zero => omega
    | succ m =>
      simp only [rawTokens]
      cases hg : getTok (skipSpaces s) with
      | error e => rfl
      | ok r =>
        obtain ⟨t, r⟩ := r
        simp only [Except.bind]
        by_cases h1 : t.ty = .eof
        · simp [h1]
        · have h2 := getTok_length hg h1
          have h3 := skipSpaces_length s
          rw [ih (m := m) (s := r) (by omega) (by omega)]

/-- The tokens of a text, with the number of turns left out. -/
def toks (s : Str) : Except XErr (List Tok) := rawTokens (s.length + 1) s

theorem toks_eq (s : Str) : toks s = (getTok (skipSpaces s)).bind fun r =>
    if r.1.ty = .eof then .ok []
    else if r.1.ty = .nop then toks r.2
    else (toks r.2).map fun l => r.1 :: l := by
  rw [toks, rawTokens]
  cases hg : getTok (skipSpaces s) with
  | error e => rfl
  | ok r =>
    obtain ⟨t, r⟩ := r
    simp only [Except.bind]
    by_cases h1 : t.ty = .eof
    · simp [h1]
    · have h2 := getTok_length hg h1
      have h3 := skipSpaces_length s
      simp only [h1, if_false, toks]
      rw [rawTokens_stable (n := s.length) (m := r.length + 1) (by omega) (by omega)]

end Lexer
end Amxml
