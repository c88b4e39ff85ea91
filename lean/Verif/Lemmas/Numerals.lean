import Verif.Spec.Numerals
import Verif.Lemmas.Rounding
import Verif.Lemmas.Func
import Mathlib.Tactic.Positivity
import Mathlib.Tactic.FieldSimp

/-!
# Reading numerals
-/

namespace Amxml.F64
open Float.Model (UnpackedFloat Format)
open Float.Model.UnpackedFloat (Sign)

theorem not_nan_of_val {f : F64} {q : ℚ} (h : val f = some q) : isNan f = false := by
  unfold isNan Float.Model.isNaN
  rcases val_cases h with ⟨s, hu, rfl⟩ | ⟨m, e, hm, hc, hu, rfl⟩ | ⟨m, e, hm, hc, hu, rfl⟩ <;> rw [hu] <;> rfl

/-- A difference that is representable is computed exactly. -/
theorem val_sub {a b : F64} {x y : ℚ} (ha : val a = some x) (hb : val b = some y) (hr : Rep (x - y)) :
    val (a - b) = some (x - y) := (rounded_sub ha hb).exact hr
end Amxml.F64

namespace Amxml
open Spec

theorem digit_iff (c : Char) : F64.isAsciiDigit c = true ↔ 48 ≤ c.toNat ∧ c.toNat ≤ 57 := by
  unfold F64.isAsciiDigit
  rw [show '0'.toNat = 48 from rfl, show '9'.toNat = 57 from rfl]
  simp

theorem digits_all {d : Str} (hd : IsDigits d) : d.all F64.isAsciiDigit = true := by
  rw [List.all_eq_true]; intro c hc; exact (digit_iff c).2 (hd c hc)

theorem digitsVal_eq (d : Str) : F64.digitsVal d = digitsNumber d := rfl

theorem digit_ne {c x : Char} (hc : 48 ≤ c.toNat ∧ c.toNat ≤ 57) (hx : x.toNat < 48 ∨ 57 < x.toNat) : c ≠ x := by
  rintro rfl; omega

theorem parseExp_of {s : Str} {n : Int} (h : IntText s n) : F64.parseExp s = some n := by
  cases h with
  | plain h0 hd =>
    cases s with
    | nil => exact absurd rfl h0
    | cons c d =>
      have hc := hd c (by simp)
      unfold F64.parseExp
      split
      rename_i neg t heq
      have : (neg, t) = (false, c :: d) := by
        rw [← heq]
        split
        · rename_i h'; cases h'; exact absurd rfl (digit_ne hc (x := '-') (by decide))
        · rename_i h'; cases h'; exact absurd rfl (digit_ne hc (x := '+') (by decide))
        · rfl
      cases this
      rw [if_pos ⟨h0, digits_all hd⟩]; rfl
  | @plus d h0 hd =>
    show (if d ≠ [] ∧ d.all F64.isAsciiDigit then some (if false = true then -(F64.digitsVal d : Int) else F64.digitsVal d) else none) = _
    rw [if_pos ⟨h0, digits_all hd⟩]; rfl
  | @minus d h0 hd =>
    show (if d ≠ [] ∧ d.all F64.isAsciiDigit then some (if true = true then -(F64.digitsVal d : Int) else F64.digitsVal d) else none) = _
    rw [if_pos ⟨h0, digits_all hd⟩]; rfl

theorem takeWhile_digits {a r : Str} (ha : IsDigits a) (hr : ∀ c ∈ r.head?, F64.isAsciiDigit c = false) :
    (a ++ r).takeWhile F64.isAsciiDigit = a ∧ (a ++ r).dropWhile F64.isAsciiDigit = r := by
  have hp : ∀ c ∈ a, F64.isAsciiDigit c = true := fun c hc => (digit_iff c).2 (ha c hc)
  rw [List.takeWhile_append_of_pos hp, List.dropWhile_append_of_pos hp]
  cases r with
  | nil => simp
  | cons c r =>
    have := hr c (by simp)
    simp [this]

/-- The part after the digits: nothing, or an exponent. -/
def expOf (m : Nat) (e : Int) : Str → Option (Nat × Int)
  | [] => some (m, e)
  | c :: t => if c = 'e' ∨ c = 'E' then (F64.parseExp t).map fun n => (m, n + e) else none

theorem parseUnsigned_fixed {s : Str} {m : Nat} {e : Int} (h : Fixed s m e) (r : Str) (hr : r = [] ∨ ∃ t, r = 'e' :: t ∨ r = 'E' :: t) :
    F64.parseUnsigned (s ++ r) = expOf m e r := by
  have hd : ∀ c ∈ r.head?, F64.isAsciiDigit c = false := by
    rcases hr with rfl | ⟨t, rfl | rfl⟩
    · simp
    · simp; decide
    · simp; decide
  have hdot : ∀ t, r ≠ '.' :: t := by
    intro t ht
    rcases hr with rfl | ⟨t', rfl | rfl⟩ <;> simp at ht
  cases h with
  | int h0 hdg =>
    obtain ⟨h1, h2⟩ := takeWhile_digits hdg hd
    unfold F64.parseUnsigned
    rw [h1, h2]
    rcases hr with rfl | ⟨t, rfl | rfl⟩
    · simp [expOf, digitsVal_eq, h0]
    · simp [expOf, digitsVal_eq, h0]
    · simp [expOf, digitsVal_eq, h0]
  | @point a b ha hb hab =>
    have hdd : ∀ c ∈ ('.' :: (b ++ r)).head?, F64.isAsciiDigit c = false := by simp; decide
    obtain ⟨h1, h2⟩ := takeWhile_digits ha hdd
    obtain ⟨h3, h4⟩ := takeWhile_digits hb hd
    unfold F64.parseUnsigned
    rw [show a ++ '.' :: b ++ r = a ++ '.' :: (b ++ r) by simp, h1, h2]
    simp only [h3, h4]
    rw [if_neg (by rcases hab with h | h <;> simp [h])]
    cases r with
    | nil => simp [expOf, digitsVal_eq]
    | cons c t => simp [expOf, digitsVal_eq, sub_eq_add_neg]

theorem parseUnsigned_of {s : Str} {m : Nat} {e : Int} (h : Numeral s m e) : F64.parseUnsigned s = some (m, e) := by
  cases h with
  | fixed hf => simpa [expOf] using parseUnsigned_fixed hf [] (.inl rfl)
  | @exp s x c m e n hf hc hx =>
    rw [parseUnsigned_fixed hf (c :: x) (.inr ⟨x, by rcases hc with rfl | rfl <;> simp⟩)]
    simp [expOf, hc, parseExp_of hx, Int.add_comm]

theorem numeral_head {s : Str} {m : Nat} {e : Int} (h : Numeral s m e) : ∃ c t, s = c :: t ∧ ((48 ≤ c.toNat ∧ c.toNat ≤ 57) ∨ c = '.') := by
  have fx : ∀ {s m e}, Fixed s m e → ∃ c t, s = c :: t ∧ ((48 ≤ c.toNat ∧ c.toNat ≤ 57) ∨ c = '.') := by
    intro s m e h
    cases h with
    | int h0 hd =>
      cases s with
      | nil => exact absurd rfl h0
      | cons c t => exact ⟨c, t, rfl, .inl (hd c (by simp))⟩
    | @point a b ha hb _ =>
      cases a with
      | nil => exact ⟨'.', b, rfl, .inr rfl⟩
      | cons c t => exact ⟨c, _, rfl, .inl (ha c (by simp))⟩
  cases h with
  | fixed hf => exact fx hf
  | exp hf _ _ => obtain ⟨c, t, rfl, hc⟩ := fx hf; exact ⟨c, _, rfl, hc⟩

theorem asciiLower_head {c : Char} (hc : (48 ≤ c.toNat ∧ c.toNat ≤ 57) ∨ c = '.') : F64.asciiLower c = c := by
  unfold F64.asciiLower
  rw [if_neg]
  rw [show 'A'.toNat = 65 from rfl, show 'Z'.toNat = 90 from rfl]
  rcases hc with h | rfl
  · omega
  · decide

theorem parse_body {s : Str} {m : Nat} {e : Int} (h : Numeral s m e) (sgn : F64 → F64) :
    (if s.map F64.asciiLower = S "inf" ∨ s.map F64.asciiLower = S "infinity" then some (sgn (F64.pack (.infinity .positive)))
     else if s.map F64.asciiLower = S "nan" then some F64.nan
     else (F64.parseUnsigned s).map fun p => sgn (Float.Model.ofScientific p.1 p.2)) = some (sgn (Float.Model.ofScientific m e)) := by
  obtain ⟨c, t, rfl, hc⟩ := numeral_head h
  have hne : ∀ x ∈ ['i', 'n'], c ≠ x := by
    intro x hx hcx
    subst hcx
    simp only [List.mem_cons, List.not_mem_nil, or_false] at hx
    rcases hc with hc | hc <;> rcases hx with rfl | rfl <;> revert hc <;> decide
  have h1 : ¬ (List.map F64.asciiLower (c :: t) = S "inf" ∨ List.map F64.asciiLower (c :: t) = S "infinity") := by
    rw [List.map_cons, asciiLower_head hc]
    simp only [S, String.toList]
    rintro (hh | hh) <;> exact hne 'i' (by simp) (List.cons.inj hh).1
  have h2 : ¬ List.map F64.asciiLower (c :: t) = S "nan" := by
    rw [List.map_cons, asciiLower_head hc]
    intro hh; exact hne 'n' (by simp) (List.cons.inj hh).1
  rw [if_neg h1, if_neg h2, parseUnsigned_of h]; rfl

theorem parse_of {s : Str} {q : ℚ} (h : NumberText s q) : ∃ f, F64.parse s = some f ∧ F64.Rounded q f := by
  cases h with
  | @plain _ m e hn =>
    refine ⟨_, ?_, F64.rounded_ofScientific m e⟩
    obtain ⟨c, t, hs, hc⟩ := numeral_head hn
    have hb := parse_body hn id
    unfold F64.parse
    split
    rename_i neg u heq
    have : (neg, u) = (false, s) := by
      rw [← heq, hs]
      split
      · rename_i h'; cases h'; rcases hc with hc | hc <;> exact absurd hc (by decide)
      · rename_i h'; cases h'; rcases hc with hc | hc <;> exact absurd hc (by decide)
      · rfl
    cases this
    exact hb
  | @plus s m e hn =>
    refine ⟨_, ?_, F64.rounded_ofScientific m e⟩
    exact parse_body hn id
  | @minus s m e hn =>
    refine ⟨Float.Model.neg (Float.Model.ofScientific m e), ?_, (F64.rounded_ofScientific m e).neg⟩
    exact parse_body hn Float.Model.neg

/-! ## Trimming -/

theorem blank_white {c : Char} (h : c = ' ' ∨ c = '\t' ∨ c = '\n' ∨ c = '\r') : isWhite c = true := by
  rcases h with rfl | rfl | rfl | rfl <;> decide

theorem dropWhile_pad {p : Char → Bool} {u s : Str} (hu : ∀ c ∈ u, p c = true) (hs : ∀ c ∈ s.head?, p c = false) :
    (u ++ s).dropWhile p = s := by
  rw [List.dropWhile_append_of_pos hu]
  cases s with
  | nil => rfl
  | cons c t => simp [hs c (by simp)]

/-- A text that neither begins nor ends with white space. -/
def Solid (s : Str) : Prop := s ≠ [] ∧ ∀ c, (s.head? = some c ∨ s.getLast? = some c) → isWhite c = false

theorem trim_padded {s t : Str} (hp : Padded s t) (hs : Solid s) : trim t = s := by
  obtain ⟨u, v, rfl, hu, hv⟩ := hp
  obtain ⟨h0, hs⟩ := hs
  unfold trim
  rw [List.append_assoc, dropWhile_pad (fun c hc => blank_white (hu c hc)), List.reverse_append,
    dropWhile_pad (fun c hc => blank_white (hv c (List.mem_reverse.1 hc))), List.reverse_reverse]
  · intro c hc
    rw [List.head?_reverse] at hc
    exact hs c (.inr hc)
  · intro c hc
    cases s with
    | nil => exact absurd rfl h0
    | cons a s => exact hs c (.inl hc)

theorem digit_not_white {c : Char} (hc : 48 ≤ c.toNat ∧ c.toNat ≤ 57) : isWhite c = false := by
  unfold isWhite
  simp only [Bool.or_eq_false_iff, decide_eq_false_iff_not, beq_eq_false_iff_ne]
  omega

theorem getLast_digits {d : Str} (h0 : d ≠ []) (hd : IsDigits d) (u : Str) : ∀ c, (u ++ d).getLast? = some c → isWhite c = false := by
  intro c hc
  rw [List.getLast?_append_of_ne_nil _ h0] at hc
  exact digit_not_white (hd c (List.mem_of_getLast? hc))

theorem head_digits {d : Str} (h0 : d ≠ []) (hd : IsDigits d) : ∀ c, d.head? = some c → isWhite c = false := by
  intro c hc
  exact digit_not_white (hd c (List.mem_of_head? hc))

theorem intText_solid {s : Str} {n : Int} (h : IntText s n) : Solid s := by
  cases h with
  | plain h0 hd => exact ⟨h0, fun c hc => hc.elim (head_digits h0 hd c) (getLast_digits h0 hd [] c)⟩
  | @plus d h0 hd =>
    refine ⟨by simp, fun c hc => hc.elim (fun h => ?_) (getLast_digits h0 hd ['+'] c)⟩
    simp at h; subst h; decide
  | @minus d h0 hd =>
    refine ⟨by simp, fun c hc => hc.elim (fun h => ?_) (getLast_digits h0 hd ['-'] c)⟩
    simp at h; subst h; decide

theorem fixed_last {s : Str} {m : Nat} {e : Int} (h : Fixed s m e) : ∀ c, s.getLast? = some c → isWhite c = false := by
  cases h with
  | int h0 hd => exact getLast_digits h0 hd []
  | @point a b ha hb hab =>
    intro c hc
    by_cases h0 : b = []
    · subst h0
      rw [List.getLast?_append_of_ne_nil _ (by simp)] at hc
      simp at hc; subst hc; decide
    · rw [show a ++ '.' :: b = (a ++ ['.']) ++ b by simp] at hc
      exact getLast_digits h0 hb _ c hc

theorem numeral_last {s : Str} {m : Nat} {e : Int} (h : Numeral s m e) : ∀ c, s.getLast? = some c → isWhite c = false := by
  cases h with
  | fixed hf => exact fixed_last hf
  | @exp s x a m e n hf hc hx =>
    intro c hl
    obtain ⟨h0, h1⟩ := intText_solid hx
    rw [show s ++ a :: x = (s ++ [a]) ++ x by simp, List.getLast?_append_of_ne_nil _ h0] at hl
    exact h1 c (.inr hl)

theorem numberText_solid {s : Str} {q : ℚ} (h : NumberText s q) : Solid s := by
  have hh : ∀ {s m e}, Numeral s m e → ∀ u : Str, (∀ c ∈ u, isWhite c = false) → Solid (u ++ s) := by
    intro s m e hn u hu
    obtain ⟨a, t, rfl, ha⟩ := numeral_head hn
    refine ⟨by simp, fun c hc => hc.elim (fun h => ?_) (fun h => ?_)⟩
    · cases u with
      | nil =>
        simp at h; subst h
        rcases ha with ha | rfl
        · exact digit_not_white ha
        · decide
      | cons b u => simp at h; subst h; exact hu _ (by simp)
    · rw [List.getLast?_append_of_ne_nil _ (by simp)] at h
      exact numeral_last hn c h
  cases h with
  | plain hn => exact hh hn [] (by simp)
  | plus hn => exact hh hn ['+'] (by simp; decide)
  | minus hn => exact hh hn ['-'] (by simp; decide)

theorem atoi_of {s t : Str} {n : Int} (hp : Padded s t) (h : IntText s n) (hn : isI64 n) : atoi t = n := by
  unfold atoi parseI64
  rw [trim_padded hp (intText_solid h), parseExp_of h]
  simp [hn]

theorem atof_of {s t : Str} {q : ℚ} (hp : Padded s t) (h : NumberText s q) : F64.Rounded q (atof t) := by
  obtain ⟨f, h1, h2⟩ := parse_of h
  unfold atof
  rw [trim_padded hp (numberText_solid h), h1]
  exact h2

theorem Spec.Padded.self (s : Str) : Padded s s := ⟨[], [], by simp, by simp, by simp⟩

/-! ## Writing integers -/

theorem natStr_digits (n : Nat) : IsDigits (F64.natStr n) ∧ F64.natStr n ≠ [] ∧ digitsNumber (F64.natStr n) = n := by
  have h : F64.natStr n = Nat.toDigits 10 n := by
    unfold F64.natStr; rw [Nat.toString_eq_repr, Nat.toList_repr]
  rw [h]
  refine ⟨?_, Nat.toDigits_ne_nil, Nat.ofDigitChars_ten_toDigits⟩
  intro c hc
  have := Nat.isDigit_of_mem_toDigits (by decide) (by decide) hc
  unfold Char.isDigit at this
  simp only [Bool.and_eq_true, decide_eq_true_eq, ge_iff_le, UInt32.le_iff_toNat_le] at this
  exact this

theorem intStr_text (n : Int) : IntText (F64.intStr n) n := by
  obtain ⟨h1, h2, h3⟩ := natStr_digits n.natAbs
  unfold F64.intStr
  split
  · have h := IntText.minus h2 h1
    rw [h3] at h
    have e : -((n.natAbs : Nat) : Int) = n := by omega
    rw [e] at h; exact h
  · have h := IntText.plain h2 h1
    rw [h3] at h
    have e : ((n.natAbs : Nat) : Int) = n := by omega
    rw [e] at h; exact h

/-- The text `n.0` has the value `n`. -/
theorem numberText_dot_zero (n : Int) : NumberText (F64.intStr n ++ S ".0") n := by
  obtain ⟨h1, h2, h3⟩ := natStr_digits n.natAbs
  have hf : Fixed (F64.natStr n.natAbs ++ S ".0") (n.natAbs * 10) (-1) := by
    have := Fixed.point (a := F64.natStr n.natAbs) (b := ['0']) h1 (by intro c hc; simp at hc; subst hc; decide) (.inr (by simp))
    have e : digitsNumber (F64.natStr n.natAbs ++ ['0']) = n.natAbs * 10 := by
      rw [show digitsNumber (F64.natStr n.natAbs ++ ['0']) = 10 * digitsNumber (F64.natStr n.natAbs) + ('0'.toNat - 48) by
        unfold digitsNumber; rw [List.foldl_append]; rfl, h3]
      simp [Nat.mul_comm]
    rw [e] at this; exact this
  have hv : ((n.natAbs * 10 : Nat) : ℚ) * 10 ^ (-1 : Int) = (n.natAbs : ℚ) := by push_cast; rw [zpow_neg_one]; field_simp
  unfold F64.intStr
  split
  · have h := NumberText.minus (.fixed hf)
    rw [hv] at h
    have e : -((n.natAbs : Nat) : ℚ) = (n : ℚ) := by
      have : ((n.natAbs : Nat) : Int) = -n := by omega
      rw [← Int.cast_natCast, this, Int.cast_neg, neg_neg]
    rw [e] at h; exact h
  · have h := NumberText.plain (.fixed hf)
    rw [hv] at h
    have e : ((n.natAbs : Nat) : ℚ) = (n : ℚ) := by
      have : ((n.natAbs : Nat) : Int) = n := by omega
      rw [← Int.cast_natCast, this]
    rw [e] at h; exact h

/-- An integer promoted to a decimal is rounded. -/
theorem rounded_intToDec (n : Int) : F64.Rounded (n : ℚ) (intToDec n) := atof_of (.self _) (numberText_dot_zero n)

theorem val_intToDec {n : Int} (hr : F64.Rep (n : ℚ)) : F64.val (intToDec n) = some (n : ℚ) := (rounded_intToDec n).exact hr

end Amxml
