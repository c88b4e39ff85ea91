import Verif.Props.XCast

/-!
# Rounding, and the text of numbers (C46, C83)
-/

namespace Amxml
open Spec
open Float.Model (UnpackedFloat)
open Float.Model.UnpackedFloat (Sign)

/-! ## C46: arithmetic is correctly rounded -/

/-- The operand `x` takes part in floating-point arithmetic as the number `p`: decimals and doubles as what they are, integers correctly
rounded. -/
def Spec.TakenAs : XItem → ℚ → Prop
  | .integer n, p => ∃ a, F64.Rounded n a ∧ F64.val a = some p
  | .decimal d, p => F64.val d = some p
  | .double d, p => F64.val d = some p
  | _, _ => False

/-- A decimal or a double with the value `r`. -/
def Spec.FloatItem (z : XItem) (r : F64) : Prop := z = .decimal r ∨ z = .double r

theorem takenAs_cases {x : XItem} {p : ℚ} (hx : TakenAs x p) : (∃ n, x = .integer n ∧ F64.val (intToDec n) = some p ∧ F64.val (F64.ofInt n) = some p) ∨
    (∃ d, x = .decimal d ∧ F64.val d = some p) ∨ ∃ d, x = .double d ∧ F64.val d = some p := by
  cases x with
  | integer n =>
    obtain ⟨a, h1, h2⟩ := hx
    exact .inl ⟨n, rfl, by rw [← h2, (rounded_intToDec n).unique h1], by rw [← h2, (F64.rounded_ofInt n).unique h1]⟩
  | decimal d => exact .inr (.inl ⟨d, rfl, hx⟩)
  | double d => exact .inr (.inr ⟨d, rfl, hx⟩)
  | _ => exact hx.elim

theorem numOp_rounded {f : Int → Int → Except XErr Int} {g : F64 → F64 → F64} {x y : XItem} {p q r : ℚ} (hx : TakenAs x p) (hy : TakenAs y q)
    (hxy : (∀ n, x ≠ .integer n) ∨ ∀ n, y ≠ .integer n) (hg : ∀ a b, F64.val a = some p → F64.val b = some q → F64.Rounded r (g a b)) :
    ∃ z c, numOp f g x y = .ok z ∧ FloatItem z c ∧ F64.Rounded r c := by
  rcases takenAs_cases hx with ⟨a, rfl, ha, _⟩ | ⟨a, rfl, ha⟩ | ⟨a, rfl, ha⟩ <;> rcases takenAs_cases hy with ⟨b, rfl, hb, _⟩ | ⟨b, rfl, hb⟩ | ⟨b, rfl, hb⟩
  · exact hxy.elim (fun h => absurd rfl (h a)) (fun h => absurd rfl (h b))
  · exact ⟨.decimal (g (intToDec a) b), _, rfl, .inl rfl, hg _ _ ha hb⟩
  · exact ⟨.double (g (intToDec a) b), _, rfl, .inr rfl, hg _ _ ha hb⟩
  · exact ⟨.decimal (g a (intToDec b)), _, rfl, .inl rfl, hg _ _ ha hb⟩
  · exact ⟨.decimal (g a b), _, rfl, .inl rfl, hg _ _ ha hb⟩
  · exact ⟨.double (g a b), _, rfl, .inr rfl, hg _ _ ha hb⟩
  · exact ⟨.double (g a (intToDec b)), _, rfl, .inr rfl, hg _ _ ha hb⟩
  · exact ⟨.double (g a b), _, rfl, .inr rfl, hg _ _ ha hb⟩
  · exact ⟨.double (g a b), _, rfl, .inr rfl, hg _ _ ha hb⟩

/-- **C46**, the value: a sum, difference or product of two numbers, not both integers, is the exact one, correctly rounded to an `f64`.
(The type is the one of `C46_expression`; for two integers see `C46_expression_integers`.) -/
theorem C46_rounded (h : Heap) (x y : XItem) (p q : ℚ) (hx : TakenAs x p) (hy : TakenAs y q) (hxy : (∀ n, x ≠ .integer n) ∨ ∀ n, y ≠ .integer n) :
    (∃ z r, FloatItem z r ∧ F64.Rounded (p + q) r ∧ OpGives h .operatorAdd [x] [y] [z]) ∧
    (∃ z r, FloatItem z r ∧ F64.Rounded (p - q) r ∧ OpGives h .operatorSubtract [x] [y] [z]) ∧
    (∃ z r, FloatItem z r ∧ F64.Rounded (p * q) r ∧ OpGives h .operatorMultiply [x] [y] [z]) := by
  refine ⟨?_, ?_, ?_⟩
  · obtain ⟨z, c, hz, hf, hv⟩ := numOp_rounded (f := fun a b => checkI64 (a + b)) (g := (· + ·)) hx hy hxy (fun a b ha hb => F64.rounded_add ha hb)
    exact ⟨z, c, hf, hv, (opGives_iff (f := opNumeric numAdd) rfl).2 (by rw [opNumeric_one, numAdd, hz]; rfl)⟩
  · obtain ⟨z, c, hz, hf, hv⟩ := numOp_rounded (f := fun a b => checkI64 (a - b)) (g := (· - ·)) hx hy hxy (fun a b ha hb => F64.rounded_sub ha hb)
    exact ⟨z, c, hf, hv, (opGives_iff (f := opNumeric numSub) rfl).2 (by rw [opNumeric_one, numSub, hz]; rfl)⟩
  · obtain ⟨z, c, hz, hf, hv⟩ := numOp_rounded (f := fun a b => checkI64 (a * b)) (g := (· * ·)) hx hy hxy (fun a b ha hb => F64.rounded_mul ha hb)
    exact ⟨z, c, hf, hv, (opGives_iff (f := opNumeric numMul) rfl).2 (by rw [opNumeric_one, numMul, hz]; rfl)⟩

/-- **C46**, the quotient: for all numbers, integers too, `p div q` is the exact quotient, correctly rounded. -/
theorem C46_div_rounded (h : Heap) (x y : XItem) (p q : ℚ) (hx : TakenAs x p) (hy : TakenAs y q) (h0 : q ≠ 0) :
    ∃ z r, FloatItem z r ∧ F64.Rounded (p / q) r ∧ OpGives h .operatorDiv [x] [y] [z] := by
  have fin : ∀ {z c}, numDiv x y = .ok z → FloatItem z c → F64.Rounded (p / q) c → ∃ z r, FloatItem z r ∧ F64.Rounded (p / q) r ∧
      OpGives h .operatorDiv [x] [y] [z] := by
    intro z c hz hf hv
    exact ⟨z, c, hf, hv, (opGives_iff (f := opNumeric numDiv) rfl).2 (by rw [opNumeric_one, hz]; rfl)⟩
  have zero : ∀ d, F64.val d = some q → F64.eq d F64.zero = false := by
    intro d hd
    cases hb : F64.eq d F64.zero with
    | false => rfl
    | true => exact absurd ((F64.eq_val hd F64.val_zero).1 hb) h0
  rcases takenAs_cases hy with ⟨b, rfl, -, hb⟩ | ⟨b, rfl, hb⟩ | ⟨b, rfl, hb⟩
  · have hb0 : b ≠ 0 := by
      rintro rfl
      have := F64.val_ofInt (n := 0) (by decide)
      rw [hb] at this
      exact h0 (by simpa using this)
    obtain ⟨z, c, hz, hf, hv⟩ := numOp_rounded (f := i64Div) (g := (· / ·)) (y := .decimal (F64.ofInt b)) hx hb (.inr (by simp))
      (fun a b ha hb => F64.rounded_div ha hb h0)
    exact fin (by simp only [numDiv, if_neg hb0, hz]) hf hv
  · obtain ⟨z, c, hz, hf, hv⟩ := numOp_rounded (f := i64Div) (g := (· / ·)) (y := .decimal b) hx hb (.inr (by simp))
      (fun a b ha hb => F64.rounded_div ha hb h0)
    exact fin (by simp only [numDiv, zero b hb]; exact hz) hf hv
  · obtain ⟨z, c, hz, hf, hv⟩ := numOp_rounded (f := i64Div) (g := (· / ·)) (y := .double b) hx hb (.inr (by simp))
      (fun a b ha hb => F64.rounded_div ha hb h0)
    exact fin (by simp only [numDiv]; exact hz) hf hv

/-- The specification of rounding determines the number: it cannot be met by two numbers. -/
theorem C46_determined (x : ℚ) (f g : F64) (hf : F64.Rounded x f) (hg : F64.Rounded x g) : F64.val f = F64.val g := hf.unique hg

/-! ## C83: the text of a number -/

theorem solid_of {s : Str} (h : (s.isEmpty || s.head?.any isWhite || s.getLast?.any isWhite) = false) : Solid s := by
  rw [Bool.or_eq_false_iff, Bool.or_eq_false_iff] at h
  refine ⟨by rintro rfl; simp at h, fun c hc => ?_⟩
  rcases hc with hc | hc
  · rw [hc] at h; exact h.1.2
  · rw [hc] at h; exact h.2

theorem signed_solid {s : UnpackedFloat.Sign} {t : Str} (h : ∃ k x, Numeral t k x) : Solid ((if s == .negative then ['-'] else []) ++ t) := by
  obtain ⟨k, x, h⟩ := h
  cases s
  · exact numberText_solid (.minus h)
  · exact numberText_solid (.plain h)

theorem fmt_solid (f : F64) : Solid (F64.fmt f) := by
  have t1 : Solid (S "-inf") := solid_of (by decide)
  have t2 : Solid (S "inf") := solid_of (by decide)
  have t3 : Solid (S "NaN") := solid_of (by decide)
  have t4 : Solid (S "-0") := solid_of (by decide)
  have t5 : Solid (S "0") := solid_of (by decide)
  unfold F64.fmt
  rcases hf : f.unpack with s | _ | s | ⟨s, m, e, hm⟩
  · cases s
    · exact t1
    · exact t2
  · exact t3
  · cases s
    · exact t4
    · exact t5
  · refine signed_solid ?_
    obtain ⟨k, x, h1, -⟩ := positional_text (F64.digits (Float.Model.abs f) m e).1 (F64.digits (Float.Model.abs f) m e).2
    exact ⟨k, x, .fixed h1⟩

theorem atof_fmt (f : F64) : atof (F64.fmt f) = f := by
  unfold atof
  rw [trim_padded (.self _) (fmt_solid f), parse_fmt]
  rfl

/-- The text of a double is the text of the number, except for infinities; it reads as the same double. -/
theorem atof_doubleStr (d : F64) : atof (XItem.doubleStr d) = d := by
  unfold XItem.doubleStr
  rcases hf : d.unpack with s | _ | s | ⟨s, m, e, hm⟩
  · have : d = F64.pack (.infinity s) := F64.unpack_inj (by rw [hf, F64.unpack_inf])
    rw [this]
    cases s <;> decide +kernel
  · have : d = F64.pack .notANumber := F64.unpack_inj (by rw [hf, F64.unpack_nan])
    rw [this]
    decide +kernel
  · rw [if_neg (by unfold F64.isNan Float.Model.isNaN; rw [hf]; simp [UnpackedFloat.isNaN]),
      if_neg (by unfold F64.isInf Float.Model.isInf; rw [hf]; simp [UnpackedFloat.isInf]), atof_fmt]
  · rw [if_neg (by unfold F64.isNan Float.Model.isNaN; rw [hf]; simp [UnpackedFloat.isNaN]),
      if_neg (by unfold F64.isInf Float.Model.isInf; rw [hf]; simp [UnpackedFloat.isInf]), atof_fmt]

theorem doubleStr_finite {d : F64} {q : ℚ} (hd : F64.val d = some q) : XItem.doubleStr d = F64.fmt d := by
  unfold XItem.doubleStr
  rw [F64.not_nan_of_val hd, if_neg (by decide), if_neg]
  unfold F64.isInf Float.Model.isInf
  rcases F64.val_cases hd with ⟨s, hu, rfl⟩ | ⟨m, e, hm, hc, hu, rfl⟩ | ⟨m, e, hm, hc, hu, rfl⟩ <;> rw [hu] <;> simp [UnpackedFloat.isInf]

/-- **C83**: a number, written and read again, is the same number: for every integer, decimal and double, also the infinities and NaN, the
cast to `xs:string` gives a text whose cast to the type of the number gives the number; so do `fn:string` and `fn:number`. -/
theorem C83_round_trip (h : Heap) :
    (∀ n, isI64 n → ∃ t, CastGives h (.integer n) (S "xs:string") (.string t) ∧ CastGives h (.string t) (S "xs:integer") (.integer n)) ∧
    (∀ d, ∃ t, CastGives h (.decimal d) (S "xs:string") (.string t) ∧ CastGives h (.string t) (S "xs:decimal") (.decimal d)) ∧
    (∀ d, ∃ t, CastGives h (.double d) (S "xs:string") (.string t) ∧ CastGives h (.string t) (S "xs:double") (.double d) ∧
      CallGives h (S "fn:string") [[.double d]] [.string t] ∧ CallGives h (S "fn:number") [[.string t]] [.double d]) := by
  refine ⟨fun n hn => ⟨F64.intStr n, castGives_of (by decide) rfl, (C78_integer_partial h).1 _ _ n (intStr_text n) (.self _) hn⟩, fun d => ?_, fun d => ?_⟩
  · refine ⟨F64.fmt d, castGives_of (by decide) rfl, castGives_of (by decide) ?_⟩
    show Except.ok (XItem.decimal (atof (F64.fmt d))) = _
    rw [atof_fmt]
  · have hs := atof_doubleStr d
    refine ⟨XItem.doubleStr d, castGives_of (by decide) rfl, castGives_of (by decide) ?_, calls_of 1 _ (hg := rfl), ?_⟩
    · show Except.ok (XItem.double (atof (XItem.doubleStr d))) = _
      rw [hs]
    · have : CallGives h (S "fn:number") [[.string (XItem.doubleStr d)]] [.double (atof (XItem.doubleStr d))] := calls_of 1 _ (hg := rfl)
      rwa [hs] at this

/-- **C83**: the text of a decimal or double that is not zero, infinite or NaN is a numeral without exponent, with a minus sign if the
number is negative, for a number that is rounded to it. -/
theorem C83_notation (h : Heap) (d : F64) (q : ℚ) (hd : F64.val d = some q) (h0 : q ≠ 0) :
    ∃ t m e, Fixed t m e ∧ CastGives h (.decimal d) (S "xs:string") (.string (if q < 0 then '-' :: t else t)) ∧
      CastGives h (.double d) (S "xs:string") (.string (if q < 0 then '-' :: t else t)) ∧
      F64.Rounded (if q < 0 then -((m : ℚ) * 10 ^ e) else (m : ℚ) * 10 ^ e) d := by
  have hs := doubleStr_finite hd
  have hp := parse_fmt d
  have key : ∃ t m e, Fixed t m e ∧ F64.fmt d = (if q < 0 then '-' :: t else t) ∧
      F64.Rounded (if q < 0 then -((m : ℚ) * 10 ^ e) else (m : ℚ) * 10 ^ e) d := by
    unfold F64.fmt at hp ⊢
    rcases F64.val_cases hd with ⟨s, hu, rfl⟩ | ⟨m, e, hm, hc, hu, rfl⟩ | ⟨m, e, hm, hc, hu, rfl⟩
    · exact absurd rfl h0
    · have hq := F64.mag_pos (e := e) hm
      rw [hu] at hp ⊢
      simp only at hp ⊢
      obtain ⟨k, x, h1, -⟩ := positional_text (F64.digits (Float.Model.abs d) m e).1 (F64.digits (Float.Model.abs d) m e).2
      refine ⟨_, k, x, h1, by rw [if_neg (by decide), if_neg (by linarith), List.nil_append], ?_⟩
      rw [if_neg (by decide), List.nil_append, parse_plain (.fixed h1)] at hp
      rw [if_neg (by linarith), ← Option.some.inj hp]
      exact F64.rounded_ofScientific k x
    · have hq := F64.mag_pos (e := e) hm
      rw [hu] at hp ⊢
      simp only at hp ⊢
      obtain ⟨k, x, h1, -⟩ := positional_text (F64.digits (Float.Model.abs d) m e).1 (F64.digits (Float.Model.abs d) m e).2
      refine ⟨_, k, x, h1, by rw [if_pos (by decide), if_pos (by linarith), List.singleton_append], ?_⟩
      rw [if_pos (by decide), List.singleton_append, parse_minus (.fixed h1)] at hp
      rw [if_pos (by linarith), ← Option.some.inj hp]
      exact (F64.rounded_ofScientific k x).neg
  obtain ⟨t, m, e, h1, h2, h3⟩ := key
  refine ⟨t, m, e, h1, castGives_of (by decide) ?_, castGives_of (by decide) ?_, h3⟩
  · rw [← h2]; rfl
  · rw [← h2, ← hs]; rfl

/-- **C83**: a whole number below `2 ^ 53` in size, other than zero, is written like an integer, without a point, whatever its type is. -/
theorem C83_whole (h : Heap) (d : F64) (n : Int) (hn : n.natAbs < 2 ^ 53) (h0 : n ≠ 0) (hd : F64.val d = some (n : ℚ)) :
    CastGives h (.decimal d) (S "xs:string") (.string (F64.intStr n)) ∧ CastGives h (.double d) (S "xs:string") (.string (F64.intStr n)) ∧
    CastGives h (.integer n) (S "xs:string") (.string (F64.intStr n)) := by
  have hw := fmt_whole hn h0 hd
  refine ⟨castGives_of (by decide) ?_, castGives_of (by decide) ?_, castGives_of (by decide) rfl⟩
  · rw [← hw]; rfl
  · rw [← hw, ← doubleStr_finite hd]; rfl

/-- One half and `-250` are such numbers; `0.1`, which is rounded, is written as `0.1`. -/
example : F64.val F64.half = some (1 / 2) ∧ F64.fmt F64.half = S "0.5" ∧ F64.val (F64.ofInt (-250)) = some ((-250 : Int) : ℚ) ∧
    (-250 : Int).natAbs < 2 ^ 53 ∧ F64.fmt (Float.Model.ofScientific 1 (-1)) = S "0.1" ∧ F64.fmt (F64.ofInt (-250)) = S "-250" :=
  ⟨F64.val_half, by decide +kernel, F64.val_ofInt (by decide), by decide, by decide +kernel, by decide +kernel⟩

/-- The operands of `1 + 0.5` and of `9007199254740993 + 0.5`, an integer that has no `f64`. -/
example : TakenAs (.decimal F64.half) (1 / 2) ∧ TakenAs (.integer 1) 1 ∧ ∃ p, TakenAs (.integer 9007199254740993) p := by
  refine ⟨F64.val_half, ⟨_, F64.rounded_ofInt 1, by have := F64.val_ofInt (n := 1) (by decide); simpa using this⟩, ?_⟩
  obtain ⟨y, hy, -⟩ := (F64.rounded_ofInt 9007199254740993).1 (by
    have h1 : ((2 : ℚ) ^ 54) ≤ F64.unit := by
      unfold F64.unit; exact pow_le_pow_right₀ (by norm_num) (by norm_num)
    rw [F64.limit_eq]
    norm_num at h1 ⊢
    linarith)
  exact ⟨y, _, F64.rounded_ofInt _, hy⟩

/-- `0.1 + 0.2` is not `0.3`: the sum is rounded, as are its terms. -/
example : F64.eq (Float.Model.ofScientific 1 (-1) + Float.Model.ofScientific 2 (-1)) (Float.Model.ofScientific 3 (-1)) = false := by decide +kernel

/-! ## C84: division with remainder of decimals and doubles -/

namespace F64

theorem rep_of_small {n : Nat} {e : Int} (hn : n < 2 ^ 53) (h1 : -1074 ≤ e) (h2 : e ≤ 971) : Rep (mag n e) := by
  rw [rep_iff]
  by_cases h0 : n = 0
  · left; simp [h0, mag]
  right
  have hpos := Nat.pos_of_ne_zero h0
  have hb := log2_bounds h0
  have hl : n.log2 ≤ 52 := by
    by_contra h
    have := Nat.pow_le_pow_right (n := 2) (by norm_num) (show 53 ≤ n.log2 by omega)
    omega
  -- as many zeros are appended as fit
  let k := min (52 - n.log2) (e + 1074).toNat
  refine ⟨n * 2 ^ k, e - k, ?_, ?_⟩
  · have hk : n.log2 + k ≤ 52 := by omega
    have h3 : n * 2 ^ k < 2 ^ 53 := by
      calc n * 2 ^ k < 2 ^ (n.log2 + 1) * 2 ^ k := Nat.mul_lt_mul_of_pos_right hb.2 (Nat.two_pow_pos k)
        _ = 2 ^ (n.log2 + 1 + k) := by rw [← pow_add]
        _ ≤ 2 ^ 53 := Nat.pow_le_pow_right (by norm_num) (by omega)
    refine ⟨by positivity, h3, by omega, by omega, ?_⟩
    by_cases hh : n.log2 + k = 52
    · left
      calc 2 ^ 52 = 2 ^ n.log2 * 2 ^ k := by rw [← pow_add, hh]
        _ ≤ n * 2 ^ k := Nat.mul_le_mul_right _ hb.1
    · right; omega
  · rw [abs_of_pos (mag_pos hpos), mag_shift]
    congr 1
    omega

theorem tmod_nat (a b : Nat) : ((a % b : Nat) : ℚ) = (a : ℚ) - b * (⌊(a : ℚ) / b⌋ : ℚ) := by
  have h1 : ⌊(a : ℚ) / b⌋ = ((a / b : Nat) : Int) := by
    rcases Nat.eq_zero_or_pos b with rfl | hb
    · simp
    · exact nat_floor a b hb
  rw [h1]
  have h2 : b * (a / b) + a % b = a := Nat.div_add_mod a b
  have h3 : (b : ℚ) * ((a / b : Nat) : ℚ) + ((a % b : Nat) : ℚ) = a := by exact_mod_cast h2
  rw [Int.cast_natCast]
  linarith

/-- The remainder is exact. -/
theorem val_rem {a b : F64} {x y : ℚ} (ha : val a = some x) (hb : val b = some y) (hy : y ≠ 0) : val (rem a b) = some (x - y * truncQ (x / y)) := by
  have main : ∀ {m m' : Nat} {e e' : Int} (s : Sign), Canon m e → Canon m' e' →
      val (mk s ((m * 2 ^ (e - min e e').toNat) % (m' * 2 ^ (e' - min e e').toNat)) (min e e')) =
        some (match s with | .positive => mag m e - mag m' e' * ⌊mag m e / mag m' e'⌋ | .negative => -(mag m e - mag m' e' * ⌊mag m e / mag m' e'⌋)) := by
    intro m m' e e' s hc hc'
    have e1 : mag m e = mag (m * 2 ^ (e - min e e').toNat) (min e e') := by rw [mag_shift]; congr 1; omega
    have e2 : mag m' e' = mag (m' * 2 ^ (e' - min e e').toNat) (min e e') := by rw [mag_shift]; congr 1; omega
    have hr : (m * 2 ^ (e - min e e').toNat) % (m' * 2 ^ (e' - min e e').toNat) < 2 ^ 53 := by
      rcases le_total e e' with h | h
      · rw [min_eq_left h, sub_self, Int.toNat_zero, pow_zero, mul_one]
        exact lt_of_le_of_lt (Nat.mod_le _ _) hc.2.1
      · rw [min_eq_right h, sub_self, Int.toNat_zero, pow_zero, mul_one]
        exact (Nat.mod_lt _ hc'.1).trans hc'.2.1
    have hE : -1074 ≤ min e e' ∧ min e e' ≤ 971 := by
      have := hc.2.2.1; have := hc'.2.2.1; have := hc.2.2.2.1
      omega
    rw [val_mk (rep_of_small hr hE.1 hE.2), e1, e2]
    generalize m * 2 ^ (e - min e e').toNat = A
    generalize m' * 2 ^ (e' - min e e').toNat = B
    have hz : (2 : ℚ) ^ (min e e') ≠ 0 := zpow_ne_zero _ (by norm_num)
    have key : mag (A % B) (min e e') = mag A (min e e') - mag B (min e e') * ⌊mag A (min e e') / mag B (min e e')⌋ := by
      unfold mag
      rw [tmod_nat, mul_div_mul_right _ _ hz]
      ring
    cases s <;> simp only [key]
  unfold rem
  have tr : ∀ {q : ℚ}, 0 ≤ q → truncQ q = ⌊q⌋ ∧ truncQ (-q) = -⌊q⌋ := by
    intro q hq
    unfold truncQ
    refine ⟨if_pos hq, ?_⟩
    rcases eq_or_lt_of_le hq with rfl | hq
    · simp
    · rw [if_neg (by linarith), Int.ceil_neg]
  rcases val_cases hb with ⟨t, hv, h0⟩ | ⟨m', e', hm', hc', hv, rfl⟩ | ⟨m', e', hm', hc', hv, rfl⟩
  · exact absurd h0 hy
  all_goals
    have hp' := mag_pos (e := e') hm'
    rcases val_cases ha with ⟨t, hu, rfl⟩ | ⟨m, e, hm, hc, hu, rfl⟩ | ⟨m, e, hm, hc, hu, rfl⟩ <;> rw [hu, hv] <;> simp only
  · rw [ha, zero_div]; simp [truncQ]
  · have hp := mag_pos (e := e) hm
    rw [main .positive hc hc', (tr (div_pos hp hp').le).1]
  · have hp := mag_pos (e := e) hm
    rw [main .negative hc hc', neg_div, (tr (div_pos hp hp').le).2]
    congr 1; push_cast; ring
  · rw [ha, zero_div]; simp [truncQ]
  · have hp := mag_pos (e := e) hm
    rw [main .positive hc hc', div_neg, (tr (div_pos hp hp').le).2]
    congr 1; push_cast; ring
  · have hp := mag_pos (e := e) hm
    rw [main .negative hc hc', neg_div_neg_eq, (tr (div_pos hp hp').le).1]
    congr 1; ring

end F64

/-- **C84**, `mod`: of two numbers, not both integers, the second not zero, `x mod y` is the exact remainder of the division of `x` by `y`
truncated to a whole number. -/
theorem C84_mod (h : Heap) (x y : XItem) (p q : ℚ) (hx : TakenAs x p) (hy : TakenAs y q) (hxy : (∀ n, x ≠ .integer n) ∨ ∀ n, y ≠ .integer n)
    (h0 : q ≠ 0) : ∃ z r, FloatItem z r ∧ F64.val r = some (p - q * F64.truncQ (p / q)) ∧ OpGives h .operatorMod [x] [y] [z] := by
  have hz : modZero y = false := by
    rcases takenAs_cases hy with ⟨b, rfl, -, hb⟩ | ⟨b, rfl, hb⟩ | ⟨b, rfl, hb⟩
    · have hb0 : b ≠ 0 := by
        rintro rfl
        have := F64.val_ofInt (n := 0) (by decide)
        rw [hb] at this
        exact h0 (by simpa using this)
      simp [modZero, hb0]
    · show F64.eq b F64.zero = false
      cases he : F64.eq b F64.zero with
      | false => rfl
      | true => exact absurd ((F64.eq_val hb F64.val_zero).1 he) h0
    · rfl
  have fin : ∀ {z c}, numOp i64Rem F64.rem x y = .ok z → FloatItem z c → F64.val c = some (p - q * F64.truncQ (p / q)) →
      ∃ z r, FloatItem z r ∧ F64.val r = some (p - q * F64.truncQ (p / q)) ∧ OpGives h .operatorMod [x] [y] [z] := by
    intro z c hz' hf hv
    exact ⟨z, c, hf, hv, (opGives_iff (f := opNumeric numMod) rfl).2 (by rw [opNumeric_one, numMod, hz, if_neg (by decide), hz']; rfl)⟩
  rcases takenAs_cases hx with ⟨a, rfl, ha, _⟩ | ⟨a, rfl, ha⟩ | ⟨a, rfl, ha⟩ <;> rcases takenAs_cases hy with ⟨b, rfl, hb, _⟩ | ⟨b, rfl, hb⟩ | ⟨b, rfl, hb⟩
  · exact hxy.elim (fun h => absurd rfl (h a)) (fun h => absurd rfl (h b))
  · exact fin (z := .decimal (F64.rem (intToDec a) b)) rfl (.inl rfl) (F64.val_rem ha hb h0)
  · exact fin (z := .double (F64.rem (intToDec a) b)) rfl (.inr rfl) (F64.val_rem ha hb h0)
  · exact fin (z := .decimal (F64.rem a (intToDec b))) rfl (.inl rfl) (F64.val_rem ha hb h0)
  · exact fin (z := .decimal (F64.rem a b)) rfl (.inl rfl) (F64.val_rem ha hb h0)
  · exact fin (z := .double (F64.rem a b)) rfl (.inr rfl) (F64.val_rem ha hb h0)
  · exact fin (z := .double (F64.rem a (intToDec b))) rfl (.inr rfl) (F64.val_rem ha hb h0)
  · exact fin (z := .double (F64.rem a b)) rfl (.inr rfl) (F64.val_rem ha hb h0)
  · exact fin (z := .double (F64.rem a b)) rfl (.inr rfl) (F64.val_rem ha hb h0)

/-- The number is the whole number `n`, of 64 bits. -/
def Spec.Whole : XItem → Int → Prop
  | .integer m, n => m = n ∧ isI64 n
  | .decimal d, n => F64.val d = some (n : ℚ) ∧ isI64 n
  | .double d, n => F64.val d = some (n : ℚ) ∧ isI64 n
  | _, _ => False

/-- `idiv` of operands that are not NaN or infinite. -/
theorem numIDiv_run {x y : XItem} (hx : ∀ d, x = .double d → d.isNan = false ∧ d.isFinite = true) (hy : ∀ d, y = .double d → d.isNan = false) :
    numIDiv x y = if idivOperand y ≠ 0 then (i64Div (idivOperand x) (idivOperand y)).map .integer else .error .dynamicError := by
  have bad : ∀ (p q : Bool), p = false → q = false → (if (p || q) = true then (.error .dynamicError : Except XErr XItem) else
      if idivOperand y ≠ 0 then (i64Div (idivOperand x) (idivOperand y)).map .integer else .error .dynamicError) =
      if idivOperand y ≠ 0 then (i64Div (idivOperand x) (idivOperand y)).map .integer else .error .dynamicError := by
    rintro p q rfl rfl; rfl
  refine bad _ _ ?_ ?_
  · cases x with
    | double d => obtain ⟨h1, h2⟩ := hx d rfl; simp [h1, h2]
    | _ => rfl
  · cases y with
    | double d => exact hy d rfl
    | _ => rfl

/-- The whole number `n`, of 64 bits, is the number without its fraction. -/
def Spec.Truncates : XItem → Int → Prop
  | .integer m, n => m = n ∧ isI64 n
  | .decimal d, n => (∃ q, F64.val d = some q ∧ F64.truncQ q = n) ∧ isI64 n
  | .double d, n => (∃ q, F64.val d = some q ∧ F64.truncQ q = n) ∧ isI64 n
  | _, _ => False

/-- **C84**, what `idiv` computes: the fractions of both operands are dropped, then the quotient of the whole numbers is truncated; an error if the
second operand is less than one in size. -/
theorem C84_idiv_exact (h : Heap) (x y : XItem) (a b : Int) (hx : Truncates x a) (hy : Truncates y b) :
    (b ≠ 0 → ¬ (a = i64Min ∧ b = -1) → OpGives h .operatorIDiv [x] [y] [.integer (F64.truncQ ((a : ℚ) / b))]) ∧
    (b = 0 → OpFails h .operatorIDiv [x] [y] .dynamicError) := by
  have tw : ∀ {d : F64} {n : Int}, (∃ q, F64.val d = some q ∧ F64.truncQ q = n) → isI64 n → F64.toI64 d = n := by
    rintro d n ⟨q, hd, ht⟩ hn
    have := F64.toI64_val hd (by rw [ht]; unfold isI64 i64Min i64Max at hn; omega) (by rw [ht]; unfold isI64 i64Min i64Max at hn; omega)
    rw [this, ht]
  have op : ∀ {x a}, Truncates x a → idivOperand x = a ∧ (∀ d, x = .double d → d.isNan = false ∧ d.isFinite = true) := by
    intro x a hx
    cases x with
    | integer n => exact ⟨hx.1, by simp⟩
    | decimal d => exact ⟨tw hx.1 hx.2, by simp⟩
    | double d =>
      refine ⟨tw hx.1 hx.2, fun d' hd => ?_⟩
      cases hd
      obtain ⟨q, hq, -⟩ := hx.1
      refine ⟨F64.not_nan_of_val hq, ?_⟩
      unfold F64.isFinite Float.Model.isFinite
      rcases F64.val_cases hq with ⟨s, hu, -⟩ | ⟨m, e, hm, hc, hu, -⟩ | ⟨m, e, hm, hc, hu, -⟩ <;> rw [hu] <;> rfl
    | _ => exact hx.elim
  obtain ⟨hx1, hx2⟩ := op hx
  obtain ⟨hy1, hy2⟩ := op hy
  have ha : isI64 a := by cases x <;> first | exact hx.2 | exact hx.elim
  have hb : isI64 b := by cases y <;> first | exact hy.2 | exact hy.elim
  have run : numIDiv x y = if b ≠ 0 then (i64Div a b).map .integer else .error .dynamicError := by
    rw [numIDiv_run hx2 (fun d hd => (hy2 d hd).1), hx1, hy1]
  refine ⟨fun h0 hov => (opGives_iff (f := opNumeric numIDiv) rfl).2 ?_, fun h0 => (opFails_iff (f := opNumeric numIDiv) rfl).2 ?_⟩
  · obtain ⟨q, r, h1, -⟩ := C45_idiv_mod a b ha hb h0 hov
    have hq : F64.truncQ ((a : ℚ) / b) = a.tdiv b := by
      have nn : ∀ (c d : Nat), ⌊(c : ℚ) / d⌋ = ((c / d : Nat) : Int) := by
        intro c d
        rcases Nat.eq_zero_or_pos d with rfl | hd
        · simp
        · exact F64.nat_floor c d hd
      have tr : ∀ {q : ℚ}, 0 ≤ q → F64.truncQ q = ⌊q⌋ ∧ F64.truncQ (-q) = -⌊q⌋ := by
        intro q hq
        unfold F64.truncQ
        refine ⟨if_pos hq, ?_⟩
        rcases eq_or_lt_of_le hq with rfl | hq
        · simp
        · rw [if_neg (by linarith), Int.ceil_neg]
      have pos : ∀ (c d : Nat), (0 : ℚ) ≤ (c : ℚ) / d := fun c d => by positivity
      rcases Int.eq_nat_or_neg a with ⟨c, rfl | rfl⟩ <;> rcases Int.eq_nat_or_neg b with ⟨d, rfl | rfl⟩
      · rw [Int.cast_natCast, Int.cast_natCast, (tr (pos c d)).1, nn]; rfl
      · rw [Int.cast_neg, Int.cast_natCast, Int.cast_natCast, div_neg, (tr (pos c d)).2, nn, Int.tdiv_neg]; rfl
      · rw [Int.cast_neg, Int.cast_natCast, Int.cast_natCast, neg_div, (tr (pos c d)).2, nn, Int.neg_tdiv]; rfl
      · rw [Int.cast_neg, Int.cast_neg, Int.cast_natCast, Int.cast_natCast, neg_div_neg_eq, (tr (pos c d)).1, nn, Int.neg_tdiv, Int.tdiv_neg, neg_neg]; rfl
    have hd : i64Div a b = .ok (a.tdiv b) := by
      have h2 := numIDiv_run (x := .integer a) (y := .integer b) (by simp) (by simp)
      rw [if_pos (show idivOperand (.integer b) ≠ 0 from h0)] at h2
      rw [opNumeric_one, h2] at h1
      simp only [idivOperand] at h1
      unfold i64Div checkI64 at h1 ⊢
      rw [if_neg h0] at h1 ⊢
      by_cases hq : isI64 (a.tdiv b)
      · rw [if_pos hq]
      · rw [if_neg hq] at h1; simp [Except.map] at h1
    rw [opNumeric_one, run, if_pos h0, hd, hq]; rfl
  · exact ⟨by rw [opNumeric_one, run, if_neg (by simpa using h0)]; rfl, by simp⟩

theorem Spec.Whole.truncates {x : XItem} {n : Int} (h : Whole x n) : Truncates x n := by
  have ht : F64.truncQ (n : ℚ) = n := by unfold F64.truncQ; split <;> simp
  cases x with
  | integer m => exact h
  | decimal d => exact ⟨⟨_, h.1, ht⟩, h.2⟩
  | double d => exact ⟨⟨_, h.1, ht⟩, h.2⟩
  | _ => exact h.elim

/-- **C84**, `idiv` (partial: see `C84_violated`): of whole numbers, `x idiv y` is the quotient truncated to a whole number. -/
theorem C84_idiv_partial (h : Heap) (x y : XItem) (a b : Int) (hx : Whole x a) (hy : Whole y b) :
    (b ≠ 0 → ¬ (a = i64Min ∧ b = -1) → OpGives h .operatorIDiv [x] [y] [.integer (F64.truncQ ((a : ℚ) / b))]) ∧
    (b = 0 → OpFails h .operatorIDiv [x] [y] .dynamicError) := C84_idiv_exact h x y a b hx.truncates hy.truncates

/-- **C84** is false of the code: `idiv` truncates the operands before it divides them. `5.5 idiv 1.5` is 5, where 3 is due, and
`1 idiv 0.5` is a division by zero, where 2 is due. -/
theorem C84_violated : evalXPath editSample 20 0 (S "5.5 idiv 1.5") = .ok [.integer 5] ∧ F64.truncQ ((11 / 2 : ℚ) / (3 / 2)) = 3 ∧
    evalXPath editSample 20 0 (S "1 idiv 0.5") = .error .dynamicError ∧ F64.truncQ ((1 : ℚ) / (1 / 2)) = 2 := by
  refine ⟨by run_query, ?_, by run_query, ?_⟩
  · unfold F64.truncQ; rw [if_pos (by norm_num), Int.floor_eq_iff]; norm_num
  · unfold F64.truncQ; rw [if_pos (by norm_num), Int.floor_eq_iff]; norm_num

/-- `0.5`, as `idiv` takes it, is 0. -/
example : Truncates (.decimal F64.half) 0 := ⟨⟨_, F64.val_half, by unfold F64.truncQ; rw [if_pos (by norm_num), Int.floor_eq_iff]; norm_num⟩, by decide⟩

/-- `7 mod 0.5` and `6.0 idiv -4` meet the hypotheses. -/
example : TakenAs (.decimal F64.half) (1 / 2) ∧ (1 / 2 : ℚ) ≠ 0 ∧ Whole (.decimal (F64.ofInt 6)) 6 ∧ Whole (.integer (-4)) (-4) := by
  refine ⟨F64.val_half, by norm_num, ⟨F64.val_ofInt (by decide), by decide⟩, rfl, by decide⟩

end Amxml
