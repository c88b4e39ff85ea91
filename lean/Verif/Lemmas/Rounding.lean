import Verif.Lemmas.F64Val
import Verif.Spec.Rounding

/-!
# The arithmetic of `f64` is correctly rounded
-/

namespace Amxml.F64

open Float.Model (UnpackedFloat Format)
open Float.Model.UnpackedFloat (Sign ExtendedMantissa Accuracy)

/-! ## Mantissas with a round bit and a sticky bit -/

/-- The number `X` has the integer part `m`, and the bits tell where its fraction lies. -/
def App (X : ℚ) (em : ExtendedMantissa) : Prop :=
  match em with
  | ⟨m, false, false⟩ => X = m
  | ⟨m, false, true⟩ => (m : ℚ) < X ∧ X < m + 1 / 2
  | ⟨m, true, false⟩ => X = m + 1 / 2
  | ⟨m, true, true⟩ => (m : ℚ) + 1 / 2 < X ∧ X < m + 1

theorem App.bounds {X : ℚ} {em : ExtendedMantissa} (h : App X em) : (em.mantissa : ℚ) ≤ X ∧ X < em.mantissa + 1 := by
  obtain ⟨m, r, s⟩ := em
  cases r <;> cases s <;> simp only [App] at h ⊢ <;> constructor <;> linarith [h]

theorem App.shiftOne {X : ℚ} {em : ExtendedMantissa} (h : App X em) : App (X / 2) em.shiftRightOne := by
  obtain ⟨m, r, s⟩ := em
  have hm : (m : ℚ) = 2 * ((m / 2 : Nat) : ℚ) + ((m % 2 : Nat) : ℚ) := by exact_mod_cast (Nat.div_add_mod m 2).symm
  unfold ExtendedMantissa.shiftRightOne
  rcases Nat.mod_two_eq_zero_or_one m with h2 | h2 <;> rw [h2] at hm <;> cases r <;> cases s <;>
    simp only [App, h2, bne_self_eq_false, Bool.or_false, Bool.or_true, show ((1 : Nat) != 0) = true from rfl] at h ⊢ <;>
    push_cast at hm <;> first | linarith | (constructor <;> linarith)

theorem App.shift {X : ℚ} {em : ExtendedMantissa} (h : App X em) (k : Nat) : App (X / 2 ^ k) (em >>> k) := by
  show App _ (Nat.repeat ExtendedMantissa.shiftRightOne k em)
  induction k with
  | zero => simpa [Nat.repeat] using h
  | succ k ih =>
    rw [Nat.repeat, pow_succ, ← div_div]
    exact ih.shiftOne

/-- The rounded mantissa is the nearest integer, an even one if there are two. -/
theorem App.rounded {X : ℚ} {em : ExtendedMantissa} (h : App X em) :
    |X - em.roundedMantissa| ≤ 1 / 2 ∧ (|X - em.roundedMantissa| = 1 / 2 → em.roundedMantissa % 2 = 0) ∧
    em.mantissa ≤ em.roundedMantissa ∧ em.roundedMantissa ≤ em.mantissa + 1 := by
  obtain ⟨m, r, s⟩ := em
  cases r <;> cases s <;>
    simp only [App, ExtendedMantissa.roundedMantissa, ExtendedMantissa.accuracy, Accuracy.roundToNearestEven] at h ⊢
  · rw [h]
    simp
  · refine ⟨by rw [abs_le]; constructor <;> linarith, fun hh => ?_, by omega, by omega⟩
    rw [abs_of_nonneg (by linarith)] at hh
    linarith
  · rcases Nat.mod_two_eq_zero_or_one m with h2 | h2 <;> rw [h2]
    · refine ⟨by rw [h, abs_le]; push_cast; constructor <;> linarith, fun _ => by omega, by omega, by omega⟩
    · refine ⟨by rw [h, abs_le]; push_cast; constructor <;> linarith, fun _ => by omega, by omega, by omega⟩
  · refine ⟨by rw [abs_le]; push_cast; constructor <;> linarith, fun hh => ?_, by omega, by omega⟩
    push_cast at hh
    rw [abs_of_nonpos (by linarith)] at hh
    linarith

/-- How an approximation to the number `X` is described. -/
def AppAcc (X : ℚ) (m : Nat) (a : Accuracy) : Prop := App X (ExtendedMantissa.ofMantissaAndAccuracy m a)

theorem ofMA_mantissa (m : Nat) (a : Accuracy) : (ExtendedMantissa.ofMantissaAndAccuracy m a).mantissa = m := by
  rcases a with _ | (_ | _ | _) <;> rfl

/-- The number scaled to the exponent. -/
def scaled (x : ℚ) (e : Int) : ℚ := x / 2 ^ e

theorem scaled_shift (x : ℚ) (e : Int) (k : Nat) : scaled x e / 2 ^ k = scaled x (e + k) := by
  unfold scaled
  rw [zpow_add₀ (by norm_num), zpow_natCast, div_div]

/-- What `roundWithAccuracy` gives. -/
theorem roundWithAccuracy_form {s : Sign} {m : Nat} {e : Int} {a : Accuracy} {x : ℚ} (ha : AppAcc (scaled x e) m a) (hb : 52 ≤ m.log2 ∨ e ≤ -1074) :
    ∃ (n : Nat) (E : Int), n ≤ 2 ^ 53 ∧ -1074 ≤ E ∧ |scaled x E - n| ≤ 1 / 2 ∧ (|scaled x E - n| = 1 / 2 → n % 2 = 0) ∧
      (E = -1074 ∨ 2 ^ 52 ≤ scaled x E ∧ 2 ^ 52 ≤ n) ∧ scaled x E < 2 ^ 53 ∧
      UnpackedFloat.roundWithAccuracy Format.binary64 s m e a =
        if h0 : n = 0 then .zero s else if n < 2 ^ 53 then .finite s n E (Nat.pos_of_ne_zero h0) else .finite s (2 ^ 52) (E + 1) (by norm_num) := by
  generalize hE : max ((m.log2 : Int) + e + 1 - 53) (-1074) = E
  have htgt : Format.targetExponent Format.binary64 (Float.Model.totalExponent m e) = E := by
    rw [targetExponent_eq, ← hE]
    unfold Float.Model.totalExponent
    congr 1
    ring
  have hEe : e ≤ E := by omega
  generalize hk : (E - e).toNat = k
  have hkE : e + (k : Int) = E := by omega
  have h1 := ha.shift k
  rw [scaled_shift, hkE] at h1
  generalize hem : ExtendedMantissa.ofMantissaAndAccuracy m a >>> k = em at h1
  have hemm : em.mantissa = m / 2 ^ k := by rw [← hem, shiftRight_mantissa, ofMA_mantissa]
  obtain ⟨r1, r2, r3, r4⟩ := h1.rounded
  obtain ⟨b1, b2⟩ := h1.bounds
  have hlt : em.mantissa < 2 ^ 53 := by
    rw [hemm, Nat.div_lt_iff_lt_mul (Nat.two_pow_pos k), ← pow_add]
    by_cases hm : m = 0
    · subst hm; exact Nat.two_pow_pos _
    · refine lt_of_lt_of_le (log2_bounds hm).2 (Nat.pow_le_pow_right (by norm_num) ?_)
      omega
  have hge : E = -1074 ∨ 2 ^ 52 ≤ em.mantissa := by
    by_cases h : E = -1074
    · exact Or.inl h
    · right
      have hl : m.log2 = 52 + k := by omega
      have hm : m ≠ 0 := by rintro rfl; simp at hl; omega
      rw [hemm, Nat.le_div_iff_mul_le (Nat.two_pow_pos k), ← pow_add, ← hl]
      exact (log2_bounds hm).1
  generalize hn : em.roundedMantissa = n at r1 r2 r3 r4
  have hsh : UnpackedFloat.shiftToTargetExponent Format.binary64 m e a = (em, E) := by
    unfold UnpackedFloat.shiftToTargetExponent UnpackedFloat.shiftToExponent
    simp only [htgt, hk, hem, hkE]
  refine ⟨n, E, by omega, by omega, r1, r2, ?_, ?_, ?_⟩
  · refine hge.imp_right fun h => ⟨le_trans (by exact_mod_cast h) b1, by omega⟩
  · refine lt_of_lt_of_le b2 ?_
    have : em.mantissa + 1 ≤ 2 ^ 53 := hlt
    exact_mod_cast this
  · unfold UnpackedFloat.roundWithAccuracy
    simp only [hsh, hn]
    by_cases hnl : n < 2 ^ 53
    · have hsh2 : UnpackedFloat.shiftToTargetExponent Format.binary64 n E .exact = (⟨n, false, false⟩, E) := by
        unfold UnpackedFloat.shiftToTargetExponent UnpackedFloat.shiftToExponent
        have : (Format.targetExponent Format.binary64 (Float.Model.totalExponent n E) - E).toNat = 0 := by
          rw [targetExponent_eq]
          unfold Float.Model.totalExponent
          have : n.log2 ≤ 52 := by
            by_cases h0 : n = 0
            · subst h0; simp
            · have := (Nat.log2_lt h0).2 hnl; omega
          omega
        simp only [this]
        rw [show (E + ((0 : Nat) : Int)) = E by simp]
        rfl
      simp only [hsh2, if_pos hnl]
    · have hne : n = 2 ^ 53 := by omega
      subst hne
      have hl : (2 ^ 53 : Nat).log2 = 53 := by rw [Nat.log2_two_pow]
      have hsh2 : UnpackedFloat.shiftToTargetExponent Format.binary64 (2 ^ 53) E .exact = (⟨2 ^ 52, false, false⟩, E + 1) := by
        unfold UnpackedFloat.shiftToTargetExponent UnpackedFloat.shiftToExponent
        have : (Format.targetExponent Format.binary64 (Float.Model.totalExponent (2 ^ 53) E) - E).toNat = 1 := by
          rw [targetExponent_eq]
          unfold Float.Model.totalExponent
          rw [hl]
          omega
        simp only [this]
        have := shiftRight_exact (2 ^ 52) 1
        rw [show (2 ^ 52 * 2 ^ 1 : Nat) = 2 ^ 53 by norm_num] at this
        simp only [ExtendedMantissa.ofMantissaAndAccuracy]
        rw [this]
        rfl
      simp only [hsh2, if_neg (Nat.lt_irrefl _)]
      rw [dif_neg (by norm_num), dif_neg (by norm_num)]

/-! ## Packing -/

theorem unpack_overflow {s : Sign} {m : Nat} {e : Int} (h : 0 < m) (he : 971 < e) : (Float.Model.pack (.finite s m e h)).unpack = .infinity s := by
  rw [unpack_pack_model]
  have e1 : Format.exponentBias Format.binary64 = 1023 := by decide
  have e2 : Format.mantissaBitsWithoutImplicit Format.binary64 = 52 := by decide
  unfold UnpackedFloat.pack
  simp only
  have hb : (e + (Format.exponentBias Format.binary64 : Int) + (Format.mantissaBitsWithoutImplicit Format.binary64 : Int)).toNat = (e + 1075).toNat := by
    rw [e1, e2]; push_cast; congr 1; ring
  rw [hb, if_pos (by omega)]
  exact unpack_inf s

theorem scaled_mag (n : Nat) (E : Int) : scaled (mag n E) E = n := by
  unfold scaled mag
  rw [mul_div_assoc, div_self (zpow_ne_zero _ (by norm_num)), mul_one]

theorem scaled_abs (x y : ℚ) (E : Int) : |x - y| = |scaled x E - scaled y E| * 2 ^ E := by
  unfold scaled
  rw [← sub_div, abs_div, abs_of_pos (a := (2 : ℚ) ^ E) (zpow_pos (by norm_num) _), div_mul_cancel₀]
  exact zpow_ne_zero _ (by norm_num)

theorem scaled_le {x y : ℚ} {E : Int} : scaled x E ≤ scaled y E ↔ x ≤ y := by
  unfold scaled
  exact div_le_div_iff_of_pos_right (zpow_pos (by norm_num) _)

theorem scaled_lt {x y : ℚ} {E : Int} : scaled x E < scaled y E ↔ x < y := by
  unfold scaled
  exact div_lt_div_iff_of_pos_right (zpow_pos (by norm_num) _)

/-- Large representable numbers are multiples of the unit. -/
theorem rep_grid {z : ℚ} (hz : Rep z) {E : Int} (h : E = -1074 ∨ 2 ^ 52 ≤ |scaled z E|) : ∃ j : Int, scaled z E = j := by
  rcases rep_iff.1 hz with rfl | ⟨m, e, hc, hq⟩
  · exact ⟨0, by simp [scaled]⟩
  · have hle : E ≤ e := by
      rcases h with h | h
      · have := hc.2.2.1; omega
      · by_contra hlt
        have h1 : |scaled z E| = mag m e / 2 ^ E := by
          unfold scaled
          rw [abs_div, hq, abs_of_pos (a := (2 : ℚ) ^ E) (zpow_pos (by norm_num) _)]
        have h2 : mag m e / 2 ^ E = m / 2 ^ (E - e).toNat := by
          have : E = e + ((E - e).toNat : Int) := by omega
          conv_lhs => rw [this]
          unfold mag
          rw [zpow_add₀ (by norm_num), zpow_natCast]
          have : (2 : ℚ) ^ e ≠ 0 := zpow_ne_zero _ (by norm_num)
          field_simp
        rw [h1, h2] at h
        have h3 : (2 : ℚ) ≤ 2 ^ (E - e).toNat := by
          calc (2 : ℚ) = 2 ^ 1 := by norm_num
            _ ≤ _ := pow_le_pow_right₀ (by norm_num) (by omega)
        have h4 : (m : ℚ) < 2 ^ 53 := by exact_mod_cast hc.2.1
        rw [le_div_iff₀ (by positivity)] at h
        nlinarith
    have h5 : |scaled z E| = ((m * 2 ^ (e - E).toNat : Nat) : ℚ) := by
      unfold scaled
      rw [abs_div, hq, abs_of_pos (a := (2 : ℚ) ^ E) (zpow_pos (by norm_num) _), div_eq_iff (zpow_ne_zero _ (by norm_num))]
      show _ = mag _ E
      rw [mag_shift]
      congr 1
      omega
    rcases abs_cases (scaled z E) with ⟨h6, -⟩ | ⟨h6, -⟩
    · exact ⟨((m * 2 ^ (e - E).toNat : Nat) : Int), by rw [← h6, h5]; push_cast; rfl⟩
    · exact ⟨-((m * 2 ^ (e - E).toNat : Nat) : Int), by rw [← neg_eq_iff_eq_neg.2 h6.symm.symm, h5]; push_cast; rfl⟩

/-- An integer at most one half away is nearest. -/
theorem near_int {X : ℚ} {n j : Int} (h : |X - n| ≤ 1 / 2) : |X - n| ≤ |X - j| ∧ (j ≠ n → |X - j| = |X - n| → |X - n| = 1 / 2) := by
  by_cases hj : j = n
  · subst hj; exact ⟨le_refl _, fun hh => absurd rfl hh⟩
  · have h1 : (1 : ℚ) ≤ |(n : ℚ) - j| := by
      have : (1 : Int) ≤ |n - j| := Int.one_le_abs (by omega)
      exact_mod_cast this
    have h2 : |(n : ℚ) - j| ≤ |X - n| + |X - j| := by
      have := abs_sub_le (n : ℚ) X j
      rwa [abs_sub_comm (n : ℚ) X] at this
    exact ⟨by linarith, fun _ he => by linarith⟩

/-- The unit in which the limit is an odd multiple of one half. -/
def unit : ℚ := 2 ^ 970

theorem unit_pos : 0 < unit := by unfold unit; exact pow_pos (by norm_num) _
set_option exponentiation.threshold 2000 in
theorem limit_eq : limit = (2 ^ 54 - 1) * unit := by
  unfold limit unit
  rw [show (1024 : Nat) = 54 + 970 by norm_num, pow_add]
  ring
theorem unit_0 : (2 : ℚ) ^ (970 : Int) = unit := by unfold unit; rw [show (970 : Int) = ((970 : Nat) : Int) by norm_num, zpow_natCast]
theorem unit_1 : (2 : ℚ) ^ (971 : Int) = 2 * unit := by
  rw [← unit_0, show (971 : Int) = 1 + 970 by norm_num, zpow_add₀ (by norm_num)]; norm_num
theorem unit_2 : (2 : ℚ) ^ (972 : Int) = 4 * unit := by
  rw [← unit_0, show (972 : Int) = 2 + 970 by norm_num, zpow_add₀ (by norm_num)]; norm_num

theorem limit_pos : (0 : ℚ) < limit := by rw [limit_eq]; linarith [unit_pos]

/-- The value of a mantissa that may have 54 bits, packed. -/
theorem val_form {s : Sign} {n : Nat} {E : Int} (hn : n ≤ 2 ^ 53) (h1 : -1074 ≤ E) (h2 : E ≤ 971) (h3 : E = -1074 ∨ 2 ^ 52 ≤ n) (h4 : n = 2 ^ 53 → E < 971)
    {f : F64} (hf : f = Float.Model.pack (if h0 : n = 0 then .zero s else if n < 2 ^ 53 then .finite s n E (Nat.pos_of_ne_zero h0) else
      .finite s (2 ^ 52) (E + 1) (by norm_num))) : val f = some (sgn s * mag n E) ∧ (n % 2 = 0 → EvenBit f) := by
  by_cases h0 : n = 0
  · subst h0
    simp only [dif_pos] at hf
    subst hf
    refine ⟨?_, fun _ => ?_⟩
    · show uval (Float.Model.pack (.zero s)).unpack = _
      rw [unpack_zero]; simp [uval, mag]
    · unfold EvenBit; rw [unpack_zero]; trivial
  · rw [dif_neg h0] at hf
    by_cases hl : n < 2 ^ 53
    · rw [if_pos hl] at hf
      have hc : Canon n E := ⟨by omega, hl, h1, h2, by omega⟩
      subst hf
      exact ⟨by rw [val_finite hc, uval_finite], fun he => by unfold EvenBit; rw [unpack_pack hc]; exact he⟩
    · rw [if_neg hl] at hf
      have hne : n = 2 ^ 53 := by omega
      have hc : Canon (2 ^ 52) (E + 1) := ⟨by norm_num, by norm_num, by omega, by have := h4 hne; omega, Or.inl (le_refl _)⟩
      subst hf
      refine ⟨?_, fun _ => by unfold EvenBit; rw [unpack_pack hc]; rfl⟩
      rw [val_finite hc, uval_finite, hne, show (2 ^ 53 : Nat) = 2 ^ 52 * 2 ^ 1 by norm_num, mag_shift]
      rfl

theorem scaled_pow {x : ℚ} {E : Int} : x = scaled x E * 2 ^ E := by
  unfold scaled
  rw [div_mul_cancel₀]
  exact zpow_ne_zero _ (by norm_num)

theorem rounded_of {s : Sign} {m : Nat} {e : Int} {a : Accuracy} {x : ℚ} (hx : 0 < x) (ha : AppAcc (scaled x e) m a) (hb : 52 ≤ m.log2 ∨ e ≤ -1074) :
    Rounded (sgn s * x) (Float.Model.pack (UnpackedFloat.roundWithAccuracy Format.binary64 s m e a)) := by
  obtain ⟨n, E, hn, hE, r1, r2, r3, r4, hform⟩ := roundWithAccuracy_form (s := s) ha hb
  rw [hform]
  have habs : |sgn s * x| = x := by rw [abs_mul, sgn_abs, one_mul, abs_of_pos hx]
  have hp : ∀ E : Int, (0 : ℚ) < 2 ^ E := fun E => zpow_pos (by norm_num) _
  have hmono : ∀ {a b : Int}, a ≤ b → (2 : ℚ) ^ a ≤ 2 ^ b := fun {a b} h => zpow_le_zpow_right₀ (by norm_num) h
  -- too large
  have hbig : limit ≤ x → (Float.Model.pack (if h0 : n = 0 then .zero s else if n < 2 ^ 53 then .finite s n E (Nat.pos_of_ne_zero h0) else
      .finite s (2 ^ 52) (E + 1) (by norm_num))).unpack = .infinity s := by
    intro hl
    have hx' := scaled_pow (x := x) (E := E)
    have hE' : 971 ≤ E := by
      by_contra hlt
      have h1 : (2 : ℚ) ^ E ≤ 2 ^ (970 : Int) := hmono (by omega)
      have h2 : x < 2 ^ 53 * 2 ^ (970 : Int) := by
        rw [hx']
        calc scaled x E * 2 ^ E < 2 ^ 53 * 2 ^ E := by exact mul_lt_mul_of_pos_right r4 (hp _)
          _ ≤ _ := by exact mul_le_mul_of_nonneg_left h1 (by norm_num)
      have h3 : (2 : ℚ) ^ 53 * 2 ^ (970 : Int) ≤ limit := by rw [limit_eq, unit_0]; linarith [unit_pos]
      linarith
    have hn52 : 2 ^ 52 ≤ n := by omega
    rw [dif_neg (by omega)]
    by_cases hE2 : E = 971
    · have hX : (2 : ℚ) ^ 53 - 1 / 2 ≤ scaled x E := by
        unfold scaled
        rw [hE2, le_div_iff₀ (hp _)]
        refine le_trans (le_of_eq ?_) hl
        rw [limit_eq, unit_1]
        ring
      have hn53 : n = 2 ^ 53 := by
        have h1 : ((2 ^ 53 - 1 : Nat) : ℚ) ≤ n := by
          have := (abs_le.1 r1).2
          push_cast
          linarith
        have h2 : 2 ^ 53 - 1 ≤ n := by exact_mod_cast h1
        by_contra hne
        have h3 : n = 2 ^ 53 - 1 := by omega
        have h4 : |scaled x E - n| = 1 / 2 := by
          refine le_antisymm r1 ?_
          rw [h3]
          refine le_trans ?_ (le_abs_self _)
          push_cast
          linarith
        have := r2 h4
        omega
      rw [if_neg (by omega)]
      exact unpack_overflow _ (by omega)
    · split
      · exact unpack_overflow _ (by omega)
      · exact unpack_overflow _ (by omega)
  refine ⟨fun hl => ?_, fun hl => ?_, fun hl => ?_⟩
  · rw [habs] at hl
    have hx' := scaled_pow (x := x) (E := E)
    have hE' : E ≤ 971 := by
      by_contra hgt
      have h52 : (2 : ℚ) ^ 52 ≤ scaled x E := by
        rcases r3 with h | h
        · omega
        · exact h.1
      have h1 : (2 : ℚ) ^ (972 : Int) ≤ 2 ^ E := hmono (by omega)
      have h2 : (2 : ℚ) ^ 52 * 2 ^ (972 : Int) ≤ x := by
        rw [hx']
        exact mul_le_mul h52 h1 (hp _).le (by linarith [show (0 : ℚ) < 2 ^ 52 by norm_num])
      have h3 : limit ≤ (2 : ℚ) ^ 52 * 2 ^ (972 : Int) := by rw [limit_eq, unit_2]; linarith [unit_pos]
      linarith
    have hE2 : n = 2 ^ 53 → E < 971 := by
      intro h53
      by_contra hge
      have hE3 : E = 971 := by omega
      have h1 : (2 : ℚ) ^ 53 - 1 / 2 ≤ scaled x E := by
        have := (abs_le.1 r1).1
        rw [h53] at this
        push_cast at this
        linarith
      have h2 : limit ≤ x := by
        rw [hx', hE3]
        rw [hE3] at h1
        refine le_trans (le_of_eq ?_) (mul_le_mul_of_nonneg_right h1 (hp _).le)
        rw [limit_eq, unit_1]
        ring
      linarith
    generalize hf : Float.Model.pack _ = f
    obtain ⟨hv, hev⟩ := val_form hn hE hE' (r3.imp_right (·.2)) hE2 hf.symm
    refine ⟨_, hv, fun z hz => ?_⟩
    -- without the sign
    have hss : sgn s * sgn s = 1 := by cases s <;> norm_num [sgn]
    have hz' : Rep (sgn s * z) := rep_sgn.2 hz
    have e1 : |sgn s * x - sgn s * mag n E| = |x - mag n E| := by rw [← mul_sub, abs_mul, sgn_abs, one_mul]
    have e2 : |sgn s * x - z| = |x - sgn s * z| := by
      have : sgn s * x - z = sgn s * (x - sgn s * z) := by rw [mul_sub, ← mul_assoc, hss, one_mul]
      rw [this, abs_mul, sgn_abs, one_mul]
    have e3 : z ≠ sgn s * mag n E → sgn s * z ≠ mag n E := by
      intro h h'
      apply h
      rw [← h', ← mul_assoc, hss, one_mul]
    rw [e1, e2]
    generalize sgn s * z = w at hz' e3 ⊢
    rw [scaled_abs x (mag n E) E, scaled_abs x w E, scaled_mag]
    have hgoal : |scaled x E - n| ≤ |scaled x E - scaled w E| ∧ (w ≠ mag n E → |scaled x E - scaled w E| = |scaled x E - n| → n % 2 = 0) := by
      have hint : ∀ j : Int, |scaled x E - n| ≤ |scaled x E - j| ∧ (j ≠ n → |scaled x E - j| = |scaled x E - n| → n % 2 = 0) := by
        intro j
        have := near_int (X := scaled x E) (n := (n : Int)) (j := j) (by simpa using r1)
        rw [Int.cast_natCast] at this
        exact ⟨this.1, fun h1 h2 => r2 (this.2 h1 h2)⟩
      by_cases hg : E = -1074 ∨ 2 ^ 52 ≤ |scaled w E|
      · obtain ⟨j, hj⟩ := rep_grid hz' hg
        rw [hj]
        refine ⟨(hint j).1, fun hne => (hint j).2 fun hjn => hne ?_⟩
        rw [scaled_pow (x := w) (E := E), hj, hjn]
        rfl
      · have hE4 : E ≠ -1074 := fun h => hg (Or.inl h)
        have hw : |scaled w E| < 2 ^ 52 := not_le.1 fun h => hg (Or.inr h)
        have h52 : (2 : ℚ) ^ 52 ≤ scaled x E := by
          rcases r3 with h | h
          · exact absurd h hE4
          · exact h.1
        have h1 := (hint (2 ^ 52)).1
        have h2 : |scaled x E - ((2 ^ 52 : Int) : ℚ)| < |scaled x E - scaled w E| := by
          have := (abs_lt.1 hw).2
          push_cast
          rw [abs_of_nonneg (by linarith), abs_of_pos (by linarith)]
          linarith
        exact ⟨by linarith, fun _ he => by linarith⟩
    refine ⟨mul_le_mul_of_nonneg_right hgoal.1 (hp _).le, fun hne heq => hev (hgoal.2 (e3 hne) ?_)⟩
    exact mul_right_cancel₀ (hp E).ne' heq
  · cases s with
    | positive => exact hbig (by simpa [sgn] using hl)
    | negative =>
      exfalso
      have := limit_pos
      simp only [sgn] at hl
      linarith
  · cases s with
    | positive =>
      exfalso
      have := limit_pos
      simp only [sgn] at hl
      linarith
    | negative => exact hbig (by simp only [sgn] at hl; linarith)

/-! ## The size of the largest `f64` -/

theorem rep_small {x : ℚ} (h : Rep x) : |x| < limit := by
  rcases rep_iff.1 h with rfl | ⟨m, e, hc, hq⟩
  · rw [abs_zero]; exact limit_pos
  · rw [hq]
    obtain ⟨h0, h1, h2, h3, h4⟩ := hc
    have hm : (m : ℚ) ≤ 2 ^ 53 - 1 := by
      have : m + 1 ≤ 2 ^ 53 := h1
      have : ((m + 1 : Nat) : ℚ) ≤ ((2 ^ 53 : Nat) : ℚ) := by exact_mod_cast this
      push_cast at this
      linarith
    have he : (2 : ℚ) ^ e ≤ 2 * unit := by rw [← unit_1]; exact zpow_le_zpow_right₀ (by norm_num) h3
    have hu := unit_pos
    unfold mag
    calc (m : ℚ) * 2 ^ e ≤ (2 ^ 53 - 1) * (2 * unit) := mul_le_mul hm he (zpow_pos (by norm_num) _).le (by norm_num)
      _ < limit := by rw [limit_eq]; linarith

/-- A representable number is rounded to itself. -/
theorem rounded_val {f : F64} {x : ℚ} (h : val f = some x) : Rounded x f := by
  have hs := rep_small ⟨f, h⟩
  refine ⟨fun _ => ⟨x, h, fun z _ => ⟨by simp, fun hne heq => ?_⟩⟩, fun hl => ?_, fun hl => ?_⟩
  · rw [sub_self, abs_zero, abs_eq_zero, sub_eq_zero] at heq
    exact absurd heq.symm hne
  · have := (abs_lt.1 hs).2; linarith
  · have := (abs_lt.1 hs).1; linarith

/-! ## The operations -/

theorem rounded_exact {s : Sign} {m : Nat} {e : Int} (hm : m ≠ 0) (hb : 52 ≤ m.log2 ∨ e ≤ -1074) :
    Rounded (sgn s * mag m e) (Float.Model.pack (UnpackedFloat.roundWithAccuracy Format.binary64 s m e .exact)) :=
  rounded_of (mag_pos (Nat.pos_of_ne_zero hm)) (scaled_mag m e) hb

theorem rounded_round {s : Sign} {m : Nat} {e : Int} (hm : m ≠ 0) :
    Rounded (sgn s * mag m e) (Float.Model.pack (UnpackedFloat.round Format.binary64 s m e)) := by
  unfold UnpackedFloat.round UnpackedFloat.decreaseExponent
  rw [targetExponent_eq]
  unfold Float.Model.totalExponent
  simp only
  generalize hk : (e - max ((m.log2 : Int) + 1 + e - 53) (-1074)).toNat = k
  rw [Nat.shiftLeft_eq]
  have hv : mag m e = mag (m * 2 ^ k) (e - k) := by rw [mag_shift]; congr 1; omega
  rw [hv]
  refine rounded_exact (Nat.mul_ne_zero hm (Nat.two_pow_pos _).ne') ?_
  rw [log2_shift hm]
  omega

theorem rounded_normalize (n e : Int) : Rounded ((n : ℚ) * 2 ^ e) (Float.Model.pack (UnpackedFloat.normalize Format.binary64 n e .positive)) := by
  unfold UnpackedFloat.normalize
  rcases lt_trichotomy n 0 with h | h | h
  · have hc : compare n 0 = .lt := Int.compare_eq_lt.mpr h
    rw [hc]
    simp only
    have hcast : (((-n).toNat : Nat) : ℚ) = -(n : ℚ) := by
      have : (((-n).toNat : Nat) : Int) = -n := by omega
      exact_mod_cast congrArg (Int.cast (R := ℚ)) this
    have hmag : (n : ℚ) * 2 ^ e = sgn .negative * mag (-n).toNat e := by unfold mag sgn; rw [hcast]; ring
    rw [hmag]
    exact rounded_round (by omega)
  · subst h
    have hc : compare (0 : Int) 0 = .eq := Int.compare_eq_eq.mpr rfl
    rw [hc]
    simp only [Int.cast_zero, zero_mul]
    refine rounded_val ?_
    show uval (Float.Model.pack (.zero .positive)).unpack = _
    rw [unpack_zero]; rfl
  · have hc : compare n 0 = .gt := Int.compare_eq_gt.mpr h
    rw [hc]
    simp only
    have hcast : ((n.toNat : Nat) : ℚ) = (n : ℚ) := by
      have : ((n.toNat : Nat) : Int) = n := by omega
      exact_mod_cast congrArg (Int.cast (R := ℚ)) this
    have hmag : (n : ℚ) * 2 ^ e = sgn .positive * mag n.toNat e := by unfold mag sgn; rw [hcast]; ring
    rw [hmag]
    exact rounded_round (by omega)

/-- Integers are converted to the nearest `f64`. -/
theorem rounded_ofInt (n : Int) : Rounded (n : ℚ) (ofInt n) := by
  have := rounded_normalize n 0
  rw [zpow_zero, mul_one] at this
  exact this

/-- A representable result is exact. -/
theorem Rounded.exact {x : ℚ} {f : F64} (h : Rounded x f) (hr : Rep x) : val f = some x := by
  obtain ⟨y, hy, hn⟩ := h.1 (rep_small hr)
  have := (hn x hr).1
  rw [sub_self, abs_zero] at this
  rw [hy, ← sub_eq_zero.1 (abs_eq_zero.1 (le_antisymm this (abs_nonneg _)))]

/-- Sums are correctly rounded. -/
theorem rounded_add {a b : F64} {x y : ℚ} (ha : val a = some x) (hb : val b = some y) : Rounded (x + y) (a + b) := by
  by_cases hr : Rep (x + y)
  · exact rounded_val (val_add ha hb hr)
  show Rounded _ (Float.Model.pack (UnpackedFloat.add Format.binary64 a.unpack b.unpack))
  have hx : x ≠ 0 := by rintro rfl; rw [zero_add] at hr; exact hr ⟨b, hb⟩
  have hy : y ≠ 0 := by rintro rfl; rw [add_zero] at hr; exact hr ⟨a, ha⟩
  have key : ∀ (s : Sign) (m : Nat) (e e0 : Int) (h : 0 < m) (x : ℚ), e0 ≤ e → uval (.finite s m e h) = some x →
      ((s.apply ((UnpackedFloat.decreaseExponent m e e0).1) : Int) : ℚ) * 2 ^ e0 = x := by
    intro s m e e0 h x hle hx
    have h1 : (UnpackedFloat.decreaseExponent m e e0).1 = m * 2 ^ (e - e0).toNat := by
      unfold UnpackedFloat.decreaseExponent; simp [Nat.shiftLeft_eq]
    have h2 : mag (m * 2 ^ (e - e0).toNat) e0 = mag m e := by rw [mag_shift]; congr 1; omega
    rw [h1]
    cases s
    · simp only [uval, Option.some.injEq] at hx
      rw [← hx, ← h2]; unfold mag Sign.apply; push_cast; ring
    · simp only [uval, Option.some.injEq] at hx
      rw [← hx, ← h2]; unfold mag Sign.apply; push_cast; ring
  have main : ∀ (s t : Sign) (m m' : Nat) (e e' : Int) (h : 0 < m) (h' : 0 < m'), uval (.finite s m e h) = some x → uval (.finite t m' e' h') = some y →
      Rounded (x + y) (Float.Model.pack (UnpackedFloat.add Format.binary64 (.finite s m e h) (.finite t m' e' h'))) := by
    intro s t m m' e e' h h' ha hb
    have k1 := key s m e (min e e') h x (min_le_left _ _) ha
    have k2 := key t m' e' (min e e') h' y (min_le_right _ _) hb
    have hsum : (((s.apply ((UnpackedFloat.decreaseExponent m e (min e e')).1) + t.apply ((UnpackedFloat.decreaseExponent m' e' (min e e')).1) : Int)) : ℚ)
        * 2 ^ (min e e') = x + y := by
      push_cast; rw [add_mul, k1, k2]
    rw [← hsum]
    exact rounded_normalize (s.apply ((UnpackedFloat.decreaseExponent m e (min e e')).1) + t.apply ((UnpackedFloat.decreaseExponent m' e' (min e e')).1)) _
  rcases val_cases ha with ⟨s, hu, rfl⟩ | ⟨m, e, hm, hc, hu, rfl⟩ | ⟨m, e, hm, hc, hu, rfl⟩
  · exact absurd rfl hx
  all_goals
    rcases val_cases hb with ⟨t, hv, rfl⟩ | ⟨m', e', hm', hc', hv, rfl⟩ | ⟨m', e', hm', hc', hv, rfl⟩
    · exact absurd rfl hy
    all_goals
      rw [hu, hv]
      exact main _ _ _ _ _ _ _ _ rfl rfl

/-- A difference is the sum with the negated number. -/
theorem sub_eq {a b : F64} {x y : ℚ} (ha : val a = some x) (hb : val b = some y) : a - b = a + Float.Model.neg b := by
  show Float.Model.pack (UnpackedFloat.sub Format.binary64 a.unpack b.unpack) =
    Float.Model.pack (UnpackedFloat.add Format.binary64 a.unpack (Float.Model.neg b).unpack)
  congr 1
  have hn : (Float.Model.neg b).unpack = (match b.unpack with
    | .zero s => .zero (-s)
    | .finite s m e h => .finite (-s) m e h
    | u => u) := by
    unfold Float.Model.neg
    rcases val_cases hb with ⟨s, hu, rfl⟩ | ⟨m, e, hm, hc, hu, rfl⟩ | ⟨m, e, hm, hc, hu, rfl⟩ <;> rw [hu]
    · exact unpack_zero _
    · exact unpack_pack hc
    · exact unpack_pack hc
  rw [hn]
  rcases val_cases hb with ⟨s, hu, rfl⟩ | ⟨m, e, hm, hc, hu, rfl⟩ | ⟨m, e, hm, hc, hu, rfl⟩ <;> rw [hu] <;>
  rcases val_cases ha with ⟨t, hv, rfl⟩ | ⟨k, f, hk, hd, hv, rfl⟩ | ⟨k, f, hk, hd, hv, rfl⟩ <;> rw [hv] <;>
  simp [UnpackedFloat.sub, UnpackedFloat.add, Sign.apply, sub_eq_add_neg]

/-- Differences are correctly rounded. -/
theorem rounded_sub {a b : F64} {x y : ℚ} (ha : val a = some x) (hb : val b = some y) : Rounded (x - y) (a - b) := by
  rw [sub_eq ha hb, sub_eq_add_neg]
  exact rounded_add ha (val_neg hb)

theorem neg_neg_sign (s : Sign) : -(-s) = s := by cases s <;> rfl

/-- Negation of what is rounded. -/
theorem Rounded.neg {x : ℚ} {f : F64} (h : Rounded x f) : Rounded (-x) (Float.Model.neg f) := by
  obtain ⟨h1, h2, h3⟩ := h
  refine ⟨fun hl => ?_, fun hl => ?_, fun hl => ?_⟩
  · rw [abs_neg] at hl
    obtain ⟨y, hy, hn⟩ := h1 hl
    refine ⟨-y, val_neg hy, fun z hz => ?_⟩
    obtain ⟨a, b⟩ := hn (-z) (rep_neg hz)
    have e1 : |-x - -y| = |x - y| := by rw [← abs_neg]; congr 1; ring
    have e2 : |-x - z| = |x - -z| := by rw [← abs_neg]; congr 1; ring
    rw [e1, e2]
    refine ⟨a, fun hne heq => ?_⟩
    have he := b (fun h => hne (by rw [← h, neg_neg])) heq
    unfold EvenBit Float.Model.neg at *
    rcases val_cases hy with ⟨s, hu, rfl⟩ | ⟨m, e, hm, hc, hu, rfl⟩ | ⟨m, e, hm, hc, hu, rfl⟩ <;> rw [hu] at he ⊢
    · rw [show UnpackedFloat.neg (.zero s) = .zero (-s) from rfl, unpack_zero]; trivial
    · erw [unpack_pack hc]; exact he
    · erw [unpack_pack hc]; exact he
  · unfold Float.Model.neg
    rw [h3 (by linarith)]; exact unpack_inf _
  · unfold Float.Model.neg
    rw [h2 (by linarith)]; exact unpack_inf _

/-- Products are correctly rounded. -/
theorem rounded_mul {a b : F64} {x y : ℚ} (ha : val a = some x) (hb : val b = some y) : Rounded (x * y) (a * b) := by
  by_cases hr : Rep (x * y)
  · exact rounded_val (val_mul ha hb hr)
  show Rounded _ (Float.Model.pack (UnpackedFloat.mul Format.binary64 a.unpack b.unpack))
  have hx : x ≠ 0 := by rintro rfl; rw [zero_mul] at hr; exact hr (rep_iff.2 (Or.inl rfl))
  have hy : y ≠ 0 := by rintro rfl; rw [mul_zero] at hr; exact hr (rep_iff.2 (Or.inl rfl))
  have main : ∀ (s t : Sign) (m m' : Nat) (e e' : Int) (h : 0 < m) (h' : 0 < m'), Canon m e → Canon m' e' → x = sgn s * mag m e → y = sgn t * mag m' e' →
      Rounded (x * y) (Float.Model.pack (UnpackedFloat.mul Format.binary64 (.finite s m e h) (.finite t m' e' h'))) := by
    intro s t m m' e e' h h' hc hc' ha hb
    show Rounded _ (Float.Model.pack (UnpackedFloat.roundWithAccuracy Format.binary64 (s * t) (m * m') (e + e') .exact))
    have he : x * y = sgn (s * t) * mag (m * m') (e + e') := by
      rw [ha, hb, sgn_mul, mag_mul]; ring
    rw [he]
    refine rounded_exact (Nat.mul_ne_zero (by omega) (by omega)) ?_
    obtain ⟨_, _, h2, _, h4⟩ := hc
    obtain ⟨_, _, h2', _, h4'⟩ := hc'
    by_cases hbig : 2 ^ 52 ≤ m * m'
    · left; exact (Nat.le_log2 (Nat.mul_ne_zero (by omega) (by omega))).2 hbig
    · right
      have g1 : ¬ 2 ^ 52 ≤ m := fun hh => hbig (le_trans hh (Nat.le_mul_of_pos_right _ h'))
      have g2 : ¬ 2 ^ 52 ≤ m' := fun hh => hbig (le_trans hh (Nat.le_mul_of_pos_left _ h))
      omega
  rcases val_cases ha with ⟨s, hu, rfl⟩ | ⟨m, e, hm, hc, hu, rfl⟩ | ⟨m, e, hm, hc, hu, rfl⟩
  · exact absurd rfl hx
  all_goals
    rcases val_cases hb with ⟨t, hv, rfl⟩ | ⟨m', e', hm', hc', hv, rfl⟩ | ⟨m', e', hm', hc', hv, rfl⟩
    · exact absurd rfl hy
    all_goals
      rw [hu, hv]
      exact main _ _ _ _ _ _ _ _ hc hc' (by simp [sgn]) (by simp [sgn])

theorem app_fraction (q num den : Nat) (hd : 0 < den) (hn : num < den) : AppAcc ((q : ℚ) + num / den) q (UnpackedFloat.accuracyOfFraction num den) := by
  have hd' : (0 : ℚ) < den := by exact_mod_cast hd
  have hn' : (num : ℚ) < den := by exact_mod_cast hn
  unfold AppAcc UnpackedFloat.accuracyOfFraction
  split
  · rename_i h; subst h; simp [ExtendedMantissa.ofMantissaAndAccuracy, App]
  · rename_i h
    have hp : (0 : ℚ) < num := by exact_mod_cast Nat.pos_of_ne_zero h
    have hpos : (0 : ℚ) < (num : ℚ) / den := div_pos hp hd'
    have hl1 : (num : ℚ) / den < 1 := by rw [div_lt_one hd']; exact hn'
    rcases lt_trichotomy (2 * num) den with hc | hc | hc
    · rw [Nat.compare_eq_lt.2 hc]
      have : (num : ℚ) / den < 1 / 2 := by
        rw [div_lt_div_iff₀ hd' (by norm_num)]
        have : ((2 * num : Nat) : ℚ) < den := by exact_mod_cast hc
        push_cast at this; linarith
      simp only [ExtendedMantissa.ofMantissaAndAccuracy, App]
      constructor <;> linarith
    · rw [Nat.compare_eq_eq.2 hc]
      have : (num : ℚ) / den = 1 / 2 := by
        rw [div_eq_div_iff hd'.ne' (by norm_num)]
        have : ((2 * num : Nat) : ℚ) = den := by exact_mod_cast hc
        push_cast at this; linarith
      simp only [ExtendedMantissa.ofMantissaAndAccuracy, App]
      rw [this]
    · rw [Nat.compare_eq_gt.2 hc]
      have : 1 / 2 < (num : ℚ) / den := by
        rw [div_lt_div_iff₀ (by norm_num) hd']
        have : (den : ℚ) < ((2 * num : Nat) : ℚ) := by exact_mod_cast hc
        push_cast at this; linarith
      simp only [ExtendedMantissa.ofMantissaAndAccuracy, App]
      constructor <;> linarith

/-- Quotients of magnitudes are correctly rounded. -/
theorem rounded_divCore {s : Sign} {m₁ m₂ : Nat} {e₁ e₂ : Int} (h1 : 0 < m₁) (h2 : 0 < m₂) :
    Rounded (sgn s * (mag m₁ e₁ / mag m₂ e₂)) (Float.Model.pack
      (let (m, e, acc) := UnpackedFloat.divCore Format.binary64 m₁ e₁ m₂ e₂
       UnpackedFloat.roundWithAccuracy Format.binary64 s m e acc)) := by
  have hp : ∀ E : Int, (2 : ℚ) ^ E ≠ 0 := fun E => zpow_ne_zero _ (by norm_num)
  unfold UnpackedFloat.divCore
  rw [targetExponent_eq]
  unfold Float.Model.totalExponent
  simp only
  generalize hte : min (e₁ - e₂) (max ((m₁.log2 : Int) + 1 + e₁ - (m₂.log2 + 1 + e₂) - 53) (-1074)) = te
  generalize hk : (e₁ - e₂ - te).toNat = k
  rw [Nat.shiftLeft_eq]
  have hm2 : (0 : ℚ) < m₂ := by exact_mod_cast h2
  have hx : scaled (mag m₁ e₁ / mag m₂ e₂) te = ((m₁ * 2 ^ k : Nat) : ℚ) / m₂ := by
    unfold scaled mag
    have : e₁ = e₂ + te + k := by omega
    rw [this, zpow_add₀ (by norm_num), zpow_add₀ (by norm_num), zpow_natCast]
    have := hp e₂
    have := hp te
    push_cast
    field_simp
  refine rounded_of (div_pos (mag_pos h1) (mag_pos h2)) ?_ ?_
  · rw [hx]
    have : ((m₁ * 2 ^ k : Nat) : ℚ) / m₂ = ((m₁ * 2 ^ k / m₂ : Nat) : ℚ) + ((m₁ * 2 ^ k % m₂ : Nat) : ℚ) / m₂ := by
      rw [div_eq_iff hm2.ne', add_mul, div_mul_cancel₀ _ hm2.ne']
      exact_mod_cast (Nat.div_add_mod' (m₁ * 2 ^ k) m₂).symm
    rw [this]
    exact app_fraction _ _ _ h2 (Nat.mod_lt _ h2)
  · by_cases hlow : te ≤ -1074
    · exact Or.inr hlow
    · left
      have hl : (m₂.log2 : Int) + 53 ≤ m₁.log2 + k := by omega
      have h3 : 2 ^ 52 ≤ m₁ * 2 ^ k / m₂ := by
        rw [Nat.le_div_iff_mul_le h2]
        have a := (log2_bounds (m := m₁) (by omega)).1
        have b := (log2_bounds (m := m₂) (by omega)).2
        calc 2 ^ 52 * m₂ ≤ 2 ^ 52 * 2 ^ (m₂.log2 + 1) := Nat.mul_le_mul_left _ b.le
          _ = 2 ^ (m₂.log2 + 53) := by rw [← pow_add]; congr 1; omega
          _ ≤ 2 ^ (m₁.log2 + k) := Nat.pow_le_pow_right (by norm_num) (by omega)
          _ = 2 ^ m₁.log2 * 2 ^ k := by rw [pow_add]
          _ ≤ _ := Nat.mul_le_mul_right _ a
      exact (Nat.le_log2 (by have := Nat.two_pow_pos 52; omega)).2 h3

/-- Quotients are correctly rounded. -/
theorem rounded_div {a b : F64} {x y : ℚ} (ha : val a = some x) (hb : val b = some y) (hy : y ≠ 0) : Rounded (x / y) (a / b) := by
  by_cases hr : Rep (x / y)
  · exact rounded_val (val_div ha hb hy hr)
  show Rounded _ (Float.Model.pack (UnpackedFloat.div Format.binary64 a.unpack b.unpack))
  have hx : x ≠ 0 := by rintro rfl; rw [zero_div] at hr; exact hr (rep_iff.2 (Or.inl rfl))
  have main : ∀ (s t : Sign) (m m' : Nat) (e e' : Int) (h : 0 < m) (h' : 0 < m'), x = sgn s * mag m e → y = sgn t * mag m' e' →
      Rounded (x / y) (Float.Model.pack (UnpackedFloat.div Format.binary64 (.finite s m e h) (.finite t m' e' h'))) := by
    intro s t m m' e e' h h' ha hb
    have he : x / y = sgn (s / t) * (mag m e / mag m' e') := by
      rw [ha, hb, sgn_div]
      have : (sgn t)⁻¹ = sgn t := by cases t <;> simp [sgn]
      rw [mul_div_mul_comm, div_eq_mul_inv (sgn s), this]
    rw [he]
    exact rounded_divCore h h'
  rcases val_cases ha with ⟨s, hu, rfl⟩ | ⟨m, e, hm, hc, hu, rfl⟩ | ⟨m, e, hm, hc, hu, rfl⟩
  · exact absurd rfl hx
  all_goals
    rcases val_cases hb with ⟨t, hv, rfl⟩ | ⟨m', e', hm', hc', hv, rfl⟩ | ⟨m', e', hm', hc', hv, rfl⟩
    · exact absurd rfl hy
    all_goals
      rw [hu, hv]
      exact main _ _ _ _ _ _ _ _ (by simp [sgn]) (by simp [sgn])

/-- Positive numbers that are very small are rounded to 0. -/
theorem rounded_tiny {x : ℚ} (hx : 0 ≤ x) (hs : x < 2 ^ (-1075 : Int)) {f : F64} (hf : val f = some 0) (he : EvenBit f) : Rounded x f := by
  have hl : |x| < limit := by
    rw [abs_of_nonneg hx]
    refine lt_of_lt_of_le hs ?_
    rw [limit_eq]
    have h1 : (2 : ℚ) ^ (-1075 : Int) ≤ 2 ^ (970 : Int) := zpow_le_zpow_right₀ (by norm_num) (by norm_num)
    rw [unit_0] at h1
    linarith [unit_pos]
  refine ⟨fun _ => ⟨0, hf, fun z hz => ⟨?_, fun _ _ => he⟩⟩, fun h => ?_, fun h => ?_⟩
  · rw [sub_zero, abs_of_nonneg hx]
    rcases rep_iff.1 hz with rfl | ⟨m, e, hc, hq⟩
    · rw [sub_zero, abs_of_nonneg hx]
    · have h1 : (2 : ℚ) ^ (-1074 : Int) ≤ |z| := by
        rw [hq]
        unfold mag
        have h2 : (1 : ℚ) ≤ m := by exact_mod_cast hc.1
        have h3 : (2 : ℚ) ^ (-1074 : Int) ≤ 2 ^ e := zpow_le_zpow_right₀ (by norm_num) hc.2.2.1
        have h4 : (0 : ℚ) < 2 ^ e := zpow_pos (by norm_num) _
        nlinarith
      have h2 : (2 : ℚ) ^ (-1074 : Int) = 2 * 2 ^ (-1075 : Int) := by
        rw [show (-1074 : Int) = 1 + -1075 by norm_num, zpow_add₀ (by norm_num)]; norm_num
      rcases abs_cases z with ⟨h3, -⟩ | ⟨h3, -⟩
      · refine le_trans ?_ (neg_le_abs _)
        linarith
      · refine le_trans ?_ (le_abs_self _)
        have : (0 : ℚ) < 2 ^ (-1075 : Int) := zpow_pos (by norm_num) _
        linarith
  · rw [abs_of_nonneg hx] at hl; linarith
  · have := limit_pos; linarith

theorem evenBit_zero (s : Sign) : EvenBit (Float.Model.pack (.zero s)) := by unfold EvenBit; rw [unpack_zero]; trivial

/-- Decimal numbers are correctly rounded. -/
theorem rounded_ofScientific (m : Nat) (e : Int) : Rounded ((m : ℚ) * 10 ^ e) (Float.Model.ofScientific m e) := by
  show Rounded _ (Float.Model.pack (UnpackedFloat.ofScientific Format.binary64 m e))
  have e3 : Format.exponentBits Format.binary64 = 11 := by decide
  unfold UnpackedFloat.ofScientific
  by_cases hm : m = 0
  · rw [dif_pos hm]
    subst hm
    rw [Nat.cast_zero, zero_mul]
    refine rounded_val ?_
    show uval (Float.Model.pack (.zero .positive)).unpack = _
    rw [unpack_zero]; simp [uval]
  have hm1 : (1 : ℚ) ≤ m := by exact_mod_cast Nat.pos_of_ne_zero hm
  have h10 : (0 : ℚ) < 10 ^ e := zpow_pos (by norm_num) _
  rw [dif_neg hm, e3]
  split
  · rename_i hbig
    have hbig : 2048 < e := by simpa using hbig
    have h1 : limit ≤ (10 : ℚ) ^ e := by
      have h2 : (2 : ℚ) ^ (1024 : Int) ≤ 10 ^ e := by
        calc (2 : ℚ) ^ (1024 : Int) ≤ 10 ^ (1024 : Int) := by
              rw [show (1024 : Int) = ((1024 : Nat) : Int) by norm_num, zpow_natCast, zpow_natCast]
              exact pow_le_pow_left₀ (by norm_num) (by norm_num) _
          _ ≤ _ := zpow_le_zpow_right₀ (by norm_num) (by omega)
      have h3 : (2 : ℚ) ^ (1024 : Int) = 2 ^ 54 * unit := by
        rw [← unit_0, show (1024 : Int) = 54 + 970 by norm_num, zpow_add₀ (by norm_num)]; norm_num
      rw [h3] at h2
      refine le_trans ?_ h2
      rw [limit_eq]
      exact mul_le_mul_of_nonneg_right (by norm_num) unit_pos.le
    have h2 : limit ≤ (m : ℚ) * 10 ^ e := by nlinarith
    have := limit_pos
    exact ⟨fun h => absurd (lt_of_le_of_lt (le_abs_self _) h) (not_lt.2 h2), fun _ => unpack_inf _, fun h => by linarith⟩
  split
  · rename_i _ hsm
    have hsm : e < -(2048 + (m.log2 : Int)) := by simpa using hsm
    refine rounded_tiny (by positivity) ?_ ?_ (evenBit_zero _)
    · have h1 : (m : ℚ) < 2 ^ ((m.log2 + 1 : Nat) : Int) := by
        rw [zpow_natCast]; exact_mod_cast (log2_bounds hm).2
      have h2 : (10 : ℚ) ^ e ≤ 2 ^ (-(2048 + (m.log2 : Int))) := by
        calc (10 : ℚ) ^ e ≤ 10 ^ (-(2048 + (m.log2 : Int))) := zpow_le_zpow_right₀ (by norm_num) hsm.le
          _ ≤ _ := by
            rw [zpow_neg, zpow_neg]
            refine inv_anti₀ (zpow_pos (by norm_num) _) ?_
            rw [show (2048 + (m.log2 : Int)) = ((2048 + m.log2 : Nat) : Int) by push_cast; rfl, zpow_natCast, zpow_natCast]
            exact pow_le_pow_left₀ (by norm_num) (by norm_num) _
      calc (m : ℚ) * 10 ^ e < 2 ^ ((m.log2 + 1 : Nat) : Int) * 2 ^ (-(2048 + (m.log2 : Int))) := by
            refine mul_lt_mul h1 h2 h10 (zpow_pos (by norm_num) _).le
        _ = 2 ^ (-2047 : Int) := by rw [← zpow_add₀ (by norm_num)]; congr 1; push_cast; omega
        _ ≤ _ := zpow_le_zpow_right₀ (by norm_num) (by norm_num)
    · show uval (Float.Model.pack (.zero .positive)).unpack = _
      rw [unpack_zero]; simp [uval]
  split
  · rename_i _ _ h0
    have hp : 0 < 10 ^ e.toNat := Nat.pow_pos (by decide)
    have hne : (m <<< 53) * 10 ^ e.toNat ≠ 0 := by
      rw [Nat.shiftLeft_eq]; exact Nat.mul_ne_zero (Nat.mul_ne_zero hm (Nat.two_pow_pos _).ne') hp.ne'
    have hval : mag ((m <<< 53) * 10 ^ e.toNat) (-53 + 0) = (m : ℚ) * 10 ^ e := by
      rw [mag_mul, Nat.shiftLeft_eq, mag_shift]
      unfold mag
      have : e = (e.toNat : Int) := by omega
      conv_rhs => rw [this, zpow_natCast]
      push_cast
      norm_num
    show Rounded _ (Float.Model.pack (UnpackedFloat.roundWithAccuracy Format.binary64 (.positive * .positive) ((m <<< 53) * 10 ^ e.toNat) (-53 + 0) .exact))
    have := rounded_exact (s := .positive * .positive) (m := (m <<< 53) * 10 ^ e.toNat) (e := -53 + 0) hne ?_
    · rw [hval, show sgn (.positive * .positive) = 1 from rfl, one_mul] at this
      exact this
    · left
      rw [Nat.le_log2 hne, Nat.shiftLeft_eq]
      have : 1 ≤ m := Nat.pos_of_ne_zero hm
      calc 2 ^ 52 ≤ 1 * 2 ^ 53 * 1 := by norm_num
        _ ≤ m * 2 ^ 53 * 10 ^ e.toNat := Nat.mul_le_mul (Nat.mul_le_mul_right _ this) hp
  · rename_i _ _ h0
    have hp : 0 < 10 ^ (-e).toNat := Nat.pow_pos (by decide)
    have hval : mag m 0 / mag (10 ^ (-e).toNat) 0 = (m : ℚ) * 10 ^ e := by
      rw [mag_zero_exp, mag_zero_exp]
      have : e = -((-e).toNat : Int) := by omega
      conv_rhs => rw [this, zpow_neg, zpow_natCast]
      push_cast
      rw [div_eq_mul_inv]
    have := rounded_divCore (s := .positive / .positive) (Nat.pos_of_ne_zero hm) hp (e₁ := 0) (e₂ := 0)
    rw [hval, show sgn (.positive / .positive) = 1 from rfl, one_mul] at this
    exact this

end Amxml.F64
