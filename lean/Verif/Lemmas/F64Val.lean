import Verif.Lemmas.F64
import Verif.Model.Func
import Verif.Spec.Numbers
import Mathlib.Tactic.Ring
import Mathlib.Tactic.Linarith
import Mathlib.Tactic.Positivity
import Mathlib.Tactic.FieldSimp

/-!
# The numbers that `f64` values stand for

`val f` is the rational number a finite `f64` stands for. Results that are representable are computed exactly (`round_exact`); from this
come the exact values of `floor`, `ceil`, `abs`, of small integers, and of sums that need no rounding; `<` and `==` are the order and the
equality of the values.
-/

namespace Amxml.F64

open Float.Model (UnpackedFloat Format)
open Float.Model.UnpackedFloat (Sign ExtendedMantissa)
open Float.Model.UnpackedFloat (unpackSign unpackMantissa unpackExponent packComponents unpack
  unpackMantissa_packComponents unpackExponent_packComponents)

/-- Mantissa and exponent as they are stored: 53 bits with the top bit set, or the smallest exponent. -/
def Canon (m : Nat) (e : Int) : Prop :=
  0 < m ∧ m < 2 ^ 53 ∧ -1074 ≤ e ∧ e ≤ 971 ∧ (2 ^ 52 ≤ m ∨ e = -1074)

theorem log2_eq {m k : Nat} (h1 : 2 ^ k ≤ m) (h2 : m < 2 ^ (k + 1)) : m.log2 = k := by
  have hm : m ≠ 0 := by have := Nat.two_pow_pos k; omega
  have a := (Nat.le_log2 hm).2 h1
  have b := (Nat.log2_lt hm).2 h2
  omega

theorem log2_shift {m k : Nat} (hm : m ≠ 0) : (m * 2 ^ k).log2 = m.log2 + k := by
  have h1 : 2 ^ m.log2 ≤ m := (Nat.le_log2 hm).1 (le_refl _)
  have h2 : m < 2 ^ (m.log2 + 1) := (Nat.log2_lt hm).1 (Nat.lt_succ_self _)
  refine log2_eq ?_ ?_
  · rw [Nat.pow_add]; exact Nat.mul_le_mul_right _ h1
  · have : m.log2 + k + 1 = (m.log2 + 1) + k := by omega
    rw [this, Nat.pow_add]
    exact Nat.mul_lt_mul_of_pos_right h2 (Nat.two_pow_pos k)

theorem mag_shift (m k : Nat) (e : Int) : mag (m * 2 ^ k) e = mag m (e + k) := by
  unfold mag
  rw [zpow_add₀ (by norm_num)]
  push_cast
  rw [zpow_natCast]
  ring

theorem mag_inj {m m' : Nat} {e : Int} (h : mag m e = mag m' e) : m = m' := by
  unfold mag at h
  have h2 : (2 : ℚ) ^ e ≠ 0 := zpow_ne_zero _ (by norm_num)
  exact_mod_cast mul_right_cancel₀ h2 h

/-- Two ways to write a number: the one with the smaller exponent has the shifted mantissa. -/
theorem mag_eq {m m' : Nat} {e e' : Int} (h : mag m e = mag m' e') (he : e ≤ e') : m = m' * 2 ^ (e' - e).toNat := by
  have : mag m' e' = mag (m' * 2 ^ (e' - e).toNat) e := by
    rw [mag_shift]; congr 1; omega
  exact mag_inj (h.trans this)

theorem mag_pos {m : Nat} {e : Int} (hm : 0 < m) : 0 < mag m e := by
  unfold mag
  have : (0 : ℚ) < m := by exact_mod_cast hm
  exact mul_pos this (zpow_pos (by norm_num) _)

theorem targetExponent_eq (t : Int) : Format.targetExponent Format.binary64 t = max (t - 53) (-1074) := by
  have h1 : (Format.mantissaBits Format.binary64 : Int) = 53 := by decide
  have h2 : Format.minExponent Format.binary64 = -1074 := by decide
  unfold Format.targetExponent
  rw [h1, h2]

/-- The exponent at which a number that is stored as `m', e'` is stored. -/
theorem target_canon {m m' : Nat} {e e' : Int} (hm : m ≠ 0) (hc : Canon m' e') (h : mag m e = mag m' e') :
    Format.targetExponent Format.binary64 (Float.Model.totalExponent m e) = e' := by
  have hl : (m.log2 : Int) + e = m'.log2 + e' := by
    rcases le_total e e' with he | he
    · have hm' := mag_eq h he
      rw [hm', log2_shift (by have := hc.1; omega)]
      push_cast; omega
    · have hm' := mag_eq h.symm he
      rw [hm', log2_shift hm]
      push_cast; omega
  rw [targetExponent_eq]
  unfold Float.Model.totalExponent
  obtain ⟨h0, h1, h2, h3, h4⟩ := hc
  have hlt : m'.log2 < 53 := (Nat.log2_lt (by omega)).2 h1
  rcases h4 with h4 | h4
  · have : m'.log2 = 52 := log2_eq h4 h1
    omega
  · omega

theorem shiftRight_exact (m k : Nat) :
    (⟨m * 2 ^ k, false, false⟩ : ExtendedMantissa) >>> k = ⟨m, false, false⟩ := by
  show Nat.repeat ExtendedMantissa.shiftRightOne k _ = _
  induction k generalizing m with
  | zero => simp [Nat.repeat]
  | succ k ih =>
    rw [Nat.repeat]
    have : m * 2 ^ (k + 1) = (m * 2) * 2 ^ k := by rw [Nat.pow_succ]; ring
    rw [this, ih]
    simp [ExtendedMantissa.shiftRightOne]

theorem shiftToTarget_exact {m m' : Nat} {e e' : Int} (hm : m ≠ 0) (hc : Canon m' e') (h : mag m e = mag m' e') (he : e ≤ e') :
    UnpackedFloat.shiftToTargetExponent Format.binary64 m e .exact = (⟨m', false, false⟩, e') := by
  unfold UnpackedFloat.shiftToTargetExponent UnpackedFloat.shiftToExponent
  simp only [target_canon hm hc h]
  rw [mag_eq h he]
  simp only [ExtendedMantissa.ofMantissaAndAccuracy]
  rw [shiftRight_exact]
  congr 1
  omega

theorem roundWithAccuracy_exact {s : Sign} {m m' : Nat} {e e' : Int} (hm : m ≠ 0) (hc : Canon m' e') (h : mag m e = mag m' e')
    (he : e ≤ e') : UnpackedFloat.roundWithAccuracy Format.binary64 s m e .exact = .finite s m' e' hc.1 := by
  unfold UnpackedFloat.roundWithAccuracy
  have h1 := shiftToTarget_exact hm hc h he
  have h2 := shiftToTarget_exact (m := m') (e := e') (by have := hc.1; omega) hc rfl (le_refl _)
  have hr : (⟨m', false, false⟩ : ExtendedMantissa).roundedMantissa = m' := by
    simp [ExtendedMantissa.roundedMantissa, ExtendedMantissa.accuracy, UnpackedFloat.Accuracy.roundToNearestEven]
  have hne : m' ≠ 0 := by have := hc.1; omega
  simp only [h1, hr, h2, hne, dif_neg, not_false_eq_true]

/-- A representable number is rounded to itself. -/
theorem round_exact {s : Sign} {m m' : Nat} {e e' : Int} (hm : m ≠ 0) (hc : Canon m' e') (h : mag m e = mag m' e') :
    UnpackedFloat.round Format.binary64 s m e = .finite s m' e' hc.1 := by
  unfold UnpackedFloat.round UnpackedFloat.decreaseExponent
  simp only [target_canon hm hc h]
  rcases le_total e e' with he | he
  · have : (e - e').toNat = 0 := by omega
    rw [this, Nat.shiftLeft_zero]
    refine roundWithAccuracy_exact hm hc (by simpa using h) (by simpa using he)
  · have h1 : m <<< (e - e').toNat = m' := by
      rw [Nat.shiftLeft_eq]; exact (mag_eq h.symm he).symm
    rw [h1]
    have h2 : e - ((e - e').toNat : Int) = e' := by omega
    rw [h2]
    exact roundWithAccuracy_exact (by have := hc.1; omega) hc rfl (le_refl _)

theorem unpackSign_packComponents {spec : Format} {sign : Sign} {exponent mantissa} :
    unpackSign (packComponents spec sign exponent mantissa) = sign.toBitVec := by
  ext i hi
  have : i = 0 := by omega
  subst this
  simp [unpackSign, packComponents, BitVec.getLsbD_eq_getElem, BitVec.getLsbD_append, BitVec.getElem_append]

theorem ofBitVec_toBitVec (s : Sign) : Sign.ofBitVec s.toBitVec = s := by cases s <;> rfl

/-- A normal number is unpacked with its leading bit. -/
theorem toNat_one_append (v : BitVec 52) : (1#1 ++ v).toNat = 2 ^ 52 + v.toNat := by
  have h := Nat.two_pow_add_eq_or_of_lt v.isLt 1
  rw [BitVec.toNat_append, Nat.shiftLeft_eq]
  simp only [BitVec.toNat_ofNat]
  simpa using h.symm

theorem ucanon (b : BitVec 64) {s : Sign} {m : Nat} {e : Int} {h : 0 < m} 
    (hb : unpack Format.binary64 b = .finite s m e h) : Canon m e := by
  unfold unpack at hb
  simp only at hb
  have hm : (unpackMantissa (spec := Format.binary64) b).toNat < 2 ^ 52 := (unpackMantissa (spec := Format.binary64) b).isLt
  have he : (unpackExponent (spec := Format.binary64) b).toNat < 2 ^ 11 := (unpackExponent (spec := Format.binary64) b).isLt
  have e1 : Format.exponentBias Format.binary64 = 1023 := by decide
  by_cases h1 : unpackExponent (spec := Format.binary64) b = -1#_
  · rw [if_pos h1] at hb
    split at hb <;> cases hb
  · rw [if_neg h1] at hb
    have h1' : (unpackExponent (spec := Format.binary64) b).toNat ≠ 2047 := by
      intro h; apply h1; apply BitVec.eq_of_toNat_eq; rw [h]; decide
    by_cases h2 : unpackExponent (spec := Format.binary64) b = 0#_
    · rw [if_pos h2] at hb
      by_cases h3 : unpackMantissa (spec := Format.binary64) b = 0#_
      · rw [dif_pos h3] at hb; cases hb
      · rw [dif_neg h3] at hb
        have h3' : (unpackMantissa (spec := Format.binary64) b).toNat ≠ 0 := by
          intro h; apply h3; apply BitVec.eq_of_toNat_eq; rw [h]; rfl
        simp only [UnpackedFloat.finite.injEq, e1, h2] at hb
        obtain ⟨_, rfl, rfl⟩ := hb
        refine ⟨by omega, by omega, ?_, ?_, Or.inr ?_⟩ <;> simp 
    · rw [if_neg h2] at hb
      have h2' : (unpackExponent (spec := Format.binary64) b).toNat ≠ 0 := by
        intro h; apply h2; apply BitVec.eq_of_toNat_eq; rw [h]; rfl
      have ht := toNat_one_append (unpackMantissa (spec := Format.binary64) b)
      simp only [UnpackedFloat.finite.injEq, e1] at hb
      obtain ⟨_, hbm, hbe⟩ := hb
      have hbm2 : m = 2 ^ 52 + (unpackMantissa (spec := Format.binary64) b).toNat := hbm.symm.trans ht
      have hbe2 : e = ((unpackExponent (spec := Format.binary64) b).toNat : Int) - 1075 := by rw [← hbe]; simp
      refine ⟨by omega, by omega, by omega, by omega, by omega⟩

theorem canon_of {f : F64} {s : Sign} {m : Nat} {e : Int} {h : 0 < m} (hf : f.unpack = .finite s m e h) : Canon m e :=
  ucanon _ hf

theorem unpack_comps (s : Sign) (ex : BitVec 11) (v : BitVec 52) :
    unpack Format.binary64 (packComponents Format.binary64 s ex v) =
      if ex = -1#_ then (if v = 0#_ then .infinity s else .notANumber)
      else if ex = 0#_ then (if h : v = 0#_ then .zero s else .finite s v.toNat (-1074) (by simpa [BitVec.toNat_pos, BitVec.pos_iff_ne_zero]))
      else .finite s (2 ^ 52 + v.toNat) ((ex.toNat : Int) - 1075) (by omega) := by
  have hm : unpackMantissa (packComponents Format.binary64 s ex v) = v := unpackMantissa_packComponents
  have he : unpackExponent (packComponents Format.binary64 s ex v) = ex := unpackExponent_packComponents
  have hs : unpackSign (packComponents Format.binary64 s ex v) = s.toBitVec := unpackSign_packComponents
  unfold unpack
  simp only [hm, he, hs, ofBitVec_toBitVec]
  have e1 : Format.exponentBias Format.binary64 = 1023 := by decide
  split
  · rfl
  · split
    · rename_i h0
      subst h0
      split
      · rfl
      · simp [e1]
    · simp only [UnpackedFloat.finite.injEq, e1, true_and]
      exact ⟨toNat_one_append v, by simp⟩

theorem unpack_pack_model (u : UnpackedFloat) : (Float.Model.pack u).unpack = unpack Format.binary64 (UnpackedFloat.pack Format.binary64 u) := rfl

theorem unpack_pack {s : Sign} {m : Nat} {e : Int} (hc : Canon m e) :
    (Float.Model.pack (.finite s m e hc.1)).unpack = .finite s m e hc.1 := by
  rw [unpack_pack_model]
  obtain ⟨h0, h1, h2, h3, h4⟩ := hc
  have e1 : Format.exponentBias Format.binary64 = 1023 := by decide
  have e2 : Format.mantissaBitsWithoutImplicit Format.binary64 = 52 := by decide
  have e3 : Format.exponentBits Format.binary64 = 11 := by decide
  have e4 : Format.mantissaBits Format.binary64 = 53 := by decide
  unfold UnpackedFloat.pack
  simp only
  have hb : (e + (Format.exponentBias Format.binary64 : Int) + (Format.mantissaBitsWithoutImplicit Format.binary64 : Int)).toNat = (e + 1075).toNat := by
    rw [e1, e2]; push_cast; congr 1; ring
  rw [hb, if_neg (by omega)]
  by_cases hn : 2 ^ 52 ≤ m
  · have hl : m.log2 = 52 := log2_eq hn h1
    rw [if_pos (by rw [e4, hl])]
    have ht1 : (BitVec.ofNat 11 (e + 1075).toNat).toNat = (e + 1075).toNat := by
      rw [BitVec.toNat_ofNat, Nat.mod_eq_of_lt (by omega)]
    have ht2 : (BitVec.ofNat 52 m).toNat = m - 2 ^ 52 := by
      rw [BitVec.toNat_ofNat]; omega
    refine (unpack_comps s (BitVec.ofNat 11 (e + 1075).toNat) (BitVec.ofNat 52 m)).trans ?_
    rw [if_neg, if_neg]
    · simp only [UnpackedFloat.finite.injEq, true_and, ht1, ht2]
      omega
    · intro h; have := congrArg BitVec.toNat h; rw [ht1] at this; simp at this; omega
    · intro h; have := congrArg BitVec.toNat h; rw [ht1] at this; simp at this; omega
  · have he : e = -1074 := by omega
    subst he
    have hl : m.log2 ≠ 52 := by
      intro h; apply hn; exact h ▸ (Nat.le_log2 (by omega)).1 (le_refl _)
    rw [if_neg (by rw [e4]; omega)]
    have ht2 : (BitVec.ofNat 52 m).toNat = m := by
      rw [BitVec.toNat_ofNat]; omega
    refine (unpack_comps s 0#11 (BitVec.ofNat 52 m)).trans ?_
    rw [if_neg (by decide), if_pos rfl, dif_neg]
    · simp [ht2]
    · intro h; have := congrArg BitVec.toNat h; rw [ht2] at this; simp at this; omega

theorem unpack_zero (s : Sign) : (Float.Model.pack (.zero s)).unpack = .zero s := by cases s <;> rfl
theorem unpack_inf (s : Sign) : (Float.Model.pack (.infinity s)).unpack = .infinity s := by cases s <;> rfl
theorem unpack_nan : (Float.Model.pack .notANumber).unpack = .notANumber := by rfl


theorem val_finite {s : Sign} {m : Nat} {e : Int} (hc : Canon m e) :
    val (Float.Model.pack (.finite s m e hc.1)) = uval (.finite s m e hc.1) := by
  unfold val; rw [unpack_pack hc]

/-- A number is representable iff it is 0 or has a canonical mantissa and exponent. -/
theorem rep_iff {q : ℚ} : Rep q ↔ q = 0 ∨ ∃ m e, Canon m e ∧ |q| = mag m e := by
  constructor
  · rintro ⟨f, hf⟩
    unfold val at hf
    cases hu : f.unpack with
    | notANumber => rw [hu] at hf; cases hf
    | infinity s => rw [hu] at hf; cases s <;> cases hf
    | zero s => rw [hu] at hf; simp [uval] at hf; exact Or.inl hf.symm
    | finite s m e h =>
      have hc := canon_of hu
      rw [hu] at hf
      refine Or.inr ⟨m, e, hc, ?_⟩
      have hp := mag_pos (e := e) h
      cases s <;> simp [uval] at hf <;> rw [← hf]
      · rw [abs_neg, abs_of_pos hp]
      · rw [abs_of_pos hp]
  · rintro (rfl | ⟨m, e, hc, hq⟩)
    · exact ⟨zero, rfl⟩
    · rcases abs_cases q with ⟨h, _⟩ | ⟨h, _⟩
      · exact ⟨Float.Model.pack (.finite .positive m e hc.1), by rw [val_finite hc]; simp [uval, ← hq, h]⟩
      · exact ⟨Float.Model.pack (.finite .negative m e hc.1), by rw [val_finite hc]; simp [uval, ← hq, h]⟩

/-- Rounding a representable number does not change it. -/
theorem val_round {s : Sign} {m : Nat} {e : Int} (hm : m ≠ 0) (hr : Rep (mag m e)) :
    val (Float.Model.pack (UnpackedFloat.round Format.binary64 s m e)) =
      some (match s with | .positive => mag m e | .negative => -mag m e) := by
  have hp := mag_pos (e := e) (Nat.pos_of_ne_zero hm)
  rcases rep_iff.1 hr with h | ⟨m', e', hc, hq⟩
  · rw [h] at hp; exact absurd hp (_root_.lt_irrefl _)
  · rw [abs_of_pos hp] at hq
    rw [round_exact hm hc hq, val_finite hc]
    cases s <;> simp [uval, hq]

theorem rep_neg {q : ℚ} (h : Rep q) : Rep (-q) := by
  rw [rep_iff] at *
  simpa using h

theorem val_mk {s : Sign} {m : Nat} {e : Int} (hr : Rep (mag m e)) :
    val (mk s m e) = some (match s with | .positive => mag m e | .negative => -mag m e) := by
  unfold mk
  by_cases hm : m = 0
  · rw [if_pos hm]
    unfold val
    rw [unpack_zero]
    subst hm
    cases s <;> simp [uval, mag]
  · rw [if_neg hm]; exact val_round hm hr

/-- `n * 2 ^ e`, if representable, is not changed by normalisation. -/
theorem val_normalize {n e : Int} (hr : Rep ((n : ℚ) * 2 ^ e)) :
    val (Float.Model.pack (UnpackedFloat.normalize Format.binary64 n e .positive)) = some ((n : ℚ) * 2 ^ e) := by
  unfold UnpackedFloat.normalize
  rcases lt_trichotomy n 0 with h | h | h
  · have hc : compare n 0 = .lt := Int.compare_eq_lt.mpr h
    rw [hc]
    simp only
    have hcast : (((-n).toNat : Nat) : ℚ) = -(n : ℚ) := by
      have : (((-n).toNat : Nat) : Int) = -n := by omega
      exact_mod_cast congrArg (Int.cast (R := ℚ)) this
    have hmag : mag (-n).toNat e = -((n : ℚ) * 2 ^ e) := by unfold mag; rw [hcast]; ring
    rw [val_round (by omega) (by rw [hmag]; exact rep_neg hr)]
    simp only [hmag, neg_neg]
  · subst h
    have hc : compare (0 : Int) 0 = .eq := Int.compare_eq_eq.mpr rfl
    rw [hc]
    simp only [Int.cast_zero, zero_mul]
    show uval (Float.Model.pack (.zero .positive)).unpack = _
    rw [unpack_zero]; rfl
  · have hc : compare n 0 = .gt := Int.compare_eq_gt.mpr h
    rw [hc]
    simp only
    have hcast : ((n.toNat : Nat) : ℚ) = (n : ℚ) := by
      have : ((n.toNat : Nat) : Int) = n := by omega
      exact_mod_cast congrArg (Int.cast (R := ℚ)) this
    have hmag : mag n.toNat e = (n : ℚ) * 2 ^ e := by unfold mag; rw [hcast]
    rw [val_round (by omega) (by rw [hmag]; exact hr)]
    simp only [hmag]

/-- Small integers are representable. -/
theorem rep_nat {n : Nat} (h : n ≤ 2 ^ 53) : Rep (n : ℚ) := by
  rw [rep_iff]
  by_cases h0 : n = 0
  · left; simp [h0]
  right
  have habs : |(n : ℚ)| = n := abs_of_nonneg (by positivity)
  rw [habs]
  have hl1 : 2 ^ n.log2 ≤ n := (Nat.le_log2 h0).1 (le_refl _)
  have hl2 : n < 2 ^ (n.log2 + 1) := (Nat.log2_lt h0).1 (Nat.lt_succ_self _)
  by_cases hn : n = 2 ^ 53
  · refine ⟨2 ^ 52, 1, ⟨by norm_num, by norm_num, by norm_num, by norm_num, by norm_num⟩, ?_⟩
    subst hn; unfold mag; norm_num
  · have hlt : n.log2 < 53 := (Nat.log2_lt h0).2 (by omega)
    refine ⟨n * 2 ^ (52 - n.log2), -((52 - n.log2 : Nat) : Int), ⟨?_, ?_, by omega, by omega, Or.inl ?_⟩, ?_⟩
    · positivity
    · calc n * 2 ^ (52 - n.log2) < 2 ^ (n.log2 + 1) * 2 ^ (52 - n.log2) := Nat.mul_lt_mul_of_pos_right hl2 (Nat.two_pow_pos _)
        _ = 2 ^ 53 := by rw [← Nat.pow_add]; congr 1; omega
    · calc 2 ^ 52 = 2 ^ n.log2 * 2 ^ (52 - n.log2) := by rw [← Nat.pow_add]; congr 1; omega
        _ ≤ _ := Nat.mul_le_mul_right _ hl1
    · rw [mag_shift]; unfold mag; simp

theorem rep_int {n : Int} (h : n.natAbs ≤ 2 ^ 53) : Rep (n : ℚ) := by
  have := rep_nat h
  rcases Int.natAbs_eq n with hn | hn
  · have h2 : (n : ℚ) = (n.natAbs : ℚ) := by
      have := congrArg (Int.cast (R := ℚ)) hn; rw [this, Int.cast_natCast]
    rw [h2]; exact this
  · have h2 : (n : ℚ) = -(n.natAbs : ℚ) := by
      have := congrArg (Int.cast (R := ℚ)) hn; rw [this, Int.cast_neg, Int.cast_natCast]
    rw [h2]; exact rep_neg this

theorem val_ofInt {n : Int} (h : n.natAbs ≤ 2 ^ 53) : val (ofInt n) = some (n : ℚ) := by
  have := val_normalize (n := n) (e := 0) (by simpa using rep_int h)
  rw [zpow_zero, mul_one] at this
  exact this

/-- A sum that is representable is computed exactly. -/
theorem val_add {a b : F64} {x y : ℚ} (ha : val a = some x) (hb : val b = some y) (hr : Rep (x + y)) :
    val (a + b) = some (x + y) := by
  show val (Float.Model.pack (UnpackedFloat.add Format.binary64 a.unpack b.unpack)) = _
  unfold val at ha hb
  cases hu : a.unpack with
  | notANumber => rw [hu] at ha; cases ha
  | infinity s => rw [hu] at ha; cases s <;> cases ha
  | zero s =>
    rw [hu] at ha
    have hx : x = 0 := by simpa [uval] using ha.symm
    subst hx
    cases hv : b.unpack with
    | notANumber => rw [hv] at hb; cases hb
    | infinity s => rw [hv] at hb; cases s <;> cases hb
    | zero t =>
      rw [hv] at hb
      have hy : y = 0 := by simpa [uval] using hb.symm
      subst hy
      rw [add_zero]
      show uval (Float.Model.pack (if s == t then .zero s else .zero .positive)).unpack = _
      split <;> rw [unpack_zero] <;> rfl
    | finite t m e h =>
      have hc := canon_of hv
      rw [hv] at hb
      show val (Float.Model.pack (.finite t m e h)) = _
      rw [val_finite hc, hb]; simp
  | finite s m e h =>
    have hc := canon_of hu
    cases hv : b.unpack with
    | notANumber => rw [hv] at hb; cases hb
    | infinity s => rw [hv] at hb; cases s <;> cases hb
    | zero t =>
      rw [hv] at hb
      have hy : y = 0 := by simpa [uval] using hb.symm
      subst hy
      rw [hu] at ha
      show val (Float.Model.pack (.finite s m e h)) = _
      rw [val_finite hc, ha]; simp
    | finite t m' e' h' =>
      rw [hu] at ha
      rw [hv] at hb
      have key : ∀ (s : Sign) (m : Nat) (e e0 : Int) (h : 0 < m) (x : ℚ), e0 ≤ e → uval (.finite s m e h) = some x →
          ((s.apply ((UnpackedFloat.decreaseExponent m e e0).1) : Int) : ℚ) * 2 ^ e0 = x := by
        intro s m e e0 h x hle hx
        have h1 : (UnpackedFloat.decreaseExponent m e e0).1 = m * 2 ^ (e - e0).toNat := by
          unfold UnpackedFloat.decreaseExponent; simp [Nat.shiftLeft_eq]
        have h2 : mag (m * 2 ^ (e - e0).toNat) e0 = mag m e := by rw [mag_shift]; congr 1; omega
        rw [h1]
        cases s
        · simp only [uval, Option.some.injEq] at hx
          rw [← hx, ← h2]; unfold mag Sign.apply; push_cast; ring
        · simp only [uval, Option.some.injEq] at hx
          rw [← hx, ← h2]; unfold mag Sign.apply; push_cast; ring
      have k1 := key s m e (min e e') h x (min_le_left _ _) ha
      have k2 := key t m' e' (min e e') h' y (min_le_right _ _) hb
      have hsum : (((s.apply ((UnpackedFloat.decreaseExponent m e (min e e')).1) + t.apply ((UnpackedFloat.decreaseExponent m' e' (min e e')).1) : Int)) : ℚ)
          * 2 ^ (min e e') = x + y := by
        push_cast; rw [add_mul, k1, k2]
      rw [← hsum]
      exact val_normalize (n := (s.apply ((UnpackedFloat.decreaseExponent m e (min e e')).1) + t.apply ((UnpackedFloat.decreaseExponent m' e' (min e e')).1))) (by rw [hsum]; exact hr)
/-! ## Order -/

theorem mag_le_mag {m m' : Nat} {e : Int} (h : m < m') : mag m e < mag m' e := by
  unfold mag
  exact mul_lt_mul_of_pos_right (by exact_mod_cast h) (zpow_pos (by norm_num) _)

theorem canon_lt_of_exp {m m' : Nat} {e e' : Int} (hc : Canon m e) (hc' : Canon m' e') (h : e < e') : mag m e < mag m' e' := by
  have : mag m' e' = mag (m' * 2 ^ (e' - e).toNat) e := by rw [mag_shift]; congr 1; omega
  rw [this]
  apply mag_le_mag
  obtain ⟨_, h1, h2, _, _⟩ := hc
  obtain ⟨_, _, _, _, h4⟩ := hc'
  have h5 : 2 ^ 52 ≤ m' := by omega
  calc m < 2 ^ 52 * 2 := by omega
    _ ≤ m' * 2 ^ (e' - e).toNat := Nat.mul_le_mul h5 (by
      calc 2 = 2 ^ 1 := rfl
        _ ≤ _ := Nat.pow_le_pow_right (by norm_num) (by omega))

theorem canon_lt {m m' : Nat} {e e' : Int} (hc : Canon m e) (hc' : Canon m' e') :
    mag m e < mag m' e' ↔ (e < e' ∨ (e = e' ∧ m < m')) := by
  constructor
  · intro h
    rcases lt_trichotomy e e' with he | he | he
    · exact Or.inl he
    · subst he
      refine Or.inr ⟨rfl, ?_⟩
      by_contra hn
      rcases Nat.lt_or_ge m' m with hm | hm
      · exact absurd (mag_le_mag (e := e) hm) (not_lt.2 h.le)
      · have : m = m' := by omega
        rw [this] at h; exact absurd h (_root_.lt_irrefl _)
    · exact absurd (canon_lt_of_exp hc' hc he) (not_lt.2 h.le)
  · rintro (h | ⟨rfl, h⟩)
    · exact canon_lt_of_exp hc hc' h
    · exact mag_le_mag h

theorem canon_inj {m m' : Nat} {e e' : Int} (hc : Canon m e) (hc' : Canon m' e') :
    mag m e = mag m' e' ↔ (e = e' ∧ m = m') := by
  constructor
  · intro h
    have h1 := mt (canon_lt hc hc').2 (by rw [h]; exact _root_.lt_irrefl _)
    have h2 := mt (canon_lt hc' hc).2 (by rw [h]; exact _root_.lt_irrefl _)
    omega
  · rintro ⟨rfl, rfl⟩; rfl

/-- The number and the key of a float. -/
theorem val_cases {f : F64} {q : ℚ} (h : val f = some q) :
    (∃ s, f.unpack = .zero s ∧ q = 0) ∨
    (∃ m e hm, Canon m e ∧ f.unpack = .finite .positive m e hm ∧ q = mag m e) ∨
    (∃ m e hm, Canon m e ∧ f.unpack = .finite .negative m e hm ∧ q = -mag m e) := by
  unfold val at h
  cases hu : f.unpack with
  | notANumber => rw [hu] at h; cases h
  | infinity s => rw [hu] at h; cases s <;> cases h
  | zero s => rw [hu] at h; exact Or.inl ⟨s, rfl, by simpa [uval] using h.symm⟩
  | finite s m e hm =>
    rw [hu] at h
    cases s
    · exact Or.inr (Or.inr ⟨m, e, hm, canon_of hu, rfl, by simpa [uval] using h.symm⟩)
    · exact Or.inr (Or.inl ⟨m, e, hm, canon_of hu, rfl, by simpa [uval] using h.symm⟩)

theorem val_key {a b : F64} {x y : ℚ} (ha : val a = some x) (hb : val b = some y) :
    ∃ k l, key a = some k ∧ key b = some l ∧ (KeyLt k l ↔ x < y) ∧ (k = l ↔ x = y) := by
  rcases val_cases ha with ⟨s, hu, rfl⟩ | ⟨m, e, hm, hc, hu, rfl⟩ | ⟨m, e, hm, hc, hu, rfl⟩ <;>
  rcases val_cases hb with ⟨t, hv, rfl⟩ | ⟨m', e', hm', hc', hv, rfl⟩ | ⟨m', e', hm', hc', hv, rfl⟩ <;>
  refine ⟨_, _, by unfold key; rw [hu]; rfl, by unfold key; rw [hv]; rfl, ?_, ?_⟩ 
  · simp [KeyLt]
  · simp
  · simp [KeyLt, mag_pos hm']
  · simp [(mag_pos hm').ne]
  · simp [KeyLt, (mag_pos hm').le]
  · simp [(mag_pos (e := e') hm').ne']
  · simp [KeyLt, (mag_pos hm).le]
  · simp [(mag_pos (e := e) hm).ne']
  · simp [KeyLt, canon_lt hc hc']
  · simp [canon_inj hc hc']
  · have : ¬ mag m e < -mag m' e' := by have := mag_pos (e := e) hm; have := mag_pos (e := e') hm'; linarith
    simp [KeyLt, this]
  · have : ¬ mag m e = -mag m' e' := by have := mag_pos (e := e) hm; have := mag_pos (e := e') hm'; intro h; linarith
    simp [this]
  · simp [KeyLt, mag_pos hm]
  · simp [(mag_pos (e := e) hm).ne']
  · have : -mag m e < mag m' e' := by have := mag_pos (e := e) hm; have := mag_pos (e := e') hm'; linarith
    simp [KeyLt, this]
  · have : ¬ -mag m e = mag m' e' := by have := mag_pos (e := e) hm; have := mag_pos (e := e') hm'; intro h; linarith
    simp [this]
  · simp only [KeyLt, neg_lt_neg_iff, canon_lt hc' hc]; simp; omega
  · simp [canon_inj hc hc']

/-- `<` is the order of the numbers. -/
theorem lt_val {a b : F64} {x y : ℚ} (ha : val a = some x) (hb : val b = some y) : lt a b = true ↔ x < y := by
  obtain ⟨k, l, hk, hl, h1, h2⟩ := val_key ha hb
  rw [lt_iff]
  constructor
  · rintro ⟨k', l', hk', hl', h⟩
    rw [hk] at hk'; rw [hl] at hl'; cases hk'; cases hl'
    exact h1.1 h
  · intro h; exact ⟨k, l, hk, hl, h1.2 h⟩

/-- `==` is the equality of the numbers. -/
theorem eq_val {a b : F64} {x y : ℚ} (ha : val a = some x) (hb : val b = some y) : eq a b = true ↔ x = y := by
  obtain ⟨k, l, hk, hl, h1, h2⟩ := val_key ha hb
  rw [eq_iff]
  constructor
  · rintro ⟨k', hk', hl'⟩
    rw [hk] at hk'; rw [hl] at hl'; cases hk'
    exact h2.1 (Option.some.inj hl').symm
  · intro h; exact ⟨k, hk, by rw [hl, h2.2 h]⟩

/-! ## `abs`, `floor`, `ceil` -/

theorem val_neg {f : F64} {q : ℚ} (h : val f = some q) : val (Float.Model.neg f) = some (-q) := by
  unfold Float.Model.neg
  rcases val_cases h with ⟨s, hu, rfl⟩ | ⟨m, e, hm, hc, hu, rfl⟩ | ⟨m, e, hm, hc, hu, rfl⟩ <;> rw [hu]
  · show uval (Float.Model.pack (.zero (-s))).unpack = _
    rw [unpack_zero]; simp [uval]
  · show val (Float.Model.pack (.finite .negative m e hm)) = _
    rw [val_finite hc]; simp [uval]
  · show val (Float.Model.pack (.finite .positive m e hm)) = _
    rw [val_finite hc]; simp [uval]

theorem val_abs {f : F64} {q : ℚ} (h : val f = some q) : val (Float.Model.abs f) = some |q| := by
  unfold Float.Model.abs
  rcases val_cases h with ⟨s, hu, rfl⟩ | ⟨m, e, hm, hc, hu, rfl⟩ | ⟨m, e, hm, hc, hu, rfl⟩ <;> rw [hu]
  · show uval (Float.Model.pack (.zero .positive)).unpack = _
    rw [unpack_zero]; simp [uval]
  · show val (Float.Model.pack (.finite .positive m e hm)) = _
    rw [val_finite hc]; simp [uval, abs_of_pos (mag_pos hm)]
  · show val (Float.Model.pack (.finite .positive m e hm)) = _
    rw [val_finite hc]; simp [uval, abs_of_pos (mag_pos hm)]

theorem mag_div (m : Nat) {e : Int} (he : ¬ 0 ≤ e) : mag m e = (m : ℚ) / ((2 ^ (-e).toNat : Nat) : ℚ) := by
  unfold mag
  have : e = -((-e).toNat : Int) := by omega
  conv_lhs => rw [this, zpow_neg, zpow_natCast]
  push_cast
  rw [div_eq_mul_inv]

theorem mag_int (m : Nat) {e : Int} (he : 0 ≤ e) : mag m e = ((m * 2 ^ e.toNat : Nat) : ℚ) := by
  unfold mag
  have : e = (e.toNat : Int) := by omega
  conv_lhs => rw [this, zpow_natCast]
  push_cast
  rfl

theorem nat_floor (m d : Nat) (hd : 0 < d) : ⌊(m : ℚ) / (d : ℚ)⌋ = ((m / d : Nat) : Int) := by
  rw [Int.floor_eq_iff]
  have hdq : (0 : ℚ) < d := by exact_mod_cast hd
  rw [le_div_iff₀ hdq, div_lt_iff₀ hdq]
  constructor
  · exact_mod_cast Nat.div_mul_le_self m d
  · have := Nat.lt_div_mul_add hd (a := m)
    have h2 : m < (m / d + 1) * d := by rw [Nat.add_mul]; omega
    exact_mod_cast h2

theorem nat_ceil (m d : Nat) (hd : 0 < d) : ⌈(m : ℚ) / (d : ℚ)⌉ = (((m + (d - 1)) / d : Nat) : Int) := by
  rw [Int.ceil_eq_iff]
  have hdq : (0 : ℚ) < d := by exact_mod_cast hd
  rw [lt_div_iff₀ hdq, div_le_iff₀ hdq]
  have h1 := Nat.div_mul_le_self (m + (d - 1)) d
  have h2 := Nat.lt_div_mul_add hd (a := m + (d - 1))
  constructor
  · rw [sub_mul, sub_lt_iff_lt_add]
    have h3 : (m + (d - 1)) / d * d < m + 1 * d := by omega
    exact_mod_cast h3
  · have h3 : m ≤ (m + (d - 1)) / d * d := by omega
    exact_mod_cast h3

theorem div_small {m e : _} (hc : Canon m e) (d : Nat) : m / d ≤ 2 ^ 53 := le_trans (Nat.div_le_self _ _) hc.2.1.le

theorem ceil_small {m e : _} (hc : Canon m e) (d : Nat) (hd : 0 < d) : (m + (d - 1)) / d ≤ 2 ^ 53 := by
  apply Nat.le_of_lt_succ
  rw [Nat.div_lt_iff_lt_mul hd]
  have h1 := hc.2.1
  have h2 : m ≤ m * d := Nat.le_mul_of_pos_right _ hd
  have h3 : (2 ^ 53 + 1) * d = 2 ^ 53 * d + d := by ring
  have h4 : m ≤ 2 ^ 53 * d := by nlinarith
  show _ < (2 ^ 53 + 1) * d
  omega

theorem mag_zero_exp (n : Nat) : mag n 0 = (n : ℚ) := by simp [mag]

/-- `floor` is the floor. -/
theorem val_floor {f : F64} {q : ℚ} (h : val f = some q) : val (floor f) = some (⌊q⌋ : ℚ) := by
  unfold floor
  rcases val_cases h with ⟨s, hu, rfl⟩ | ⟨m, e, hm, hc, hu, rfl⟩ | ⟨m, e, hm, hc, hu, rfl⟩
  · simp only [hu, h, Int.floor_zero, Int.cast_zero]
  · simp only [hu]
    split
    · rename_i he
      rw [h, mag_int m he, Int.floor_natCast]; simp
    · rename_i he
      have hd := Nat.two_pow_pos (-e).toNat
      rw [val_mk (by rw [mag_zero_exp]; exact rep_nat (div_small hc _)), mag_div m he, nat_floor _ _ hd, mag_zero_exp, Int.cast_natCast]
  · simp only [hu]
    split
    · rename_i he
      rw [h, mag_int m he]
      have : (-((m * 2 ^ e.toNat : Nat) : ℚ)) = ((-((m * 2 ^ e.toNat : Nat) : Int) : Int) : ℚ) := by push_cast; rfl
      rw [this, Int.floor_intCast]
    · rename_i he
      have hd := Nat.two_pow_pos (-e).toNat
      rw [val_mk (by rw [mag_zero_exp]; exact rep_nat (ceil_small hc _ hd)), mag_div m he, Int.floor_neg, nat_ceil _ _ hd, mag_zero_exp]
      push_cast; rfl

/-- `ceil` is the ceiling. -/
theorem val_ceil {f : F64} {q : ℚ} (h : val f = some q) : val (ceil f) = some (⌈q⌉ : ℚ) := by
  unfold ceil
  rcases val_cases h with ⟨s, hu, rfl⟩ | ⟨m, e, hm, hc, hu, rfl⟩ | ⟨m, e, hm, hc, hu, rfl⟩
  · simp only [hu, h, Int.ceil_zero, Int.cast_zero]
  · simp only [hu]
    split
    · rename_i he
      rw [h, mag_int m he, Int.ceil_natCast]; simp
    · rename_i he
      have hd := Nat.two_pow_pos (-e).toNat
      rw [val_mk (by rw [mag_zero_exp]; exact rep_nat (ceil_small hc _ hd)), mag_div m he, nat_ceil _ _ hd, mag_zero_exp, Int.cast_natCast]
  · simp only [hu]
    split
    · rename_i he
      rw [h, mag_int m he]
      have : (-((m * 2 ^ e.toNat : Nat) : ℚ)) = ((-((m * 2 ^ e.toNat : Nat) : Int) : Int) : ℚ) := by push_cast; rfl
      rw [this, Int.ceil_intCast]
    · rename_i he
      have hd := Nat.two_pow_pos (-e).toNat
      rw [val_mk (by rw [mag_zero_exp]; exact rep_nat (div_small hc _)), mag_div m he, Int.ceil_neg, nat_floor _ _ hd, mag_zero_exp]
      push_cast; rfl

theorem val_zero : val zero = some 0 := by
  show uval (Float.Model.pack (.zero .positive)).unpack = _
  rw [unpack_zero]; rfl
theorem val_negZero : val negZero = some 0 := by
  show uval (Float.Model.pack (.zero .negative)).unpack = _
  rw [unpack_zero]; rfl

theorem rep_half : Rep (1 / 2) := by
  rw [rep_iff]; right
  refine ⟨2 ^ 52, -53, ⟨by norm_num, by norm_num, by norm_num, by norm_num, by norm_num⟩, ?_⟩
  unfold mag
  rw [abs_of_pos (by norm_num)]
  norm_num

theorem val_half : val half = some (1 / 2) := by
  have e : mag 1 (-1) = 1 / 2 := by unfold mag; norm_num
  show val (mk .positive 1 (-1)) = _
  rw [val_mk (by rw [e]; exact rep_half)]
  simp only [e]

theorem val_negHalf : val negHalf = some (-(1 / 2)) := by
  have e : mag 1 (-1) = 1 / 2 := by unfold mag; norm_num
  show val (mk .negative 1 (-1)) = _
  rw [val_mk (by rw [e]; exact rep_half)]
  simp only [e]

theorem val_negOne : val negOne = some (-1) := by
  have e : mag 1 0 = 1 := by unfold mag; norm_num
  show val (mk .negative 1 0) = _
  rw [val_mk (by rw [mag_zero_exp]; exact rep_nat (by norm_num))]
  simp only [e]

theorem val_floorX {f : F64} {q : ℚ} (h : val f = some q) : val (floorX f) = some (⌊q⌋ : ℚ) := by
  unfold floorX
  split
  · rename_i hc
    rw [Bool.and_eq_true] at hc
    have := (eq_val h val_zero).1 hc.1
    subst this
    simp [val_negZero]
  · exact val_floor h

theorem val_ceilX {f : F64} {q : ℚ} (h : val f = some q) : val (ceilX f) = some (⌈q⌉ : ℚ) := by
  unfold ceilX
  split
  · rename_i hc
    rw [val_negZero]
    rw [Bool.or_eq_true, Bool.and_eq_true, Bool.and_eq_true] at hc
    have : ⌈q⌉ = 0 := by
      rcases hc with hc | hc
      · have := (eq_val h val_zero).1 hc.1
        simp [this]
      · have h1 := (lt_val val_negOne h).1 hc.1
        have h2 := (lt_val h val_zero).1 hc.2
        rw [Int.ceil_eq_iff]; push_cast; constructor <;> linarith
    rw [this]; simp
  · exact val_ceil h

/-! ## `as i64` -/

theorem shiftRight_mantissa (em : ExtendedMantissa) (k : Nat) : (em >>> k).mantissa = em.mantissa / 2 ^ k := by
  show (Nat.repeat ExtendedMantissa.shiftRightOne k em).mantissa = _
  induction k with
  | zero => simp [Nat.repeat]
  | succ k ih =>
    rw [Nat.repeat]
    show (Nat.repeat ExtendedMantissa.shiftRightOne k em).mantissa / 2 = _
    rw [ih, Nat.div_div_eq_div_mul, Nat.pow_succ]

theorem toInt_val {f : F64} {q : ℚ} {a b : Int} (h : val f = some q) : f.unpack.toInt a b = truncQ q := by
  have key : ∀ (s : Sign) (m : Nat) (e : Int), UnpackedFloat.roundToInt s m e = s.apply ((m * 2 ^ e.toNat / 2 ^ (-e).toNat : Nat) : Int) := by
    intro s m e
    unfold UnpackedFloat.roundToInt UnpackedFloat.decreaseExponent UnpackedFloat.shiftToExponent
    simp only [shiftRight_mantissa, ExtendedMantissa.ofMantissaAndAccuracy, Nat.shiftLeft_eq]
    have h1 : e - 0 = e := by omega
    have h2 : (0 - (e - (e.toNat : Int))).toNat = (-e).toNat := by omega
    rw [h1, h2]
  have key2 : ∀ m e, ⌊mag m e⌋ = ((m * 2 ^ e.toNat / 2 ^ (-e).toNat : Nat) : Int) := by
    intro m e
    by_cases he : 0 ≤ e
    · rw [mag_int m he, Int.floor_natCast]
      have : (-e).toNat = 0 := by omega
      rw [this]; simp
    · rw [mag_div m he, nat_floor _ _ (Nat.two_pow_pos _)]
      have : e.toNat = 0 := by omega
      rw [this]; simp
  rcases val_cases h with ⟨s, hu, rfl⟩ | ⟨m, e, hm, hc, hu, rfl⟩ | ⟨m, e, hm, hc, hu, rfl⟩ <;> rw [hu]
  · simp [UnpackedFloat.toInt, truncQ]
  · show UnpackedFloat.roundToInt .positive m e = _
    rw [key, ← key2]
    unfold truncQ
    rw [if_pos (mag_pos hm).le]; rfl
  · show UnpackedFloat.roundToInt .negative m e = _
    rw [key, ← key2]
    unfold truncQ
    rw [if_neg (by have := mag_pos (e := e) hm; linarith), Int.ceil_neg]; rfl

/-- `as i64` truncates towards zero, when the result fits. -/
theorem toI64_val {f : F64} {q : ℚ} (h : val f = some q) (h1 : -2 ^ 63 ≤ truncQ q) (h2 : truncQ q < 2 ^ 63) : toI64 f = truncQ q := by
  show (Int64.ofIntClamp (f.unpack.toInt Int64.minValue.toInt Int64.maxValue.toInt)).toInt = _
  rw [toInt_val h, Int64.toInt_ofIntClamp]
  · have : Int64.minValue.toInt = -2 ^ 63 := by decide
    rw [this]; exact h1
  · have : Int64.maxValue.toInt = 2 ^ 63 - 1 := by decide
    rw [this]; omega

theorem truncQ_int (n : Int) : truncQ (n : ℚ) = n := by unfold truncQ; split <;> simp

/-- `x` and `x + 1/2` are exact for integers below `2 ^ 52`. -/
theorem rep_int_half {n : Int} (h : n.natAbs < 2 ^ 52) : Rep ((n : ℚ) + 1 / 2) := by
  have h1 : (n : ℚ) + 1 / 2 = ((2 * n + 1 : Int) : ℚ) * 2 ^ (-1 : Int) := by push_cast; rw [zpow_neg_one]; ring
  have h2 : Rep ((2 * n + 1 : Int) : ℚ) := rep_int (by omega)
  rw [rep_iff] at h2 ⊢
  right
  rcases h2 with h2 | ⟨m, e, hc, hm⟩
  · exfalso
    have : (2 * n + 1 : Int) = 0 := by exact_mod_cast h2
    omega
  · have hmag : mag m e * 2 ^ (-1 : Int) = mag m (e - 1) := by
      unfold mag
      rw [mul_assoc, ← zpow_add₀ (by norm_num)]; rfl
    refine ⟨m, e - 1, ⟨hc.1, hc.2.1, ?_, by have := hc.2.2.2.1; omega, ?_⟩, ?_⟩
    all_goals try rw [h1, abs_mul, hm, abs_of_pos (zpow_pos (by norm_num) _), hmag]
    all_goals
      have hne : e ≠ -1074 := by
        rintro rfl
        have h3 : mag m (-1074) < 1 := by
          have : mag m (-1074) < mag (2 ^ 53) (-1074) := mag_le_mag hc.2.1
          refine this.trans_le ?_
          have h5 : mag (2 ^ 53) (-1074) = mag 1 (-1021) := by
            have := mag_shift 1 53 (-1074); rwa [one_mul] at this
          rw [h5]
          unfold mag
          rw [Nat.cast_one, one_mul]
          exact zpow_le_one_of_nonpos₀ (by norm_num) (by norm_num)
        have h4 : (1 : ℚ) ≤ |((2 * n + 1 : Int) : ℚ)| := by
          rw [← Int.cast_abs]
          exact_mod_cast Int.one_le_abs (by omega)
        linarith
      have := hc.2.2.1
      have := hc.2.2.2.2
      omega
/-! ## Products, quotients, decimal input -/

/-- The sign of a number. -/
def sgn : Sign → ℚ
  | .positive => 1
  | .negative => -1

theorem uval_finite (s : Sign) (m : Nat) (e : Int) (h : 0 < m) : uval (.finite s m e h) = some (sgn s * mag m e) := by
  cases s <;> simp [uval, sgn]

theorem sgn_abs (s : Sign) : |sgn s| = 1 := by cases s <;> simp [sgn]
theorem sgn_mul (s t : Sign) : sgn (s * t) = sgn s * sgn t := by
  cases s <;> cases t <;> first | (show sgn Sign.positive = _; simp [sgn]) | (show sgn Sign.negative = _; simp [sgn])
theorem sgn_div (s t : Sign) : sgn (s / t) = sgn s * sgn t := by
  cases s <;> cases t <;> first | (show sgn Sign.positive = _; simp [sgn]) | (show sgn Sign.negative = _; simp [sgn])

theorem mag_mul (m m' : Nat) (e e' : Int) : mag (m * m') (e + e') = mag m e * mag m' e' := by
  unfold mag; rw [zpow_add₀ (by norm_num)]; push_cast; ring

/-- The canonical form of a representable magnitude. -/
theorem canon_of_rep {x : ℚ} (hx : 0 < x) (hr : Rep x) : ∃ m e, Canon m e ∧ x = mag m e := by
  rcases rep_iff.1 hr with rfl | ⟨m, e, hc, h⟩
  · exact absurd hx (_root_.lt_irrefl _)
  · rw [abs_of_pos hx] at h; exact ⟨m, e, hc, h⟩

theorem rep_sgn {s : Sign} {x : ℚ} : Rep (sgn s * x) ↔ Rep x := by
  cases s
  · simp only [sgn, neg_mul, one_mul]; exact ⟨fun h => by simpa using rep_neg h, rep_neg⟩
  · simp [sgn]

theorem log2_bounds {m : Nat} (hm : m ≠ 0) : 2 ^ m.log2 ≤ m ∧ m < 2 ^ (m.log2 + 1) :=
  ⟨(Nat.le_log2 hm).1 (le_refl _), (Nat.log2_lt hm).1 (Nat.lt_succ_self _)⟩

/-- `roundWithAccuracy` of an exact representable number with enough bits. -/
theorem val_roundWithAccuracy {s : Sign} {m : Nat} {e : Int} (hm : m ≠ 0) (hr : Rep (mag m e)) (hb : 52 ≤ m.log2 ∨ e ≤ -1074) :
    val (Float.Model.pack (UnpackedFloat.roundWithAccuracy Format.binary64 s m e .exact)) = some (sgn s * mag m e) := by
  obtain ⟨m', e', hc, hq⟩ := canon_of_rep (mag_pos (Nat.pos_of_ne_zero hm)) hr
  have ht := target_canon hm hc hq
  rw [targetExponent_eq] at ht
  unfold Float.Model.totalExponent at ht
  rw [roundWithAccuracy_exact hm hc hq (by omega), val_finite hc, uval_finite, hq]

theorem val_mul {a b : F64} {x y : ℚ} (ha : val a = some x) (hb : val b = some y) (hr : Rep (x * y)) :
    val (a * b) = some (x * y) := by
  show val (Float.Model.pack (UnpackedFloat.mul Format.binary64 a.unpack b.unpack)) = _
  unfold val at ha hb
  cases hu : a.unpack with
  | notANumber => rw [hu] at ha; cases ha
  | infinity s => rw [hu] at ha; cases s <;> cases ha
  | zero s =>
    rw [hu] at ha
    have hx : x = 0 := by simpa [uval] using ha.symm
    subst hx
    cases hv : b.unpack with
    | notANumber => rw [hv] at hb; cases hb
    | infinity s => rw [hv] at hb; cases s <;> cases hb
    | zero t => show uval (Float.Model.pack (.zero (s * t))).unpack = _; rw [unpack_zero]; simp [uval]
    | finite t m e h => show uval (Float.Model.pack (.zero (s * t))).unpack = _; rw [unpack_zero]; simp [uval]
  | finite s m e h =>
    have hc := canon_of hu
    cases hv : b.unpack with
    | notANumber => rw [hv] at hb; cases hb
    | infinity s => rw [hv] at hb; cases s <;> cases hb
    | zero t =>
      rw [hv] at hb
      have hy : y = 0 := by simpa [uval] using hb.symm
      subst hy
      show uval (Float.Model.pack (.zero (s * t))).unpack = _; rw [unpack_zero]; simp [uval]
    | finite t m' e' h' =>
      have hc' := canon_of hv
      rw [hu, uval_finite] at ha
      rw [hv, uval_finite] at hb
      cases ha; cases hb
      show val (Float.Model.pack (UnpackedFloat.roundWithAccuracy Format.binary64 (s * t) (m * m') (e + e') .exact)) = _
      have he : sgn s * mag m e * (sgn t * mag m' e') = sgn (s * t) * mag (m * m') (e + e') := by
        rw [sgn_mul, mag_mul]; ring
      rw [he] at hr ⊢
      refine val_roundWithAccuracy (Nat.mul_ne_zero (by omega) (by omega)) (rep_sgn.1 hr) ?_
      obtain ⟨_, _, h2, _, h4⟩ := hc
      obtain ⟨_, _, h2', _, h4'⟩ := hc'
      by_cases hbig : 2 ^ 52 ≤ m * m'
      · left; exact (Nat.le_log2 (Nat.mul_ne_zero (by omega) (by omega))).2 hbig
      · right
        have g1 : ¬ 2 ^ 52 ≤ m := fun hh => hbig (le_trans hh (Nat.le_mul_of_pos_right _ h'))
        have g2 : ¬ 2 ^ 52 ≤ m' := fun hh => hbig (le_trans hh (Nat.le_mul_of_pos_left _ h))
        omega

/-- The quotient of two magnitudes, if representable, is computed exactly. -/
theorem val_divCore {s : Sign} {m₁ m₂ : Nat} {e₁ e₂ : Int} (h1 : 0 < m₁) (h2 : 0 < m₂) (hr : Rep (mag m₁ e₁ / mag m₂ e₂)) :
    val (Float.Model.pack
      (let (m, e, acc) := UnpackedFloat.divCore Format.binary64 m₁ e₁ m₂ e₂
       UnpackedFloat.roundWithAccuracy Format.binary64 s m e acc)) = some (sgn s * (mag m₁ e₁ / mag m₂ e₂)) := by
  have p1 := mag_pos (e := e₁) h1
  have p2 := mag_pos (e := e₂) h2
  obtain ⟨m', e', hc, hq⟩ := canon_of_rep (div_pos p1 p2) hr
  have hp' := hc.1
  -- the quotient has at least as many bits as the difference of the lengths
  have hprod : mag m₁ e₁ = mag (m' * m₂) (e' + e₂) := by
    rw [mag_mul, ← hq]; field_simp
  have hT : Float.Model.totalExponent m₁ e₁ - Float.Model.totalExponent m₂ e₂ ≤ Float.Model.totalExponent m' e' := by
    unfold Float.Model.totalExponent
    have hl : (m₁.log2 : Int) + e₁ = (m' * m₂).log2 + (e' + e₂) := by
      have hne : m' * m₂ ≠ 0 := Nat.mul_ne_zero (by omega) (by omega)
      rcases le_total e₁ (e' + e₂) with he | he
      · rw [mag_eq hprod he, log2_shift hne]; push_cast; omega
      · rw [mag_eq hprod.symm he, log2_shift (by omega)]; push_cast; omega
    have hub : (m' * m₂).log2 < m'.log2 + 1 + (m₂.log2 + 1) := by
      rw [Nat.log2_lt (Nat.mul_ne_zero (by omega) (by omega)), Nat.pow_add]
      exact Nat.mul_lt_mul'' (log2_bounds (by omega)).2 (log2_bounds (by omega)).2
    omega
  have ht : Format.targetExponent Format.binary64 (Float.Model.totalExponent m₁ e₁ - Float.Model.totalExponent m₂ e₂) ≤ e' := by
    have := target_canon (m := m') (e := e') (by omega) hc rfl
    rw [targetExponent_eq] at this ⊢
    omega
  generalize hte : min (e₁ - e₂) (Format.targetExponent Format.binary64
    (Float.Model.totalExponent m₁ e₁ - Float.Model.totalExponent m₂ e₂)) = te
  have hte1 : te ≤ e' := by omega
  have hte2 : te ≤ e₁ - e₂ := by omega
  have hm : m₁ <<< (e₁ - e₂ - te).toNat = (m' * 2 ^ (e' - te).toNat) * m₂ := by
    rw [Nat.shiftLeft_eq]
    have : mag (m₁ * 2 ^ (e₁ - e₂ - te).toNat) (te + e₂) = mag (m' * 2 ^ (e' - te).toNat * m₂) (te + e₂) := by
      rw [mag_shift, mag_mul, mag_shift]
      have g1 : te + e₂ + ((e₁ - e₂ - te).toNat : Int) = e₁ := by omega
      have g2 : te + ((e' - te).toNat : Int) = e' := by omega
      rw [g1, g2, hprod, mag_mul]
    exact mag_inj this
  have hcore : UnpackedFloat.divCore Format.binary64 m₁ e₁ m₂ e₂ = (m' * 2 ^ (e' - te).toNat, te, .exact) := by
    unfold UnpackedFloat.divCore
    simp only [hte, hm]
    rw [Nat.mul_div_cancel _ h2, Nat.mul_mod_left]
    rfl
  rw [hcore]
  simp only
  have hmag : mag (m' * 2 ^ (e' - te).toNat) te = mag m' e' := by
    rw [mag_shift]; congr 1; omega
  rw [roundWithAccuracy_exact (Nat.mul_ne_zero (by omega) (Nat.two_pow_pos _).ne') hc hmag hte1, val_finite hc, uval_finite, hq]

theorem val_div {a b : F64} {x y : ℚ} (ha : val a = some x) (hb : val b = some y) (hy : y ≠ 0) (hr : Rep (x / y)) :
    val (a / b) = some (x / y) := by
  show val (Float.Model.pack (UnpackedFloat.div Format.binary64 a.unpack b.unpack)) = _
  unfold val at ha hb
  cases hv : b.unpack with
  | notANumber => rw [hv] at hb; cases hb
  | infinity s => rw [hv] at hb; cases s <;> cases hb
  | zero t => rw [hv] at hb; exact absurd (by simpa [uval] using hb.symm) hy
  | finite t m' e' h' =>
    cases hu : a.unpack with
    | notANumber => rw [hu] at ha; cases ha
    | infinity s => rw [hu] at ha; cases s <;> cases ha
    | zero s =>
      rw [hu] at ha
      have hx : x = 0 := by simpa [uval] using ha.symm
      subst hx
      show uval (Float.Model.pack (.zero (s / t))).unpack = _; rw [unpack_zero]; simp [uval]
    | finite s m e h =>
      rw [hu, uval_finite] at ha
      rw [hv, uval_finite] at hb
      cases ha; cases hb
      have he : sgn s * mag m e / (sgn t * mag m' e') = sgn (s / t) * (mag m e / mag m' e') := by
        rw [sgn_div]
        have : (sgn t)⁻¹ = sgn t := by cases t <;> simp [sgn]
        rw [mul_div_mul_comm, div_eq_mul_inv (sgn s), this]
      rw [he] at hr ⊢
      exact val_divCore h h' (rep_sgn.1 hr)

/-- Decimal numbers that are representable are read exactly. -/
theorem val_ofScientific {m : Nat} {e : Int} (he : -2048 ≤ e) (he' : e ≤ 2048) (hr : Rep ((m : ℚ) * 10 ^ e)) :
    val (Float.Model.ofScientific m e) = some ((m : ℚ) * 10 ^ e) := by
  show val (Float.Model.pack (UnpackedFloat.ofScientific Format.binary64 m e)) = _
  have e3 : Format.exponentBits Format.binary64 = 11 := by decide
  have e4 : Format.mantissaBits Format.binary64 = 53 := by decide
  unfold UnpackedFloat.ofScientific
  by_cases hm : m = 0
  · rw [dif_pos hm]
    subst hm
    show uval (Float.Model.pack (.zero .positive)).unpack = _
    rw [unpack_zero]; simp [uval]
  rw [dif_neg hm, if_neg (by rw [e3]; norm_num; omega), if_neg (by rw [e3]; norm_num; omega)]
  split
  · rename_i h0
    have hp : 0 < 10 ^ e.toNat := Nat.pow_pos (by decide)
    have hne : (m <<< 53) * 10 ^ e.toNat ≠ 0 := by
      rw [Nat.shiftLeft_eq]; exact Nat.mul_ne_zero (Nat.mul_ne_zero hm (Nat.two_pow_pos _).ne') hp.ne'
    have hval : mag ((m <<< 53) * 10 ^ e.toNat) (-53 + 0) = (m : ℚ) * 10 ^ e := by
      rw [mag_mul, Nat.shiftLeft_eq, mag_shift]
      unfold mag
      have : e = (e.toNat : Int) := by omega
      conv_rhs => rw [this, zpow_natCast]
      push_cast
      norm_num
    show val (Float.Model.pack (UnpackedFloat.roundWithAccuracy Format.binary64 (.positive * .positive) ((m <<< 53) * 10 ^ e.toNat) (-53 + 0) .exact)) = _
    rw [val_roundWithAccuracy hne (by rw [hval]; exact hr), hval]
    · show some (1 * _) = _
      rw [one_mul]
    · left
      rw [Nat.le_log2 hne, Nat.shiftLeft_eq]
      have : 1 ≤ m := Nat.pos_of_ne_zero hm
      calc 2 ^ 52 ≤ 1 * 2 ^ 53 * 1 := by norm_num
        _ ≤ m * 2 ^ 53 * 10 ^ e.toNat := Nat.mul_le_mul (Nat.mul_le_mul_right _ this) hp
  · rename_i h0
    have hp : 0 < 10 ^ (-e).toNat := Nat.pow_pos (by decide)
    have hval : mag m 0 / mag (10 ^ (-e).toNat) 0 = (m : ℚ) * 10 ^ e := by
      rw [mag_zero_exp, mag_zero_exp]
      have : e = -((-e).toNat : Int) := by omega
      conv_rhs => rw [this, zpow_neg, zpow_natCast]
      push_cast
      rw [div_eq_mul_inv]
    have := val_divCore (s := .positive / .positive) (Nat.pos_of_ne_zero hm) hp (e₁ := 0) (e₂ := 0) (by rw [hval]; exact hr)
    rw [hval] at this
    refine Eq.trans this ?_
    show some (1 * _) = _
    rw [one_mul]
end Amxml.F64
