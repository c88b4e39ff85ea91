import Verif.Lemmas.Rounding
import Verif.Lemmas.Numerals

/-!
# Lemmas: rounding determines the number; 17 digits suffice
-/

namespace Amxml.F64

open Float.Model (UnpackedFloat Format)
open Float.Model.UnpackedFloat
open Float.Model.UnpackedFloat (Sign)

/-! ## The bits are determined by the parts -/

theorem toBitVec_ofBitVec (b : BitVec 1) : (Sign.ofBitVec b).toBitVec = b := by
  rcases BitVec.eq_zero_or_eq_one b with rfl | rfl <;> decide

theorem comps (b : BitVec 64) :
    b = packComponents Format.binary64 (Sign.ofBitVec (unpackSign (spec := Format.binary64) b)) (unpackExponent (spec := Format.binary64) b)
      (unpackMantissa (spec := Format.binary64) b) := by
  unfold packComponents
  rw [toBitVec_ofBitVec]
  show b = (b.extractLsb 63 63 ++ b.extractLsb 62 52 ++ b.extractLsb 51 0 : BitVec 64)
  apply BitVec.eq_of_getLsbD_eq
  intro i hi
  rw [BitVec.getLsbD_append, BitVec.getLsbD_append]
  simp only [BitVec.getLsbD_extractLsb]
  by_cases h1 : i < 52
  · simp [h1]
  · by_cases h2 : i < 63
    · simp [h1, show i - 52 < 11 by omega, show 52 + (i - 52) = i by omega]
    · simp [show i = 63 by omega]

theorem parts_inj {s s' : Sign} {x x' : BitVec 11} {v v' : BitVec 52}
    (h : unpack Format.binary64 (packComponents Format.binary64 s x v) = unpack Format.binary64 (packComponents Format.binary64 s' x' v')) :
    (x = -1#_ ∧ v ≠ 0#_ ∧ x' = -1#_ ∧ v' ≠ 0#_) ∨ (s = s' ∧ x = x' ∧ v = v') := by
  rw [unpack_comps s x v, unpack_comps s' x' v'] at h
  have hv := v.isLt
  have hv' := v'.isLt
  by_cases h1 : x = -1#_ <;> by_cases h1' : x' = -1#_
  · by_cases h2 : v = 0#_ <;> by_cases h2' : v' = 0#_ <;> simp [h1, h1', h2, h2'] at h ⊢ <;> exact h
  · rw [if_pos h1, if_neg h1'] at h
    exfalso
    repeat' split at h
    all_goals cases h
  · rw [if_neg h1, if_pos h1'] at h
    exfalso
    repeat' split at h
    all_goals cases h
  · rw [if_neg h1, if_neg h1'] at h
    right
    have nz : ∀ {z : BitVec 52}, z ≠ 0#_ → z.toNat ≠ 0 := fun h h0 => h (BitVec.eq_of_toNat_eq (by simpa using h0))
    by_cases h2 : x = 0#_ <;> by_cases h2' : x' = 0#_
    · by_cases h3 : v = 0#_ <;> by_cases h3' : v' = 0#_ <;> simp [h2, h2', h3, h3'] at h ⊢
      · exact h
      · exact ⟨h.1, BitVec.eq_of_toNat_eq h.2⟩
    · exfalso
      rw [if_pos h2, if_neg h2'] at h
      split at h
      · cases h
      · simp only [UnpackedFloat.finite.injEq] at h
        omega
    · exfalso
      rw [if_neg h2, if_pos h2'] at h
      split at h
      · cases h
      · simp only [UnpackedFloat.finite.injEq] at h
        omega
    · rw [if_neg h2, if_neg h2'] at h
      simp only [UnpackedFloat.finite.injEq] at h
      exact ⟨h.1, BitVec.eq_of_toNat_eq (by omega), BitVec.eq_of_toNat_eq (by omega)⟩

theorem unpack_inj {f g : F64} (h : f.unpack = g.unpack) : f = g := by
  have key : f.toBits.toBitVec = g.toBits.toBitVec := by
    have hf := comps f.toBits.toBitVec
    have hg := comps g.toBits.toBitVec
    have h' : unpack Format.binary64 f.toBits.toBitVec = unpack Format.binary64 g.toBits.toBitVec := h
    rw [hf, hg] at h'
    rcases parts_inj h' with ⟨h1, h2, h3, h4⟩ | ⟨h1, h2, h3⟩
    · rw [f.valid.eq_packedNaN h1 h2, g.valid.eq_packedNaN h3 h4]
    · rw [hf, hg, h1, h2, h3]
  obtain ⟨a, ha⟩ := f
  obtain ⟨b, hb⟩ := g
  have : a = b := UInt64.toBitVec_inj.1 key
  subst this
  rfl

/-- A number other than zero has one `f64`. -/
theorem val_inj {f g : F64} {x : ℚ} (hx : x ≠ 0) (hf : val f = some x) (hg : val g = some x) : f = g := by
  apply unpack_inj
  rcases val_cases hf with ⟨s, hu, rfl⟩ | ⟨m, e, hm, hc, hu, rfl⟩ | ⟨m, e, hm, hc, hu, rfl⟩
  · exact absurd rfl hx
  · rcases val_cases hg with ⟨s, hu', h0⟩ | ⟨m', e', hm', hc', hu', h0⟩ | ⟨m', e', hm', hc', hu', h0⟩
    · exact absurd h0 hx
    · obtain ⟨rfl, rfl⟩ := (canon_inj hc hc').1 h0
      rw [hu, hu']
    · have := mag_pos (e := e) hm
      have := mag_pos (e := e') hm'
      linarith
  · rcases val_cases hg with ⟨s, hu', h0⟩ | ⟨m', e', hm', hc', hu', h0⟩ | ⟨m', e', hm', hc', hu', h0⟩
    · exact absurd h0 hx
    · have := mag_pos (e := e) hm
      have := mag_pos (e := e') hm'
      linarith
    · obtain ⟨rfl, rfl⟩ := (canon_inj hc hc').1 (neg_inj.1 h0)
      rw [hu, hu']

/-! ## The rounded number is determined -/

/-- Zero, or a number whose significand ends in 0. -/
def EvenRep (y : ℚ) : Prop := y = 0 ∨ ∃ m e, Canon m e ∧ |y| = mag m e ∧ m % 2 = 0

theorem EvenBit.rep {f : F64} {y : ℚ} (h : EvenBit f) (hv : val f = some y) : EvenRep y := by
  unfold EvenBit at h
  rcases val_cases hv with ⟨s, hu, rfl⟩ | ⟨m, e, hm, hc, hu, rfl⟩ | ⟨m, e, hm, hc, hu, rfl⟩
  · exact .inl rfl
  · rw [hu] at h; exact .inr ⟨m, e, hc, abs_of_pos (mag_pos hm), h⟩
  · rw [hu] at h; exact .inr ⟨m, e, hc, by rw [abs_neg, abs_of_pos (mag_pos hm)], h⟩

theorem rep_mag {m : Nat} {e : Int} (h : Canon m e) : Rep (mag m e) :=
  rep_iff.2 (.inr ⟨m, e, h, abs_of_pos (mag_pos h.1)⟩)

/-- Between two even numbers there is another one. -/
theorem between_pos {y y' : ℚ} (h : EvenRep y) (h' : EvenRep y') (h0 : 0 ≤ y) (hl : y < y') : ∃ z, Rep z ∧ y < z ∧ z < y' := by
  have hp : 0 < y' := lt_of_le_of_lt h0 hl
  rcases h' with rfl | ⟨m', e', hc', ha', hm'⟩
  · exact absurd hp (_root_.lt_irrefl _)
  rw [abs_of_pos hp] at ha'
  have hr' : Rep y' := by rw [ha']; exact rep_mag hc'
  rcases h with rfl | ⟨m, e, hc, ha, hm⟩
  · have hc1 : Canon 1 (-1074) := by unfold Canon; refine ⟨?_, ?_, ?_, ?_, ?_⟩ <;> norm_num
    refine ⟨mag 1 (-1074), rep_mag hc1, mag_pos (by norm_num), ?_⟩
    obtain ⟨j, hj⟩ := rep_grid hr' (E := -1074) (.inl rfl)
    have e1 : scaled (mag 1 (-1074)) (-1074) = ((1 : Nat) : ℚ) := scaled_mag 1 (-1074)
    rw [← scaled_lt (E := -1074), hj, e1]
    have hj0 : (0 : ℚ) < j := by
      rw [← hj]
      unfold scaled
      exact div_pos hp (zpow_pos (by norm_num) _)
    have hj1 : 0 < j := by exact_mod_cast hj0
    have hj2 : j ≠ 1 := by
      rintro rfl
      have : scaled y' (-1074) = scaled (mag 1 (-1074)) (-1074) := by rw [hj, e1]; norm_num
      have h2 : y' = mag 1 (-1074) := le_antisymm (scaled_le.1 this.le) (scaled_le.1 this.ge)
      have := ((canon_inj hc' hc1).1 (ha'.symm.trans h2)).2
      omega
    have : 1 < j := by omega
    exact_mod_cast this
  · rw [abs_of_nonneg h0] at ha
    have hc1 : Canon (m + 1) e := by
      obtain ⟨a, b, c, d, f⟩ := hc
      refine ⟨by omega, by omega, c, d, by omega⟩
    have hs : scaled y e = m := by rw [ha]; exact scaled_mag m e
    have e1 : scaled (mag (m + 1) e) e = ((m + 1 : Nat) : ℚ) := scaled_mag (m + 1) e
    have hls : (m : ℚ) < scaled y' e := by rw [← hs]; exact scaled_lt.2 hl
    refine ⟨mag (m + 1) e, rep_mag hc1, ?_, ?_⟩
    · rw [← scaled_lt (E := e), hs, e1]; push_cast; linarith
    · obtain ⟨j, hj⟩ := rep_grid hr' (E := e) (by
        obtain ⟨a, b, c, d, f⟩ := hc
        by_cases hn : 2 ^ 52 ≤ m
        · right
          have : ((2 ^ 52 : Nat) : ℚ) ≤ m := by exact_mod_cast hn
          rw [abs_of_nonneg (by have : (0 : ℚ) ≤ m := Nat.cast_nonneg _
                                linarith)]
          push_cast at this
          linarith
        · left; omega)
      rw [← scaled_lt (E := e), hj, e1]
      rw [hj] at hls
      have hj1 : (m : Int) < j := by exact_mod_cast hls
      have hj2 : j ≠ (m : Int) + 1 := by
        rintro rfl
        have : scaled y' e = scaled (mag (m + 1) e) e := by rw [hj, e1]; push_cast; rfl
        have h2 : y' = mag (m + 1) e := le_antisymm (scaled_le.1 this.le) (scaled_le.1 this.ge)
        have := ((canon_inj hc' hc1).1 (ha'.symm.trans h2)).2
        omega
      have : ((m + 1 : Nat) : Int) < j := by push_cast; omega
      exact_mod_cast this

theorem EvenRep.neg {y : ℚ} (h : EvenRep y) : EvenRep (-y) := by
  rcases h with rfl | ⟨m, e, hc, ha, hm⟩
  · exact .inl neg_zero
  · exact .inr ⟨m, e, hc, by rw [abs_neg, ha], hm⟩

theorem rep_zero : Rep 0 := rep_iff.2 (.inl rfl)

theorem between {y y' : ℚ} (h : EvenRep y) (h' : EvenRep y') (hl : y < y') : ∃ z, Rep z ∧ y < z ∧ z < y' := by
  rcases le_or_gt 0 y with h0 | h0
  · exact between_pos h h' h0 hl
  · rcases le_or_gt y' 0 with h1 | h1
    · obtain ⟨z, hz, a, b⟩ := between_pos h'.neg h.neg (by linarith) (neg_lt_neg hl)
      exact ⟨-z, rep_neg hz, by linarith, by linarith⟩
    · exact ⟨0, rep_zero, h0, h1⟩

/-- A number has one nearest `f64`. -/
theorem Nearest.unique {x : ℚ} {f g : F64} (hf : Nearest x f) (hg : Nearest x g) : val f = val g := by
  obtain ⟨y, hy, hn⟩ := hf
  obtain ⟨y', hy', hn'⟩ := hg
  rw [hy, hy']
  by_contra hne
  have hne : y ≠ y' := fun h => hne (by rw [h])
  have h1 := hn y' ⟨g, hy'⟩
  have h2 := hn' y ⟨f, hy⟩
  have heq : |x - y| = |x - y'| := le_antisymm h1.1 h2.1
  have he := (h1.2 hne.symm heq.symm).rep hy
  have he' := (h2.2 hne heq).rep hy'
  have key : ∀ {u v : ℚ}, EvenRep u → EvenRep v → u < v → |x - u| = |x - v| → (∀ z, Rep z → |x - u| ≤ |x - z|) → False := by
    intro u v hu hv hl h hz
    obtain ⟨z, hr, a, b⟩ := between hu hv hl
    have := hz z hr
    rcases abs_cases (x - u) with ⟨p, _⟩ | ⟨p, _⟩ <;> rcases abs_cases (x - v) with ⟨q, _⟩ | ⟨q, _⟩ <;> rcases abs_cases (x - z) with ⟨r, _⟩ | ⟨r, _⟩ <;>
      rw [p] at h this <;> rw [q] at h <;> rw [r] at this <;> linarith
  rcases lt_or_gt_of_ne hne with hl | hl
  · exact key he he' hl heq fun z hz => (hn z hz).1
  · exact key he' he hl heq.symm fun z hz => (hn' z hz).1

/-- Rounding determines the number. -/
theorem Rounded.unique {x : ℚ} {f g : F64} (hf : Rounded x f) (hg : Rounded x g) : val f = val g := by
  by_cases h : |x| < limit
  · exact (hf.1 h).unique (hg.1 h)
  · unfold val
    rcases le_or_gt 0 x with h0 | h0
    · rw [abs_of_nonneg h0] at h
      rw [hf.2.1 (not_lt.1 h), hg.2.1 (not_lt.1 h)]
    · rw [abs_of_neg h0] at h
      have h1 := not_lt.1 h
      rw [hf.2.2 (by linarith), hg.2.2 (by linarith)]

/-! ## Numbers near an `f64` -/

/-- Two different `f64` are not very near. -/
theorem gap {m : Nat} {e : Int} (hc : Canon m e) {z : ℚ} (hz : Rep z) (hne : z ≠ mag m e) : mag m e / 2 ^ 53 ≤ |z - mag m e| := by
  obtain ⟨a, b, c, d, f⟩ := hc
  have hp : (0 : ℚ) < 2 ^ e := zpow_pos (by norm_num) _
  have hs : scaled (mag m e) e = m := scaled_mag m e
  have hmq : (m : ℚ) ≤ 2 ^ 53 := by exact_mod_cast b.le
  have hsm : mag m e / 2 ^ 53 ≤ 2 ^ e := by
    unfold mag
    rw [div_le_iff₀ (by norm_num)]
    nlinarith
  have hne' : ∀ E, scaled z E ≠ scaled (mag m e) E := fun E h => hne (le_antisymm (scaled_le.1 h.le) (scaled_le.1 h.ge))
  by_cases hg : e = -1074 ∨ 2 ^ 52 ≤ |scaled z e|
  · obtain ⟨j, hj⟩ := rep_grid hz hg
    have h1 : (1 : ℚ) ≤ |scaled z e - scaled (mag m e) e| := by
      have h2 := hne' e
      rw [hj, hs] at h2 ⊢
      have hjm : j - m ≠ 0 := by
        intro h
        apply h2
        rw [show j = (m : Int) by omega]
        simp
      have : (1 : Int) ≤ |j - m| := Int.one_le_abs hjm
      exact_mod_cast this
    rw [scaled_abs z _ e]
    refine hsm.trans ?_
    nlinarith
  · push Not at hg
    obtain ⟨he, hg⟩ := hg
    have hm52 : 2 ^ 52 ≤ m := by omega
    have hm52q : (2 ^ 52 : ℚ) ≤ m := by exact_mod_cast hm52
    rw [scaled_abs z _ e, hs]
    have h1 := abs_lt.1 hg
    by_cases hm : m = 2 ^ 52
    · have h2 : mag m e / 2 ^ 53 = 1 / 2 * 2 ^ e := by
        unfold mag; rw [hm]; push_cast; ring
      rw [h2]
      refine mul_le_mul_of_nonneg_right ?_ hp.le
      by_cases hg2 : e - 1 = -1074 ∨ 2 ^ 52 ≤ |scaled z (e - 1)|
      · obtain ⟨j, hj⟩ := rep_grid hz hg2
        have h3 : scaled z (e - 1) = 2 * scaled z e := by
          unfold scaled
          rw [zpow_sub_one₀ (by norm_num)]
          field_simp
        rw [h3] at hj
        have h4 : (j : ℚ) < 2 ^ 53 := by linarith [h1.2]
        have h5 : j < 2 ^ 53 := by exact_mod_cast h4
        have h6 : j ≤ 2 ^ 53 - 1 := by omega
        have h7 : (j : ℚ) ≤ 2 ^ 53 - 1 := by exact_mod_cast h6
        refine le_trans ?_ (neg_le_abs _)
        rw [hm]; push_cast
        linarith
      · push Not at hg2
        have h3 : scaled z (e - 1) = 2 * scaled z e := by
          unfold scaled
          rw [zpow_sub_one₀ (by norm_num)]
          field_simp
        rw [h3] at hg2
        have h4 := abs_lt.1 hg2.2
        refine le_trans ?_ (neg_le_abs _)
        rw [hm]; push_cast
        linarith
    · have hm1 : 2 ^ 52 + 1 ≤ m := by omega
      have hm1q : (2 ^ 52 + 1 : ℚ) ≤ m := by exact_mod_cast hm1
      refine hsm.trans ?_
      have : (1 : ℚ) ≤ |scaled z e - m| := by
        refine le_trans ?_ (neg_le_abs _)
        linarith
      nlinarith

set_option exponentiation.threshold 2000 in
/-- A number very near to an `f64` is rounded to it. -/
theorem rounded_near {m : Nat} {e : Int} (hc : Canon m e) {x : ℚ} {f : F64} (hr : Rounded x f) (hx : |x - mag m e| < mag m e / 2 ^ 54) :
    val f = some (mag m e) := by
  have hp := mag_pos (e := e) hc.1
  have hxp : 0 < x := by
    have := (abs_lt.1 hx).1
    have : mag m e / 2 ^ 54 < mag m e := div_lt_self hp (by norm_num)
    linarith
  have hl : |x| < limit := by
    rw [abs_of_pos hxp]
    have h1 := (abs_lt.1 hx).2
    have h2 : mag m e ≤ (2 ^ 53 - 1) * (2 * unit) := by
      rw [← unit_1]
      unfold mag
      have h3 : (m : ℚ) ≤ 2 ^ 53 - 1 := by
        have : m ≤ 2 ^ 53 - 1 := by have := hc.2.1; omega
        have h4 : ((m : Int) : ℚ) ≤ ((2 ^ 53 - 1 : Int) : ℚ) := by
          have : (m : Int) ≤ 2 ^ 53 - 1 := by omega
          exact_mod_cast this
        norm_num at h4 ⊢
        exact h4
      have h4 : (2 : ℚ) ^ e ≤ 2 ^ (971 : Int) := zpow_le_zpow_right₀ (by norm_num) hc.2.2.2.1
      have h5 : (0 : ℚ) < 2 ^ e := zpow_pos (by norm_num) _
      have h6 : (0 : ℚ) ≤ m := Nat.cast_nonneg _
      calc (m : ℚ) * 2 ^ e ≤ (2 ^ 53 - 1) * 2 ^ e := mul_le_mul_of_nonneg_right h3 h5.le
        _ ≤ _ := mul_le_mul_of_nonneg_left h4 (by norm_num)
    rw [limit_eq]
    have := unit_pos
    have h3 : mag m e / 2 ^ 54 ≤ (2 ^ 53 - 1) * (2 * unit) / 2 ^ 54 := by
      rw [div_le_div_iff_of_pos_right (by norm_num)]; exact h2
    have h4 : (2 ^ 53 - 1) * (2 * unit) / 2 ^ 54 < unit := by
      rw [div_lt_iff₀ (by norm_num)]
      norm_num
      linarith
    norm_num at h2 h3 h4 ⊢
    linarith
  obtain ⟨y, hy, hn⟩ := hr.1 hl
  have h1 := (hn _ (rep_mag hc)).1
  rw [hy]
  by_contra hne
  have hne : y ≠ mag m e := fun h => hne (by rw [h])
  have h2 := gap hc ⟨f, hy⟩ hne
  have h3 : |y - mag m e| ≤ |x - y| + |x - mag m e| := by
    have : y - mag m e = -(x - y) + (x - mag m e) := by ring
    rw [this]
    refine (abs_add_le _ _).trans ?_
    rw [abs_neg]
  have h4 : mag m e / 2 ^ 53 = mag m e / 2 ^ 54 + mag m e / 2 ^ 54 := by ring
  linarith

/-! ## Decimal digits -/

theorem ltPow10_iff {m : Nat} {e k : Int} : ltPow10 m e k = true ↔ mag m e < 10 ^ k := by
  unfold ltPow10 mag
  rw [decide_eq_true_iff]
  have h2 : (2 : ℚ) ^ e = 2 ^ e.toNat / 2 ^ (-e).toNat := by
    rcases le_total 0 e with h | h
    · rw [show (-e).toNat = 0 by omega, pow_zero, div_one, ← zpow_natCast, Int.toNat_of_nonneg h]
    · rw [show e.toNat = 0 by omega, pow_zero, one_div, ← zpow_natCast, Int.toNat_of_nonneg (by omega), zpow_neg, inv_inv]
  have h3 : (10 : ℚ) ^ k = 10 ^ k.toNat / 10 ^ (-k).toNat := by
    rcases le_total 0 k with h | h
    · rw [show (-k).toNat = 0 by omega, pow_zero, div_one, ← zpow_natCast, Int.toNat_of_nonneg h]
    · rw [show k.toNat = 0 by omega, pow_zero, one_div, ← zpow_natCast, Int.toNat_of_nonneg (by omega), zpow_neg, inv_inv]
  rw [h2, h3, mul_div_assoc', div_lt_div_iff₀ (by positivity) (by positivity)]
  constructor
  · intro h; exact_mod_cast h
  · intro h; exact_mod_cast h

theorem decExp_spec {m : Nat} {e : Int} : ∀ (n : Nat) (lo : Int), 10 ^ (lo - 1) ≤ mag m e → mag m e < 10 ^ (lo + n) →
    10 ^ (decExp m e n lo - 1) ≤ mag m e ∧ mag m e < 10 ^ decExp m e n lo := by
  intro n
  induction n with
  | zero => intro lo h1 h2; exact ⟨h1, by simpa [decExp] using h2⟩
  | succ n ih =>
    intro lo h1 h2
    unfold decExp
    split
    · rename_i h; exact ⟨h1, ltPow10_iff.1 h⟩
    · rename_i h
      have h3 : ¬ mag m e < 10 ^ lo := fun h' => h (ltPow10_iff.2 h')
      refine ih (lo + 1) ?_ ?_
      · rw [add_sub_cancel_right]; exact not_lt.1 h3
      · rw [show lo + 1 + (n : Int) = lo + ((n + 1 : Nat) : Int) by push_cast; ring]; exact h2

theorem canon_range {m : Nat} {e : Int} (hc : Canon m e) : 10 ^ (-330 - 1 : Int) ≤ mag m e ∧ mag m e < 10 ^ (-330 + (700 : Nat) : Int) := by
  obtain ⟨a, b, c, d, _⟩ := hc
  have hm1 : (1 : ℚ) ≤ m := by exact_mod_cast a
  have hm2 : (m : ℚ) < 2 ^ 53 := by exact_mod_cast b
  have hp : (0 : ℚ) < 2 ^ e := zpow_pos (by norm_num) _
  unfold mag
  constructor
  · calc (10 : ℚ) ^ (-330 - 1 : Int) = ((10 : ℚ) ^ 331)⁻¹ := by
          rw [show (-330 - 1 : Int) = -((331 : Nat) : Int) by norm_num, zpow_neg, zpow_natCast]
      _ ≤ ((2 : ℚ) ^ 1074)⁻¹ := by
          refine inv_anti₀ (by positivity) ?_
          have h1 : (2 : ℚ) ^ 1074 ≤ (2 ^ 10) ^ 108 := by
            rw [← pow_mul]; exact pow_le_pow_right₀ (by norm_num) (by norm_num)
          have h2 : ((2 : ℚ) ^ 10) ^ 108 = (2 ^ 10) ^ 100 * (2 ^ 10) ^ 8 := by rw [← pow_add]
          have h3 : ((2 : ℚ) ^ 10) ^ 100 = 2 ^ 1000 := by rw [← pow_mul]
          have h4 : (2 : ℚ) ^ 1000 = (2 ^ 93) ^ 10 * 2 ^ 70 := by rw [← pow_mul, ← pow_add]
          have h5 : ((2 : ℚ) ^ 93) ≤ 10 ^ 28 := by norm_num
          have h6 : ((2 : ℚ) ^ 93) ^ 10 ≤ (10 ^ 28) ^ 10 := pow_le_pow_left₀ (by norm_num) h5 _
          have h7 : (2 : ℚ) ^ 70 * (2 ^ 10) ^ 8 ≤ 10 ^ 51 := by norm_num
          calc (2 : ℚ) ^ 1074 ≤ (2 ^ 93) ^ 10 * (2 ^ 70 * (2 ^ 10) ^ 8) := by
                rw [← mul_assoc, ← h4, ← h3, ← h2]; exact h1
            _ ≤ (10 ^ 28) ^ 10 * 10 ^ 51 := mul_le_mul h6 h7 (by positivity) (by positivity)
            _ = 10 ^ 331 := by rw [← pow_mul, ← pow_add]
      _ = (2 : ℚ) ^ (-1074 : Int) := by
          rw [show (-1074 : Int) = -((1074 : Nat) : Int) by norm_num, zpow_neg, zpow_natCast]
      _ ≤ 2 ^ e := zpow_le_zpow_right₀ (by norm_num) c
      _ ≤ m * 2 ^ e := by nlinarith
  · calc (m : ℚ) * 2 ^ e < 2 ^ 53 * 2 ^ e := mul_lt_mul_of_pos_right hm2 hp
      _ ≤ 2 ^ 53 * 2 ^ (971 : Int) := mul_le_mul_of_nonneg_left (zpow_le_zpow_right₀ (by norm_num) d) (by norm_num)
      _ = (2 : ℚ) ^ 1024 := by
          rw [show (971 : Int) = ((971 : Nat) : Int) by norm_num, zpow_natCast, ← pow_add]
      _ ≤ (2 : ℚ) ^ 1110 := pow_le_pow_right₀ (by norm_num) (by norm_num)
      _ = (2 ^ 3) ^ 370 := by rw [← pow_mul]
      _ ≤ 10 ^ 370 := pow_le_pow_left₀ (by norm_num) (by norm_num) _
      _ = 10 ^ (-330 + (700 : Nat) : Int) := by
          rw [show (-330 + (700 : Nat) : Int) = ((370 : Nat) : Int) by norm_num, zpow_natCast]

theorem val_of_eq {f g : F64} {x : ℚ} (hg : val g = some x) (h : eq f g = true) : val f = some x := by
  cases hf : val f with
  | some y => rw [(eq_val hf hg).1 h]
  | none =>
    exfalso
    unfold eq Float.Model.beq UnpackedFloat.beq at h
    unfold val at hf
    rcases hu : f.unpack with s | _ | s | ⟨s, m, e, hm⟩
    rotate_left
    · rw [hu] at h; simp [UnpackedFloat.compare] at h
    rotate_left 2
    · rw [hu] at h
      rcases val_cases hg with ⟨t, hv, rfl⟩ | ⟨m, e, hm, hc, hv, rfl⟩ | ⟨m, e, hm, hc, hv, rfl⟩ <;> rw [hv] at h <;> cases s <;> simp [UnpackedFloat.compare] at h
    · rw [hu] at hf; simp [uval] at hf
    · rw [hu] at hf; cases s <;> simp [uval] at hf

/-- What is found reads back. -/
theorem shortAt_reads {f : F64} {m : Nat} {e q : Int} {d : Nat} (h : shortAt f m e q = some d) : eq (Float.Model.ofScientific d q) f = true := by
  unfold shortAt at h
  simp only at h
  split at h <;> split at h
  · cases h; assumption
  · split at h
    · cases h; assumption
    · cases h
  · cases h; assumption
  · split at h
    · cases h; assumption
    · cases h

theorem pow_split (b : ℚ) (e : Int) : b ^ e = b ^ e.toNat / b ^ (-e).toNat := by
  rcases le_total 0 e with h | h
  · rw [show (-e).toNat = 0 by omega, pow_zero, div_one, ← zpow_natCast, Int.toNat_of_nonneg h]
  · rw [show e.toNat = 0 by omega, pow_zero, one_div, ← zpow_natCast, Int.toNat_of_nonneg (by omega), zpow_neg, inv_inv]

/-- With 17 digits, something is found. -/
theorem shortAt_found {f : F64} {m : Nat} {e q : Int} (hc : Canon m e) (hf : val f = some (mag m e)) (hq : 10 ^ (q + 16) ≤ mag m e) :
    (shortAt f m e q).isSome = true := by
  have hp : (0 : ℚ) < 10 ^ q := zpow_pos (by norm_num) _
  have hb : (10 : ℚ) ^ q / 2 < mag m e / 2 ^ 54 := by
    rw [zpow_add₀ (by norm_num)] at hq
    norm_num at hq ⊢
    linarith
  have ok : ∀ x : Nat, |(x : ℚ) - mag m e / 10 ^ q| ≤ 1 / 2 → eq (Float.Model.ofScientific x q) f = true := by
    intro x hx
    refine (eq_val (rounded_near hc (rounded_ofScientific x q) (lt_of_le_of_lt ?_ hb)) hf).2 rfl
    have : (x : ℚ) * 10 ^ q - mag m e = (x - mag m e / 10 ^ q) * 10 ^ q := by field_simp
    rw [this, abs_mul, abs_of_pos hp]
    nlinarith
  have hV : mag m e / 10 ^ q = ((m * 2 ^ e.toNat * 10 ^ (-q).toNat : Nat) : ℚ) / ((2 ^ (-e).toNat * 10 ^ q.toNat : Nat) : ℚ) := by
    unfold mag
    rw [pow_split 2 e, pow_split 10 q]
    push_cast
    field_simp
  unfold shortAt
  simp only
  have hden : 0 < 2 ^ (-e).toNat * 10 ^ q.toNat := by positivity
  generalize m * 2 ^ e.toNat * 10 ^ (-q).toNat = num at *
  generalize 2 ^ (-e).toNat * 10 ^ q.toNat = den at *
  have hdq : (0 : ℚ) < den := by exact_mod_cast hden
  have h1 : num / den * den + num % den = num := Nat.div_add_mod' num den
  have h1q : ((num / den : Nat) : ℚ) * den + ((num % den : Nat) : ℚ) = num := by exact_mod_cast h1
  have h3 : num - num / den * den = num % den := by omega
  have hlt : num % den < den := Nat.mod_lt _ hden
  have hV' : mag m e / 10 ^ q = ((num / den : Nat) : ℚ) + ((num % den : Nat) : ℚ) / den := by
    rw [hV, ← h1q]; field_simp
  rw [h3]
  have hm0 : (0 : ℚ) ≤ ((num % den : Nat) : ℚ) / den := by positivity
  by_cases hn : 2 * (num % den) ≤ den
  · have hnq : 2 * ((num % den : Nat) : ℚ) ≤ den := by exact_mod_cast hn
    have h4 : ((num % den : Nat) : ℚ) / den ≤ 1 / 2 := by rw [div_le_iff₀ hdq]; linarith
    rw [if_pos (by simpa using hn), if_pos (ok _ (by rw [hV', abs_le]; constructor <;> linarith))]
    rfl
  · have hnq : (den : ℚ) < 2 * ((num % den : Nat) : ℚ) := by exact_mod_cast (not_le.1 hn)
    have h4 : 1 / 2 ≤ ((num % den : Nat) : ℚ) / den := by rw [le_div_iff₀ hdq]; linarith
    have h5 : ((num % den : Nat) : ℚ) / den ≤ 1 := by
      rw [div_le_iff₀ hdq, one_mul]; exact_mod_cast hlt.le
    rw [if_neg (by simpa using hn), if_pos (ok _ (by push_cast; rw [hV', abs_le]; constructor <;> linarith))]
    rfl

theorem shortest_reads {f : F64} {m : Nat} {e k : Int} (hc : Canon m e) (hf : val f = some (mag m e)) (hk : 10 ^ (k - 1) ≤ mag m e) :
    ∀ (fuel n : Nat), n ≤ 17 → 17 < fuel + n → eq (Float.Model.ofScientific (shortest f m e k fuel n).1 (shortest f m e k fuel n).2) f = true := by
  intro fuel
  induction fuel with
  | zero => intro n h1 h2; omega
  | succ fuel ih =>
    intro n h1 h2
    unfold shortest
    cases hs : shortAt f m e (k - n) with
    | some d => exact shortAt_reads hs
    | none =>
      simp only
      by_cases h17 : n = 17
      · subst h17
        have := shortAt_found hc hf (q := k - (17 : Nat)) (by rw [show k - ((17 : Nat) : Int) + 16 = k - 1 by push_cast; ring]; exact hk)
        rw [hs] at this; cases this
      · exact ih (n + 1) (by omega) (by omega)

theorem stripZeros_same : ∀ (n d : Nat) (q : Int), ((stripZeros n d q).1 : ℚ) * 10 ^ (stripZeros n d q).2 = (d : ℚ) * 10 ^ q := by
  intro n
  induction n with
  | zero => intro d q; rfl
  | succ n ih =>
    intro d q
    unfold stripZeros
    split
    · rename_i h
      rw [ih]
      have h1 : ((d / 10 : Nat) : ℚ) * 10 = d := by
        have : d / 10 * 10 = d := by omega
        exact_mod_cast this
      rw [zpow_add_one₀ (by norm_num), ← h1]
      ring
    · rfl

/-- The digits of a number read back as the number. -/
theorem digits_reads {f : F64} {m : Nat} {e : Int} (hc : Canon m e) (hf : val f = some (mag m e)) :
    Float.Model.ofScientific (digits f m e).1 (digits f m e).2 = f := by
  have hr := canon_range hc
  have hk := decExp_spec 700 (-330) hr.1 hr.2
  have h1 := val_of_eq hf (shortest_reads hc hf hk.1 17 1 (by norm_num) (by norm_num))
  have h2 := rounded_ofScientific (digits f m e).1 (digits f m e).2
  have h3 : ((digits f m e).1 : ℚ) * 10 ^ (digits f m e).2 = _ := stripZeros_same 400 _ _
  rw [h3] at h2
  have h4 := h2.unique (rounded_ofScientific _ _)
  rw [h1] at h4
  exact val_inj (ne_of_gt (mag_pos hc.1)) h4 hf

/-! ## Whole numbers -/

/-- A whole number that is rounded to a whole number below `2 ^ 53` is that number. -/
theorem whole_rounded {N n : Nat} {f : F64} (hr : Rounded (N : ℚ) f) (hv : val f = some (n : ℚ)) (hn : n < 2 ^ 53) : N = n := by
  by_cases hN : N ≤ 2 ^ 53
  · have := hr.exact (rep_nat hN)
    rw [hv] at this
    have h := Option.some.inj this
    exact_mod_cast h.symm
  · exfalso
    push Not at hN
    have hNq : ((2 : ℚ) ^ 53) < N := by exact_mod_cast hN
    have hnq : (n : ℚ) < 2 ^ 53 := by exact_mod_cast hn
    by_cases hl : |(N : ℚ)| < limit
    · obtain ⟨y, hy, h⟩ := hr.1 hl
      rw [hv] at hy
      cases hy
      have h1 := (h (2 ^ 53) (by have := rep_nat (n := 2 ^ 53) (le_refl _); push_cast at this; exact this)).1
      rw [abs_of_pos (by linarith), abs_of_pos (by linarith)] at h1
      linarith
    · rw [abs_of_nonneg (Nat.cast_nonneg _)] at hl
      have := hr.2.1 (not_lt.1 hl)
      unfold val at hv
      rw [this] at hv
      cases hv

theorem shortest_whole {f : F64} {m n : Nat} {e : Int} (hf : val f = some (n : ℚ)) (hm : mag m e = n) (hn : n < 2 ^ 53) (k : Nat) :
    ∀ (fuel j : Nat), j ≤ k → k < fuel + j → ∃ d q : Nat, shortest f m e k fuel j = (d, (q : Int)) ∧ d * 10 ^ q = n := by
  intro fuel
  induction fuel with
  | zero => intro j h1 h2; omega
  | succ fuel ih =>
    intro j h1 h2
    unfold shortest
    cases hs : shortAt f m e (k - j) with
    | some d =>
      refine ⟨d, k - j, by simp only [Prod.mk.injEq, true_and]; omega, ?_⟩
      have h3 := val_of_eq hf (shortAt_reads hs)
      have h4 := rounded_ofScientific d ((k : Int) - j)
      have e1 : (d : ℚ) * 10 ^ ((k : Int) - j) = ((d * 10 ^ (k - j) : Nat) : ℚ) := by
        push_cast
        rw [← zpow_natCast]
        congr 2
        omega
      rw [e1] at h4
      exact whole_rounded h4 h3 hn
    | none =>
      simp only
      by_cases hj : j = k
      · exfalso
        subst hj
        rw [sub_self] at hs
        unfold shortAt at hs
        simp only [Int.toNat_zero, neg_zero, pow_zero, mul_one] at hs
        have e1 : m * 2 ^ e.toNat = n * 2 ^ (-e).toNat := by
          unfold mag at hm
          rw [pow_split 2 e, mul_div_assoc', div_eq_iff (by positivity)] at hm
          exact_mod_cast hm
        have e2 : m * 2 ^ e.toNat / 2 ^ (-e).toNat = n := by rw [e1, Nat.mul_div_cancel _ (by positivity)]
        have e3 : m * 2 ^ e.toNat - n * 2 ^ (-e).toNat = 0 := by rw [e1]; exact Nat.sub_self _
        rw [e2, e3] at hs
        have ok : eq (Float.Model.ofScientific n 0) f = true := by
          refine (eq_val ((rounded_ofScientific n 0).exact ?_) hf).2 ?_
          · rw [zpow_zero, mul_one]; exact rep_nat hn.le
          · rw [zpow_zero, mul_one]
        rw [if_pos (by simp), if_pos ok] at hs
        cases hs
      · exact ih (j + 1) (by omega) (by omega)

theorem stripZeros_whole : ∀ (n d q : Nat), ∃ d' q' : Nat, stripZeros n d (q : Int) = (d', (q' : Int)) ∧ d' * 10 ^ q' = d * 10 ^ q := by
  intro n
  induction n with
  | zero => intro d q; exact ⟨d, q, rfl, rfl⟩
  | succ n ih =>
    intro d q
    unfold stripZeros
    split
    · rename_i h
      obtain ⟨d', q', h1, h2⟩ := ih (d / 10) (q + 1)
      refine ⟨d', q', by rw [← h1]; push_cast; rfl, ?_⟩
      rw [h2, pow_succ]
      have : d / 10 * 10 = d := by omega
      calc d / 10 * (10 ^ q * 10) = d / 10 * 10 * 10 ^ q := by ring
        _ = _ := by rw [this]
    · exact ⟨d, q, rfl, rfl⟩

theorem natStr_zero_append {d : Nat} (hd : 0 < d) : ∀ q : Nat, natStr (d * 10 ^ q) = natStr d ++ List.replicate q '0' := by
  have hs : ∀ n, natStr n = Nat.toDigits 10 n := by
    intro n; unfold natStr; rw [Nat.toString_eq_repr, Nat.toList_repr]
  intro q
  induction q with
  | zero => simp
  | succ q ih =>
    rw [hs] at *
    have hp : 0 < d * 10 ^ q := by positivity
    rw [List.replicate_succ', ← List.append_assoc, ← ih, Nat.toDigits_of_base_le (by norm_num) (by rw [pow_succ, ← Nat.mul_assoc]; omega)]
    rw [show d * 10 ^ (q + 1) / 10 = d * 10 ^ q by rw [pow_succ, ← Nat.mul_assoc, Nat.mul_div_cancel _ (by norm_num)],
      show d * 10 ^ (q + 1) % 10 = 0 by rw [pow_succ, ← Nat.mul_assoc, Nat.mul_mod_left]]
    rfl

/-- Whole numbers are written as integers. -/
theorem positional_whole {f : F64} {m n : Nat} {e : Int} (hc : Canon m e) (hf : val f = some (n : ℚ)) (hm : mag m e = n) (hn : n < 2 ^ 53) :
    positional (digits f m e).1 (digits f m e).2 = natStr n := by
  have hr := canon_range hc
  have hk := decExp_spec 700 (-330) hr.1 hr.2
  have hp := mag_pos (e := e) hc.1
  have hn0 : 0 < n := by rw [hm] at hp; exact_mod_cast hp
  have hn1 : (1 : ℚ) ≤ n := by exact_mod_cast hn0
  unfold digits
  generalize decExp m e 700 (-330) = k at *
  rw [hm] at hk
  have h1 : 1 ≤ k := by
    by_contra h
    have : (10 : ℚ) ^ k ≤ 10 ^ (0 : Int) := zpow_le_zpow_right₀ (by norm_num) (by omega)
    rw [zpow_zero] at this
    linarith [hk.2]
  have h2 : k ≤ 16 := by
    by_contra h
    have : (10 : ℚ) ^ (16 : Int) ≤ 10 ^ (k - 1) := zpow_le_zpow_right₀ (by norm_num) (by omega)
    have h3 : (n : ℚ) < 10 ^ (16 : Int) := by
      have : (n : ℚ) < 2 ^ 53 := by exact_mod_cast hn
      refine this.trans ?_
      norm_num
    linarith [hk.1]
  obtain ⟨d, q, e1, e2⟩ := shortest_whole hf hm hn k.toNat 17 1 (by omega) (by omega)
  rw [show ((k.toNat : Nat) : Int) = k by omega] at e1
  simp only [e1]
  obtain ⟨d', q', e3, e4⟩ := stripZeros_whole 400 d q
  rw [e3]
  simp only
  rw [e2] at e4
  have hd' : 0 < d' := by
    rcases Nat.eq_zero_or_pos d' with h | h
    · rw [h, zero_mul] at e4; omega
    · exact h
  unfold positional
  simp only
  rw [if_pos (by omega), Int.toNat_natCast, ← natStr_zero_append hd', e4]

end Amxml.F64

namespace Amxml
open Spec
open Float.Model (UnpackedFloat)

/-! ## The text of a number -/

theorem digitsNumber_append (a b : Str) : digitsNumber (a ++ b) = digitsNumber a * 10 ^ b.length + digitsNumber b := by
  unfold digitsNumber
  rw [List.foldl_append]
  generalize List.foldl (fun n (c : Char) => 10 * n + (c.toNat - 48)) 0 a = n
  induction b using List.reverseRecOn with
  | nil => simp
  | append_singleton b c ih =>
    rw [List.foldl_append, List.foldl_append, ih]
    simp only [List.foldl_cons, List.foldl_nil, List.length_append, List.length_singleton, pow_succ]
    ring

theorem digitsNumber_zeros (n : Nat) : digitsNumber (List.replicate n '0') = 0 := by
  unfold digitsNumber
  induction n with
  | zero => rfl
  | succ n ih => rw [List.replicate_succ, List.foldl_cons]; exact ih

theorem isDigits_zeros (n : Nat) : IsDigits (List.replicate n '0') := by
  intro c hc; rw [(List.mem_replicate.1 hc).2]; decide

theorem Spec.IsDigits.append {a b : Str} (ha : IsDigits a) (hb : IsDigits b) : IsDigits (a ++ b) := by
  intro c hc; exact (List.mem_append.1 hc).elim (ha c) (hb c)

/-- Positional notation is a numeral for the number. -/
theorem positional_text (d : Nat) (q : Int) : ∃ m e, Fixed (F64.positional d q) m e ∧ (m : ℚ) * 10 ^ e = (d : ℚ) * 10 ^ q := by
  obtain ⟨h1, h2, h3⟩ := natStr_digits d
  unfold F64.positional
  simp only
  split
  · rename_i hq
    refine ⟨_, _, .int (by simp [h2]) (h1.append (isDigits_zeros _)), ?_⟩
    rw [digitsNumber_append, digitsNumber_zeros, h3, List.length_replicate, add_zero, zpow_zero, mul_one]
    push_cast
    rw [← zpow_natCast, Int.toNat_of_nonneg hq]
  · rename_i hq
    split
    · rename_i hp
      refine ⟨_, _, .point (fun c hc => h1 c (List.mem_of_mem_take hc)) (fun c hc => h1 c (List.mem_of_mem_drop hc)) (.inr ?_), ?_⟩
      · intro h
        have := congrArg List.length h
        simp only [List.length_drop, List.length_nil] at this
        omega
      · rw [List.take_append_drop, h3, List.length_drop]
        congr 2
        omega
    · rename_i hp
      rw [show S "0." ++ List.replicate ((-q).toNat - (F64.natStr d).length) '0' ++ F64.natStr d =
        ['0'] ++ '.' :: (List.replicate ((-q).toNat - (F64.natStr d).length) '0' ++ F64.natStr d) by rfl]
      refine ⟨_, _, .point (by intro c hc; simp at hc; subst hc; decide) ((isDigits_zeros _).append h1) (.inl (by simp)), ?_⟩
      rw [digitsNumber_append, digitsNumber_append, digitsNumber_zeros, h3, List.length_append, List.length_replicate,
        show digitsNumber ['0'] = 0 by decide, zero_mul, zero_mul, zero_add, zero_add]
      congr 2
      omega

/-- Scientific notation is a numeral for the number. -/
theorem scientific_text (d : Nat) (q : Int) :
    ∃ m e, Numeral ((F64.natStr d).take 1 ++ (if (F64.natStr d).length ≤ 1 then [] else '.' :: (F64.natStr d).drop 1) ++
      'e' :: F64.intStr (q + ((F64.natStr d).length - 1 : Nat))) m e ∧ (m : ℚ) * 10 ^ e = (d : ℚ) * 10 ^ q := by
  obtain ⟨h1, h2, h3⟩ := natStr_digits d
  have hpos : 0 < (F64.natStr d).length := List.length_pos_iff.2 h2
  split
  · rename_i hl
    have hl1 : (F64.natStr d).length = 1 := by omega
    rw [List.take_of_length_le hl, List.append_nil]
    refine ⟨_, _, .exp (.int h2 h1) (.inl rfl) (intStr_text _), ?_⟩
    rw [h3]; congr 2; omega
  · rename_i hl
    refine ⟨_, _, .exp (.point (fun c hc => h1 c (List.mem_of_mem_take hc)) (fun c hc => h1 c (List.mem_of_mem_drop hc)) (.inl ?_)) (.inl rfl)
      (intStr_text _), ?_⟩
    · intro h
      have := congrArg List.length h
      simp only [List.length_take, List.length_nil] at this
      omega
    · rw [List.take_append_drop, h3, List.length_drop]
      congr 2; omega

theorem parse_plain {s : Str} {m : Nat} {e : Int} (hn : Numeral s m e) : F64.parse s = some (Float.Model.ofScientific m e) := by
  obtain ⟨c, t, hs, hc⟩ := numeral_head hn
  have hb := parse_body hn id
  unfold F64.parse
  split
  rename_i neg u heq
  have : (neg, u) = (false, s) := by
    rw [← heq, hs]
    split
    · rename_i h'; cases h'; rcases hc with hc | hc <;> exact absurd hc (by decide)
    · rename_i h'; cases h'; rcases hc with hc | hc <;> exact absurd hc (by decide)
    · rfl
  cases this
  exact hb

theorem parse_minus {s : Str} {m : Nat} {e : Int} (hn : Numeral s m e) :
    F64.parse ('-' :: s) = some (Float.Model.neg (Float.Model.ofScientific m e)) := parse_body hn Float.Model.neg

/-- Any numeral for the digits of a number reads as the number. -/
theorem parse_digits {f : F64} {s : UnpackedFloat.Sign} {m : Nat} {e : Int} {hm : 0 < m} (hf : f.unpack = .finite s m e hm) {t : Str}
    (ht : ∃ k x, Numeral t k x ∧ (k : ℚ) * 10 ^ x = ((F64.digits (Float.Model.abs f) m e).1 : ℚ) * 10 ^ (F64.digits (Float.Model.abs f) m e).2) :
    F64.parse ((if s == .negative then ['-'] else []) ++ t) = some f := by
  obtain ⟨k, x, hn, hx⟩ := ht
  have hc := F64.canon_of hf
  have hp := F64.mag_pos (e := e) hm
  have ha : F64.val (Float.Model.abs f) = some (F64.mag m e) := by
    cases s with
    | positive =>
      have := F64.val_abs (f := f) (q := F64.mag m e) (by unfold F64.val; rw [hf]; rfl)
      rwa [abs_of_pos hp] at this
    | negative =>
      have := F64.val_abs (f := f) (q := -F64.mag m e) (by unfold F64.val; rw [hf]; rfl)
      rwa [abs_neg, abs_of_pos hp] at this
  have hd := F64.digits_reads hc ha
  have h1 := F64.rounded_ofScientific k x
  rw [hx] at h1
  have h2 := h1.unique (F64.rounded_ofScientific _ _)
  rw [hd, ha] at h2
  cases s with
  | positive =>
    rw [if_neg (by decide), List.nil_append, parse_plain hn]
    exact congrArg some (F64.val_inj (ne_of_gt hp) h2 (by unfold F64.val; rw [hf]; rfl))
  | negative =>
    rw [if_pos (by decide)]
    show F64.parse ('-' :: t) = _
    rw [parse_minus hn]
    exact congrArg some (F64.val_inj (neg_ne_zero.2 (ne_of_gt hp)) (F64.val_neg h2) (by unfold F64.val; rw [hf]; rfl))

/-- What is written for an `f64` reads as the same `f64`. -/
theorem parse_fmt (f : F64) : F64.parse (F64.fmt f) = some f := by
  unfold F64.fmt
  rcases hf : f.unpack with s | _ | s | ⟨s, m, e, hm⟩
  · have : f = F64.pack (.infinity s) := F64.unpack_inj (by rw [hf, F64.unpack_inf])
    rw [this]
    cases s <;> decide +kernel
  · have : f = F64.pack .notANumber := F64.unpack_inj (by rw [hf, F64.unpack_nan])
    rw [this]; decide +kernel
  · have : f = F64.pack (.zero s) := F64.unpack_inj (by rw [hf, F64.unpack_zero])
    rw [this]
    cases s <;> decide +kernel
  · obtain ⟨k, x, h1, h2⟩ := positional_text (F64.digits (Float.Model.abs f) m e).1 (F64.digits (Float.Model.abs f) m e).2
    exact parse_digits hf ⟨k, x, .fixed h1, h2⟩

/-- What is written for an `f64` in scientific notation reads as the same `f64`. -/
theorem parse_fmtExp (f : F64) : F64.parse (F64.fmtExp f) = some f := by
  unfold F64.fmtExp
  rcases hf : f.unpack with s | _ | s | ⟨s, m, e, hm⟩
  · have : f = F64.pack (.infinity s) := F64.unpack_inj (by rw [hf, F64.unpack_inf])
    rw [this]
    cases s <;> decide +kernel
  · have : f = F64.pack .notANumber := F64.unpack_inj (by rw [hf, F64.unpack_nan])
    rw [this]; decide +kernel
  · have : f = F64.pack (.zero s) := F64.unpack_inj (by rw [hf, F64.unpack_zero])
    rw [this]
    cases s <;> decide +kernel
  · have := parse_digits hf (scientific_text (F64.digits (Float.Model.abs f) m e).1 (F64.digits (Float.Model.abs f) m e).2)
    simpa only [List.append_assoc] using this

/-- Whole numbers are written as integers. -/
theorem fmt_whole {f : F64} {n : Int} (hn : n.natAbs < 2 ^ 53) (h0 : n ≠ 0) (hf : F64.val f = some (n : ℚ)) : F64.fmt f = F64.intStr n := by
  have ha := F64.val_abs hf
  have hab : |(n : ℚ)| = ((n.natAbs : Nat) : ℚ) := by
    rw [Nat.cast_natAbs, Int.cast_abs]
  unfold F64.fmt F64.intStr
  rcases F64.val_cases hf with ⟨s, hu, hz⟩ | ⟨m, e, hm, hc, hu, hz⟩ | ⟨m, e, hm, hc, hu, hz⟩
  · exact absurd (by exact_mod_cast hz) h0
  · have hp := F64.mag_pos (e := e) hm
    rw [← hz] at hp
    have hn0 : 0 < n := by exact_mod_cast hp
    rw [hu]
    simp only
    rw [if_neg (by decide), if_neg (by omega), List.nil_append, List.nil_append]
    rw [hab] at ha
    exact F64.positional_whole hc ha (by rw [← hz, ← hab, abs_of_pos hp]) hn
  · have hp := F64.mag_pos (e := e) hm
    have hneg : (n : ℚ) < 0 := by rw [hz]; linarith
    have hn0 : n < 0 := by exact_mod_cast hneg
    rw [hu]
    simp only
    rw [if_pos (by decide), if_pos hn0]
    congr 1
    rw [hab] at ha
    exact F64.positional_whole hc ha (by rw [← hab, hz, abs_neg, abs_of_pos hp]) hn

end Amxml
