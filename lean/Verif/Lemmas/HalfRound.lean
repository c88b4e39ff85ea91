import Verif.Lemmas.Rounding

/-!
# Adding one half to an `f64`

For which numbers the `f64` sum `q + 0.5` has the floor of the exact sum.
-/

namespace Amxml.F64

open Float.Model (UnpackedFloat)
open Amxml.Spec (RoundsWell)

theorem rep_magAt : ∀ (k : Nat) {m : Nat} {e : Int}, m ≤ 2 ^ 53 → e = -1074 + k → e ≤ 970 → Rep (mag m e) := by
  intro k
  induction k with
  | zero =>
    intro m e hm he _
    by_cases h0 : m = 0
    · subst h0; refine rep_iff.2 (Or.inl ?_); simp [mag]
    rcases Nat.lt_or_ge m (2 ^ 53) with h | h
    · exact rep_iff.2 (Or.inr ⟨m, e, ⟨by omega, h, by omega, by omega, by omega⟩, abs_of_pos (mag_pos (by omega))⟩)
    · have : m = 2 ^ 52 * 2 ^ 1 := by norm_num at *; omega
      rw [this, mag_shift]
      exact rep_iff.2 (Or.inr ⟨2 ^ 52, e + (1 : Nat), ⟨by norm_num, by norm_num, by omega, by push_cast; omega, by norm_num⟩,
        abs_of_pos (mag_pos (by norm_num))⟩)
  | succ k ih =>
    intro m e hm he hl
    by_cases h0 : m = 0
    · subst h0; refine rep_iff.2 (Or.inl ?_); simp [mag]
    rcases Nat.lt_or_ge m (2 ^ 53) with h | h
    · rcases Nat.lt_or_ge m (2 ^ 52) with h' | h'
      · have e1 : mag m e = mag (m * 2 ^ 1) (e - 1) := by rw [mag_shift]; congr 1; push_cast; omega
        rw [e1]
        exact ih (by omega) (by push_cast at he; omega) (by omega)
      · exact rep_iff.2 (Or.inr ⟨m, e, ⟨by omega, h, by push_cast at he; omega, by omega, Or.inl h'⟩, abs_of_pos (mag_pos (by omega))⟩)
    · have : m = 2 ^ 52 * 2 ^ 1 := by norm_num at *; omega
      rw [this, mag_shift]
      exact rep_iff.2 (Or.inr ⟨2 ^ 52, e + (1 : Nat), ⟨by norm_num, by norm_num, by push_cast at *; omega, by push_cast; omega, by norm_num⟩,
        abs_of_pos (mag_pos (by norm_num))⟩)

theorem rep_magAt' {m : Nat} {e : Int} (hm : m ≤ 2 ^ 53) (h1 : -1074 ≤ e) (h2 : e ≤ 970) : Rep (mag m e) :=
  rep_magAt (e + 1074).toNat hm (by omega) h2

theorem evenBit_mag {f : F64} {y : ℚ} {m : Nat} {e : Int} (hf : val f = some y) (hy : |y| = mag m e) (hc : Canon m e) : EvenBit f ↔ m % 2 = 0 := by
  unfold EvenBit
  rcases val_cases hf with ⟨s, hu, rfl⟩ | ⟨m', e', hm, hc', hu, rfl⟩ | ⟨m', e', hm, hc', hu, rfl⟩
  · have := mag_pos (e := e) hc.1
    rw [abs_zero] at hy; linarith
  · rw [abs_of_pos (mag_pos hm)] at hy
    obtain ⟨rfl, rfl⟩ := (canon_inj hc' hc).1 hy
    rw [hu]
  · rw [abs_neg, abs_of_pos (mag_pos hm)] at hy
    obtain ⟨rfl, rfl⟩ := (canon_inj hc' hc).1 hy
    rw [hu]

theorem evenBit_int {f : F64} {n : Int} (hf : val f = some (n : ℚ)) (h1 : 2 ^ 52 ≤ |n|) (h2 : |n| < 2 ^ 53) : EvenBit f ↔ n % 2 = 0 := by
  have hc : Canon n.natAbs 0 := by
    rw [Int.abs_eq_natAbs] at h1 h2
    refine ⟨?_, ?_, by norm_num, by norm_num, Or.inl ?_⟩ <;> omega
  rw [evenBit_mag hf (m := n.natAbs) (e := 0) (by rw [mag_zero_exp, ← Int.cast_abs, Int.abs_eq_natAbs]; simp) hc]
  omega

theorem grid_int {z : ℚ} (hz : Rep z) (h : 2 ^ 52 ≤ |z|) : ∃ j : Int, z = j := by
  obtain ⟨j, hj⟩ := rep_grid hz (E := 0) (Or.inr (by simpa [scaled] using h))
  exact ⟨j, by simpa [scaled] using hj⟩

theorem grid_even {z : ℚ} (hz : Rep z) (h : 2 ^ 53 ≤ |z|) : ∃ j : Int, z = ((2 * j : Int) : ℚ) := by
  obtain ⟨j, hj⟩ := rep_grid hz (E := 1) (Or.inr (by
    unfold scaled; rw [abs_div, abs_of_pos (show (0 : ℚ) < 2 ^ (1 : Int) by norm_num), le_div_iff₀ (by norm_num)]; norm_num at h ⊢; exact h))
  refine ⟨j, ?_⟩
  unfold scaled at hj
  rw [div_eq_iff (by norm_num)] at hj
  rw [hj]; push_cast; ring

set_option exponentiation.threshold 2000 in
/-- Adding one half does not overflow. -/
theorem half_limit {q : ℚ} (hq : Rep q) : |q + 1 / 2| < limit := by
  have h1 := rep_small hq
  rcases lt_or_ge |q| (2 ^ 53) with h | h
  · have hl : (2 : ℚ) ^ 54 < limit := by
      rw [limit_eq]
      have : (2 : ℚ) ≤ unit := by unfold unit; exact le_self_pow₀ (by norm_num) (by norm_num)
      nlinarith
    have := abs_add_le q (1 / 2)
    rw [abs_of_pos (show (0 : ℚ) < 1 / 2 by norm_num)] at this
    linarith
  · obtain ⟨j, rfl⟩ := grid_even hq h
    have hlim : limit = (((2 ^ 54 - 1) * 2 ^ 970 : Int) : ℚ) := by rw [limit_eq]; unfold unit; push_cast; ring
    rw [hlim] at h1 ⊢
    generalize ((2 ^ 54 - 1) * 2 ^ 970 : Int) = L at *
    have : |2 * j| < L := by exact_mod_cast h1
    have h2 : |2 * j| + 1 ≤ L := this
    have h3 : (((|2 * j| + 1 : Int)) : ℚ) ≤ L := by exact_mod_cast h2
    have := abs_add_le (((2 * j : Int)) : ℚ) (1 / 2)
    rw [abs_of_pos (show (0 : ℚ) < 1 / 2 by norm_num)] at this
    push_cast at *
    linarith

theorem nearest_rep {x y z : ℚ} {f : F64} (hf : val f = some y) (h : Nearest x f) (hz : Rep z) : |x - y| ≤ |x - z| ∧ (z ≠ y → |x - z| = |x - y| → EvenBit f) := by
  obtain ⟨y', hy', h'⟩ := h
  rw [hf] at hy'; cases hy'
  exact h' z hz

/-- The value of the rounded number lies between integers between which the number lies. -/
theorem nearest_between {x y : ℚ} {f : F64} (hf : val f = some y) (h : Nearest x f) {a b : ℚ} (ha : Rep a) (hb : Rep b) (h1 : a ≤ x) (h2 : x ≤ b) : a ≤ y ∧ y ≤ b := by
  have e1 := (nearest_rep hf h ha).1
  have e2 := (nearest_rep hf h hb).1
  rw [abs_of_nonneg (by linarith : 0 ≤ x - a), abs_le] at e1
  rw [abs_of_nonpos (by linarith : x - b ≤ 0), abs_le] at e2
  constructor <;> linarith [e1.1, e1.2, e2.1, e2.2]

/-- A nearer number than the integer above keeps the floor. -/
theorem floor_good {x y z : ℚ} {f : F64} (hf : val f = some y) (h : Nearest x f) {n : Int} (hn : n.natAbs ≤ 2 ^ 53) (hn1 : (n + 1).natAbs ≤ 2 ^ 53)
    (h1 : (n : ℚ) ≤ x) (h2 : x < n + 1) (hz : Rep z) (hzz : |x - z| < n + 1 - x) : ⌊y⌋ = n ∧ ⌊x⌋ = n := by
  have b := nearest_between hf h (rep_int hn) (rep_int hn1) h1 (by push_cast; exact h2.le)
  have e := (nearest_rep hf h hz).1
  push_cast at b
  refine ⟨Int.floor_eq_iff.2 ⟨b.1, lt_of_le_of_ne b.2 ?_⟩, Int.floor_eq_iff.2 ⟨h1, h2⟩⟩
  intro hy
  rw [hy, abs_of_nonpos (by linarith : x - (n + 1) ≤ 0)] at e
  linarith

theorem floor_exact {x y : ℚ} {f : F64} (hf : val f = some y) (h : Nearest x f) (hx : Rep x) : y = x := by
  have e := (nearest_rep hf h hx).1
  rw [sub_self, abs_zero] at e
  have := abs_eq_zero.1 (le_antisymm e (abs_nonneg _))
  linarith

/-- Large numbers: the sum is rounded back. -/
theorem half_large {q y : ℚ} {f : F64} (hq : Rep q) (hf : val f = some y) (h : Nearest (q + 1 / 2) f) (hl : 2 ^ 53 ≤ |q|) : y = q := by
  obtain ⟨k, hk⟩ := grid_even hq hl
  have e := (nearest_rep hf h hq).1
  rw [add_sub_cancel_left, abs_of_pos (show (0 : ℚ) < 1 / 2 by norm_num), abs_le] at e
  have hy : Rep y := ⟨f, hf⟩
  rcases le_or_gt (2 ^ 53) |y| with hy1 | hy1
  · obtain ⟨j, hj⟩ := grid_even hy hy1
    have a1 : ((2 * k : Int) : ℚ) ≤ ((2 * j : Int) : ℚ) := by rw [← hk, ← hj]; linarith
    have a2 : ((2 * j : Int) : ℚ) ≤ ((2 * k + 1 : Int) : ℚ) := by push_cast; push_cast at hk hj; linarith
    have b1 : 2 * k ≤ 2 * j := by exact_mod_cast a1
    have b2 : 2 * j ≤ 2 * k + 1 := by exact_mod_cast a2
    rw [hj, hk, show 2 * j = 2 * k by omega]
  · exfalso
    rw [abs_lt] at hy1
    have hneg : q ≤ -2 ^ 53 := by
      rcases le_abs.1 hl with h1 | h1 <;> linarith
    have hge : (2 : ℚ) ^ 52 ≤ |y| := by
      rw [le_abs]; right; linarith
    obtain ⟨j, hj⟩ := grid_int hy hge
    have a1 : (j : ℚ) ≤ ((2 * k + 1 : Int) : ℚ) := by push_cast; push_cast at hk; linarith
    have a2 : (2 * k : Int) ≤ (-2 ^ 53 : Int) := by
      have : ((2 * k : Int) : ℚ) ≤ ((-2 ^ 53 : Int) : ℚ) := by rw [← hk]; push_cast; exact hneg
      exact_mod_cast this
    have a3 : (-2 ^ 53 : Int) < j := by
      have : ((-2 ^ 53 : Int) : ℚ) < ((j : Int) : ℚ) := by rw [← hj]; push_cast; exact hy1.1
      exact_mod_cast this
    have b1 : j ≤ 2 * k + 1 := by exact_mod_cast a1
    have hjv : j = 2 * k + 1 := by omega
    have hkv : 2 * k = -2 ^ 53 := by omega
    have hev := (nearest_rep hf h hq).2 (by rw [hk, hj]; intro hh; have : 2 * k = j := by exact_mod_cast hh
                                            omega) (by
      rw [hj, hk, hjv]; push_cast
      rw [show (2 * (k : ℚ) + 1 / 2 - 2 * k) = 1 / 2 by ring, show (2 * (k : ℚ) + 1 / 2 - (2 * k + 1)) = -(1 / 2) by ring, abs_neg])
    rw [hj] at hf
    have hjn : |j| = 2 ^ 53 - 1 := by rw [hjv, hkv]; norm_num
    rw [evenBit_int hf (by rw [hjn]; norm_num) (by rw [hjn]; norm_num)] at hev
    omega

/-- Integers between `2 ^ 52` and `2 ^ 53`: the even neighbour. -/
theorem half_middle {k : Int} {y : ℚ} {f : F64} (hf : val f = some y) (h : Nearest ((k : ℚ) + 1 / 2) f) (h1 : 2 ^ 52 ≤ |k|) (h2 : |k| < 2 ^ 53) :
    ⌊y⌋ = if k % 2 = 1 ∧ 2 ^ 52 < |k| then k + 1 else k := by
  by_cases hs : k = -2 ^ 52
  · have hr : Rep ((k : ℚ) + 1 / 2) := by
      have : (k : ℚ) + 1 / 2 = -mag (2 ^ 53 - 1) (-1) := by rw [hs]; unfold mag; norm_num
      rw [this]
      exact rep_neg (rep_magAt' (by norm_num) (by norm_num) (by norm_num))
    rw [floor_exact hf h hr, if_neg (by omega), Int.floor_eq_iff]
    constructor <;> linarith
  have hab : k.natAbs ≤ 2 ^ 53 ∧ (k + 1).natAbs ≤ 2 ^ 53 := by rw [Int.abs_eq_natAbs] at h2; omega
  have b := nearest_between hf h (rep_int hab.1) (rep_int hab.2) (by linarith) (by push_cast; linarith)
  have hy : Rep y := ⟨f, hf⟩
  have hge : (2 : ℚ) ^ 52 ≤ |y| := by
    rw [le_abs]
    rcases le_abs.1 h1 with h3 | h3
    · left
      have : ((2 ^ 52 : Int) : ℚ) ≤ k := by exact_mod_cast h3
      push_cast at this; linarith [b.1]
    · right
      have h4 : k + 1 ≤ -2 ^ 52 := by omega
      have : ((k + 1 : Int) : ℚ) ≤ ((-2 ^ 52 : Int) : ℚ) := by exact_mod_cast h4
      push_cast at this b; linarith [b.2]
  obtain ⟨j, rfl⟩ := grid_int hy hge
  have hj : k ≤ j ∧ j ≤ k + 1 := by exact_mod_cast b
  have hjj : j = k ∨ j = k + 1 := by omega
  have hge' : (2 : Int) ^ 52 ≤ |j| := by
    have : (((2 ^ 52 : Int)) : ℚ) ≤ ((|j| : Int) : ℚ) := by push_cast; exact hge
    exact_mod_cast this
  rw [Int.floor_intCast]
  rcases hjj with rfl | rfl
  · have hev := (nearest_rep hf h (rep_int hab.2)).2 (by push_cast; intro hh; linarith) (by
      push_cast
      rw [show ((j : ℚ) + 1 / 2 - (j + 1)) = -(1 / 2) by ring, show ((j : ℚ) + 1 / 2 - j) = 1 / 2 by ring, abs_neg])
    rw [evenBit_int hf h1 h2] at hev
    rw [if_neg (by omega)]
  · have hev := (nearest_rep hf h (rep_int hab.1)).2 (by push_cast; intro hh; linarith) (by
      push_cast
      rw [show ((k : ℚ) + 1 / 2 - (k + 1)) = -(1 / 2) by ring, show ((k : ℚ) + 1 / 2 - k) = 1 / 2 by ring, abs_neg])
    have hodd : k % 2 = 1 := by
      by_cases h3 : |k + 1| < 2 ^ 53
      · rw [evenBit_int hf hge' h3] at hev
        omega
      · rw [Int.abs_eq_natAbs] at h2 h3; omega
    have : 2 ^ 52 < |k| := by
      rw [Int.abs_eq_natAbs] at *
      omega
    rw [if_pos ⟨hodd, this⟩]

/-- Numbers below `2 ^ 52` in size. -/
theorem half_small {q y : ℚ} {f : F64} (hq : Rep q) (hf : val f = some y) (h : Nearest (q + 1 / 2) f) (hl : |q| < 2 ^ 52) (hne : q ≠ 1 / 2 - 1 / 2 ^ 54) :
    ⌊y⌋ = ⌊q + 1 / 2⌋ := by
  rw [abs_lt] at hl
  by_cases hx : Rep (q + 1 / 2)
  · rw [floor_exact hf h hx]
  -- the integers around the number
  have good : ∀ (n : Int) (z : ℚ), (-2 ^ 52 ≤ n ∧ n ≤ 2 ^ 52) → (n : ℚ) ≤ q + 1 / 2 → q + 1 / 2 < n + 1 → Rep z → |q + 1 / 2 - z| < n + 1 - (q + 1 / 2) →
      ⌊y⌋ = ⌊q + 1 / 2⌋ := by
    intro n z hn a b c d
    obtain ⟨e1, e2⟩ := floor_good hf h (by omega) (by omega) a b c d
    rw [e1, e2]
  rcases lt_trichotomy q 0 with hq0 | rfl | hq0
  · rcases lt_or_ge (-(1 / 2)) q with h1 | h1
    · refine good 0 0 (by norm_num) (by push_cast; linarith) (by push_cast; linarith) (rep_iff.2 (Or.inl rfl)) ?_
      rw [sub_zero, abs_of_pos (by linarith)]; push_cast; linarith
    · exfalso
      apply hx
      obtain ⟨m, e, hc, hm⟩ := canon_of_rep (show 0 < -q by linarith) (rep_neg hq)
      have he : e ≤ -1 := by
        by_contra hcon
        have h5 : 2 ^ 52 ≤ m := by rcases hc.2.2.2.2 with h5 | h5; exact h5; omega
        have : (2 ^ 52 : ℚ) ≤ mag m e := by
          unfold mag
          have h6 : (1 : ℚ) ≤ 2 ^ e := one_le_zpow₀ (by norm_num) (by omega)
          have h7 : (2 ^ 52 : ℚ) ≤ m := by exact_mod_cast h5
          nlinarith
        linarith
      have hhalf : (1 / 2 : ℚ) = mag (2 ^ (-1 - e).toNat) e := by
        rw [← one_mul (2 ^ (-1 - e).toNat), mag_shift, show e + ((-1 - e).toNat : Int) = -1 by omega]; unfold mag; norm_num
      have hle : 2 ^ (-1 - e).toNat ≤ m := by
        by_contra hcon
        have := mag_le_mag (e := e) (not_le.1 hcon)
        rw [← hhalf, ← hm] at this
        linarith
      have : q + 1 / 2 = -mag (m - 2 ^ (-1 - e).toNat) e := by
        have h8 : mag (m - 2 ^ (-1 - e).toNat) e = mag m e - mag (2 ^ (-1 - e).toNat) e := by
          unfold mag; rw [Nat.cast_sub hle]; ring
        rw [h8, ← hhalf, ← hm]; ring
      rw [this]
      exact rep_neg (rep_magAt' (le_trans (Nat.sub_le _ _) hc.2.1.le) hc.2.2.1 (by omega))
  · exact absurd (by simpa using rep_half) hx
  · rcases lt_or_ge q (1 / 2) with h1 | h1
    · have hz : Rep (1 - 1 / 2 ^ 53) := by
        have : (1 - 1 / 2 ^ 53 : ℚ) = mag (2 ^ 53 - 1) (-53) := by unfold mag; norm_num
        rw [this]; exact rep_magAt' (by norm_num) (by norm_num) (by norm_num)
      have hle : q + 1 / 2 ≤ 1 - 1 / 2 ^ 53 := by
        rcases lt_or_ge q (1 / 4) with h2 | h2
        · have : (1 / 2 ^ 53 : ℚ) ≤ 1 / 4 := by norm_num
          linarith
        · obtain ⟨j, hj⟩ := rep_grid hq (E := -54) (Or.inr (by
            unfold scaled; rw [abs_of_pos (by positivity), le_div_iff₀ (by positivity)]; norm_num; linarith))
          unfold scaled at hj
          rw [div_eq_iff (by positivity)] at hj
          have h3 : j < 2 ^ 53 := by
            have : (j : ℚ) < ((2 ^ 53 : Int) : ℚ) := by
              push_cast
              rw [hj] at h1; norm_num at h1 ⊢; linarith
            exact_mod_cast this
          have h4 : j ≠ 2 ^ 53 - 1 := by
            rintro rfl
            apply hne; rw [hj]; norm_num
          have h5 : j ≤ 2 ^ 53 - 2 := by omega
          have h6 : (j : ℚ) ≤ ((2 ^ 53 - 2 : Int) : ℚ) := by exact_mod_cast h5
          rw [hj]; push_cast at h6; norm_num at h6 ⊢; linarith
      have b := nearest_between hf h (rep_iff.2 (Or.inl rfl)) hz (by linarith) hle
      have e1 : ⌊y⌋ = 0 := Int.floor_eq_iff.2 ⟨by push_cast; exact b.1, by
        have : (0 : ℚ) < 1 / 2 ^ 53 := by norm_num
        push_cast; linarith [b.2]⟩
      have e2 : ⌊q + 1 / 2⌋ = 0 := Int.floor_eq_iff.2 ⟨by push_cast; linarith, by push_cast; linarith⟩
      rw [e1, e2]
    · obtain ⟨m, e, hc, hm⟩ := canon_of_rep hq0 hq
      have he : e ≤ -1 := by
        by_contra hcon
        have h5 : 2 ^ 52 ≤ m := by rcases hc.2.2.2.2 with h5 | h5; exact h5; omega
        have : (2 ^ 52 : ℚ) ≤ mag m e := by
          unfold mag
          have h6 : (1 : ℚ) ≤ 2 ^ e := one_le_zpow₀ (by norm_num) (by omega)
          have h7 : (2 ^ 52 : ℚ) ≤ m := by exact_mod_cast h5
          nlinarith
        linarith
      have hmlt := mag_le_mag (e := e) hc.2.1
      have hp53 : mag (2 ^ 53) e = mag 1 (e + 53) := by rw [← one_mul (2 ^ 53), mag_shift]; congr 1
      have he53 : -53 ≤ e := by
        by_contra hcon
        have : mag 1 (e + 53) ≤ 1 / 2 := by
          unfold mag
          have : (2 : ℚ) ^ (e + 53) ≤ 2 ^ (-1 : Int) := zpow_le_zpow_right₀ (by norm_num) (by omega)
          norm_num at this ⊢; linarith
        rw [hp53, ← hm] at hmlt
        linarith
      have hhalf : (1 / 2 : ℚ) = mag (2 ^ (-1 - e).toNat) e := by
        rw [← one_mul (2 ^ (-1 - e).toNat), mag_shift, show e + ((-1 - e).toNat : Int) = -1 by omega]; unfold mag; norm_num
      have hsum : q + 1 / 2 = mag (m + 2 ^ (-1 - e).toNat) e := by
        rw [hhalf, hm]; unfold mag; push_cast; ring
      have hbig : 2 ^ 53 < m + 2 ^ (-1 - e).toNat := by
        by_contra hcon
        exact hx (by rw [hsum]; exact rep_magAt' (not_lt.1 hcon) hc.2.2.1 (by omega))
      have hN : mag (2 ^ 53) e = ((2 ^ (e + 53).toNat : Int) : ℚ) := by
        rw [hp53, mag_int _ (by omega)]; push_cast; simp
      have hlt := mag_le_mag (e := e) hbig
      rw [← hsum, hN] at hlt
      rw [← hm, hN] at hmlt
      have hN52 : (2 : Int) ^ (e + 53).toNat ≤ 2 ^ 52 := pow_le_pow_right₀ (by norm_num) (by omega)
      have hN0 : (0 : Int) < 2 ^ (e + 53).toNat := by positivity
      generalize (2 : Int) ^ (e + 53).toNat = N at *
      refine good N N ⟨by omega, hN52⟩ hlt.le (by linarith) (rep_int (by omega)) ?_
      rw [abs_of_pos (by linarith)]; linarith

/-- The largest number below one half. -/
theorem half_below {y : ℚ} {f : F64} (hf : val f = some y) (h : Nearest ((1 / 2 - 1 / 2 ^ 54 : ℚ) + 1 / 2) f) : y = 1 := by
  have hmag : (1 - 1 / 2 ^ 53 : ℚ) = mag (2 ^ 53 - 1) (-53) := by unfold mag; norm_num
  have hz : Rep (1 - 1 / 2 ^ 53) := by
    rw [hmag]; exact rep_magAt' (by norm_num) (by norm_num) (by norm_num)
  have h1 : Rep 1 := by exact_mod_cast rep_int (n := 1) (by norm_num)
  have b := nearest_between hf h hz h1 (by norm_num) (by norm_num)
  have hy0 : 0 < y := by have : (0 : ℚ) < 1 - 1 / 2 ^ 53 := by norm_num
                         linarith [b.1]
  obtain ⟨j, hj⟩ := rep_grid ⟨f, hf⟩ (E := -53) (Or.inr (by
    unfold scaled; rw [abs_of_pos (by positivity), le_div_iff₀ (by positivity)]
    refine le_trans ?_ b.1; norm_num))
  unfold scaled at hj
  rw [div_eq_iff (by positivity)] at hj
  have a1 : 2 ^ 53 - 1 ≤ j := by
    have : ((2 ^ 53 - 1 : Int) : ℚ) ≤ j := by
      have := b.1; rw [hj] at this; push_cast; norm_num at this ⊢; linarith
    exact_mod_cast this
  have a2 : j ≤ 2 ^ 53 := by
    have : (j : ℚ) ≤ ((2 ^ 53 : Int) : ℚ) := by
      have := b.2; rw [hj] at this; push_cast; norm_num at this ⊢; linarith
    exact_mod_cast this
  have hjj : j = 2 ^ 53 ∨ j = 2 ^ 53 - 1 := by omega
  rcases hjj with rfl | rfl
  · rw [hj]; norm_num
  · exfalso
    have hyv : y = 1 - 1 / 2 ^ 53 := by rw [hj]; norm_num
    have hev := (nearest_rep hf h h1).2 (by rw [hyv]; norm_num) (by
      rw [hyv, abs_of_neg (by norm_num), abs_of_pos (by norm_num)]; norm_num)
    rw [evenBit_mag hf (m := 2 ^ 53 - 1) (e := -53) (by rw [abs_of_pos hy0, hyv, hmag])
      ⟨by norm_num, by norm_num, by norm_num, by norm_num, by norm_num⟩] at hev
    norm_num at hev

/-- The floor of the `f64` sum: the right one, or one more. -/
theorem half_floor {q : ℚ} {f : F64} (hq : Rep q) (h : Rounded (q + 1 / 2) f) :
    ∃ y, val f = some y ∧ (RoundsWell q → ⌊y⌋ = ⌊q + 1 / 2⌋) ∧ (¬ RoundsWell q → ⌊y⌋ = ⌊q + 1 / 2⌋ + 1) := by
  have hn := h.1 (half_limit hq)
  obtain ⟨y, hf, -⟩ := id hn
  refine ⟨y, hf, ?_⟩
  have hint : ∀ k : Int, ⌊(k : ℚ) + 1 / 2⌋ = k := fun k => by rw [Int.floor_eq_iff]; constructor <;> linarith
  rcases le_or_gt (2 ^ 53) |q| with h53 | h53
  · have := half_large hq hf hn h53
    obtain ⟨k, rfl⟩ := grid_even hq h53
    have hk : 2 ^ 53 ≤ |2 * k| := by exact_mod_cast h53
    rw [this, hint, Int.floor_intCast]
    refine ⟨fun _ => rfl, fun hw => absurd ?_ hw⟩
    refine ⟨?_, fun n hn _ hh => ?_⟩
    · intro hh; rw [hh] at h53; norm_num at h53
    · have : 2 * k = n := by exact_mod_cast hn
      omega
  · rcases le_or_gt (2 ^ 52) |q| with h52 | h52
    · obtain ⟨k, rfl⟩ := grid_int hq h52
      have h1 : 2 ^ 52 ≤ |k| := by exact_mod_cast h52
      have h2 : |k| < 2 ^ 53 := by exact_mod_cast h53
      rw [half_middle hf hn h1 h2, hint]
      have hne : (k : ℚ) ≠ 1 / 2 - 1 / 2 ^ 54 := by intro hh; rw [hh] at h52; norm_num at h52
      constructor
      · intro hw
        rw [if_neg]
        rintro ⟨a, b⟩
        exact hw.2 k rfl a ⟨b, h2⟩
      · intro hw
        rw [if_pos]
        by_contra hcon
        refine hw ⟨hne, fun n hn a b => hcon ?_⟩
        have : k = n := by exact_mod_cast hn
        subst this
        exact ⟨a, b.1⟩
    · constructor
      · intro hw; exact half_small hq hf hn h52 hw.1
      · intro hw
        have : q = 1 / 2 - 1 / 2 ^ 54 := by
          by_contra hne
          refine hw ⟨hne, fun n hn a b => ?_⟩
          rw [hn] at h52
          have : |n| < 2 ^ 52 := by exact_mod_cast h52
          omega
        subst this
        rw [half_below hf hn]
        have e1 : ⌊(1 / 2 - 1 / 2 ^ 54 : ℚ) + 1 / 2⌋ = 0 := by rw [Int.floor_eq_iff]; norm_num
        rw [e1]; simp

theorem val_add_half {f : F64} {q : ℚ} (h : val f = some q) :
    ∃ y, val (f + half) = some y ∧ (RoundsWell q → ⌊y⌋ = ⌊q + 1 / 2⌋) ∧ (¬ RoundsWell q → ⌊y⌋ = ⌊q + 1 / 2⌋ + 1) :=
  half_floor ⟨f, h⟩ (rounded_add h val_half)

theorem roundsWell_small {q : ℚ} (h : q ≤ 0) (h1 : -(2 ^ 52) ≤ q) : RoundsWell q := by
  refine ⟨fun hh => ?_, fun n hn _ hb => ?_⟩
  · rw [hh] at h; norm_num at h
  · subst hn
    have a : n ≤ 0 := by exact_mod_cast h
    have b : -(2 ^ 52) ≤ n := by exact_mod_cast h1
    rw [abs_of_nonpos a] at hb; omega

/-- `round_x`: the right integer, or the next one. -/
theorem val_roundX {f : F64} {q : ℚ} (h : val f = some q) :
    ∃ n : Int, val (roundX f) = some (n : ℚ) ∧ (RoundsWell q → n = ⌊q + 1 / 2⌋) ∧ (¬ RoundsWell q → n = ⌊q + 1 / 2⌋ + 1) := by
  unfold roundX
  split
  · rename_i hc
    rw [val_negZero]
    rw [Bool.or_eq_true, Bool.and_eq_true, Bool.and_eq_true, Bool.or_eq_true] at hc
    have hb : -(1 / 2) ≤ q ∧ q ≤ 0 := by
      rcases hc with hc | hc
      · have := (eq_val h val_zero).1 hc.1
        rw [this]; norm_num
      · have h1 : -(1 / 2) ≤ q := by
          rcases hc.1 with h1 | h1
          · exact ((lt_val val_negHalf h).1 h1).le
          · exact ((eq_val val_negHalf h).1 h1).le
        exact ⟨h1, ((lt_val h val_zero).1 hc.2).le⟩
    have : ⌊q + 1 / 2⌋ = 0 := by
      rw [Int.floor_eq_iff]; push_cast
      constructor <;> linarith [hb.1, hb.2]
    refine ⟨0, by simp, fun _ => this.symm, fun hw => absurd (roundsWell_small hb.2 (by linarith [hb.1])) hw⟩
  · obtain ⟨y, hy, h1, h2⟩ := val_add_half h
    exact ⟨_, val_floor hy, h1, h2⟩

end Amxml.F64
