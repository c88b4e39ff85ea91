import Verif.Lemmas.RoundTrip
import Verif.Spec.Shortest

/-!
# Lemmas about the shortest decimal notation of a number
-/

namespace Amxml.F64

open Float.Model (UnpackedFloat)
open Amxml.Spec

/-- What lies between an `f64` and a number that is rounded to it, is rounded to it. -/
theorem Rounded.between {y z v : ℚ} {f : F64} (hr : Rounded y f) (hv : val f = some v) (hz : |y - v| = |y - z| + |z - v|) (h1 : |z| ≤ max |y| |v|) :
    Rounded z f := by
  have hvl : |v| < limit := rep_small ⟨f, hv⟩
  have hyl : |y| < limit := by
    by_contra h
    have h := not_lt.1 h
    have hne : ∀ s, f.unpack ≠ .infinity s := by
      intro s hu
      unfold val at hv
      rw [hu] at hv
      cases s <;> simp [uval] at hv
    rcases le_or_gt 0 y with h0 | h0
    · rw [abs_of_nonneg h0] at h; exact hne _ (hr.2.1 h)
    · rw [abs_of_neg h0] at h; exact hne _ (hr.2.2 (by linarith))
  have hzl : |z| < limit := lt_of_le_of_lt h1 (max_lt hyl hvl)
  obtain ⟨w, hw, hn⟩ := hr.1 hyl
  obtain rfl : w = v := by rw [hv] at hw; exact (Option.some.inj hw).symm
  refine ⟨fun _ => ⟨w, hv, fun u hu => ?_⟩, fun h => ?_, fun h => ?_⟩
  · have h2 := hn u hu
    have h3 : |y - u| ≤ |y - z| + |z - u| := by
      have : y - u = (y - z) + (z - u) := by ring
      rw [this]; exact abs_add_le _ _
    refine ⟨by linarith [h2.1], fun hne he => h2.2 hne ?_⟩
    have := h2.1
    linarith
  · have := le_abs_self z; linarith
  · have := neg_le_abs z; linarith

theorem Rounded.below {y z v : ℚ} {f : F64} (hr : Rounded y f) (hv : val f = some v) (h1 : y ≤ z) (h2 : z ≤ v) : Rounded z f := by
  refine hr.between hv ?_ ?_
  · rw [abs_of_nonpos (by linarith), abs_of_nonpos (by linarith), abs_of_nonpos (by linarith)]; ring
  · exact abs_le_max_abs_abs h1 h2

theorem Rounded.above {y z v : ℚ} {f : F64} (hr : Rounded y f) (hv : val f = some v) (h1 : v ≤ z) (h2 : z ≤ y) : Rounded z f := by
  refine hr.between hv ?_ ?_
  · rw [abs_of_nonneg (by linarith), abs_of_nonneg (by linarith), abs_of_nonneg (by linarith)]; ring
  · rw [max_comm]; exact abs_le_max_abs_abs h1 h2

/-- The test of a candidate. -/
theorem ok_iff {f : F64} {v : ℚ} (hv : val f = some v) (h0 : v ≠ 0) (x : Nat) (q : Int) :
    eq (Float.Model.ofScientific x q) f = true ↔ Rounded ((x : ℚ) * 10 ^ q) f := by
  have hs := rounded_ofScientific x q
  constructor
  · intro h
    have := val_inj h0 (val_of_eq hv h) hv
    rwa [this] at hs
  · intro h
    exact (eq_val ((hs.unique h).trans hv) hv).2 rfl

/-- Floor and ceiling are the nearest candidates: if any number of the grid reads back, the best of the two is found. -/
theorem shortAt_best {f : F64} {m : Nat} {e q : Int} (hm : 0 < m) (hf : val f = some (mag m e)) {x : Nat} (hx : Rounded ((x : ℚ) * 10 ^ q) f) :
    ∃ d, shortAt f m e q = some d ∧ |(d : ℚ) * 10 ^ q - mag m e| ≤ |(x : ℚ) * 10 ^ q - mag m e| := by
  have hp : (0 : ℚ) < 10 ^ q := zpow_pos (by norm_num) _
  have h0 : mag m e ≠ 0 := (mag_pos hm).ne'
  have hV : mag m e / 10 ^ q = ((m * 2 ^ e.toNat * 10 ^ (-q).toNat : Nat) : ℚ) / ((2 ^ (-e).toNat * 10 ^ q.toNat : Nat) : ℚ) := by
    unfold mag
    rw [pow_split 2 e, pow_split 10 q]
    push_cast
    field_simp
  unfold shortAt
  simp only
  have ok := fun x : Nat => ok_iff hf h0 x q
  have hden : 0 < 2 ^ (-e).toNat * 10 ^ q.toNat := by positivity
  generalize m * 2 ^ e.toNat * 10 ^ (-q).toNat = num at *
  generalize 2 ^ (-e).toNat * 10 ^ q.toNat = den at *
  have hdq : (0 : ℚ) < den := by exact_mod_cast hden
  have h1 : num / den * den + num % den = num := Nat.div_add_mod' num den
  have h1q : ((num / den : Nat) : ℚ) * den + ((num % den : Nat) : ℚ) = num := by exact_mod_cast h1
  have h3 : num - num / den * den = num % den := by omega
  have hlt : num % den < den := Nat.mod_lt _ hden
  have hV' : mag m e / 10 ^ q = ((num / den : Nat) : ℚ) + ((num % den : Nat) : ℚ) / den := by
    rw [hV, ← h1q]; field_simp
  rw [h3]
  have hr0 : (0 : ℚ) ≤ ((num % den : Nat) : ℚ) / den := by positivity
  have hr1 : ((num % den : Nat) : ℚ) / den < 1 := by rw [div_lt_iff₀ hdq, one_mul]; exact_mod_cast hlt
  have hv : mag m e = (((num / den : Nat) : ℚ) + ((num % den : Nat) : ℚ) / den) * 10 ^ q := by
    rw [← hV']; field_simp
  have hnear : 2 * (num % den) ≤ den ↔ ((num % den : Nat) : ℚ) / den ≤ 1 / 2 := by
    rw [div_le_iff₀ hdq]
    constructor
    · intro h
      have : 2 * ((num % den : Nat) : ℚ) ≤ den := by exact_mod_cast h
      linarith
    · intro h
      have : 2 * ((num % den : Nat) : ℚ) ≤ den := by linarith
      exact_mod_cast this
  generalize ((num % den : Nat) : ℚ) / den = r at *
  generalize num / den = D at *
  have dist : ∀ j : Nat, |(j : ℚ) * 10 ^ q - mag m e| = |(j : ℚ) - (D + r)| * 10 ^ q := by
    intro j
    rw [hv, ← sub_mul, abs_mul, abs_of_pos hp]
  have le_of : ∀ i j : Nat, |(i : ℚ) - (D + r)| ≤ |(j : ℚ) - (D + r)| → |(i : ℚ) * 10 ^ q - mag m e| ≤ |(j : ℚ) * 10 ^ q - mag m e| := by
    intro i j h
    rw [dist, dist]
    exact mul_le_mul_of_nonneg_right h hp.le
  have dD : |(D : ℚ) - (D + r)| = r := by rw [abs_of_nonpos (by linarith)]; ring
  have dD1 : |((D + 1 : Nat) : ℚ) - (D + r)| = 1 - r := by push_cast; rw [abs_of_nonneg (by linarith)]; ring
  have low : x ≤ D → Rounded ((D : ℚ) * 10 ^ q) f ∧ r ≤ |(x : ℚ) - (D + r)| := by
    intro h
    have hq : (x : ℚ) ≤ D := by exact_mod_cast h
    refine ⟨hx.below hf (mul_le_mul_of_nonneg_right hq hp.le) ?_, ?_⟩
    · rw [hv]; exact mul_le_mul_of_nonneg_right (by linarith) hp.le
    · rw [abs_of_nonpos (by linarith)]; linarith
  have high : D + 1 ≤ x → Rounded (((D + 1 : Nat) : ℚ) * 10 ^ q) f ∧ 1 - r ≤ |(x : ℚ) - (D + r)| := by
    intro h
    have hq : ((D + 1 : Nat) : ℚ) ≤ x := by exact_mod_cast h
    have hq' : (D : ℚ) + 1 ≤ x := by exact_mod_cast h
    refine ⟨hx.above hf ?_ (mul_le_mul_of_nonneg_right hq hp.le), ?_⟩
    · rw [hv]; push_cast; exact mul_le_mul_of_nonneg_right (by linarith) hp.le
    · rw [abs_of_nonneg (by linarith)]; linarith
  rcases Nat.lt_or_ge D x with hDx | hDx
  · obtain ⟨a, b⟩ := high hDx
    by_cases hn : 2 * (num % den) ≤ den
    · have hn' := hnear.1 hn
      rw [if_pos (by simpa using hn)]
      by_cases hd : Rounded ((D : ℚ) * 10 ^ q) f
      · exact ⟨D, by rw [if_pos ((ok _).2 hd)], le_of _ _ (by rw [dD]; linarith)⟩
      · exact ⟨D + 1, by rw [if_neg (fun h => hd ((ok _).1 h)), if_pos ((ok _).2 a)], le_of _ _ (by rw [dD1]; exact b)⟩
    · rw [if_neg (by simpa using hn)]
      exact ⟨D + 1, by rw [if_pos ((ok _).2 a)], le_of _ _ (by rw [dD1]; exact b)⟩
  · obtain ⟨a, b⟩ := low hDx
    by_cases hn : 2 * (num % den) ≤ den
    · rw [if_pos (by simpa using hn)]
      exact ⟨D, by rw [if_pos ((ok _).2 a)], le_of _ _ (by rw [dD]; exact b)⟩
    · have hn' : ¬ r ≤ 1 / 2 := fun h => hn (hnear.2 h)
      rw [if_neg (by simpa using hn)]
      by_cases hd : Rounded (((D + 1 : Nat) : ℚ) * 10 ^ q) f
      · exact ⟨D + 1, by rw [if_pos ((ok _).2 hd)], le_of _ _ (by rw [dD1]; linarith)⟩
      · exact ⟨D, by rw [if_neg (fun h => hd ((ok _).1 h)), if_pos ((ok _).2 a)], le_of _ _ (by rw [dD]; exact b)⟩

/-- Only the floor and the ceiling are tried. -/
theorem shortAt_le {f : F64} {m : Nat} {e k : Int} {n d : Nat} (hv : mag m e < 10 ^ k) (h : shortAt f m e (k - n) = some d) : d ≤ 10 ^ n := by
  have hp : (0 : ℚ) < 10 ^ (k - n) := zpow_pos (by norm_num) _
  have hV : mag m e / 10 ^ (k - n) =
      ((m * 2 ^ e.toNat * 10 ^ (-(k - n)).toNat : Nat) : ℚ) / ((2 ^ (-e).toNat * 10 ^ (k - n).toNat : Nat) : ℚ) := by
    unfold mag
    rw [pow_split 2 e, pow_split 10 (k - n)]
    push_cast
    field_simp
  have hlt : mag m e / 10 ^ (k - n) < 10 ^ n := by
    rw [div_lt_iff₀ hp, ← zpow_natCast, ← zpow_add₀ (by norm_num)]
    rwa [show (n : Int) + (k - n) = k by ring]
  unfold shortAt at h
  simp only at h
  have hden : 0 < 2 ^ (-e).toNat * 10 ^ (k - n).toNat := by positivity
  generalize m * 2 ^ e.toNat * 10 ^ (-(k - n)).toNat = num at *
  generalize 2 ^ (-e).toNat * 10 ^ (k - n).toNat = den at *
  have hD : num / den < 10 ^ n := by
    rw [Nat.div_lt_iff_lt_mul hden]
    rw [hV, div_lt_iff₀ (by exact_mod_cast hden)] at hlt
    exact_mod_cast hlt
  split at h <;> split at h
  · cases h; omega
  · split at h
    · cases h; omega
    · cases h
  · cases h; omega
  · split at h
    · cases h; omega
    · cases h

/-- The search stops at the first number of digits with which something is found. -/
theorem shortest_first {f : F64} {m : Nat} {e k : Int} (hc : Canon m e) (hf : val f = some (mag m e)) (hk : 10 ^ (k - 1) ≤ mag m e) :
    ∀ (fuel n : Nat), n ≤ 17 → 17 < fuel + n → ∃ N d, n ≤ N ∧ shortest f m e k fuel n = (d, k - (N : Int)) ∧ shortAt f m e (k - (N : Int)) = some d ∧
      ∀ j : Nat, n ≤ j → (shortAt f m e (k - (j : Int))).isSome = true → N ≤ j := by
  intro fuel
  induction fuel with
  | zero => intro n h1 h2; omega
  | succ fuel ih =>
    intro n h1 h2
    unfold shortest
    cases hs : shortAt f m e (k - n) with
    | some d => exact ⟨n, d, Nat.le_refl _, rfl, hs, fun j hj _ => hj⟩
    | none =>
      simp only
      by_cases h17 : n = 17
      · subst h17
        have := shortAt_found hc hf (q := k - (17 : Nat)) (by rw [show k - ((17 : Nat) : Int) + 16 = k - 1 by push_cast; ring]; exact hk)
        rw [hs] at this; cases this
      · obtain ⟨N, d, a, b, c, g⟩ := ih (n + 1) (by omega) (by omega)
        refine ⟨N, d, by omega, b, c, fun j hj hjs => g j ?_ hjs⟩
        rcases Nat.lt_or_ge n j with h | h
        · exact h
        · obtain rfl : j = n := by omega
          rw [hs] at hjs; cases hjs

/-- A number with `j` digits that is rounded to a number between `10 ^ (k - 1)` and `10 ^ k`: between the two, or equal to the first, there is a number
with its last digit at the place `k - j`. -/
theorem on_grid {f : F64} {v y : ℚ} {k : Int} {j : Nat} (hj : 0 < j) (hv : val f = some v) (hk : 10 ^ (k - 1) ≤ v) (hy : Rounded y f)
    (h0 : 0 < y) (hs : Significant j y) : ∃ x : Nat, Rounded ((x : ℚ) * 10 ^ (k - (j : Int))) f ∧ |(x : ℚ) * 10 ^ (k - (j : Int)) - v| ≤ |y - v| := by
  obtain ⟨c, p, hc, he⟩ := hs
  rw [abs_of_pos h0] at he
  rcases le_or_gt (k - (j : Int)) p with hp | hp
  · refine ⟨c * 10 ^ (p - (k - j)).toNat, ?_⟩
    have : ((c * 10 ^ (p - (k - j)).toNat : Nat) : ℚ) * 10 ^ (k - (j : Int)) = y := by
      push_cast
      rw [← zpow_natCast, mul_assoc, ← zpow_add₀ (by norm_num), Int.toNat_of_nonneg (by omega), he]
      congr 2; ring
    rw [this]
    exact ⟨hy, le_refl _⟩
  · refine ⟨10 ^ (j - 1), ?_⟩
    have hx : ((10 ^ (j - 1) : Nat) : ℚ) * 10 ^ (k - (j : Int)) = 10 ^ (k - 1) := by
      push_cast
      rw [← zpow_natCast, ← zpow_add₀ (by norm_num)]
      congr 1; omega
    have hyx : y ≤ 10 ^ (k - 1) := by
      rw [he]
      have h1 : (c : ℚ) ≤ 10 ^ j := by exact_mod_cast hc.le
      calc (c : ℚ) * 10 ^ p ≤ 10 ^ j * 10 ^ p := mul_le_mul_of_nonneg_right h1 (zpow_pos (by norm_num) _).le
        _ = 10 ^ ((j : Int) + p) := by rw [← zpow_natCast, ← zpow_add₀ (by norm_num)]
        _ ≤ _ := zpow_le_zpow_right₀ (by norm_num) (by omega)
    rw [hx]
    refine ⟨hy.below hv hyx hk, ?_⟩
    rw [abs_of_nonpos (by linarith), abs_of_nonpos (by linarith)]
    linarith

/-- A number that is rounded to a positive number is positive. -/
theorem rounded_pos {f : F64} {v y : ℚ} (hv : val f = some v) (h0 : 0 < v) (hy : Rounded y f) : 0 < y := by
  by_contra h
  have h := not_lt.1 h
  by_cases hl : |y| < limit
  · obtain ⟨w, hw, hn⟩ := hy.1 hl
    obtain rfl : w = v := by rw [hv] at hw; exact (Option.some.inj hw).symm
    have := (hn 0 rep_zero).1
    rw [abs_of_nonpos (by linarith), abs_of_nonpos (by linarith)] at this
    linarith
  · rw [abs_of_nonpos h] at hl
    have hu := hy.2.2 (by linarith [not_lt.1 hl])
    unfold val at hv
    rw [hu] at hv
    simp [uval] at hv

theorem significant_mono {n n' : Nat} {x : ℚ} (h : n ≤ n') (hs : Significant n x) : Significant n' x := by
  obtain ⟨d, q, a, b⟩ := hs
  exact ⟨d, q, lt_of_lt_of_le a (Nat.pow_le_pow_right (by norm_num) h), b⟩

/-- The digits are those of the shortest number. -/
theorem digits_shortest {f : F64} {m : Nat} {e : Int} (hc : Canon m e) (hf : val f = some (mag m e)) :
    Shortest (((digits f m e).1 : ℚ) * 10 ^ (digits f m e).2) f (mag m e) := by
  have hr := canon_range hc
  have hk := decExp_spec 700 (-330) hr.1 hr.2
  have hpos := mag_pos (e := e) hc.1
  have h3 : ((digits f m e).1 : ℚ) * 10 ^ (digits f m e).2 = _ := stripZeros_same 400 _ _
  rw [h3]
  generalize decExp m e 700 (-330) = k at *
  obtain ⟨N, d, hN, h4, h5, h6⟩ := shortest_first hc hf hk.1 17 1 (by norm_num) (by norm_num)
  rw [h4]
  simp only
  have hread : Rounded ((d : ℚ) * 10 ^ (k - (N : Int))) f := (ok_iff hf hpos.ne' _ _).1 (shortAt_reads h5)
  have hsig : Significant N ((d : ℚ) * 10 ^ (k - (N : Int))) := by
    have hle := shortAt_le hk.2 h5
    have hab : |(d : ℚ) * 10 ^ (k - (N : Int))| = (d : ℚ) * 10 ^ (k - (N : Int)) :=
      abs_of_nonneg (mul_nonneg (Nat.cast_nonneg _) (zpow_pos (by norm_num) _).le)
    rcases Nat.lt_or_ge d (10 ^ N) with hl | hl
    · exact ⟨d, _, hl, hab⟩
    · obtain rfl : d = 10 ^ N := by omega
      refine ⟨1, k, Nat.one_lt_pow (by omega) (by norm_num), ?_⟩
      rw [hab]
      push_cast
      rw [← zpow_natCast, ← zpow_add₀ (by norm_num), one_mul]
      congr 1; omega
  refine ⟨hread, fun y n hy hs => ?_⟩
  have hy0 := rounded_pos hf hpos hy
  have hn : 0 < n := by
    rcases Nat.eq_zero_or_pos n with h | h
    · exfalso
      subst h
      obtain ⟨c, p, hc', he⟩ := hs
      obtain rfl : c = 0 := by simpa using hc'
      rw [abs_of_pos hy0] at he
      simp at he
      linarith
    · exact h
  refine ⟨?_, fun hall => ?_⟩
  · obtain ⟨x, hx, -⟩ := on_grid hn hf hk.1 hy hy0 hs
    obtain ⟨d', hd', -⟩ := shortAt_best hc.1 hf hx
    exact significant_mono (h6 n hn (by rw [hd']; rfl)) hsig
  · obtain ⟨x, hx, hd⟩ := on_grid (by omega) hf hk.1 hy hy0 (hall N hsig)
    obtain ⟨d', hd', hb⟩ := shortAt_best hc.1 hf hx
    rw [h5] at hd'
    obtain rfl := Option.some.inj hd'
    exact hb.trans hd

/-! ## No superfluous zeros -/

theorem stripZeros_last : ∀ (n N d : Nat) (q : Int), N < n → 0 < d → d ≤ 10 ^ N → (stripZeros n d q).1 % 10 ≠ 0 ∧ 0 < (stripZeros n d q).1 := by
  intro n
  induction n with
  | zero => intro N d q h h1 h2; omega
  | succ n ih =>
    intro N d q hN h1 h2
    unfold stripZeros
    split
    · rename_i h
      cases N with
      | zero => simp at h2; omega
      | succ N =>
        refine ih N _ _ (by omega) (by omega) ?_
        rw [Nat.pow_succ] at h2
        omega
    · rename_i h
      exact ⟨fun h' => h ⟨by omega, h'⟩, h1⟩

theorem digits_eq (f : F64) (m : Nat) (e : Int) : digits f m e =
    stripZeros 400 (shortest f m e (decExp m e 700 (-330)) 17 1).1 (shortest f m e (decExp m e 700 (-330)) 17 1).2 := rfl

theorem digits_last {f : F64} {m : Nat} {e : Int} (hc : Canon m e) (hf : val f = some (mag m e)) :
    (digits f m e).1 % 10 ≠ 0 ∧ 0 < (digits f m e).1 := by
  have hr := canon_range hc
  have hk := decExp_spec 700 (-330) hr.1 hr.2
  have hpos := mag_pos (e := e) hc.1
  rw [digits_eq]
  generalize decExp m e 700 (-330) = k at *
  obtain ⟨N, d, hN, h4, h5, h6⟩ := shortest_first hc hf hk.1 17 1 (by norm_num) (by norm_num)
  rw [h4]
  have hread : Rounded ((d : ℚ) * 10 ^ (k - (N : Int))) f := (ok_iff hf hpos.ne' _ _).1 (shortAt_reads h5)
  have hN17 : N ≤ 17 := h6 17 (by norm_num) (shortAt_found hc hf (q := k - (17 : Nat)) (by
    rw [show k - ((17 : Nat) : Int) + 16 = k - 1 by push_cast; ring]; exact hk.1))
  have hle := shortAt_le hk.2 h5
  refine stripZeros_last 400 N _ _ (by omega) ?_ hle
  · rcases Nat.eq_zero_or_pos d with h | h
    · have := rounded_pos hf hpos hread
      rw [h] at this; simp at this
    · exact h

/-- The digits of a positive number begin with a digit that is not zero. -/
theorem natStr_head : ∀ n : Nat, 0 < n → ∃ c t, natStr n = c :: t ∧ c ≠ '0' := by
  intro n
  have e : natStr n = Nat.toDigits 10 n := by
    unfold natStr; rw [Nat.toString_eq_repr, Nat.toList_repr]
  rw [e]
  clear e
  induction n using Nat.strongRecOn with
  | _ n ih =>
    intro hn
    rcases Nat.lt_or_ge n 10 with h | h
    · rw [Nat.toDigits_of_lt_base h]
      refine ⟨_, _, rfl, ?_⟩
      have : ∀ i : Fin 10, 0 < i.1 → Nat.digitChar i.1 ≠ '0' := by decide
      exact this ⟨n, h⟩ hn
    · rw [Nat.toDigits_of_base_le (by norm_num) h]
      obtain ⟨c, t, h1, h2⟩ := ih (n / 10) (by omega) (by omega)
      exact ⟨c, _, by rw [h1]; rfl, h2⟩

/-- The last digit. -/
theorem natStr_last {n : Nat} (h : n % 10 ≠ 0) : ∃ t l, natStr n = t ++ [l] ∧ l ≠ '0' := by
  obtain ⟨h1, h2, h3⟩ := natStr_digits n
  refine ⟨(natStr n).dropLast, (natStr n).getLast h2, (List.dropLast_append_getLast h2).symm, fun hl => ?_⟩
  have e := List.dropLast_append_getLast h2
  rw [hl] at e
  have h4 := digitsNumber_append (natStr n).dropLast ['0']
  rw [e, h3] at h4
  have h5 : digitsNumber ['0'] = 0 := by decide
  rw [h5] at h4
  simp at h4
  omega

theorem positional_spare {d : Nat} (q : Int) (h0 : 0 < d) (hl : d % 10 ≠ 0) : NoSpareZeros (positional d q) := by
  obtain ⟨h1, h2, h3⟩ := natStr_digits d
  obtain ⟨c, t, hc, hc0⟩ := natStr_head d h0
  obtain ⟨u, l, hu, hl0⟩ := natStr_last hl
  unfold positional
  simp only
  split
  · have h4 := h1.append (isDigits_zeros q.toNat)
    rw [hc] at h4 ⊢
    exact .whole h4 hc0
  · split
    · rename_i hp
      have hq : 0 < (-q).toNat := by omega
      have hlen : u.length + 1 = (natStr d).length := by rw [hu]; simp
      have hd : (natStr d).drop ((natStr d).length - (-q).toNat) = u.drop ((natStr d).length - (-q).toNat) ++ [l] := by
        conv_lhs => rw [hu]
        rw [List.drop_append_of_le_length (by simp only [List.length_append, List.length_singleton]; omega), ← hu]
      have ht : (natStr d).take ((natStr d).length - (-q).toNat) = c :: t.take ((natStr d).length - (-q).toNat - 1) := by
        obtain ⟨i, hi⟩ : ∃ i, (natStr d).length - (-q).toNat = i + 1 := ⟨(natStr d).length - (-q).toNat - 1, by omega⟩
        rw [hi, hc]; rfl
      have hdd : IsDigits ((natStr d).drop ((natStr d).length - (-q).toNat)) := fun x hx => h1 x (List.mem_of_mem_drop hx)
      have htt : IsDigits ((natStr d).take ((natStr d).length - (-q).toNat)) := fun x hx => h1 x (List.mem_of_mem_take hx)
      rw [hd] at hdd ⊢
      rw [ht] at htt ⊢
      exact .point htt (.inl hc0) hdd hl0
    · have h4 := (isDigits_zeros ((-q).toNat - (natStr d).length)).append h1
      rw [show S "0." ++ List.replicate ((-q).toNat - (natStr d).length) '0' ++ natStr d =
        '0' :: [] ++ '.' :: (List.replicate ((-q).toNat - (natStr d).length) '0' ++ natStr d) by rfl]
      rw [show List.replicate ((-q).toNat - (natStr d).length) '0' ++ natStr d = (List.replicate ((-q).toNat - (natStr d).length) '0' ++ u) ++ [l] by
        rw [List.append_assoc, ← hu]] at h4 ⊢
      exact .point (by intro x hx; simp at hx; subst hx; decide) (.inr rfl) h4 hl0

theorem scientific_spare {d : Nat} (h0 : 0 < d) (hl : d % 10 ≠ 0) :
    Scientific ((natStr d).take 1 ++ (if (natStr d).length ≤ 1 then [] else '.' :: (natStr d).drop 1)) := by
  obtain ⟨h1, h2, h3⟩ := natStr_digits d
  obtain ⟨c, t, hc, hc0⟩ := natStr_head d h0
  obtain ⟨u, l, hu, hl0⟩ := natStr_last hl
  have hcd : IsDigits [c] := fun x hx => h1 x (by rw [hc]; simp at hx; simp [hx])
  split
  · rw [hc]; exact .digit hcd hc0
  · rename_i hlen
    obtain ⟨w, hw⟩ : ∃ w, (natStr d).drop 1 = w ++ [l] := by
      refine ⟨u.drop 1, ?_⟩
      rw [hu] at hlen ⊢
      rw [List.drop_append_of_le_length (by simp only [List.length_append, List.length_singleton] at hlen; omega)]
    have hwd : IsDigits (w ++ [l]) := fun x hx => h1 x (List.mem_of_mem_drop (by rw [hw]; exact hx))
    rw [hw, hc]
    exact .point hcd hc0 hwd hl0

end Amxml.F64
