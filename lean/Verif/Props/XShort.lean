import Verif.Lemmas.Shortest
import Verif.Props.XRound
import Verif.Props.XDisplay

/-!
# The text of a number is the shortest (C105)
-/

namespace Amxml

open Float.Model (UnpackedFloat)
open Spec

theorem Spec.Significant.neg {n : Nat} {x : ℚ} (h : Significant n x) : Significant n (-x) := by
  obtain ⟨d, q, a, b⟩ := h
  exact ⟨d, q, a, by rw [abs_neg]; exact b⟩

theorem Spec.Shortest.neg {x v : ℚ} {f : F64} (hv : F64.val f = some v) (h0 : v ≠ 0) (h : Shortest x f v) :
    Shortest (-x) (Float.Model.neg f) (-v) := by
  refine ⟨h.1.neg, fun y n hy hs => ?_⟩
  have hnn : Float.Model.neg (Float.Model.neg f) = f := by
    refine F64.val_inj h0 ?_ hv
    have := F64.val_neg (F64.val_neg hv)
    rwa [neg_neg] at this
  have hy' := hy.neg
  rw [hnn] at hy'
  obtain ⟨a, b⟩ := h.2 (-y) n hy' hs.neg
  refine ⟨a.neg, fun hall => ?_⟩
  have := b fun k hk => by
    have := (hall k hk.neg)
    exact this.neg
  rw [show -x - -v = -(x - v) by ring, abs_neg, show y - -v = -(-y - v) by ring, abs_neg]
  exact this

/-- The digits that are written, with the sign of the number, are the shortest. -/
theorem written_shortest {d : F64} {s : UnpackedFloat.Sign} {m : Nat} {e : Int} {hm : 0 < m} (hu : d.unpack = .finite s m e hm) {v : ℚ}
    (hd : F64.val d = some v) :
    Shortest (if v < 0 then -(((F64.digits (Float.Model.abs d) m e).1 : ℚ) * 10 ^ (F64.digits (Float.Model.abs d) m e).2)
      else ((F64.digits (Float.Model.abs d) m e).1 : ℚ) * 10 ^ (F64.digits (Float.Model.abs d) m e).2) d v ∧
    (F64.digits (Float.Model.abs d) m e).1 % 10 ≠ 0 ∧ 0 < (F64.digits (Float.Model.abs d) m e).1 ∧ (v < 0 ↔ s = .negative) := by
  have hc := F64.canon_of hu
  have hp := F64.mag_pos (e := e) hm
  cases s with
  | positive =>
    have hv : F64.val d = some (F64.mag m e) := by unfold F64.val; rw [hu]; rfl
    rw [hd] at hv
    obtain rfl := Option.some.inj hv
    have ha : F64.val (Float.Model.abs d) = some (F64.mag m e) := by
      have := F64.val_abs hd
      rwa [abs_of_pos hp] at this
    have hda : Float.Model.abs d = d := F64.val_inj hp.ne' ha hd
    rw [hda, if_neg (by linarith)]
    refine ⟨F64.digits_shortest hc hd, (F64.digits_last hc hd).1, (F64.digits_last hc hd).2, ?_⟩
    exact ⟨fun h => by linarith, fun h => by cases h⟩
  | negative =>
    have hv : F64.val d = some (-F64.mag m e) := by unfold F64.val; rw [hu]; rfl
    rw [hd] at hv
    obtain rfl := Option.some.inj hv
    have ha : F64.val (Float.Model.abs d) = some (F64.mag m e) := by
      have := F64.val_abs hd
      rwa [abs_neg, abs_of_pos hp] at this
    have hda : Float.Model.neg (Float.Model.abs d) = d := F64.val_inj (neg_ne_zero.2 hp.ne') (F64.val_neg ha) hd
    rw [if_pos (by linarith)]
    refine ⟨?_, (F64.digits_last hc ha).1, (F64.digits_last hc ha).2, fun _ => rfl, fun _ => by linarith⟩
    have := (F64.digits_shortest hc ha).neg ha hp.ne'
    rwa [hda] at this

theorem fmt_finite {d : F64} {s : UnpackedFloat.Sign} {m : Nat} {e : Int} {hm : 0 < m} (hu : d.unpack = .finite s m e hm) :
    F64.fmt d = (if s == .negative then ['-'] else []) ++
      F64.positional (F64.digits (Float.Model.abs d) m e).1 (F64.digits (Float.Model.abs d) m e).2 := by
  unfold F64.fmt
  rw [hu]

theorem fmtExp_finite {d : F64} {s : UnpackedFloat.Sign} {m : Nat} {e : Int} {hm : 0 < m} (hu : d.unpack = .finite s m e hm) :
    F64.fmtExp d = (if s == .negative then ['-'] else []) ++ (F64.natStr (F64.digits (Float.Model.abs d) m e).1).take 1 ++
      (if (F64.natStr (F64.digits (Float.Model.abs d) m e).1).length ≤ 1 then [] else '.' :: (F64.natStr (F64.digits (Float.Model.abs d) m e).1).drop 1) ++
      'e' :: F64.intStr ((F64.digits (Float.Model.abs d) m e).2 + ((F64.natStr (F64.digits (Float.Model.abs d) m e).1).length - 1 : Nat)) := by
  unfold F64.fmtExp
  rw [hu]

theorem with_sign {s : UnpackedFloat.Sign} {v : ℚ} (h : v < 0 ↔ s = .negative) (t : Str) :
    (if s == .negative then ['-'] else []) ++ t = if v < 0 then '-' :: t else t := by
  by_cases hneg : v < 0
  · rw [if_pos hneg, h.1 hneg]; rfl
  · rw [if_neg hneg]
    cases s with
    | negative => exact absurd (h.2 rfl) hneg
    | positive => rfl

theorem finite_of {d : F64} {v : ℚ} (hd : F64.val d = some v) (h0 : v ≠ 0) : ∃ s m e hm, d.unpack = .finite s m e hm := by
  rcases F64.val_cases hd with ⟨s, hu, rfl⟩ | ⟨m, e, hm, hc, hu, rfl⟩ | ⟨m, e, hm, hc, hu, rfl⟩
  · exact absurd rfl h0
  · exact ⟨_, _, _, _, hu⟩
  · exact ⟨_, _, _, _, hu⟩

theorem fmt_shortest {d : F64} {v : ℚ} (hd : F64.val d = some v) (h0 : v ≠ 0) :
    ∃ t m e, Fixed t m e ∧ NoSpareZeros t ∧ Shortest (if v < 0 then -((m : ℚ) * 10 ^ e) else (m : ℚ) * 10 ^ e) d v ∧
      F64.fmt d = (if v < 0 then '-' :: t else t) := by
  obtain ⟨s, m, e, hm, hu⟩ := finite_of hd h0
  obtain ⟨h1, h2, h3, h4⟩ := written_shortest hu hd
  rw [fmt_finite hu, with_sign h4]
  generalize F64.digits (Float.Model.abs d) m e = r at *
  obtain ⟨k, x, hf, hx⟩ := positional_text r.1 r.2
  exact ⟨_, k, x, hf, F64.positional_spare _ h3 h2, by rw [hx]; exact h1, rfl⟩

/-- **C105**: the text of a decimal or double that is not zero, infinite or NaN is the shortest numeral: of all decimal numbers that are rounded to the
number, it writes one with the fewest significant digits, and among those the one nearest to the exact value; it has no superfluous zeros. -/
theorem C105_shortest (h : Heap) (d : F64) (v : ℚ) (hd : F64.val d = some v) (h0 : v ≠ 0) :
    ∃ t m e, Fixed t m e ∧ NoSpareZeros t ∧ Shortest (if v < 0 then -((m : ℚ) * 10 ^ e) else (m : ℚ) * 10 ^ e) d v ∧
      CastGives h (.decimal d) (S "xs:string") (.string (if v < 0 then '-' :: t else t)) ∧
      CastGives h (.double d) (S "xs:string") (.string (if v < 0 then '-' :: t else t)) := by
  have hs := doubleStr_finite hd
  obtain ⟨t, m, e, h1, h2, h3, h4⟩ := fmt_shortest hd h0
  refine ⟨t, m, e, h1, h2, h3, castGives_of (by decide) ?_, castGives_of (by decide) ?_⟩
  · rw [← h4]; rfl
  · rw [← h4, ← hs]; rfl

/-- **C105**: what `to_string` shows for a double is the shortest numeral in scientific notation: one digit that is not zero before the point, no zero at
the end. -/
theorem C105_scientific (h : Heap) (d : F64) (v : ℚ) (hd : F64.val d = some v) (h0 : v ≠ 0) :
    ∃ t m e n, Fixed t m e ∧ Scientific t ∧
      Shortest (if v < 0 then -((m : ℚ) * 10 ^ (e + n)) else (m : ℚ) * 10 ^ (e + n)) d v ∧
      displaySeq h [.double d] = (if v < 0 then ['-'] else []) ++ t ++ 'e' :: F64.intStr n := by
  obtain ⟨s, m, e, hm, hu⟩ := finite_of hd h0
  obtain ⟨h1, h2, h3, h4⟩ := written_shortest hu hd
  have hs : displaySeq h [.double d] = F64.fmtExp d := by
    show displayDouble d = _
    unfold displayDouble
    rw [F64.not_nan_of_val hd, if_neg (by decide), if_neg, if_neg]
    · intro h
      have hz : F64.eq d F64.zero = true := by simp only [Bool.and_eq_true] at h; exact h.1
      have := (F64.eq_val hd (by decide +kernel : F64.val F64.zero = some 0)).1 hz
      exact h0 this
    · unfold F64.isInf Float.Model.isInf
      rw [hu]; simp [UnpackedFloat.isInf]
  rw [hs]
  rw [fmtExp_finite hu]
  generalize F64.digits (Float.Model.abs d) m e = r at *
  obtain ⟨g1, g2, g3⟩ := natStr_digits r.1
  have hpos : 0 < (F64.natStr r.1).length := List.length_pos_iff.2 g2
  have hsign : (if s == .negative then ['-'] else []) = (if v < 0 then ['-'] else [] : Str) := by
    by_cases hneg : v < 0
    · rw [if_pos hneg, h4.1 hneg]; rfl
    · rw [if_neg hneg]
      cases s with
      | negative => exact absurd (h4.2 rfl) hneg
      | positive => rfl
  have hfix : ∃ k x, Fixed ((F64.natStr r.1).take 1 ++ (if (F64.natStr r.1).length ≤ 1 then [] else '.' :: (F64.natStr r.1).drop 1)) k x ∧
      (k : ℚ) * 10 ^ (x + (r.2 + ((F64.natStr r.1).length - 1 : Nat))) = (r.1 : ℚ) * 10 ^ r.2 := by
    split
    · rename_i hl
      have hl1 : (F64.natStr r.1).length = 1 := by omega
      rw [List.take_of_length_le hl, List.append_nil]
      refine ⟨_, _, .int g2 g1, ?_⟩
      rw [g3]; congr 2; omega
    · rename_i hl
      refine ⟨_, _, .point (fun c hc => g1 c (List.mem_of_mem_take hc)) (fun c hc => g1 c (List.mem_of_mem_drop hc)) (.inl ?_), ?_⟩
      · intro h
        have := congrArg List.length h
        simp only [List.length_take, List.length_nil] at this
        omega
      · rw [List.take_append_drop, g3, List.length_drop]
        congr 2; omega
  obtain ⟨k, x, hf, hx⟩ := hfix
  refine ⟨_, k, x, _, hf, F64.scientific_spare h3 h2, by rw [hx]; exact h1, ?_⟩
  rw [hsign]
  simp only [List.append_assoc]

/-- The `f64` nearest to one tenth is not one tenth, and its text is `0.1`; as a double it is shown as `1e-1`. The last `f64` before `2 ^ 53` takes all its
sixteen digits. -/
example : (∃ v, F64.val (Float.Model.ofScientific 1 (-1)) = some v ∧ v ≠ 0) ∧ F64.fmt (Float.Model.ofScientific 1 (-1)) = S "0.1" ∧
    F64.fmtExp (Float.Model.ofScientific 1 (-1)) = S "1e-1" ∧ F64.fmt (F64.ofInt (2 ^ 53 - 1)) = S "9007199254740991" ∧
    NoSpareZeros (S "0.1") ∧ Scientific (S "1") := by
  refine ⟨?_, by decide +kernel, by decide +kernel, by decide +kernel, ?_, ?_⟩
  · obtain ⟨w, hw⟩ : ∃ w, F64.val (Float.Model.ofScientific 1 (-1)) = some w :=
      Option.isSome_iff_exists.1 (by decide +kernel)
    refine ⟨w, hw, ?_⟩
    rintro rfl
    exact absurd hw (by decide +kernel)
  · exact .point (c := '0') (t := []) (u := []) (l := '1') (by decide) (.inr rfl) (by decide) (by decide)
  · exact .digit (by decide) (by decide)

end Amxml
