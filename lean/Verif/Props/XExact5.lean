import Verif.Props.XNumFunc
import Verif.Lemmas.Decide

/-!
# C64: what `fn:substring` and `fn:subsequence` give for all numbers
-/

namespace Amxml
open Spec

/-- The number of a numeric item, as an f64. -/
def Spec.floatOf : XItem → Option F64
  | .integer n => some (F64.ofInt n)
  | .decimal d => some d
  | .double d => some d
  | _ => none

open Classical in
/-- What `fn:round` makes of a finite f64 (C68): the nearest integer, upwards from the middle, or one more for the numbers it gets wrong. -/
noncomputable def Spec.rounded (q : ℚ) : Int := if RoundsWell q then roundHalfUp q else roundHalfUp q + 1

/-- The nearest 64-bit integer (`as i64` of a whole number). -/
def Spec.in64 (n : Int) : Int := max (-2 ^ 63) (min (2 ^ 63 - 1) n)

open Classical in
/-- The part of `s` that is taken with the start `x` and the length `y` (none: not given). No part: the computation overflows. -/
noncomputable def Spec.partOf {α : Type} (x : F64) (y : Option F64) (s : List α) : Option (List α) :=
  match F64.val x with
  | none => some []
  | some q =>
    if in64 (rounded q) = -2 ^ 63 then none
    else match y with
    | none => some (windowFrom (in64 (rounded q)) s)
    | some y =>
      if y.unpack = .infinity .positive then some (windowFrom (in64 (rounded q)) s)
      else match F64.val y with
      | none => some []
      | some r =>
        if r ≤ 0 then some []
        else if 2 ^ 63 ≤ in64 (rounded q) + in64 (rounded r) then none
        else some (window (in64 (rounded q)) (in64 (rounded q) + in64 (rounded r)) s)

namespace Exact5

theorem toI64_clamp {f : F64} {n : Int} (h : F64.val f = some (n : ℚ)) : F64.toI64 f = in64 n := by
  show (Int64.ofIntClamp (f.unpack.toInt Int64.minValue.toInt Int64.maxValue.toInt)).toInt = _
  rw [F64.toInt_val h, F64.truncQ_int]
  have h1 : Int64.minValue.toInt = -2 ^ 63 := by decide
  have h2 : Int64.maxValue.toInt = 2 ^ 63 - 1 := by decide
  unfold in64
  by_cases a : n < -2 ^ 63
  · rw [show Int64.ofIntClamp n = Int64.minValue by unfold Int64.ofIntClamp; rw [dif_neg (by rw [h1]; omega)], h1]
    omega
  · by_cases b : 2 ^ 63 - 1 < n
    · rw [show Int64.ofIntClamp n = Int64.maxValue by
        unfold Int64.ofIntClamp; rw [dif_pos (by rw [h1]; omega), dif_neg (by rw [h2]; omega)], h2]
      omega
    · rw [Int64.toInt_ofIntClamp (by rw [h1]; omega) (by rw [h2]; omega)]
      omega

theorem toI64_rounded {f : F64} {q : ℚ} (hf : F64.val f = some q) : F64.toI64 (F64.roundX f) = in64 (rounded q) := by
  obtain ⟨n, h1, h2, h3⟩ := F64.val_roundX hf
  rw [toI64_clamp h1]
  congr 1
  unfold rounded roundHalfUp
  split
  · rename_i hw; exact h2 hw
  · rename_i hw; exact h3 hw

theorem in64_bounds (n : Int) : -2 ^ 63 ≤ in64 n ∧ in64 n < 2 ^ 63 := by unfold in64; omega

theorem rounded_nonneg {r : ℚ} (hr : 0 ≤ r) : 0 ≤ rounded r := by
  have : 0 ≤ roundHalfUp r := by unfold roundHalfUp; rw [Int.le_floor]; push_cast; linarith
  unfold rounded; split <;> omega

theorem slice_windowFrom {α : Type} (s : List α) (lo : Int) :
    sliceOf s ((if (s.length : Int) ≤ (if lo - 1 < 0 then 0 else lo - 1) then (s.length : Int) else if lo - 1 < 0 then 0 else lo - 1).toNat, s.length) = windowFrom lo s := by
  rw [windowFrom_eq]
  unfold sliceOf
  by_cases hl : s.length ≤ (lo - 1).toNat
  · rw [List.drop_eq_nil_of_le hl, List.drop_eq_nil_of_le]
    · simp
    · simp only; split <;> split at * <;> omega
  · have hbb : (if (s.length : Int) ≤ (if lo - 1 < 0 then 0 else lo - 1) then (s.length : Int) else if lo - 1 < 0 then 0 else lo - 1).toNat = (lo - 1).toNat := by
      split <;> split at * <;> omega
    simp only [hbb]
    rw [List.take_of_length_le (by simp)]

theorem slice_window {α : Type} (s : List α) (lo d : Int) (hd : 0 ≤ d) (b : Int) (hb : b = if (s.length : Int) ≤ (if lo - 1 < 0 then 0 else lo - 1) then (s.length : Int) else if lo - 1 < 0 then 0 else lo - 1) :
    sliceOf s (b.toNat, (if (s.length : Int) ≤ (if lo + d - 1 < b then b else lo + d - 1) then (s.length : Int) else if lo + d - 1 < b then b else lo + d - 1).toNat) =
      window lo (lo + d) s := by
  rw [window_eq]
  unfold sliceOf
  by_cases hl : s.length ≤ (lo - 1).toNat
  · rw [List.drop_eq_nil_of_le hl, List.drop_eq_nil_of_le]
    · simp
    · simp only; subst hb; split <;> split at * <;> omega
  · have hbb : b.toNat = (lo - 1).toNat := by
      subst hb; split <;> split at * <;> omega
    simp only [hbb]
    by_cases hh : (lo + d - max lo 1).toNat < s.length - (lo - 1).toNat
    · congr 1
      have hb' : b = max 0 (lo - 1) := by subst hb; split <;> split at * <;> omega
      rw [hb']
      split <;> split <;> (try split at *) <;> omega
    · rw [List.take_of_length_le (by simp; omega), List.take_of_length_le]
      simp only [List.length_drop]
      omega

theorem check_ok {n : Int} (h : -2 ^ 63 ≤ n ∧ n < 2 ^ 63) : checkI64 n = .ok n := by
  unfold checkI64; rw [if_pos (by unfold isI64 i64Min i64Max; omega)]

theorem check_bad {n : Int} (h : ¬ (-2 ^ 63 ≤ n ∧ n < 2 ^ 63)) : checkI64 n = .error .panic := by
  unfold checkI64; rw [if_neg (by unfold isI64 i64Min i64Max; omega)]

theorem subIndex_part {α : Type} (s : List α) (x : F64) (y : Option F64) :
    (∀ t, partOf x y s = some t → ∃ be, subIndex s.length x (y.getD F64.inf) = .ok be ∧ sliceOf s be = t) ∧
    (partOf x y s = none → subIndex s.length x (y.getD F64.inf) = .error .panic) := by
  unfold partOf
  cases hx : F64.val x with
  | none =>
    refine ⟨fun t ht => ⟨(0, 0), ?_, ?_⟩, fun ht => by cases ht⟩
    · unfold subIndex; rw [if_pos (not_finite hx)]
    · cases ht; simp [sliceOf]
  | some q =>
    simp only
    have e1 := isNan_of_val hx
    have eB := toI64_rounded hx
    have hB := in64_bounds (rounded q)
    generalize in64 (rounded q) = B at eB hB ⊢
    have start : ∀ (len : Nat) (z : F64), subIndex len x z = (checkI64 (B - 1)).bind fun b0 =>
        let b1 : Int := if b0 < 0 then 0 else b0
        let b : Int := if (len : Int) ≤ b1 then len else b1
        if z.isInf && F64.signPos z then .ok (b.toNat, len)
        else if z.isNan || F64.signNeg z then .ok (0, 0)
        else
          (checkI64 (B + F64.toI64 (F64.roundX z))).bind fun e0 =>
          (checkI64 (e0 - 1)).map fun e1 =>
            let e2 : Int := if e1 < b then b else e1
            let e : Int := if (len : Int) ≤ e2 then len else e2
            (b.toNat, e.toNat) := by
      intro len z
      unfold subIndex
      rw [eB, e1.1, e1.2]; rfl
    rw [start]
    by_cases hm : B = -2 ^ 63
    · simp only [if_pos hm]
      refine ⟨fun t ht => (by cases ht), fun _ => ?_⟩
      rw [check_bad (by omega)]; rfl
    · simp only [if_neg hm]
      rw [check_ok (by omega)]
      simp only [Except.bind]
      have full : ∀ z : F64, z.unpack = .infinity .positive → (F64.isInf z && F64.signPos z) = true := by
        intro z hz; unfold F64.isInf F64.signPos Float.Model.isInf; rw [hz]; rfl
      have hw := slice_windowFrom s B
      cases y with
      | none =>
        have c2 : (F64.isInf F64.inf && F64.signPos F64.inf) = true := by decide +kernel
        simp only [Option.getD_none, c2, if_true]
        refine ⟨fun t ht => ⟨_, rfl, ?_⟩, fun ht => by cases ht⟩
        cases ht; exact hw
      | some y =>
        simp only [Option.getD_some]
        by_cases hy : y.unpack = .infinity .positive
        · simp only [if_pos hy, full y hy, if_true]
          refine ⟨fun t ht => ⟨_, rfl, ?_⟩, fun ht => by cases ht⟩
          cases ht; exact hw
        · simp only [if_neg hy]
          cases hv : F64.val y with
          | none =>
            have hy' : y.unpack = .infinity .negative ∨ y.unpack = .notANumber := by
              unfold F64.val at hv
              cases hu : y.unpack with
              | zero s => rw [hu] at hv; cases hv
              | finite s m e hm => rw [hu] at hv; cases s <;> cases hv
              | infinity s => cases s <;> simp_all
              | notANumber => simp
            have a1 : (F64.isInf y && F64.signPos y) = false := by
              unfold F64.isInf F64.signPos Float.Model.isInf; rcases hy' with hy | hy <;> rw [hy] <;> rfl
            have a2 : (F64.isNan y || F64.signNeg y) = true := by
              unfold F64.isNan F64.signNeg Float.Model.isNaN; rcases hy' with hy | hy <;> rw [hy] <;> rfl
            simp only [a1, a2, Bool.false_eq_true, if_false, if_true]
            refine ⟨fun t ht => ⟨_, rfl, ?_⟩, fun ht => by cases ht⟩
            cases ht; simp [sliceOf]
          | some r =>
            have e2 := isNan_of_val hv
            simp only [e2.1, e2.2, Bool.false_and, Bool.false_eq_true, if_false, Bool.false_or]
            have eL := toI64_rounded hv
            have hL := in64_bounds (rounded r)
            rw [eL]
            by_cases hs : F64.signNeg y = true
            · simp only [if_pos hs, if_pos (nonpos_of_signNeg hv hs)]
              refine ⟨fun t ht => ⟨_, rfl, ?_⟩, fun ht => by cases ht⟩
              cases ht; simp [sliceOf]
            · simp only [if_neg hs]
              have hr : 0 ≤ r := by
                unfold F64.signNeg at hs
                rcases F64.val_cases hv with ⟨s, hu, rfl⟩ | ⟨m, e, hm, _, hu, rfl⟩ | ⟨m, e, hm, _, hu, rfl⟩
                · exact le_refl _
                · exact (F64.mag_pos hm).le
                · rw [hu] at hs; exact absurd rfl hs
              have hL0 : 0 ≤ in64 (rounded r) := by have := rounded_nonneg hr; unfold in64; omega
              have hz : r ≤ 0 → in64 (rounded r) = 0 := by
                intro h0
                have : r = 0 := le_antisymm h0 hr
                subst this
                have w : RoundsWell 0 := by
                  have := roundsWell_int (n := 0) (.inl (by norm_num)); simpa using this
                unfold rounded
                rw [if_pos w]
                have : roundHalfUp 0 = 0 := by unfold roundHalfUp; rw [Int.floor_eq_iff]; norm_num
                rw [this]; rfl
              generalize in64 (rounded r) = L at *
              have hwin := slice_window s B L hL0 _ rfl
              by_cases h0 : r ≤ 0
              · rw [hz h0] at hwin ⊢
                simp only [if_pos h0]
                rw [check_ok (by omega)]
                simp only [Except.map]
                rw [check_ok (by omega)]
                refine ⟨fun t ht => ⟨_, rfl, ?_⟩, fun ht => by cases ht⟩
                cases ht
                refine hwin.trans ?_
                rw [window_eq, show (B + 0 - max B 1).toNat = 0 by omega]; simp
              · simp only [if_neg h0]
                by_cases ho : 2 ^ 63 ≤ B + L
                · simp only [if_pos ho]
                  refine ⟨fun t ht => (by cases ht), fun _ => ?_⟩
                  rw [check_bad (by omega)]
                · simp only [if_neg ho]
                  rw [check_ok (by omega)]
                  simp only [Except.map]
                  rw [check_ok (by omega)]
                  refine ⟨fun t ht => ⟨_, rfl, ?_⟩, fun ht => by cases ht⟩
                  cases ht; exact hwin

theorem raw_of {h : Heap} {x : XItem} {f : F64} (hx : floatOf x = some f) : x.rawDouble h = .ok f := by
  cases x <;> simp only [floatOf, Option.some.injEq, reduceCtorEq] at hx <;> subst hx <;> rfl

end Exact5
open Exact5

/-- What a call of a function that takes a part gives: the part, or a panic. -/
def Spec.GivesPart (h : Heap) (f : Str) (args : List XSeq) : Option XSeq → Prop
  | some v => CallGives h f args v
  | none => CallFails h f args .panic

/-- **C64**, exactly what is computed, for all numbers: `fn:substring` gives the part `partOf` says, `fn:subsequence` the same of a sequence, and where there is none they
panic (`fn:subsequence` not for the empty sequence, which is the part of itself). -/
theorem C64_exact (h : Heap) (x y : XItem) (f g : F64) (hx : floatOf x = some f) (hy : floatOf y = some g) :
    (∀ s : Str, GivesPart h (S "fn:substring") [[.string s], [x], [y]] ((partOf f (some g) s).map fun t => [.string t]) ∧
      GivesPart h (S "fn:substring") [[.string s], [x]] ((partOf f none s).map fun t => [.string t])) ∧
    (∀ s : XSeq, s ≠ [] → GivesPart h (S "fn:subsequence") [s, [x], [y]] (partOf f (some g) s) ∧
      GivesPart h (S "fn:subsequence") [s, [x]] (partOf f none s)) ∧
    CallGives h (S "fn:subsequence") [[], [x], [y]] [] ∧ CallGives h (S "fn:subsequence") [[], [x]] [] := by
  have s3 : ∀ v, startLength h [v, [x], [y]] = .ok (f, g) := by
    intro v
    show (x.rawDouble h).bind _ = _
    rw [raw_of hx]
    show (y.rawDouble h).map _ = _
    rw [raw_of hy]; rfl
  have s2 : ∀ v, startLength h [v, [x]] = .ok (f, F64.inf) := by
    intro v
    show (x.rawDouble h).bind _ = _
    rw [raw_of hx]; rfl
  refine ⟨fun s => ⟨?_, ?_⟩, fun s hs => ⟨?_, ?_⟩, calls_of 3 _ (hg := rfl), calls_of 2 _ (hg := rfl)⟩
  · obtain ⟨a, b⟩ := subIndex_part s f (some g)
    have e : fnSubstring h [[.string s], [x], [y]] = (subIndex s.length f g).map fun be => [.string (sliceOf s be)] := by
      show (startLength h [[.string s], [x], [y]]).bind _ = _
      rw [s3]; rfl
    cases hp : partOf f (some g) s with
    | some t =>
      obtain ⟨be, h1, h2⟩ := a t hp
      show CallGives h _ _ _
      refine calls_of 3 _ (hg := ?_)
      show fnSubstring h [[.string s], [x], [y]] = _
      rw [e, show subIndex s.length f g = .ok be from h1, ← h2]; rfl
    | none =>
      show CallFails h _ _ _
      refine fails_of 3 _ (hg := ?_)
      show fnSubstring h [[.string s], [x], [y]] = _
      rw [e, show subIndex s.length f g = _ from b hp]; rfl
  · obtain ⟨a, b⟩ := subIndex_part s f none
    have e : fnSubstring h [[.string s], [x]] = (subIndex s.length f F64.inf).map fun be => [.string (sliceOf s be)] := by
      show (startLength h [[.string s], [x]]).bind _ = _
      rw [s2]; rfl
    cases hp : partOf f none s with
    | some t =>
      obtain ⟨be, h1, h2⟩ := a t hp
      show CallGives h _ _ _
      refine calls_of 2 _ (hg := ?_)
      show fnSubstring h [[.string s], [x]] = _
      rw [e, show subIndex s.length f F64.inf = .ok be from h1, ← h2]; rfl
    | none =>
      show CallFails h _ _ _
      refine fails_of 2 _ (hg := ?_)
      show fnSubstring h [[.string s], [x]] = _
      rw [e, show subIndex s.length f F64.inf = _ from b hp]; rfl
  · have hne : s.isEmpty = false := by cases s <;> simp at hs ⊢
    obtain ⟨a, b⟩ := subIndex_part s f (some g)
    have e : fnSubsequence h [s, [x], [y]] = (subIndex s.length f g).map fun be => sliceOf s be := by
      unfold fnSubsequence
      rw [s3]
      show (if s.isEmpty = true then _ else (subIndex s.length f g).map _) = _
      rw [hne]; rfl
    cases hp : partOf f (some g) s with
    | some t =>
      obtain ⟨be, h1, h2⟩ := a t hp
      show CallGives h _ _ _
      refine calls_of 3 _ (hg := ?_)
      show fnSubsequence h _ = _
      rw [e, show subIndex s.length f g = .ok be from h1, ← h2]; rfl
    | none =>
      show CallFails h _ _ _
      refine fails_of 3 _ (hg := ?_)
      show fnSubsequence h _ = _
      rw [e, show subIndex s.length f g = _ from b hp]; rfl
  · have hne : s.isEmpty = false := by cases s <;> simp at hs ⊢
    obtain ⟨a, b⟩ := subIndex_part s f none
    have e : fnSubsequence h [s, [x]] = (subIndex s.length f F64.inf).map fun be => sliceOf s be := by
      unfold fnSubsequence
      rw [s2]
      show (if s.isEmpty = true then _ else (subIndex s.length f F64.inf).map _) = _
      rw [hne]; rfl
    cases hp : partOf f none s with
    | some t =>
      obtain ⟨be, h1, h2⟩ := a t hp
      show CallGives h _ _ _
      refine calls_of 2 _ (hg := ?_)
      show fnSubsequence h _ = _
      rw [e, show subIndex s.length f F64.inf = .ok be from h1, ← h2]; rfl
    | none =>
      show CallFails h _ _ _
      refine fails_of 2 _ (hg := ?_)
      show fnSubsequence h _ = _
      rw [e, show subIndex s.length f F64.inf = _ from b hp]; rfl

/-- Huge starts: a start of `1e19` overflows with a length, `-1e19` always. -/
example : evalXPath .empty 20 0 (S "substring('ab', 1e19, 1)") = .error .panic := by run_query
example : evalXPath .empty 20 0 (S "substring('ab', 1e19)") = .ok [.string []] := by run_query
example : evalXPath .empty 20 0 (S "substring('ab', -1e19)") = .error .panic := by run_query
/-- The items of the hypotheses, and the part that is taken of three letters with the start 2 and the length 1. -/
example : floatOf (.integer 2) = some (F64.ofInt 2) ∧ partOf (F64.ofInt 2) (some (F64.ofInt 1)) (S "abc") = some (S "b") := by
  refine ⟨rfl, ?_⟩
  unfold partOf
  rw [F64.val_ofInt (by decide)]
  simp only
  rw [F64.val_ofInt (by decide)]
  have r : ∀ n : Int, n.natAbs ≤ 2 ^ 52 → rounded (n : ℚ) = n := by
    intro n hn
    unfold rounded
    rw [if_pos (roundsWell_int (.inl hn))]
    unfold roundHalfUp; rw [Int.floor_eq_iff]; constructor <;> linarith
  have u : ¬ (F64.ofInt 1).unpack = .infinity .positive := by
    intro hu
    have hv := F64.val_ofInt (n := 1) (by decide)
    unfold F64.val at hv
    rw [hu] at hv
    cases hv
  simp only [r 2 (by decide), r 1 (by decide), if_neg u]
  norm_num [in64]
  decide

end Amxml
