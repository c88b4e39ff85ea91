import Verif.Lemmas.Func
import Verif.Lemmas.F64Val
import Verif.Lemmas.HalfRound
import Verif.Lemmas.Decide
import Verif.Props.XFunc

/-!
# Functions on numbers, and the functions that take positions (C64, C67, C68)
-/

namespace Amxml
open Spec

/-! ## C68: `fn:abs`, `fn:floor`, `fn:ceiling`, `fn:round` -/

/-- **C68.** `fn:floor`, `fn:ceiling`, `fn:abs` of a finite double or decimal `q` are the floor, the ceiling and the absolute value of
`q`, exactly, as a number of the same type; the first two leave an integer unchanged. -/
theorem C68_exact (h : Heap) (d : F64) (q : ℚ) (hd : F64.val d = some q) :
    (∃ r, CallGives h (S "fn:floor") [[.double d]] [.double r] ∧ F64.val r = some (⌊q⌋ : ℚ)) ∧
    (∃ r, CallGives h (S "fn:floor") [[.decimal d]] [.decimal r] ∧ F64.val r = some (⌊q⌋ : ℚ)) ∧
    (∃ r, CallGives h (S "fn:ceiling") [[.double d]] [.double r] ∧ F64.val r = some (⌈q⌉ : ℚ)) ∧
    (∃ r, CallGives h (S "fn:ceiling") [[.decimal d]] [.decimal r] ∧ F64.val r = some (⌈q⌉ : ℚ)) ∧
    (∃ r, CallGives h (S "fn:abs") [[.double d]] [.double r] ∧ F64.val r = some |q|) ∧
    (∃ r, CallGives h (S "fn:abs") [[.decimal d]] [.decimal r] ∧ F64.val r = some |q|) :=
  ⟨⟨_, calls_of 1 _ (hg := rfl), F64.val_floorX hd⟩, ⟨_, calls_of 1 _ (hg := rfl), F64.val_floor hd⟩,
   ⟨_, calls_of 1 _ (hg := rfl), F64.val_ceilX hd⟩, ⟨_, calls_of 1 _ (hg := rfl), F64.val_ceil hd⟩,
   ⟨_, calls_of 1 _ (hg := rfl), F64.val_abs hd⟩, ⟨_, calls_of 1 _ (hg := rfl), F64.val_abs hd⟩⟩

/-- **C68.** On integers `fn:floor`, `fn:ceiling`, `fn:round` are the identity, and `fn:abs` is the absolute value unless it does not fit,
which makes it panic. The empty sequence gives the empty sequence. -/
theorem C68_integer (h : Heap) (n : Int) (hn : isI64 n) :
    CallGives h (S "fn:floor") [[.integer n]] [.integer n] ∧ CallGives h (S "fn:ceiling") [[.integer n]] [.integer n] ∧
    CallGives h (S "fn:round") [[.integer n]] [.integer n] ∧
    (n ≠ i64Min → CallGives h (S "fn:abs") [[.integer n]] [.integer |n|]) ∧
    (n = i64Min → CallFails h (S "fn:abs") [[.integer n]] .panic) ∧
    ∀ f ∈ [S "fn:floor", S "fn:ceiling", S "fn:round", S "fn:abs"], CallGives h f [[]] [] := by
  refine ⟨calls_of 1 _ (hg := rfl), calls_of 1 _ (hg := rfl), calls_of 1 _ (hg := rfl), fun hne => calls_of 1 _ (hg := ?_), ?_, ?_⟩
  · show (checkI64 (n.natAbs : Int)).map _ = _
    have : checkI64 (n.natAbs : Int) = .ok |n| := by
      unfold checkI64
      rw [if_pos (by unfold isI64 i64Min i64Max at *; omega), Int.abs_eq_natAbs]
    rw [this]; rfl
  · rintro rfl; exact fails_of 1 _ (hg := rfl)
  · simp only [List.mem_cons, List.not_mem_nil, or_false, forall_eq_or_imp, forall_eq]
    exact ⟨calls_of 1 _ (hg := rfl), calls_of 1 _ (hg := rfl), calls_of 1 _ (hg := rfl), calls_of 1 _ (hg := rfl)⟩

/-- **C68** (partial). `fn:round` rounds a finite double or decimal `q` to the nearest integer, halves upwards, for all numbers but those that
`RoundsWell` excludes. Missing: those numbers; `C68_round_wrong` shows that the property fails for every one of them. -/
theorem C68_round_partial (h : Heap) (d : F64) (q : ℚ) (hd : F64.val d = some q) (hx : RoundsWell q) :
    (∃ r, CallGives h (S "fn:round") [[.double d]] [.double r] ∧ F64.val r = some (roundHalfUp q : ℚ)) ∧
    (∃ r, CallGives h (S "fn:round") [[.decimal d]] [.decimal r] ∧ F64.val r = some (roundHalfUp q : ℚ)) := by
  obtain ⟨n, h1, h2, -⟩ := F64.val_roundX hd
  obtain ⟨y, h3, h4, -⟩ := F64.val_add_half hd
  refine ⟨⟨_, calls_of 1 _ (hg := rfl), by rw [h1, h2 hx]; rfl⟩, ⟨_, calls_of 1 _ (hg := rfl), ?_⟩⟩
  show F64.val (F64.floor (d + F64.half)) = _
  rw [F64.val_floor h3, h4 hx]; rfl

/-- **C68 is violated** by exactly the numbers that `RoundsWell` excludes: for each of them `fn:round` gives the right integer plus one. -/
theorem C68_round_wrong (h : Heap) (d : F64) (q : ℚ) (hd : F64.val d = some q) (hx : ¬ RoundsWell q) :
    (∃ r, CallGives h (S "fn:round") [[.double d]] [.double r] ∧ F64.val r = some ((roundHalfUp q + 1 : Int) : ℚ)) ∧
    (∃ r, CallGives h (S "fn:round") [[.decimal d]] [.decimal r] ∧ F64.val r = some ((roundHalfUp q + 1 : Int) : ℚ)) := by
  obtain ⟨n, h1, -, h2⟩ := F64.val_roundX hd
  obtain ⟨y, h3, -, h4⟩ := F64.val_add_half hd
  refine ⟨⟨_, calls_of 1 _ (hg := rfl), by rw [h1, h2 hx]; rfl⟩, ⟨_, calls_of 1 _ (hg := rfl), ?_⟩⟩
  show F64.val (F64.floor (d + F64.half)) = _
  rw [F64.val_floor h3, h4 hx]; rfl

/-- Integers up to `2 ^ 52` in size, and even ones, are rounded rightly. -/
theorem roundsWell_int {n : Int} (hn : n.natAbs ≤ 2 ^ 52 ∨ n % 2 = 0) : RoundsWell (n : ℚ) := by
  refine ⟨fun hh => ?_, fun k hk h1 h2 => ?_⟩
  · have h1 : (0 : ℚ) < n := by rw [hh]; norm_num
    have h2 : (n : ℚ) < 1 := by rw [hh]; norm_num
    have a1 : 0 < n := by exact_mod_cast h1
    have a2 : n < 1 := by exact_mod_cast h2
    omega
  · have : n = k := by exact_mod_cast hk
    subst this
    rw [Int.abs_eq_natAbs] at h2
    omega

/-- Numbers with a fraction are rounded rightly, but for one. -/
theorem roundsWell_fraction {q : ℚ} (hq : ∀ n : Int, q ≠ n) (hne : q ≠ 1 / 2 - 1 / 2 ^ 54) : RoundsWell q := ⟨hne, fun n hn => absurd hn (hq n)⟩

/-- The largest `f64` below one half. -/
def belowHalf : F64 := Float.Model.ofScientific 49999999999999994 (-17)

/-- An odd integer above `2 ^ 52`, as a double. -/
def oddLarge : F64 := F64.ofInt 4503599627370497

/-- **C68 is violated**: `fn:round(0.49999999999999994e0)` is 1 although the number is less than one half, and
`fn:round(4503599627370497e0)` is not the integer itself but the next one. -/
theorem C68_violated (h : Heap) :
    (∃ q, F64.val belowHalf = some q ∧ 0 < q ∧ q < 1 / 2 ∧ roundHalfUp q = 0) ∧
    CallGives h (S "fn:round") [[.double belowHalf]] [.double (F64.ofInt 1)] ∧
    F64.val oddLarge = some 4503599627370497 ∧
    CallGives h (S "fn:round") [[.double oddLarge]] [.double (F64.ofInt 4503599627370498)] := by
  refine ⟨?_, calls_of 1 _ (hg := ?_), ?_, calls_of 1 _ (hg := ?_)⟩
  · have hc : F64.Canon 9007199254740991 (-54) := ⟨by norm_num, by norm_num, by norm_num, by norm_num, by norm_num⟩
    have hu : belowHalf = Float.Model.pack (.finite .positive 9007199254740991 (-54) (by norm_num)) := by decide +kernel
    refine ⟨F64.mag 9007199254740991 (-54), by rw [hu, F64.val_finite hc]; rfl, F64.mag_pos (by norm_num), ?_, ?_⟩
    · unfold F64.mag; norm_num
    · unfold roundHalfUp
      rw [Int.floor_eq_iff]
      unfold F64.mag; norm_num
  · show Except.ok [XItem.double (F64.roundX belowHalf)] = _
    have : F64.roundX belowHalf = F64.ofInt 1 := by decide +kernel
    rw [this]
  · exact_mod_cast F64.val_ofInt (n := 4503599627370497) (by norm_num)
  · show Except.ok [XItem.double (F64.roundX oddLarge)] = _
    have : F64.roundX oddLarge = F64.ofInt 4503599627370498 := by decide +kernel
    rw [this]

/-- **C68 is violated**: a string, a boolean, a node or a sequence of two numbers is not an error but gives the empty sequence. -/
theorem C68_not_a_number (h : Heap) (f : Str) (hf : f ∈ [S "fn:floor", S "fn:ceiling", S "fn:round", S "fn:abs"]) (v : XSeq)
    (hv : ∀ x, v = [x] → x.isNumeric = false) : CallGives h f [v] [] := by
  have key : ∀ (io : Int → Except XErr Int) a b, fnNumericUnary io a b v = .ok [] := by
    intro io a b
    unfold fnNumericUnary
    cases hi : XSeq.item1 v with
    | error e => rfl
    | ok x =>
      have hvx : v = [x] := by
        unfold XSeq.item1 at hi
        split at hi
        · cases hi; rfl
        · cases hi
      have := hv x hvx
      cases x <;> first | rfl | (cases this)
  simp only [List.mem_cons, List.not_mem_nil, or_false] at hf
  rcases hf with rfl | rfl | rfl | rfl <;> exact calls_of 1 _ (hg := key _ _ _)

/-- `fn:floor(-1.5e0)` is `-2`: the hypotheses hold and the values are those of the theorem. -/
example : F64.val (Float.Model.neg (Float.Model.ofScientific 15 (-1))) = some (-3 / 2) ∧ ⌊(-3 / 2 : ℚ)⌋ = -2 := by
  refine ⟨?_, by rw [Int.floor_eq_iff]; norm_num⟩
  have hc : F64.Canon 6755399441055744 (-52) := ⟨by norm_num, by norm_num, by norm_num, by norm_num, by norm_num⟩
  have hu : Float.Model.neg (Float.Model.ofScientific 15 (-1)) = Float.Model.pack (.finite .negative 6755399441055744 (-52) (by norm_num)) := by
    decide +kernel
  rw [hu, F64.val_finite hc]
  show some (-F64.mag _ _) = _
  unfold F64.mag; norm_num

/-! ## C64: `fn:substring`, `fn:subsequence` -/

theorem round_bound {q : ℚ} (hq : |q| < 2 ^ 61) : -(2 ^ 62) < roundHalfUp q ∧ roundHalfUp q < 2 ^ 62 := by
  have hb := abs_lt.1 hq
  unfold roundHalfUp
  constructor
  · rw [Int.lt_iff_add_one_le, Int.le_floor]; push_cast; linarith [hb.1]
  · rw [Int.floor_lt]; push_cast; linarith [hb.2]

theorem isNan_of_val {f : F64} {q : ℚ} (hf : F64.val f = some q) : F64.isNan f = false ∧ F64.isInf f = false := by
  unfold F64.isNan F64.isInf Float.Model.isNaN Float.Model.isInf
  rcases F64.val_cases hf with ⟨s, hu, _⟩ | ⟨m, e, hm, _, hu, _⟩ | ⟨m, e, hm, _, hu, _⟩ <;> rw [hu] <;> exact ⟨rfl, rfl⟩

theorem nonpos_of_signNeg {f : F64} {q : ℚ} (hf : F64.val f = some q) (hs : F64.signNeg f = true) : q ≤ 0 := by
  unfold F64.signNeg at hs
  rcases F64.val_cases hf with ⟨s, hu, rfl⟩ | ⟨m, e, hm, _, hu, rfl⟩ | ⟨m, e, hm, _, hu, rfl⟩
  · exact le_refl _
  · rw [hu] at hs; cases hs
  · have := F64.mag_pos (e := e) hm; linarith

theorem selectFrom_window {α : Type} (lo hi : Int) (s : List α) : ∀ i : Nat,
    selectFrom (fun p => decide (lo ≤ (p : Int) ∧ (p : Int) < hi)) i s = (s.drop (lo - i).toNat).take (hi - max lo i).toNat := by
  induction s with
  | nil => intro i; simp [selectFrom]
  | cons x s ih =>
    intro i
    rw [selectFrom, ih]
    by_cases h1 : (i : Int) < lo
    · rw [if_neg (by simp; omega)]
      have e1 : (lo - i).toNat = (lo - (i + 1 : Nat)).toNat + 1 := by omega
      have e2 : max lo ((i + 1 : Nat) : Int) = max lo (i : Int) := by omega
      rw [e1, e2, List.drop_succ_cons]
    · by_cases h2 : (i : Int) < hi
      · rw [if_pos (by simp; omega)]
        have e1 : (lo - i).toNat = 0 := by omega
        have e2 : (lo - (i + 1 : Nat)).toNat = 0 := by omega
        have e3 : (hi - max lo (i : Int)).toNat = (hi - max lo ((i + 1 : Nat) : Int)).toNat + 1 := by omega
        rw [e1, e2, e3]; rfl
      · rw [if_neg (by simp; omega)]
        have e1 : (hi - max lo ((i + 1 : Nat) : Int)).toNat = 0 := by omega
        have e2 : (hi - max lo (i : Int)).toNat = 0 := by omega
        rw [e1, e2]; rfl

theorem window_eq {α : Type} (lo hi : Int) (s : List α) : window lo hi s = (s.drop (lo - 1).toNat).take (hi - max lo 1).toNat :=
  selectFrom_window lo hi s 1

theorem windowFrom_eq {α : Type} (lo : Int) (s : List α) : windowFrom lo s = s.drop (lo - 1).toNat := by
  have : ∀ i : Nat, selectFrom (fun p => decide (lo ≤ (p : Int))) i s = s.drop (lo - i).toNat := by
    induction s with
    | nil => intro i; simp [selectFrom]
    | cons x s ih =>
      intro i
      rw [selectFrom, ih]
      by_cases h1 : (i : Int) < lo
      · rw [if_neg (by simp; omega)]
        have e1 : (lo - i).toNat = (lo - (i + 1 : Nat)).toNat + 1 := by omega
        rw [e1, List.drop_succ_cons]
      · rw [if_pos (by simp; omega)]
        have e1 : (lo - i).toNat = 0 := by omega
        have e2 : (lo - (i + 1 : Nat)).toNat = 0 := by omega
        rw [e1, e2]; rfl
  exact this 1

theorem toI64_round {f : F64} {q : ℚ} (hf : F64.val f = some q) (hx : RoundsWell q) (hqb : |q| < 2 ^ 61) : F64.toI64 (F64.roundX f) = roundHalfUp q := by
  have hb := round_bound hqb
  have hr : F64.val (F64.roundX f) = some ((roundHalfUp q : Int) : ℚ) := by
    obtain ⟨n, h1, h2, -⟩ := F64.val_roundX hf
    rw [h1, h2 hx]; rfl
  have ht : F64.truncQ ((roundHalfUp q : Int) : ℚ) = roundHalfUp q := F64.truncQ_int _
  have := F64.toI64_val hr (by show _ ≤ F64.truncQ ((roundHalfUp q : Int) : ℚ); rw [ht]; omega)
    (by show F64.truncQ ((roundHalfUp q : Int) : ℚ) < _; rw [ht]; omega)
  rw [this]; exact ht

theorem subIndex_window {α : Type} (s : List α) {f g : F64} {q r : ℚ} (hf : F64.val f = some q) (hx : RoundsWell q) (hqb : |q| < 2 ^ 61)
    (hg : F64.val g = some r) (hy : RoundsWell r) (hrb : |r| < 2 ^ 61) :
    ∃ be, subIndex s.length f g = .ok be ∧ sliceOf s be = window (roundHalfUp q) (roundHalfUp q + roundHalfUp r) s := by
  have hb := round_bound hqb
  have hb' := round_bound hrb
  have e1 := isNan_of_val hf
  have e2 := isNan_of_val hg
  unfold subIndex
  rw [toI64_round hf hx hqb, toI64_round hg hy hrb]
  have c1 : checkI64 (roundHalfUp q - 1) = .ok (roundHalfUp q - 1) := by
    unfold checkI64; rw [if_pos (by unfold isI64 i64Min i64Max; omega)]
  have c2 : checkI64 (roundHalfUp q + roundHalfUp r) = .ok (roundHalfUp q + roundHalfUp r) := by
    unfold checkI64; rw [if_pos (by unfold isI64 i64Min i64Max; omega)]
  have c3 : checkI64 (roundHalfUp q + roundHalfUp r - 1) = .ok (roundHalfUp q + roundHalfUp r - 1) := by
    unfold checkI64; rw [if_pos (by unfold isI64 i64Min i64Max; omega)]
  simp only [e1.1, e1.2, e2.1, e2.2, Bool.or_self, Bool.false_eq_true, if_false, Bool.false_and, Bool.false_or, c1, Except.bind]
  by_cases hs : F64.signNeg g = true
  · rw [if_pos hs]
    refine ⟨_, rfl, ?_⟩
    have : roundHalfUp r ≤ 0 := by
      have := nonpos_of_signNeg hg hs
      unfold roundHalfUp
      rw [← Int.lt_add_one_iff, Int.floor_lt]; push_cast; linarith
    rw [window_eq]
    have e : (roundHalfUp q + roundHalfUp r - max (roundHalfUp q) 1).toNat = 0 := by omega
    rw [e]; simp [sliceOf]
  · rw [if_neg hs, c2]
    simp only [c3, Except.map]
    refine ⟨_, rfl, ?_⟩
    rw [window_eq]
    generalize roundHalfUp q = lo at *
    generalize roundHalfUp r = d at *
    unfold sliceOf
    by_cases hl : s.length ≤ (lo - 1).toNat
    · rw [List.drop_eq_nil_of_le hl, List.drop_eq_nil_of_le]
      · simp
      · simp only; split <;> split at * <;> omega
    · have hbb : (if (s.length : Int) ≤ (if lo - 1 < 0 then 0 else lo - 1) then (s.length : Int) else if lo - 1 < 0 then 0 else lo - 1).toNat = (lo - 1).toNat := by
        split <;> split at * <;> omega
      simp only [hbb]
      by_cases hh : (lo + d - max lo 1).toNat < s.length - (lo - 1).toNat
      · congr 1
        split <;> split <;> (try split at *) <;> (try split at *) <;> (try split at *) <;> omega
      · rw [List.take_of_length_le (by simp; omega), List.take_of_length_le]
        simp only [List.length_drop]
        omega

theorem subIndex_windowFrom {α : Type} (s : List α) {f : F64} {q : ℚ} (hf : F64.val f = some q) (hx : RoundsWell q) (hqb : |q| < 2 ^ 61) :
    ∃ be, subIndex s.length f F64.inf = .ok be ∧ sliceOf s be = windowFrom (roundHalfUp q) s := by
  have hb := round_bound hqb
  have e1 := isNan_of_val hf
  unfold subIndex
  rw [toI64_round hf hx hqb]
  have c1 : checkI64 (roundHalfUp q - 1) = .ok (roundHalfUp q - 1) := by
    unfold checkI64; rw [if_pos (by unfold isI64 i64Min i64Max; omega)]
  have c2 : (F64.isInf F64.inf && F64.signPos F64.inf) = true := by decide +kernel
  simp only [e1.1, e1.2, Bool.or_self, Bool.false_eq_true, if_false, c1, Except.bind, c2, if_true]
  refine ⟨_, rfl, ?_⟩
  rw [windowFrom_eq]
  generalize roundHalfUp q = lo at *
  unfold sliceOf
  by_cases hl : s.length ≤ (lo - 1).toNat
  · rw [List.drop_eq_nil_of_le hl, List.drop_eq_nil_of_le]
    · simp
    · simp only; split <;> split at * <;> omega
  · have hbb : (if (s.length : Int) ≤ (if lo - 1 < 0 then 0 else lo - 1) then (s.length : Int) else if lo - 1 < 0 then 0 else lo - 1).toNat = (lo - 1).toNat := by
      split <;> split at * <;> omega
    simp only [hbb]
    rw [List.take_of_length_le (by simp)]

theorem rawDouble_of_num {h : Heap} {x : XItem} {q : ℚ} (hx : NumVal x q) : ∃ f, x.rawDouble h = .ok f ∧ F64.val f = some q := by
  cases x with
  | integer n => obtain ⟨h1, rfl⟩ := hx; exact ⟨_, rfl, F64.val_ofInt h1⟩
  | decimal d => exact ⟨d, rfl, hx⟩
  | double d => exact ⟨d, rfl, hx⟩
  | _ => exact hx.elim

/-- **C64** (partial). `fn:substring(s, x, y)` is the part of `s` at the positions `p` with `round(x) ≤ p < round(x) + round(y)`, and
`fn:subsequence` the same of a sequence; without `y`, all positions from `round(x)` on. Proved for all numbers `x`, `y` below
`2 ^ 61` in size for which the rounding is right (see C68). Missing: larger ones, infinite numbers and NaN, and the numbers of `C68_round_wrong`. -/
theorem C64_window_partial (h : Heap) (x y : XItem) (q r : ℚ) (hx : NumVal x q) (hy : NumVal y r) 
    (hxe : RoundsWell q) (hye : RoundsWell r) (hqb : |q| < 2 ^ 61) (hrb : |r| < 2 ^ 61) :
    (∀ s : Str, CallGives h (S "fn:substring") [[.string s], [x], [y]] [.string (window (roundHalfUp q) (roundHalfUp q + roundHalfUp r) s)] ∧
      CallGives h (S "fn:substring") [[.string s], [x]] [.string (windowFrom (roundHalfUp q) s)]) ∧
    (∀ s : XSeq, CallGives h (S "fn:subsequence") [s, [x], [y]] (window (roundHalfUp q) (roundHalfUp q + roundHalfUp r) s) ∧
      CallGives h (S "fn:subsequence") [s, [x]] (windowFrom (roundHalfUp q) s)) := by
  obtain ⟨f, hf, hfv⟩ := rawDouble_of_num (h := h) hx
  obtain ⟨g, hg, hgv⟩ := rawDouble_of_num (h := h) hy
  have s3 : ∀ v, startLength h [v, [x], [y]] = .ok (f, g) := by
    intro v
    show (x.rawDouble h).bind _ = _
    rw [hf]
    show (y.rawDouble h).map _ = _
    rw [hg]; rfl
  have s2 : ∀ v, startLength h [v, [x]] = .ok (f, F64.inf) := by
    intro v
    show (x.rawDouble h).bind _ = _
    rw [hf]; rfl
  refine ⟨fun s => ?_, fun s => ?_⟩
  · obtain ⟨be, h1, h2⟩ := subIndex_window s hfv hxe hqb hgv hye hrb
    obtain ⟨be', h1', h2'⟩ := subIndex_windowFrom s hfv hxe hqb
    refine ⟨calls_of 3 _ (hg := ?_), calls_of 2 _ (hg := ?_)⟩
    · show (startLength h [[.string s], [x], [y]]).bind _ = _
      rw [s3]
      show (subIndex s.length f g).map _ = _
      rw [h1, ← h2]; rfl
    · show (startLength h [[.string s], [x]]).bind _ = _
      rw [s2]
      show (subIndex s.length f F64.inf).map _ = _
      rw [h1', ← h2']; rfl
  · obtain ⟨be, h1, h2⟩ := subIndex_window s hfv hxe hqb hgv hye hrb
    obtain ⟨be', h1', h2'⟩ := subIndex_windowFrom s hfv hxe hqb
    by_cases hs : s = []
    · subst hs
      have e1 : window (roundHalfUp q) (roundHalfUp q + roundHalfUp r) ([] : XSeq) = [] := rfl
      have e2 : windowFrom (roundHalfUp q) ([] : XSeq) = [] := rfl
      rw [e1, e2]
      exact ⟨calls_of 3 _ (hg := rfl), calls_of 2 _ (hg := rfl)⟩
    · have hne : s.isEmpty = false := by cases s <;> simp at hs ⊢
      refine ⟨calls_of 3 _ (hg := ?_), calls_of 2 _ (hg := ?_)⟩
      · show fnSubsequence h [s, [x], [y]] = _
        unfold fnSubsequence
        rw [s3]
        show (if s.isEmpty = true then _ else (subIndex s.length f g).map _) = _
        rw [hne, h1, ← h2]; rfl
      · show fnSubsequence h [s, [x]] = _
        unfold fnSubsequence
        rw [s2]
        show (if s.isEmpty = true then _ else (subIndex s.length f F64.inf).map _) = _
        rw [hne, h1', ← h2']; rfl

theorem not_finite {d : F64} (hd : F64.val d = none) : (F64.isNan d || F64.isInf d) = true := by
  unfold F64.val at hd
  unfold F64.isNan F64.isInf Float.Model.isNaN Float.Model.isInf
  cases hu : d.unpack with
  | zero s => rw [hu] at hd; cases hd
  | finite s m e hm => rw [hu] at hd; cases s <;> cases hd
  | infinity s => rfl
  | notANumber => rfl

/-- What `fn:substring` and `fn:subsequence` give if the part is found at `be`. -/
theorem part_of (h : Heap) {x y : F64} :
    (∀ {s : Str} {be}, subIndex s.length x y = .ok be → CallGives h (S "fn:substring") [[.string s], [.double x], [.double y]] [.string (sliceOf s be)]) ∧
    (∀ {s : XSeq} {be}, subIndex s.length x y = .ok be → CallGives h (S "fn:subsequence") [s, [.double x], [.double y]] (sliceOf s be)) := by
  refine ⟨fun {s be} h1 => calls_of 3 _ (hg := ?_), fun {s be} h1 => calls_of 3 _ (hg := ?_)⟩
  · show (subIndex s.length x y).map _ = _
    rw [h1]; rfl
  · show (if s.isEmpty = true then Except.ok [] else (subIndex s.length x y).map fun be => sliceOf s be) = _
    cases s with
    | nil => simp [sliceOf]
    | cons a s => rw [h1]; rfl

/-- The same without a length. -/
theorem partFrom_of (h : Heap) {x : F64} :
    (∀ {s : Str} {be}, subIndex s.length x F64.inf = .ok be → CallGives h (S "fn:substring") [[.string s], [.double x]] [.string (sliceOf s be)]) ∧
    (∀ {s : XSeq} {be}, subIndex s.length x F64.inf = .ok be → CallGives h (S "fn:subsequence") [s, [.double x]] (sliceOf s be)) := by
  refine ⟨fun {s be} h1 => calls_of 2 _ (hg := ?_), fun {s be} h1 => calls_of 2 _ (hg := ?_)⟩
  · show (subIndex s.length x F64.inf).map _ = _
    rw [h1]; rfl
  · show (if s.isEmpty = true then Except.ok [] else (subIndex s.length x F64.inf).map fun be => sliceOf s be) = _
    cases s with
    | nil => simp [sliceOf]
    | cons a s => rw [h1]; rfl

/-- **C64**, the numbers that are not finite. A start of NaN or plus infinity selects nothing, and neither does a start of minus infinity with a
length. A length of NaN or minus infinity selects nothing; a length of plus infinity selects all positions from the start on. (A start of minus infinity
without a length should select everything and selects nothing.) -/
theorem C64_special (h : Heap) (x y : F64) :
    (F64.val x = none → ∀ (s : Str) (t : XSeq),
      CallGives h (S "fn:substring") [[.string s], [.double x], [.double y]] [.string []] ∧ CallGives h (S "fn:subsequence") [t, [.double x], [.double y]] [] ∧
      CallGives h (S "fn:substring") [[.string s], [.double x]] [.string []] ∧ CallGives h (S "fn:subsequence") [t, [.double x]] []) ∧
    (∀ q, F64.val x = some q → |q| < 2 ^ 61 → RoundsWell q → ∀ (s : Str) (t : XSeq),
      (y.unpack = .infinity .positive →
        CallGives h (S "fn:substring") [[.string s], [.double x], [.double y]] [.string (windowFrom (roundHalfUp q) s)] ∧
        CallGives h (S "fn:subsequence") [t, [.double x], [.double y]] (windowFrom (roundHalfUp q) t)) ∧
      (y.unpack = .infinity .negative ∨ y.unpack = .notANumber →
        CallGives h (S "fn:substring") [[.string s], [.double x], [.double y]] [.string []] ∧
        CallGives h (S "fn:subsequence") [t, [.double x], [.double y]] [])) := by
  refine ⟨fun hx s t => ?_, fun q hq hqb hw s t => ⟨fun hy => ?_, fun hy => ?_⟩⟩
  · have key : ∀ (n : Nat) (z : F64), subIndex n x z = .ok (0, 0) := by
      intro n z; unfold subIndex; rw [if_pos (not_finite hx)]
    exact ⟨(part_of h).1 (key _ _), by simpa [sliceOf] using (part_of h).2 (key t.length y), (partFrom_of h).1 (key _ _),
      by simpa [sliceOf] using (partFrom_of h).2 (key t.length F64.inf)⟩
  · have key : ∀ n : Nat, subIndex n x y = subIndex n x F64.inf := by
      intro n
      have e1 : (F64.isInf y && F64.signPos y) = true := by
        unfold F64.isInf F64.signPos Float.Model.isInf; rw [hy]; rfl
      have e2 : (F64.isInf F64.inf && F64.signPos F64.inf) = true := by decide +kernel
      unfold subIndex; simp only [e1, e2, if_true]
    obtain ⟨be, h1, h2⟩ := subIndex_windowFrom s hq hw hqb
    obtain ⟨be', h1', h2'⟩ := subIndex_windowFrom t hq hw hqb
    rw [← h2, ← h2']
    exact ⟨(part_of h).1 (by rw [key]; exact h1), (part_of h).2 (by rw [key]; exact h1')⟩
  · have e1 : (F64.isInf y && F64.signPos y) = false := by
      unfold F64.isInf F64.signPos Float.Model.isInf; rcases hy with hy | hy <;> rw [hy] <;> rfl
    have e2 : (F64.isNan y || F64.signNeg y) = true := by
      unfold F64.isNan F64.signNeg Float.Model.isNaN; rcases hy with hy | hy <;> rw [hy] <;> rfl
    have hb := round_bound hqb
    have key : ∀ n : Nat, subIndex n x y = .ok (0, 0) := by
      intro n
      have c1 : checkI64 (roundHalfUp q - 1) = .ok (roundHalfUp q - 1) := by
        unfold checkI64; rw [if_pos (by unfold isI64 i64Min i64Max; omega)]
      have e3 := isNan_of_val hq
      unfold subIndex
      simp only [toI64_round hq hw hqb, e3.1, e3.2, c1, e1, e2, Except.bind, Bool.or_self, Bool.false_eq_true, if_false, if_true]
    exact ⟨(part_of h).1 (key _), by simpa [sliceOf] using (part_of h).2 (key t.length)⟩

/-- The infinities and NaN exist. -/
example : (F64.pack (.infinity .positive)).unpack = .infinity .positive ∧ F64.nan.unpack = .notANumber ∧ F64.val F64.nan = none :=
  ⟨F64.unpack_inf _, F64.unpack_nan, by unfold F64.val F64.nan; rw [show (F64.pack .notANumber).unpack = .notANumber from F64.unpack_nan]; rfl⟩

/-- **C64** for integer positions: `fn:substring(s, m, n)` and `fn:subsequence(s, m, n)` take the positions from `m` to `m + n - 1`. -/
theorem C64_integers_partial (h : Heap) (m n : Int) (hm : m.natAbs ≤ 2 ^ 52) (hn : n.natAbs ≤ 2 ^ 52) :
    (∀ s : Str, CallGives h (S "fn:substring") [[.string s], [.integer m], [.integer n]] [.string (window m (m + n) s)] ∧
      CallGives h (S "fn:substring") [[.string s], [.integer m]] [.string (windowFrom m s)]) ∧
    (∀ s : XSeq, CallGives h (S "fn:subsequence") [s, [.integer m], [.integer n]] (window m (m + n) s) ∧
      CallGives h (S "fn:subsequence") [s, [.integer m]] (windowFrom m s)) := by
  have key : ∀ k : Int, roundHalfUp (k : ℚ) = k := by
    intro k; unfold roundHalfUp; rw [Int.floor_eq_iff]; constructor <;> linarith
  have small : ∀ {k : Int}, k.natAbs ≤ 2 ^ 52 → |(k : ℚ)| < 2 ^ 61 := by
    intro k hk
    have : |k| < 2 ^ 61 := by rw [Int.abs_eq_natAbs]; omega
    exact_mod_cast this
  have := C64_window_partial h (.integer m) (.integer n) m n ⟨by omega, rfl⟩ ⟨by omega, rfl⟩ (roundsWell_int (Or.inl hm)) (roundsWell_int (Or.inl hn)) (small hm) (small hn)
  rwa [key, key] at this

/-- `fn:substring("metadata", 4, 3)` is `"ada"`. -/
example (h : Heap) : CallGives h (S "fn:substring") [[.string (S "metadata")], [.integer 4], [.integer 3]] [.string (S "ada")] :=
  ((C64_integers_partial h 4 3 (by norm_num) (by norm_num)).1 (S "metadata")).1

theorem substring_panics (h : Heap) (d : F64) (hd : subIndex 2 d F64.inf = .error .panic) :
    CallFails h (S "fn:substring") [[.string (S "ab")], [.double d]] .panic := by
  refine fails_of 2 _ (hg := ?_)
  show (subIndex 2 d F64.inf).map (fun be => [XItem.string (sliceOf (S "ab") be)]) = _
  rw [hd]; rfl

/-- **C64 is violated**: the wrong rounding of `0.49999999999999994` shifts the result (no position `p` has `0 ≤ p < 1`); a start of
minus infinity without a length gives nothing instead of everything; a start of `-1.0e300` panics. -/
theorem C64_violated (h : Heap) :
    CallGives h (S "fn:substring") [[.string (S "ab")], [.double belowHalf], [.integer 1]] [.string (S "a")] ∧
    CallGives h (S "fn:substring") [[.string (S "ab")], [.double (F64.pack (.infinity .negative))]] [.string []] ∧
    CallFails h (S "fn:substring") [[.string (S "ab")], [.double (Float.Model.neg (Float.Model.ofScientific 1 300))]] .panic := by
  refine ⟨calls_of 3 _ (hg := ?_), calls_of 2 _ (hg := ?_), ?_⟩
  · show (subIndex 2 belowHalf (F64.ofInt 1)).map (fun be => [XItem.string (sliceOf (S "ab") be)]) = _
    have : subIndex 2 belowHalf (F64.ofInt 1) = .ok (0, 1) := by decide +kernel
    rw [this]; rfl
  · show (subIndex 2 (F64.pack (.infinity .negative)) F64.inf).map (fun be => [XItem.string (sliceOf (S "ab") be)]) = _
    have : subIndex 2 (F64.pack (.infinity .negative)) F64.inf = .ok (0, 0) := by decide +kernel
    rw [this]; rfl
  · exact substring_panics h _ (by decide +kernel)

end Amxml
