import Verif.Model.XSeq
import Verif.Lemmas.F64
import Mathlib.Tactic.Ring

/-!
# Ranges and arithmetic (C44, C45, C46)
-/

namespace Amxml

/-- **C44.** `a to b` is the list of all integers from `a` to `b`, strictly increasing, of length `max(0, b - a + 1)`. -/
theorem C44_range (a b : Int) : ∃ l : List Int,
    opTo [.integer a] [.integer b] = .ok (l.map .integer) ∧
    (∀ n, n ∈ l ↔ a ≤ n ∧ n ≤ b) ∧ l.Pairwise (· < ·) ∧ (l.length : Int) = max 0 (b - a + 1) := by
  refine ⟨intRange a b, rfl, ?_, ?_, ?_⟩
  · intro n
    simp only [intRange, List.mem_map, List.mem_range]
    constructor
    · rintro ⟨k, hk, rfl⟩; omega
    · intro hn; exact ⟨(n - a).toNat, by omega, by omega⟩
  · unfold intRange
    rw [List.pairwise_map]
    exact (List.pairwise_lt_range).imp (by intro x y h; omega)
  · simp only [intRange, List.length_map, List.length_range]; omega

/-- **C44**, empty range and operands that are not single integers. -/
theorem C44_empty (a b : Int) (h : b < a) : opTo [.integer a] [.integer b] = .ok [] := by
  have : (b - a + 1).toNat = 0 := by omega
  simp [opTo, XSeq.integer1, Except.bind, Except.map, intRange, this]

example : opTo [.integer 2] [.integer 4] = .ok [.integer 2, .integer 3, .integer 4] := rfl

/-- **C45.** For `i64` operands with `b ≠ 0`, apart from `MIN` by `-1`: `idiv` and `mod` give integers `q` and `r` with
`q * b + r = a`, `|r| < |b|`, and `r` is zero or has the sign of `a`. -/
theorem C45_idiv_mod (a b : Int) (ha : isI64 a) (hb : isI64 b) (h0 : b ≠ 0) (hov : ¬ (a = i64Min ∧ b = -1)) :
    ∃ q r, opNumeric numIDiv [.integer a] [.integer b] = .ok [.integer q] ∧
      opNumeric numMod [.integer a] [.integer b] = .ok [.integer r] ∧ isI64 q ∧ isI64 r ∧
      q * b + r = a ∧ r.natAbs < b.natAbs ∧ (0 < a → 0 ≤ r) ∧ (a < 0 → r ≤ 0) := by
  have hq : isI64 (a.tdiv b) := by
    have h1 : (a.tdiv b).natAbs ≤ a.natAbs := by rw [Int.natAbs_tdiv]; exact Nat.div_le_self _ _
    have hlow : ∀ x : Int, x.natAbs ≤ (2 ^ 63 : Nat) - 1 → isI64 x := by
      intro x hx; unfold isI64 i64Min i64Max; omega
    unfold isI64 i64Min i64Max at ha hb
    by_cases hm : a = i64Min
    · unfold i64Min at hm
      by_cases h1' : b = 1
      · subst h1'; rw [Int.tdiv_one]; unfold isI64 i64Min i64Max; omega
      · have hb2 : 2 ≤ b.natAbs := by
          have : b ≠ -1 := fun h => hov ⟨hm, h⟩
          omega
        have h2 : (a.tdiv b).natAbs ≤ a.natAbs / 2 := by
          rw [Int.natAbs_tdiv]; exact Nat.div_le_div_left hb2 (by omega)
        apply hlow; omega
    · unfold i64Min at hm; apply hlow; omega
  have hr1 : (a.tmod b).natAbs < b.natAbs := by
    have := Int.natAbs_tmod a b
    rw [this]; exact Nat.mod_lt _ (by omega)
  refine ⟨a.tdiv b, a.tmod b, ?_, ?_, hq, ?_, ?_, hr1, ?_, ?_⟩
  · simp [opNumeric, XSeq.item1, Except.bind, Except.map, numIDiv, idivOperand, h0, i64Div, checkI64, hq]
  · simp [opNumeric, XSeq.item1, Except.bind, Except.map, numMod, modZero, h0, numOp, i64Rem]
    rw [if_neg (by simpa using hov)]
  · unfold isI64 i64Min i64Max at *; omega
  · exact Int.tdiv_mul_add_tmod a b
  · intro h; exact Int.tmod_nonneg b (Int.le_of_lt h)
  · intro h
    have h2 : 0 ≤ (-a).tmod b := Int.tmod_nonneg b (by omega)
    rw [Int.neg_tmod] at h2; omega

/-- **C45**, zero divisor: `idiv`, `mod` and `div` by an integer zero are dynamic errors. -/
theorem C45_zero (a : Int) :
    opNumeric numIDiv [.integer a] [.integer 0] = .error .dynamicError ∧
    opNumeric numMod [.integer a] [.integer 0] = .error .dynamicError ∧
    opNumeric numDiv [.integer a] [.integer 0] = .error .dynamicError := ⟨rfl, rfl, rfl⟩

/-- The excluded case of `C45_idiv_mod` is a panic of the program. -/
theorem C45_overflow_panics :
    opNumeric numIDiv [.integer i64Min] [.integer (-1)] = .error .panic ∧
    opNumeric numMod [.integer i64Min] [.integer (-1)] = .error .panic := ⟨rfl, rfl⟩

example : opNumeric numIDiv [.integer (-7)] [.integer 2] = .ok [.integer (-3)] ∧
    opNumeric numMod [.integer (-7)] [.integer 2] = .ok [.integer (-1)] := ⟨rfl, rfl⟩

/-! ## Promotion (C46) -/

/-- The width of a numeric type: integer < decimal < double; `none` for items that are not numbers. -/
def Spec.width : XItem → Option Nat
  | .integer _ => some 0
  | .decimal _ => some 1
  | .double _ => some 2
  | _ => none

open Spec

theorem numOp_width (f : Int → Int → Except XErr Int) (g : F64 → F64 → F64) (x y r : XItem)
    (h : numOp f g x y = .ok r) : ∃ m n, width x = some m ∧ width y = some n ∧ width r = some (max m n) := by
  cases x <;> cases y <;> simp [numOp, Except.map] at h
  case integer.integer a b => cases hf : f a b <;> rw [hf] at h <;> simp at h; subst h; exact ⟨0, 0, rfl, rfl, rfl⟩
  all_goals subst h; exact ⟨_, _, rfl, rfl, rfl⟩

theorem numOp_typeError (f : Int → Int → Except XErr Int) (g : F64 → F64 → F64) (x y : XItem)
    (h : width x = none ∨ width y = none) : numOp f g x y = .error .typeError := by
  cases x <;> cases y <;> first | rfl | (rcases h with h | h <;> simp [width] at h)

theorem numOp_ok (f : Int → Int → Except XErr Int) (g : F64 → F64 → F64) (x y : XItem)
    (hx : width x ≠ none) (hy : width y ≠ none) (hi : ∀ a b, x = .integer a → y = .integer b → ∃ n, f a b = .ok n) :
    ∃ r, numOp f g x y = .ok r := by
  cases x <;> cases y <;> first | exact absurd rfl hx | exact absurd rfl hy | exact ⟨_, rfl⟩ | skip
  case integer.integer a b => obtain ⟨n, hn⟩ := hi a b rfl rfl; exact ⟨.integer n, by simp [numOp, hn, Except.map]⟩

/-- The operators with type promotion. -/
inductive Spec.PromOp where
  | add | sub | mul | mod

/-- The operator of the evaluator. -/
def promOp : PromOp → XItem → XItem → Except XErr XItem
  | .add => numAdd | .sub => numSub | .mul => numMul | .mod => numMod

theorem numMod_cases (x y : XItem) :
    numMod x y = .error .dynamicError ∨ numMod x y = numOp i64Rem F64.rem x y := by
  unfold numMod
  split
  · exact .inl rfl
  · exact .inr rfl

/-- **C46**, result type: a result of `+`, `-`, `*`, `mod` has the wider of the two operand types; `div` of two integers is a
decimal and otherwise follows the same rule with an integer counted as a decimal. -/
theorem C46_type (x y : XItem) :
    (∀ op r, promOp op x y = .ok r → ∃ m n, width x = some m ∧ width y = some n ∧ width r = some (max m n)) ∧
    (∀ r, numDiv x y = .ok r → ∃ m n, width x = some m ∧ width y = some n ∧ width r = some (max 1 (max m n))) := by
  constructor
  · intro op r h
    cases op
    · exact numOp_width _ _ _ _ _ h
    · exact numOp_width _ _ _ _ _ h
    · exact numOp_width _ _ _ _ _ h
    · rcases numMod_cases x y with k | k
      · simp only [promOp, k] at h; cases h
      · simp only [promOp, k] at h; exact numOp_width _ _ _ _ _ h
  · intro r h
    cases y <;> simp only [numDiv] at h
    case integer b =>
      split at h
      · cases h
      · obtain ⟨m, n, h1, h2, h3⟩ := numOp_width _ _ _ _ _ h
        simp [width] at h2; subst h2
        refine ⟨m, 0, h1, rfl, ?_⟩
        rw [h3, Nat.max_comm m 1]; simp
    case decimal b =>
      split at h
      · cases h
      · obtain ⟨m, n, h1, h2, h3⟩ := numOp_width _ _ _ _ _ h
        simp [width] at h2; subst h2
        exact ⟨m, 1, h1, rfl, by rw [h3, Nat.max_comm m 1]; simp⟩
    case double b =>
      obtain ⟨m, n, h1, h2, h3⟩ := numOp_width _ _ _ _ _ h
      simp [width] at h2; subst h2
      exact ⟨m, 2, h1, rfl, by rw [h3]; congr 1; omega⟩
    all_goals cases h

/-- **C46**, operands that are not numbers: a type error for `+`, `-`, `*`; for `mod` unless the right operand is an integer or
decimal zero (which is a dynamic error first). -/
theorem C46_not_numeric_partial (x y : XItem) (h : width x = none ∨ width y = none) :
    numAdd x y = .error .typeError ∧ numSub x y = .error .typeError ∧ numMul x y = .error .typeError ∧
    (numMod x y = .error .typeError ∨ numMod x y = .error .dynamicError) := by
  refine ⟨numOp_typeError _ _ _ _ h, numOp_typeError _ _ _ _ h, numOp_typeError _ _ _ _ h, ?_⟩
  rcases numMod_cases x y with k | k
  · exact .inr k
  · exact .inl (k.trans (numOp_typeError _ _ _ _ h))

/-- **C46**, numbers: `+`, `-`, `*` of two numbers succeed unless both are integers and the result leaves the `i64` range. -/
theorem C46_numeric_ok (x y : XItem) (hx : width x ≠ none) (hy : width y ≠ none)
    (hi : ∀ a b, x = .integer a → y = .integer b → isI64 (a + b) ∧ isI64 (a - b) ∧ isI64 (a * b)) :
    (∃ r, numAdd x y = .ok r) ∧ (∃ r, numSub x y = .ok r) ∧ (∃ r, numMul x y = .ok r) := by
  refine ⟨numOp_ok _ _ _ _ hx hy ?_, numOp_ok _ _ _ _ hx hy ?_, numOp_ok _ _ _ _ hx hy ?_⟩ <;> intro a b h1 h2 <;>
    obtain ⟨k1, k2, k3⟩ := hi a b h1 h2
  · exact ⟨_, if_pos k1⟩
  · exact ⟨_, if_pos k2⟩
  · exact ⟨_, if_pos k3⟩

/-- **C46**, integer arithmetic is exact while it stays in range. -/
theorem C46_integer_exact (a b : Int) :
    (isI64 (a + b) → numAdd (.integer a) (.integer b) = .ok (.integer (a + b))) ∧
    (isI64 (a - b) → numSub (.integer a) (.integer b) = .ok (.integer (a - b))) ∧
    (isI64 (a * b) → numMul (.integer a) (.integer b) = .ok (.integer (a * b))) ∧
    (isI64 (-a) → numUMinus (.integer a) = .ok (.integer (-a))) := by
  refine ⟨?_, ?_, ?_, ?_⟩ <;> intro h <;> simp [numAdd, numSub, numMul, numUMinus, numOp, checkI64, h, Except.map]

/-- Disagreement with C46: `idiv` counts an operand that is not a number as zero, and `div` by such an operand is an internal
error, where a type error is due. -/
theorem C46_violated :
    opNumeric numIDiv [.string (S "a")] [.integer 2] = .ok [.integer 0] ∧
    opNumeric numDiv [.integer 2] [.string (S "a")] = .error .cantOccur := ⟨rfl, rfl⟩

example : ∃ d, numAdd (.integer 1) (.decimal (F64.ofInt 2)) = .ok (.decimal d) := ⟨_, rfl⟩

end Amxml
