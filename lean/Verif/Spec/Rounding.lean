import Verif.Spec.Numbers

/-!
# Rounding (specification)

What IEEE 754 says of the result of an operation: the `f64` nearest to the exact result, the one with an even last bit if two are equally near, and an
infinity if the exact result is too large.
-/

namespace Amxml.F64

open Float.Model (UnpackedFloat)

/-- The last bit of the significand is 0. -/
def EvenBit (f : F64) : Prop :=
  match f.unpack with
  | .zero _ => True
  | .finite _ m _ _ => m % 2 = 0
  | _ => False

/-- `f` is a finite `f64` nearest to the number `x`; if another one is as near, `f` is the even one. -/
def Nearest (x : ℚ) (f : F64) : Prop :=
  ∃ y, val f = some y ∧ ∀ z, Rep z → |x - y| ≤ |x - z| ∧ (z ≠ y → |x - z| = |x - y| → EvenBit f)

/-- Numbers from this size on are rounded to infinity: halfway between the largest `f64` and the next power of two. -/
def limit : ℚ := 2 ^ 1024 - 2 ^ 970

/-- `f` is the number `x` rounded. -/
def Rounded (x : ℚ) (f : F64) : Prop :=
  (|x| < limit → Nearest x f) ∧ (limit ≤ x → f.unpack = .infinity .positive) ∧ (x ≤ -limit → f.unpack = .infinity .negative)

end Amxml.F64
