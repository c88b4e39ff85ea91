import Verif.Spec.Numerals

/-!
# The shortest decimal notation of a number

Many decimal numbers are rounded to the same `f64`. The one that is written is the shortest: it has as few significant digits as possible, and among
those it is nearest to the exact value of the `f64`.
-/

namespace Amxml.Spec

/-- The number can be written with `n` significant decimal digits, apart from its sign and the place of the decimal point. -/
def Significant (n : Nat) (x : ℚ) : Prop := ∃ (d : Nat) (q : Int), d < 10 ^ n ∧ |x| = d * 10 ^ q

/-- The decimal number `x` is the shortest among those that are rounded to `f`: each of them has at least as many significant digits, and if it has no
more, it is no nearer to the value `v` of `f`. -/
def Shortest (x : ℚ) (f : F64) (v : ℚ) : Prop :=
  F64.Rounded x f ∧ ∀ y n, F64.Rounded y f → Significant n y →
    Significant n x ∧ ((∀ k, Significant k x → Significant k y) → |x - v| ≤ |y - v|)

/-- Numerals without superfluous zeros: no zero in front except a single one before the point, none at the end behind the point, and no point without
digits on both sides. -/
inductive NoSpareZeros : Str → Prop
  | whole {c : Char} {t : Str} : IsDigits (c :: t) → c ≠ '0' → NoSpareZeros (c :: t)
  | point {c l : Char} {t u : Str} : IsDigits (c :: t) → c ≠ '0' ∨ t = [] → IsDigits (u ++ [l]) → l ≠ '0' →
      NoSpareZeros (c :: t ++ '.' :: (u ++ [l]))

/-- The same for the part before the exponent in scientific notation: one digit, which is not zero, before the point; no zero at the end behind it. -/
inductive Scientific : Str → Prop
  | digit {c : Char} : IsDigits [c] → c ≠ '0' → Scientific [c]
  | point {c l : Char} {u : Str} : IsDigits [c] → c ≠ '0' → IsDigits (u ++ [l]) → l ≠ '0' → Scientific (c :: '.' :: (u ++ [l]))

end Amxml.Spec
