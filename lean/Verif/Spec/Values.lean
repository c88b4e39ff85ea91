import Verif.Spec.XCompare
import Verif.Spec.Rounding

/-!
# Numbers by value (specification)

The order of the numbers, with the infinities below and above all others; NaN is neither equal to nor before or after anything.
-/

namespace Amxml.Spec

/-- What a numeric item stands for. -/
inductive Number where
  | nan
  | minusInfinity
  | real (q : ℚ)
  | infinity

/-- `a` is less than `b`. -/
def Number.Less : Number → Number → Prop
  | .real p, .real q => p < q
  | .minusInfinity, .real _ => True
  | .minusInfinity, .infinity => True
  | .real _, .infinity => True
  | _, _ => False

/-- `a` is equal to `b`. -/
def Number.Equal : Number → Number → Prop
  | .real p, .real q => p = q
  | .minusInfinity, .minusInfinity => True
  | .infinity, .infinity => True
  | _, _ => False

/-- What a float stands for. -/
def FloatIs (f : F64) : Number → Prop
  | .nan => f.unpack = .notANumber
  | .minusInfinity => f.unpack = .infinity .negative
  | .real q => F64.val f = some q
  | .infinity => f.unpack = .infinity .positive

/-- What an item counts as beside a decimal or double: an integer as the nearest float (which is the integer itself up to `2 ^ 53`). -/
def CountsAs : XItem → Number → Prop
  | .integer n, v => ∃ a, F64.Rounded n a ∧ FloatIs a v
  | .decimal d, v => FloatIs d v
  | .double d, v => FloatIs d v
  | _, _ => False

/-- An item that is no integer. -/
def NotInteger (x : XItem) : Prop := ∀ n, x ≠ .integer n

end Amxml.Spec
