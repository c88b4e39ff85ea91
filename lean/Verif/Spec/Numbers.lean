import Verif.Model.XItem
import Verif.Spec.XEval
import Mathlib.Data.Rat.Floor

/-!
# Numbers

The rational number that a finite `f64` stands for, and the number an XPath number stands for.
-/

namespace Amxml.F64

open Float.Model (UnpackedFloat)

/-- The magnitude `m * 2 ^ e`. -/
def mag (m : Nat) (e : Int) : ℚ := (m : ℚ) * (2 : ℚ) ^ e

/-- The number an unpacked float stands for. -/
def uval : UnpackedFloat → Option ℚ
  | .zero _ => some 0
  | .finite .positive m e _ => some (mag m e)
  | .finite .negative m e _ => some (-mag m e)
  | _ => none

/-- The number an `f64` stands for; `none` for infinities and NaN. -/
def val (f : F64) : Option ℚ := uval f.unpack

/-- The numbers that have an `f64`. -/
def Rep (q : ℚ) : Prop := ∃ f : F64, val f = some q

/-- Truncation towards zero. -/
def truncQ (q : ℚ) : Int := if 0 ≤ q then ⌊q⌋ else ⌈q⌉

end Amxml.F64

namespace Amxml.Spec

/-- The number that a numeric item stands for. (An integer is taken as an `f64` by the functions that compute with doubles: it must be one
of those that an `f64` can hold, at most `2 ^ 53` in size.) -/
def NumVal : XItem → ℚ → Prop
  | .integer n, q => n.natAbs ≤ 2 ^ 53 ∧ q = n
  | .decimal d, q => F64.val d = some q
  | .double d, q => F64.val d = some q
  | _, _ => False

/-- Rounding to the nearest integer, halves upwards. -/
def roundHalfUp (q : ℚ) : Int := ⌊q + 1 / 2⌋

/-- The numbers for which `floor(q + 0.5)`, computed with `f64`, is the right integer: all but the largest one below one half and the odd
integers between `2 ^ 52` and `2 ^ 53` in size. -/
def RoundsWell (q : ℚ) : Prop :=
  q ≠ 1 / 2 - 1 / 2 ^ 54 ∧ ∀ n : Int, q = n → n % 2 = 1 → ¬ (2 ^ 52 < |n| ∧ |n| < 2 ^ 53)

/-- The part of `s` at the positions from `lo` up to but not including `hi`, counted from 1. -/
def window {α : Type} (lo hi : Int) (s : List α) : List α := select (fun p => decide (lo ≤ (p : Int) ∧ (p : Int) < hi)) s

/-- The part of `s` at the positions from `lo` on. -/
def windowFrom {α : Type} (lo : Int) (s : List α) : List α := select (fun p => decide (lo ≤ (p : Int))) s

end Amxml.Spec
