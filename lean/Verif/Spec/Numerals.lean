import Verif.Spec.Rounding
import Verif.Spec.XOper

/-!
# Numerals

What the decimal notation of numbers means, and the vocabulary for casts.
-/

namespace Amxml.Spec

/-- A string of the digits `0` to `9`. -/
def IsDigits (s : Str) : Prop := ∀ c ∈ s, 48 ≤ c.toNat ∧ c.toNat ≤ 57

instance (s : Str) : Decidable (IsDigits s) := by unfold IsDigits; infer_instance

/-- The number that a string of digits stands for. -/
def digitsNumber : Str → Nat := List.foldl (fun n c => 10 * n + (c.toNat - 48)) 0

/-- Signed integers: `7`, `+7`, `-7`. -/
inductive IntText : Str → Int → Prop
  | plain {d : Str} : d ≠ [] → IsDigits d → IntText d (digitsNumber d)
  | plus {d : Str} : d ≠ [] → IsDigits d → IntText ('+' :: d) (digitsNumber d)
  | minus {d : Str} : d ≠ [] → IsDigits d → IntText ('-' :: d) (-(digitsNumber d))

/-- Numerals without exponent: `7`, `7.5`, `7.`, `.5`; the text stands for `m * 10 ^ e`. -/
inductive Fixed : Str → Nat → Int → Prop
  | int {d : Str} : d ≠ [] → IsDigits d → Fixed d (digitsNumber d) 0
  | point {a b : Str} : IsDigits a → IsDigits b → a ≠ [] ∨ b ≠ [] → Fixed (a ++ '.' :: b) (digitsNumber (a ++ b)) (-b.length)

/-- Numerals with or without exponent; the text stands for `m * 10 ^ e`. -/
inductive Numeral : Str → Nat → Int → Prop
  | fixed {s : Str} {m : Nat} {e : Int} : Fixed s m e → Numeral s m e
  | exp {s x : Str} {c : Char} {m : Nat} {e n : Int} : Fixed s m e → c = 'e' ∨ c = 'E' → IntText x n → Numeral (s ++ c :: x) m (e + n)

/-- Numerals with an optional sign; the text stands for the number. -/
inductive NumberText : Str → ℚ → Prop
  | plain {s : Str} {m : Nat} {e : Int} : Numeral s m e → NumberText s (m * 10 ^ e)
  | plus {s : Str} {m : Nat} {e : Int} : Numeral s m e → NumberText ('+' :: s) (m * 10 ^ e)
  | minus {s : Str} {m : Nat} {e : Int} : Numeral s m e → NumberText ('-' :: s) (-(m * 10 ^ e))

/-- The text with white space around it. -/
def Padded (s t : Str) : Prop := ∃ u v, t = u ++ s ++ v ∧ (∀ c ∈ u, c = ' ' ∨ c = '\t' ∨ c = '\n' ∨ c = '\r') ∧
  ∀ c ∈ v, c = ' ' ∨ c = '\t' ∨ c = '\n' ∨ c = '\r'

/-- Whatever expression has the value `x`: its cast to the type `T` has the value `y`. -/
def CastGives (h : Heap) (x : XItem) (T : Str) (y : XItem) : Prop :=
  ∀ c env e, Value h c e env [x] → Value h c (typed .operatorCastAs e T) env [y]

/-- Whatever expression has the value `x`: its cast to the type `T` is a type error. -/
def CastFails (h : Heap) (x : XItem) (T : Str) : Prop :=
  ∀ c env e, Value h c e env [x] → Fails h c (typed .operatorCastAs e T) env .typeError

end Amxml.Spec
