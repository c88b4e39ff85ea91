import Verif.Spec.Numerals
import Verif.Spec.Values

/-!
# The texts that are read as numbers (specification)
-/

namespace Amxml.Spec

/-- White space of Unicode. -/
def WhiteChar (c : Char) : Prop :=
  c.toNat ∈ [0x9, 0xA, 0xB, 0xC, 0xD, 0x20, 0x85, 0xA0, 0x1680, 0x2000, 0x2001, 0x2002, 0x2003, 0x2004, 0x2005, 0x2006, 0x2007, 0x2008, 0x2009, 0x200A,
    0x2028, 0x2029, 0x202F, 0x205F, 0x3000]

/-- The text `t` is `s` with white space around it. -/
def Amid (s t : Str) : Prop := ∃ u v, t = u ++ s ++ v ∧ (∀ c ∈ u, WhiteChar c) ∧ ∀ c ∈ v, WhiteChar c

/-- The word `w`, given in small letters, with each letter small or capital. -/
def AnyCase (w s : Str) : Prop := List.Forall₂ (fun a c => c = a ∨ c.toNat + 32 = a.toNat) w s

/-- `inf`, `infinity` and `nan` in any case, with an optional sign. -/
inductive SpecialText : Str → Number → Prop
  | inf {s : Str} : AnyCase (S "inf") s ∨ AnyCase (S "infinity") s → SpecialText s .infinity
  | plusInf {s : Str} : AnyCase (S "inf") s ∨ AnyCase (S "infinity") s → SpecialText ('+' :: s) .infinity
  | minusInf {s : Str} : AnyCase (S "inf") s ∨ AnyCase (S "infinity") s → SpecialText ('-' :: s) .minusInfinity
  | nan {s : Str} : AnyCase (S "nan") s → SpecialText s .nan
  | plusNan {s : Str} : AnyCase (S "nan") s → SpecialText ('+' :: s) .nan
  | minusNan {s : Str} : AnyCase (S "nan") s → SpecialText ('-' :: s) .nan

/-- The text says no number: it is neither a numeral nor one of the special words, not even with white space around it. -/
def SaysNoNumber (t : Str) : Prop := ∀ s, Amid s t → (∀ q, ¬ NumberText s q) ∧ ∀ v, ¬ SpecialText s v

/-- The float that a text is read as: the nearest float for a numeral, an infinity or NaN for the words, and NaN for all other texts. -/
inductive ReadAsFloat (t : Str) (d : F64) : Prop
  | numeral {s : Str} {q : ℚ} : Amid s t → NumberText s q → F64.Rounded q d → ReadAsFloat t d
  | special {s : Str} {v : Number} : Amid s t → SpecialText s v → FloatIs d v → ReadAsFloat t d
  | other : SaysNoNumber t → FloatIs d .nan → ReadAsFloat t d

/-- The integer that a text is read as: that of an integer numeral with 64 bits, 0 for all other texts. -/
inductive ReadAsInteger (t : Str) : Int → Prop
  | numeral {s : Str} {n : Int} : Amid s t → IntText s n → -2 ^ 63 ≤ n → n < 2 ^ 63 → ReadAsInteger t n
  | other : (∀ s n, Amid s t → IntText s n → n < -2 ^ 63 ∨ 2 ^ 63 ≤ n) → ReadAsInteger t 0

end Amxml.Spec
