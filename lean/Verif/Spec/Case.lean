import Verif.Model.Basic

/-!
# Upper and lower case of ASCII texts (specification)
-/

namespace Amxml.Spec

/-- The small and the capital letters of ASCII. -/
def smalls : Str := S "abcdefghijklmnopqrstuvwxyz"
def capitals : Str := S "ABCDEFGHIJKLMNOPQRSTUVWXYZ"

/-- `d` is `c`, with a letter of the first alphabet put into the second. -/
def Recased (a b : Str) (c d : Char) : Prop := (∃ n : Nat, a[n]? = some c ∧ b[n]? = some d) ∨ (c ∉ a ∧ d = c)

/-- A text of ASCII characters. -/
def Ascii (s : Str) : Prop := ∀ c ∈ s, c.toNat < 128

end Amxml.Spec
