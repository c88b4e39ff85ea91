import Verif.Spec.Tree

/-!
# Documents up to white space (specification)
-/

namespace Amxml.Spec

/-- White space. -/
def White (c : Char) : Bool := c == ' ' || c == '\t' || c == '\n' || c == '\r'

/-- The text without white space at its ends. -/
def trimmed (s : Str) : Str := ((s.dropWhile White).reverse.dropWhile White).reverse

/-- The text `p` is the text `s` with white space added. -/
def Spaced (s p : Str) : Prop := s.Sublist p ∧ s.filter (!White ·) = p.filter (!White ·)

/-- The document with white space removed at the ends of texts; texts of white space only disappear. -/
def trimForest : Forest Content → Forest Content
  | .nil => .nil
  | .cons c k r =>
    if c.ntype = .text then
      if trimmed c.value = [] then trimForest r
      else .cons { c with value := trimmed c.value } (trimForest k) (trimForest r)
    else .cons c (trimForest k) (trimForest r)

end Amxml.Spec
