import Verif.Model.Chars

/-!
# Specification vocabulary for XML source text

Only character classes (`isSpace`, `isNameChar`, `isNameFirstChar`: the XML 1.0 productions S, NameChar, Letter) are
taken from the model.
-/

namespace Amxml.Spec

/-- `Name ::= (Letter | '_' | ':') NameChar*` -/
def IsName (s : Str) : Prop := ∃ c cs, s = c :: cs ∧ isNameFirstChar c = true ∧ ∀ x ∈ cs, isNameChar x = true

/-- A (possibly empty) run of white space. -/
def IsSpaces (s : Str) : Prop := ∀ c ∈ s, isSpace c = true

/-- `s` does not contain `w`. -/
def NoSub (w s : Str) : Prop := ∀ pre post, s ≠ pre ++ w ++ post

/-- An attribute as written in a start tag: `sp1 name sp2 = sp3 q raw q`. -/
structure AttrSrc where
  sp1 : Str
  name : Str
  sp2 : Str
  sp3 : Str
  q : Char
  raw : Str

/-- Well-formed attribute source: separated by white space, a name, quotes which do not occur in the raw value. -/
structure AttrSrc.WF (a : AttrSrc) : Prop where
  sp1_ne : a.sp1 ≠ []
  sp1 : IsSpaces a.sp1
  name : IsName a.name
  sp2 : IsSpaces a.sp2
  sp3 : IsSpaces a.sp3
  q : a.q = '"' ∨ a.q = '\''
  raw_q : a.q ∉ a.raw
  raw_nul : '\x00' ∉ a.raw

/-- The text of an attribute. -/
def AttrSrc.render (a : AttrSrc) : Str :=
  a.sp1 ++ a.name ++ a.sp2 ++ '=' :: a.sp3 ++ a.q :: a.raw ++ [a.q]

/-- The source text, after the element name, of a start tag that the input ends inside of: white space, junk
characters which begin no attribute, and complete attributes (each followed by one arbitrary character other than
`>` and `/`), but no `>` and no `/`. -/
inductive OpenTagBody : Str → Prop where
  | nil : OpenTagBody []
  | space {c r} : isSpace c = true → OpenTagBody r → OpenTagBody (c :: r)
  | junk {c r} : isSpace c = false → isNameFirstChar c = false → c ≠ '>' → c ≠ '/' → OpenTagBody r →
      OpenTagBody (c :: r)
  | lastAttr {n w1 w2 q v} : IsName n → IsSpaces w1 → IsSpaces w2 → q = '"' ∨ q = '\'' → q ∉ v →
      OpenTagBody (n ++ w1 ++ '=' :: w2 ++ q :: v ++ [q])
  | attr {n w1 w2 q v c r} : IsName n → IsSpaces w1 → IsSpaces w2 → q = '"' ∨ q = '\'' → q ∉ v →
      c ≠ '>' → c ≠ '/' → OpenTagBody r →
      OpenTagBody (n ++ w1 ++ '=' :: w2 ++ q :: v ++ q :: c :: r)

/-- The input ends inside a start tag that begins right here: `<`, an optional name, and an unterminated body.
(The first character after `<` decides that this is a start tag.) -/
def EndsInStartTag (s : Str) : Prop :=
  ∃ c n body, s = '<' :: (n ++ body) ∧ (n ++ body).head? = some c ∧ c ≠ '/' ∧ c ≠ '?' ∧ c ≠ '!' ∧
    (IsName n ∧ (∀ x, body.head? = some x → isNameChar x = false) ∨
      n = [] ∧ (∀ x, body.head? = some x → isNameFirstChar x = false)) ∧
    OpenTagBody body

end Amxml.Spec
