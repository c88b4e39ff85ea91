import Verif.Spec.Markup

/-!
# What is wrong with a text (specification)

The first construct of a rejected text that cannot be read, and the error for it. Character classes and constructs are those of Spec/Markup.lean.
-/

namespace Amxml.Spec

/-- After the character at which a start tag is found to be wrong the parser looks for the end of the tag; `e` is the error if there is one. -/
def orNoBracket (t : Str) (e : SaxErr) : SaxErr := if '>' ∈ t.tail then e else .eofSearching (S ">")

/-- What begins right after the name of a start tag, or after some of its attributes, is wrong. -/
inductive TagFault : Str → SaxErr → Prop where
  | space {c r e} : isSpace c = true → TagFault r e → TagFault (c :: r) e
  | junk {c r e} : isSpace c = false → isNameFirstChar c = false → c ≠ '>' → c ≠ '/' → TagFault r e → TagFault (c :: r) e
  | attr {n w w' q v c r e} : IsName n → IsSpaces w → IsSpaces w' → q = '"' ∨ q = '\'' → q ∉ v → c ≠ '>' → c ≠ '/' → TagFault r e →
      TagFault (n ++ w ++ '=' :: w' ++ q :: v ++ q :: c :: r) e
  /-- A `/` without `>` after it. -/
  | slash {r} : r.head? ≠ some '>' → TagFault ('/' :: r) .illegalAfterSlash
  | attrSlash {n w w' q v r} : IsName n → IsSpaces w → IsSpaces w' → q = '"' ∨ q = '\'' → q ∉ v → r.head? ≠ some '>' →
      TagFault (n ++ w ++ '=' :: w' ++ q :: v ++ q :: '/' :: r) .illegalAfterSlash
  /-- The name of an attribute without `=` after it. -/
  | noEq {n w t} : IsName n → IsSpaces w → (∀ c, (w ++ t).head? = some c → isNameChar c = false) →
      (∀ c, t.head? = some c → isSpace c = false ∧ c ≠ '=') → TagFault (n ++ w ++ t) (orNoBracket t .noEq)
  /-- A value without quotes. -/
  | noQuote {n w w' t} : IsName n → IsSpaces w → IsSpaces w' → (∀ c, t.head? = some c → isSpace c = false ∧ c ≠ '"' ∧ c ≠ '\'') →
      TagFault (n ++ w ++ '=' :: w' ++ t) (orNoBracket t .noQuote)
  /-- A value whose closing quote is missing. -/
  | unclosed {n w w' q v} : IsName n → IsSpaces w → IsSpaces w' → q = '"' ∨ q = '\'' → q ∉ v →
      TagFault (n ++ w ++ '=' :: w' ++ q :: v) (.eofSearching [q])

/-- `Fault s e`: the text `s` begins with a construct that is wrong, and `e` says how. -/
inductive Fault : Str → SaxErr → Prop where
  | lt : Fault (S "<") .eofAfterLt
  | endTag {s} : '>' ∉ s → Fault (S "</" ++ s) (.eofSearching (S ">"))
  | pi {s} : NoSub (S "?>") s → Fault (S "<?" ++ s) (.eofSearching (S "?>"))
  | comment {s} : NoSub (S "-->") s → Fault (S "<!--" ++ s) (.eofSearching (S "-->"))
  | badComment {s} : s.head? ≠ some '-' → Fault (S "<!-" ++ s) .badComment
  | cdata {s} : NoSub (S "]]>") s → Fault (S "<![CDATA[" ++ s) (.eofSearching (S "]]>"))
  | badCdata {s} : ¬ S "CDATA[" <+: s → Fault (S "<![" ++ s) .badCdata
  | directive {s} : (∀ c, s.head? = some c → c ≠ '-' ∧ c ≠ '[') → (∀ b t, Balanced b → s.tail ≠ b ++ '>' :: t) →
      Fault (S "<!" ++ s) .eofBracket
  | startTag {n b e} : NameThen n b → (∀ c, (n ++ b).head? = some c → c ≠ '/' ∧ c ≠ '?' ∧ c ≠ '!') → TagFault b e → Fault ('<' :: (n ++ b)) e

/-- The names of the open elements, innermost first, after the tokens, which match so far. -/
inductive OpenAfter : List Str → List Token → List Str → Prop where
  | nil {st} : OpenAfter st [] st
  | start {st n as ts st'} : OpenAfter (n :: st) ts st' → OpenAfter st (.startElement n as :: ts) st'
  | close {st n ts st'} : OpenAfter st ts st' → OpenAfter (n :: st) (.endElement n :: ts) st'
  | stray {ts st'} : OpenAfter [] ts st' → OpenAfter [] (.endElement [] :: ts) st'
  | text {st s ts st'} : OpenAfter st ts st' → OpenAfter st (.charData s :: ts) st'
  | pi {st t s ts st'} : OpenAfter st ts st' → OpenAfter st (.procInst t s :: ts) st'
  | comment {st s ts st'} : OpenAfter st ts st' → OpenAfter st (.comment s :: ts) st'
  | directive {st s ts st'} : OpenAfter st ts st' → OpenAfter st (.directive s :: ts) st'

/-- The name an end tag must have: that of the innermost open element, or none. -/
def innermost (st : List Str) : Str := st.head?.getD []

end Amxml.Spec
