import Verif.Model.Sax
import Verif.Spec.Xml

/-!
# Specification vocabulary for token streams
-/

namespace Amxml.Spec

/-- `Calls d n d'`: calling `raw_token()` `n` times in state `d` returns every time, never with the EOF token (but
possibly with an error), and leaves state `d'`. -/
inductive Calls : Dec → Nat → Dec → Prop where
  | refl (d) : Calls d 0 d
  | step {d d' d'' n res} : rawToken d = some (res, d') → res ≠ .ok .eof → Calls d' n d'' → Calls d (n + 1) d''

/-- `Delivers d toks d'`: successive calls of `raw_token()` in state `d` return the tokens `toks`, none of them EOF, and
leave state `d'`. -/
inductive Delivers : Dec → List Token → Dec → Prop where
  | refl (d) : Delivers d [] d
  | step {d d' d'' tok toks} : rawToken d = some (.ok tok, d') → tok ≠ .eof → Delivers d' toks d'' →
      Delivers d (tok :: toks) d''

/-- The tokens of the whole text: they are delivered, then EOF. -/
def Stream (d : Dec) (toks : List Token) : Prop :=
  ∃ d', Delivers d toks d' ∧ ∃ d'', rawToken d' = some (.ok .eof, d'')

/-- Tags match: reading left to right with a stack of the names of the open elements (innermost first), every end tag
names the innermost open element and closes it. One exception is tolerated: an end tag without a name (`</>`) where no
element is open. Elements may be left open at the end. -/
inductive TagsMatch : List Str → List Token → Prop where
  | nil {st} : TagsMatch st []
  | start {st n as ts} : TagsMatch (n :: st) ts → TagsMatch st (.startElement n as :: ts)
  | close {st n ts} : TagsMatch st ts → TagsMatch (n :: st) (.endElement n :: ts)
  | stray {ts} : TagsMatch [] ts → TagsMatch [] (.endElement [] :: ts)
  | text {st s ts} : TagsMatch st ts → TagsMatch st (.charData s :: ts)
  | pi {st t s ts} : TagsMatch st ts → TagsMatch st (.procInst t s :: ts)
  | comment {st s ts} : TagsMatch st ts → TagsMatch st (.comment s :: ts)
  | directive {st s ts} : TagsMatch st ts → TagsMatch st (.directive s :: ts)

/-- The last `<` of the text is closed: after some `>` there is no `<` and no quote any more; or there is no `<`. -/
def TailClosed (xml : Str) : Prop :=
  '<' ∉ xml ∨ ∃ pre post, xml = pre ++ '>' :: post ∧ '<' ∉ post ∧ '"' ∉ post ∧ '\'' ∉ post

/-- Text in which angle brackets are balanced. -/
inductive Balanced : Str → Prop where
  | nil : Balanced []
  | char {c s} : c ≠ '<' → c ≠ '>' → c ≠ '\x00' → Balanced s → Balanced (c :: s)
  | nest {b s} : Balanced b → Balanced s → Balanced ('<' :: b ++ '>' :: s)

end Amxml.Spec
