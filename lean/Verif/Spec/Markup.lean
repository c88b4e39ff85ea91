import Verif.Spec.Tokens
import Verif.Spec.Tree
import Verif.Spec.EntityAmp

/-!
# The XML texts the parser accepts

A grammar of the source text, with the tokens every construct stands for. It is wider than XML: the places where it
is are marked *liberty*. Character classes are those of Spec/Xml.lean; `decodeEntity` (property C12) is what
replaces references in text and attribute values, whether they are well-formed or not. The second part is XML itself,
where `ReadAs` says what references stand for.
-/

namespace Amxml.Spec

/-- `n` is the longest name `t` starts with, where `n ++ t` is read; *liberty*: there may be no name at all. -/
def NameThen (n t : Str) : Prop :=
  IsName n ∧ (∀ c, t.head? = some c → isNameChar c = false) ∨
  n = [] ∧ (∀ c, t.head? = some c → isNameFirstChar c = false)

/-- What stands between the name and the `>` or `/>` of a start tag, with the attributes it declares. -/
inductive InTag : Str → List (Str × Str) → Prop where
  | nil : InTag [] []
  | space {c r as} : isSpace c = true → InTag r as → InTag (c :: r) as
  /-- *Liberty*: a character which is no white space, begins no name and is neither `>` nor `/` is skipped. -/
  | junk {c r as} : isSpace c = false → isNameFirstChar c = false → c ≠ '>' → c ≠ '/' → InTag r as → InTag (c :: r) as
  /-- An attribute at the end of the tag. -/
  | last {n w w' q v} : IsName n → IsSpaces w → IsSpaces w' → q = '"' ∨ q = '\'' → q ∉ v →
      InTag (n ++ w ++ '=' :: w' ++ q :: v ++ [q]) [(n, decodeEntity v)]
  /-- An attribute and one more character. *Liberty*: that character, other than `>` and `/`, need not be white
  space; whatever it is, it is skipped. -/
  | attr {n w w' q v c r as} : IsName n → IsSpaces w → IsSpaces w' → q = '"' ∨ q = '\'' → q ∉ v →
      c ≠ '>' → c ≠ '/' → InTag r as →
      InTag (n ++ w ++ '=' :: w' ++ q :: v ++ q :: c :: r) ((n, decodeEntity v) :: as)

/-- One construct `w` of the source text, before `t`, and the tokens it stands for. -/
inductive Construct : Str → List Token → Str → Prop where
  /-- Text extends to the next `<` or to the end of the input. -/
  | text {s t} : s ≠ [] → '<' ∉ s → (t = [] ∨ t.head? = some '<') → Construct s [.charData (decodeEntity s)] t
  | comment {c t} : NoSub (S "-->") c → Construct (S "<!--" ++ c ++ S "-->") [.comment c] t
  | cdata {c t} : NoSub (S "]]>") c → Construct (S "<![CDATA[" ++ c ++ S "]]>") [.charData c] t
  /-- The data begins with the first character which is not white space. -/
  | pi {n w c t} : NameThen n (w ++ c ++ S "?>") → IsSpaces w → (∀ x, c.head? = some x → isSpace x = false) →
      NoSub (S "?>") c → Construct (S "<?" ++ n ++ w ++ c ++ S "?>") [.procInst n c] t
  /-- `<!DOCTYPE …>` and the like. *Liberty*: anything with balanced brackets; the character after `<!` is not looked
  at, unless it is `-` or `[`. -/
  | directive {c b t} : c ≠ '-' → c ≠ '[' → Balanced b →
      Construct (S "<!" ++ c :: b ++ S ">") [.directive (S "<!" ++ c :: b ++ S ">")] t
  /-- *Liberty*: anything may stand between the name and `>`. -/
  | endTag {n j t} : NameThen n (j ++ S ">") → '>' ∉ j → Construct (S "</" ++ n ++ j ++ S ">") [.endElement n] t
  /-- A start tag; its first character tells it from the other constructs. -/
  | startTag {n b as t} : NameThen n (b ++ S ">") → InTag b as →
      (∀ c, (n ++ b).head? = some c → c ≠ '/' ∧ c ≠ '?' ∧ c ≠ '!') →
      Construct ('<' :: (n ++ b ++ S ">")) [.startElement n as] t
  /-- `<n …/>` is `<n …></n>`. *Liberty*: without a name the element is left open. -/
  | emptyTag {n b as t} : NameThen n (b ++ S "/>") → InTag b as → n ++ b ≠ [] →
      (∀ c, (n ++ b).head? = some c → c ≠ '/' ∧ c ≠ '?' ∧ c ≠ '!') →
      Construct ('<' :: (n ++ b ++ S "/>")) (.startElement n as :: if n = [] then [] else [.endElement n]) t

/-- `Written s ts r`: the text `s` is a sequence of constructs, standing for the tokens `ts`, and then `r`. -/
inductive Written : Str → List Token → Str → Prop where
  | refl (s) : Written s [] s
  | more {w ts t us r} : Construct w ts t → Written t us r → Written (w ++ t) (ts ++ us) r

/-! ### the trees that tokens describe -/

/-- The node a text, comment, processing instruction or XML declaration becomes. -/
def leafOf : Token → Option Content
  | .charData s => some ⟨.text, [], s, []⟩
  | .comment s => some ⟨.comment, [], s, []⟩
  | .procInst t s => some (if t = S "xml" then ⟨.xmlDecl, S "xml", s, []⟩ else ⟨.instruction, t, s, []⟩)
  | _ => none

/-- The sequence of trees which tokens describe: an element has below it what stands between its tags; directives
leave no trace. -/
inductive Trees : List Token → Forest Content → Prop where
  | nil : Trees [] .nil
  | leaf {t c ts G} : leafOf t = some c → Trees ts G → Trees (t :: ts) (.cons c .nil G)
  | directive {s ts G} : Trees ts G → Trees (.directive s :: ts) G
  | element {n as ts us K G} : Trees ts K → Trees us G →
      Trees (.startElement n as :: ts ++ .endElement n :: us) (.cons ⟨.element, n, [], as⟩ K G)

/-- The same where the end tags at the end are missing. -/
inductive OpenTrees : List Token → Forest Content → Prop where
  | closed {ts G} : Trees ts G → OpenTrees ts G
  | opened {n as ts us G K} : Trees ts G → OpenTrees us K →
      OpenTrees (ts ++ .startElement n as :: us) (G ++ .cons ⟨.element, n, [], as⟩ K .nil)

/-- The trees of a whole text: where no element is open, an end tag without a name is without effect. -/
inductive TextTrees : List Token → Forest Content → Prop where
  | all {ts G} : OpenTrees ts G → TextTrees ts G
  | stray {ts us G H} : Trees ts G → TextTrees us H → TextTrees (ts ++ .endElement [] :: us) (G ++ H)

/-! ### XML -/

/-- `ReadAs s v`: the text `s`, written with literal characters, character references and references to the predefined
entities, stands for `v`. (`Unambiguous`: property C12 says which texts are left out.) -/
def ReadAs (s v : Str) : Prop :=
  ∃ ps : List Piece, (∀ p ∈ ps, p.WF) ∧ Unambiguous ps ∧ s = renderAll ps ∧ v = meaningAll ps

/-- A text node with the value `v` for the text `s`, if there is any, in front of `G`. -/
def textThen (s v : Str) (G : Forest Content) : Forest Content :=
  if s = [] then G else .cons ⟨.text, [], v, []⟩ .nil G

/-! In what follows `R s v` says that the text or attribute value written `s` stands for `v`. -/

mutual

/-- What the XML grammar allows inside an element: text (references included) with elements, comments, processing
instructions and CDATA sections in between. The last argument are the nodes it describes. -/
inductive XmlContent (R : Str → Str → Prop) : Str → Forest Content → Prop where
  | text {s v} : '<' ∉ s → R s v → XmlContent R s (textThen s v .nil)
  | more {s v w t N G} : '<' ∉ s → R s v → XmlNode R w N → XmlContent R t G →
      XmlContent R (s ++ w ++ t) (textThen s v (N ++ G))

/-- An element, comment, processing instruction or CDATA section, and the node it describes. Attributes come with the
value they have. -/
inductive XmlNode (R : Str → Str → Prop) : Str → Forest Content → Prop where
  | element {n : Str} {as : List (AttrSrc × Str)} {w c w' K} : IsName n → (∀ a ∈ as, AttrSrc.WF a.1 ∧ R a.1.raw a.2) →
      IsSpaces w → XmlContent R c K → IsSpaces w' →
      XmlNode R ('<' :: (n ++ (as.flatMap fun a => a.1.render) ++ w ++ S ">") ++ c ++ (S "</" ++ n ++ w' ++ S ">"))
        (.cons ⟨.element, n, [], as.map fun a => (a.1.name, a.2)⟩ K .nil)
  | empty {n : Str} {as : List (AttrSrc × Str)} {w} : IsName n → (∀ a ∈ as, AttrSrc.WF a.1 ∧ R a.1.raw a.2) →
      IsSpaces w →
      XmlNode R ('<' :: (n ++ (as.flatMap fun a => a.1.render) ++ w ++ S "/>"))
        (.cons ⟨.element, n, [], as.map fun a => (a.1.name, a.2)⟩ .nil .nil)
  | comment {c} : NoSub (S "-->") c → XmlNode R (S "<!--" ++ c ++ S "-->") (.cons ⟨.comment, [], c, []⟩ .nil .nil)
  | cdata {c} : NoSub (S "]]>") c → XmlNode R (S "<![CDATA[" ++ c ++ S "]]>") (.cons ⟨.text, [], c, []⟩ .nil .nil)
  | pi {n w c} : IsName n → n ≠ S "xml" → IsSpaces w → (w ≠ [] ∨ c = []) → (∀ x, c.head? = some x → isSpace x = false) →
      NoSub (S "?>") c → XmlNode R (S "<?" ++ n ++ w ++ c ++ S "?>") (.cons ⟨.instruction, n, c, []⟩ .nil .nil)

end

/-- What the XML grammar allows before and after the outermost element: white space, comments, processing instructions
and the document type declaration. -/
inductive XmlMisc (R : Str → Str → Prop) : Str → Forest Content → Prop where
  | spaces {w} : IsSpaces w → XmlMisc R w (textThen w w .nil)
  | node {w v t N G} : IsSpaces w → XmlNode R v N → XmlMisc R t G → XmlMisc R (w ++ v ++ t) (textThen w w (N ++ G))
  | doctype {w b t G} : IsSpaces w → Balanced b → XmlMisc R t G →
      XmlMisc R (w ++ (S "<!DOCTYPE" ++ b ++ S ">") ++ t) (textThen w w G)

/-- The XML declaration, which may be missing. -/
inductive XmlDecl : Str → Forest Content → Prop where
  | none : XmlDecl [] .nil
  | some {w c} : IsSpaces w → w ≠ [] → (∀ x, c.head? = some x → isSpace x = false) → NoSub (S "?>") c →
      XmlDecl (S "<?xml" ++ w ++ c ++ S "?>") (.cons ⟨.xmlDecl, S "xml", c, []⟩ .nil .nil)

/-- An XML document: one element (here: any node), with what may stand around it, and the nodes it describes. (Constraints beyond the
context free grammar and the matching of tags, such as that attributes differ, play no role here; neither do the
rules for the inside of the document type declaration.) -/
def XmlDocument (R : Str → Str → Prop) (s : Str) (G : Forest Content) : Prop :=
  ∃ d a e b D A E B, s = d ++ a ++ e ++ b ∧ G = D ++ A ++ E ++ B ∧ XmlDecl d D ∧ XmlMisc R a A ∧ XmlNode R e E ∧ XmlMisc R b B

end Amxml.Spec
