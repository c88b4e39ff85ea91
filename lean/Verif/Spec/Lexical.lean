import Verif.Model.Lexer
import Verif.Spec.XLexer

/-!
# The lexical structure of XPath 3.1 (specification)

The W3C recommendation *XML Path Language (XPath) 3.1*, appendix A.2: which texts are terminals, where a terminal ends, and which of the
words are operators and keywords. Only the names of the kinds of tokens (`TType`) are shared with the model of the code.
-/

namespace Amxml
namespace Spec

/-! ## Terminals -/

/-- `NCNameStartChar` (*Namespaces in XML*): `NameStartChar` without the colon. -/
def NameStartC (c : Char) : Prop :=
  let n := c.toNat
  (0x41 ≤ n ∧ n ≤ 0x5A) ∨ n = 0x5F ∨ (0x61 ≤ n ∧ n ≤ 0x7A) ∨ (0xC0 ≤ n ∧ n ≤ 0xD6) ∨ (0xD8 ≤ n ∧ n ≤ 0xF6) ∨ (0xF8 ≤ n ∧ n ≤ 0x2FF) ∨
  (0x370 ≤ n ∧ n ≤ 0x37D) ∨ (0x37F ≤ n ∧ n ≤ 0x1FFF) ∨ (0x200C ≤ n ∧ n ≤ 0x200D) ∨ (0x2070 ≤ n ∧ n ≤ 0x218F) ∨ (0x2C00 ≤ n ∧ n ≤ 0x2FEF) ∨
  (0x3001 ≤ n ∧ n ≤ 0xD7FF) ∨ (0xF900 ≤ n ∧ n ≤ 0xFDCF) ∨ (0xFDF0 ≤ n ∧ n ≤ 0xFFFD) ∨ (0x10000 ≤ n ∧ n ≤ 0xEFFFF)

/-- `NCNameChar`. -/
def NameC (c : Char) : Prop :=
  NameStartC c ∨ c = '-' ∨ c = '.' ∨ ('0' ≤ c ∧ c ≤ '9') ∨ c.toNat = 0xB7 ∨ (0x300 ≤ c.toNat ∧ c.toNat ≤ 0x36F) ∨
  (0x203F ≤ c.toNat ∧ c.toNat ≤ 0x2040)

instance (c : Char) : Decidable (NameStartC c) := by unfold NameStartC; infer_instance
instance (c : Char) : Decidable (NameC c) := by unfold NameC; infer_instance

/-- `[0-9]*`. -/
def AllDigits (d : Str) : Prop := ∀ c ∈ d, '0' ≤ c ∧ c ≤ '9'

instance (d : Str) : Decidable (AllDigits d) := by unfold AllDigits; infer_instance

/-- `DecimalLiteral ::= ("." Digits) | (Digits "." [0-9]*)`. -/
inductive DecimalL : Str → Prop
  | point {d} : d ≠ [] → AllDigits d → DecimalL ('.' :: d)
  | digits {d f} : d ≠ [] → AllDigits d → AllDigits f → DecimalL (d ++ '.' :: f)

/-- The `[eE] [+-]? Digits` at the end of a `DoubleLiteral`. -/
inductive ExponentL : Str → Prop
  | plain {e d} : e = 'e' ∨ e = 'E' → d ≠ [] → AllDigits d → ExponentL (e :: d)
  | signed {e s d} : e = 'e' ∨ e = 'E' → s = '+' ∨ s = '-' → d ≠ [] → AllDigits d → ExponentL (e :: s :: d)

/-- The terminals that are symbols. -/
def symbols : List (Str × TType) := [
  (S "(", .leftParen), (S ")", .rightParen), (S "[", .leftBracket), (S "]", .rightBracket), (S "{", .leftCurly), (S "}", .rightCurly),
  (S ",", .comma), (S "$", .dollar), (S "@", .at), (S "#", .sharp), (S "?", .question), (S "..", .dotDot), (S ".", .dot),
  (S "/", .slash), (S "//", .slashSlash), (S ":", .colon), (S "::", .colonColon), (S ":=", .bind), (S ":*", .colonAsterisk),
  (S "*", .asterisk), (S "*:", .asteriskColon), (S "+", .plus), (S "-", .minus), (S "|", .union), (S "||", .operatorConcat),
  (S "!", .operatorMap), (S "!=", .generalNE), (S "=", .generalEQ), (S "=>", .arrow), (S "<", .generalLT), (S "<=", .generalLE),
  (S "<<", .nodeBefore), (S ">", .generalGT), (S ">=", .generalGE), (S ">>", .nodeAfter)]

/-- A terminal and the token it is. Words (`NCName`) have the kind `innerName` until it is known what they mean. -/
inductive Lexeme : Str → Tok → Prop
  | symbol {w t} : (w, t) ∈ symbols → Lexeme w ⟨t, w⟩
  | word {c w} : NameStartC c → (∀ x ∈ w, NameC x) → Lexeme (c :: w) ⟨.innerName, c :: w⟩
  | string {q s} : q = '"' ∨ q = '\'' → '\x00' ∉ s → Lexeme (quoted q s) ⟨.stringLiteral, s⟩
  | uri {u} : '{' ∉ u → '}' ∉ u → '\x00' ∉ u → Lexeme (S "Q{" ++ u ++ S "}") ⟨.bracedURILiteral, S "Q{" ++ u ++ S "}"⟩
  | integer {d} : d ≠ [] → AllDigits d → Lexeme d ⟨.integerLiteral, d⟩
  | decimal {d} : DecimalL d → Lexeme d ⟨.decimalLiteral, d⟩
  | double {m e} : (m ≠ [] ∧ AllDigits m) ∨ DecimalL m → ExponentL e → Lexeme (m ++ e) ⟨.doubleLiteral, m ++ e⟩

/-- The kinds of numeric literals. -/
def numericKinds : List TType := [.integerLiteral, .decimalLiteral, .doubleLiteral]

/-- The terminal `w` can end where `r` begins: no longer terminal stands here (A.2: "the longest possible match is always returned"), and the two are
separated where A.2.2 asks for it: a number is not followed directly by a character of a name or by a period, nor the word `Q` by a brace, nor a string literal
by a quote character, nor does a comment begin here. -/
structure Ends (w : Str) (t : TType) (r : Str) : Prop where
  longest : ∀ v u, Lexeme v u → v <+: w ++ r → v.length ≤ w.length
  number : t ∈ numericKinds → ∀ c ∈ r.head?, ¬ NameC c
  word : w = S "Q" → r.head? ≠ some '{'
  string : t = .stringLiteral → r.head? ≠ w.head?
  comment : ¬ S "(:" <+: w ++ r

/-- The text consists of the terminals, with white space and comments between them. -/
inductive Text : List Tok → Str → Prop
  | nil {b} : Blank b → Text [] b
  | cons {b w t r ts} : Blank b → Lexeme w t → Ends w t.ty r → Text ts r → Text (t :: ts) (b ++ (w ++ r))

/-! ## Words -/

/-- The words that are operators. -/
def wordOperators : List (Str × TType) := [
  (S "or", .orT), (S "and", .andT), (S "to", .to), (S "div", .div), (S "idiv", .iDiv), (S "mod", .mod), (S "union", .union),
  (S "intersect", .intersect), (S "except", .except), (S "eq", .valueEQ), (S "ne", .valueNE), (S "lt", .valueLT), (S "le", .valueLE),
  (S "gt", .valueGT), (S "ge", .valueGE), (S "is", .isSameNode)]

/-- The pairs of words that are operators. -/
def wordPairs : List (Str × Str × TType) := [
  (S "instance", S "of", .instanceOf), (S "treat", S "as", .treatAs), (S "castable", S "as", .castableAs), (S "cast", S "as", .castAs)]

/-- The words that have a meaning before a certain symbol: kind tests, `if` and reserved words before `(`, clauses before `$`, axes
before `::`, constructors before `{`. -/
def markedWords : List (Str × TType × TType) := [
  (S "node", .leftParen, .anyKindTest), (S "text", .leftParen, .textTest), (S "comment", .leftParen, .commentTest),
  (S "processing-instruction", .leftParen, .piTest), (S "document-node", .leftParen, .documentTest), (S "element", .leftParen, .elementTest),
  (S "attribute", .leftParen, .attributeTest), (S "schema-element", .leftParen, .schemaElementTest),
  (S "schema-attribute", .leftParen, .schemaAttributeTest), (S "namespace-node", .leftParen, .namespaceNodeTest),
  (S "item", .leftParen, .item), (S "empty-sequence", .leftParen, .emptySequence), (S "function", .leftParen, .function),
  (S "map", .leftParen, .mapTest), (S "array", .leftParen, .arrayTest), (S "if", .leftParen, .ifT), (S "switch", .leftParen, .switch),
  (S "typeswitch", .leftParen, .typeSwitch),
  (S "for", .dollar, .forT), (S "let", .dollar, .letT), (S "some", .dollar, .someT), (S "every", .dollar, .every),
  (S "child", .colonColon, .axisName), (S "descendant", .colonColon, .axisName), (S "attribute", .colonColon, .axisName),
  (S "self", .colonColon, .axisName), (S "descendant-or-self", .colonColon, .axisName), (S "following-sibling", .colonColon, .axisName),
  (S "following", .colonColon, .axisName), (S "parent", .colonColon, .axisName), (S "ancestor", .colonColon, .axisName),
  (S "preceding-sibling", .colonColon, .axisName), (S "preceding", .colonColon, .axisName), (S "ancestor-or-self", .colonColon, .axisName),
  (S "namespace", .colonColon, .axisName),
  (S "map", .leftCurly, .map), (S "array", .leftCurly, .array)]

/-- The kinds of tokens an operand can end with (the wildcard `*` and the lone `/` excepted, see `C55_violated`). -/
def operandEnd : List TType := [
  .innerName, .stringLiteral, .integerLiteral, .decimalLiteral, .doubleLiteral, .rightParen, .rightBracket, .rightCurly, .dot, .dotDot,
  .colonAsterisk, .question]

/-- The kinds of tokens before an operand. `eof` stands for the beginning of the text. -/
def operandStart : List TType := [
  .eof, .leftParen, .leftBracket, .comma, .at, .colon, .colonColon, .slash, .slashSlash, .asterisk, .plus, .minus, .union, .generalEQ,
  .generalNE, .generalLT, .generalLE, .generalGT, .generalGE, .nodeBefore, .nodeAfter, .orT, .andT, .to, .div, .iDiv, .mod, .intersect,
  .except, .valueEQ, .valueNE, .valueLT, .valueLE, .valueGT, .valueGE, .isSameNode]

/-- `Spells prev ts us`: after a token of the kind `prev`, the tokens `ts` of the grammar are written by the terminals `us`. -/
inductive Spells : TType → List Tok → List Tok → Prop
  | nil {prev} : Spells prev [] []
  /-- Every terminal that is not a word. -/
  | same {prev k ts us} : k.ty ≠ .innerName → Spells k.ty ts us → Spells prev (k :: ts) (k :: us)
  /-- A word that is an operator, after an operand. -/
  | operator {prev n t ts us} : (n, t) ∈ wordOperators → prev ∈ operandEnd → Spells t ts us → Spells prev (⟨t, n⟩ :: ts) (⟨.innerName, n⟩ :: us)
  /-- Two words that are an operator. -/
  | pair {prev m n t ts us} : (m, n, t) ∈ wordPairs → Spells .innerName ts us →
      Spells prev (⟨t, m⟩ :: ts) (⟨.innerName, m⟩ :: ⟨.innerName, n⟩ :: us)
  /-- A word with a meaning before the symbol that follows. -/
  | marked {prev n s t ts us} : (n, s, t) ∈ markedWords → (∃ k ∈ us.head?, k.ty = s) → Spells .innerName ts us →
      Spells prev (⟨t, n⟩ :: ts) (⟨.innerName, n⟩ :: us)
  /-- Any other word is a name. -/
  | name {prev n ts us} : (n ∈ wordOperators.map (·.1) → prev ∈ operandStart) →
      (∀ k ∈ us.head?, k.ty = .innerName → ∀ t, (n, k.name, t) ∉ wordPairs) → (∀ k ∈ us.head?, ∀ t, (n, k.ty, t) ∉ markedWords) →
      Spells .innerName ts us → Spells prev (⟨.name, n⟩ :: ts) (⟨.innerName, n⟩ :: us)

end Spec
end Amxml
