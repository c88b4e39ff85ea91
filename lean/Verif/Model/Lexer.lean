import Verif.Model.Func

/-!
# The XPath lexer (`src/xpath_impl/lexer.rs`)

`char_vec` and `ch_index` are modelled by the rest of the input: `read_rune` at the end of the input returns U+0000 and
every character read too far is put back, so the rest of the input determines everything that follows.
-/

namespace Amxml

/-- `TType` (src/xpath_impl/lexer.rs:18-122). Constructors start with a small letter; those that would clash with a keyword end in `T`. -/
inductive TType where
  | eof | innerName | nop | name | axisName | slashSlash | slash | dotDot | dot | colonColon | colon
  | valueEQ | valueNE | valueGT | valueGE | valueLT | valueLE | generalEQ | generalNE | generalGT | generalGE
  | generalLT | generalLE | isSameNode | nodeBefore | nodeAfter | andT | orT | union | intersect | except
  | to | instanceOf | treatAs | castableAs | castAs | plus | minus | div | iDiv | mod | ifT | forT | someT
  | every | asterisk | dollar | leftBracket | rightBracket | leftParen | rightParen | at | question | comma
  | integerLiteral | decimalLiteral | doubleLiteral | stringLiteral | emptySequence | item | typeSwitch
  | switch | documentTest | elementTest | attributeTest | schemaElementTest | schemaAttributeTest | piTest
  | commentTest | textTest | namespaceNodeTest | anyKindTest | mapTest | arrayTest | bracedURILiteral
  | operatorConcat | sharp | bind | arrow | leftCurly | rightCurly | colonAsterisk | asteriskColon
  | operatorMap | letT | array | map | function
  deriving DecidableEq, Repr

/-- `Token` (src/xpath_impl/lexer.rs:127-130). -/
structure Tok where
  ty : TType
  name : Str
  deriving DecidableEq, Repr

namespace Lexer

/-! ## Character classes -/

/-- `is_space` (src/xpath_impl/lexer.rs:830-832). -/
def isSpaceX (c : Char) : Bool := c == ' ' || c == '\t' || c == '\r' || c == '\n'

/-- `is_digit` (src/xpath_impl/lexer.rs:836-840). -/
def isDigitX (c : Char) : Bool := charIsInRanges c [(0x30, 0x39)]

/-- The table of `is_name_start_char` (src/xpath_impl/lexer.rs:845-864). -/
def nameStartRanges : List (Nat × Nat) := [
  (0x0041, 0x005A), (0x005F, 0x005F), (0x0061, 0x007A), (0x00C0, 0x00D6), (0x00D8, 0x00F6), (0x00F8, 0x00FF),
  (0x0100, 0x02FF), (0x0370, 0x037D), (0x037F, 0x1FFF), (0x200C, 0x200D), (0x2070, 0x218F), (0x2C00, 0x2FEF),
  (0x3001, 0xD7FF), (0xF900, 0xFDCF), (0xFDF0, 0xFFFD), (0x00010000, 0x000EFFFF)]

/-- `is_name_start_char` (src/xpath_impl/lexer.rs:845-864). -/
def isNameStart (c : Char) : Bool := charIsInRanges c nameStartRanges

/-- `is_name_char` (src/xpath_impl/lexer.rs:869-878). -/
def isNameCharX (c : Char) : Bool :=
  isNameStart c || charIsInRanges c [(0x2D, 0x2E), (0x30, 0x39), (0xB7, 0xB7), (0x300, 0x36F), (0x203F, 0x2040)]

/-! ## Reading one token -/

/-- `skip_spaces` (src/xpath_impl/lexer.rs:793-803). A U+0000 after the spaces is swallowed. -/
def skipSpaces : Str → Str
  | [] => []
  | c :: s => if c = EOFC then s else if isSpaceX c then skipSpaces s else c :: s

/-- `skip_comment` (src/xpath_impl/lexer.rs:764-789) with `nest_level`; `none` for the end of the input. -/
def skipComment : Nat → Str → Option Str
  | 0, s => some s
  | _ + 1, [] => none
  | _ + 1, [_] => none
  | n + 1, c :: d :: s =>
    if c = EOFC then none
    else if c = '(' then (if d = ':' then skipComment (n + 2) s else skipComment (n + 1) (d :: s))
    else if c = ':' then (if d = ')' then skipComment n s else skipComment (n + 1) (d :: s))
    else skipComment (n + 1) (d :: s)
  termination_by _ s => s.length

/-- `fetch_until` (src/xpath_impl/lexer.rs:744-757). -/
def fetchUntil (delim : Char) : Str → Option (Str × Str)
  | [] => none
  | c :: s =>
    if c = EOFC then none
    else if c = delim then some ([c], s)
    else (fetchUntil delim s).map fun r => (c :: r.1, r.2)

/-- `fetch_string_literal` (src/xpath_impl/lexer.rs:720-738). -/
def fetchString (delim : Char) : Str → Option (Str × Str)
  | [] => none
  | [c] => if c = EOFC then none else if c = delim then some ([], []) else none
  | c :: d :: s =>
    if c = EOFC then none
    else if c = delim then
      (if d = delim then (fetchString delim s).map fun r => (d :: r.1, r.2) else some ([], d :: s))
    else (fetchString delim (d :: s)).map fun r => (c :: r.1, r.2)
  termination_by s => s.length

/-- `fetch_digits` (src/xpath_impl/lexer.rs:700-711). -/
def fetchDigits (s : Str) : Str × Str := (s.takeWhile isDigitX, s.dropWhile isDigitX)

/-- `fetch_numeric_after_e` (src/xpath_impl/lexer.rs:674-693). -/
def fetchAfterE : Str → Except XErr (Str × Str)
  | [] => .ok ([], [])
  | c :: s =>
    if c = 'e' ∨ c = 'E' then
      match s with
      | [] => .error .syntaxError
      | d :: s' =>
        if d = '+' ∨ d = '-' then .ok (c :: d :: (fetchDigits s').1, (fetchDigits s').2)
        else if isDigitX d then .ok (c :: (fetchDigits s).1, (fetchDigits s).2)
        else .error .syntaxError
    else .ok ([], c :: s)

/-- `fetch_numeric_after_period` (src/xpath_impl/lexer.rs:658-667); the empty string if the next character is
not a period (then the code does not call it). -/
def fetchAfterPeriod : Str → Except XErr (Str × Str)
  | '.' :: s => (fetchAfterE (fetchDigits s).2).map fun r => ('.' :: (fetchDigits s).1 ++ r.1, r.2)
  | s => .ok ([], s)

/-- `fetch_numeric_literal` (src/xpath_impl/lexer.rs:626-650). -/
def fetchNumericLiteral : Str → Except XErr (Str × Str)
  | [] => .ok ([], [])
  | c :: s =>
    if isDigitX c then
      (fetchAfterPeriod (fetchDigits s).2).bind fun p =>
      (fetchAfterE p.2).map fun q => (c :: (fetchDigits s).1 ++ p.1 ++ q.1, q.2)
    else if c = '.' then fetchAfterPeriod (c :: s)
    else .ok ([], c :: s)

/-- `fetch_numerics` (src/xpath_impl/lexer.rs:612-621). -/
def fetchNumerics (s : Str) : Except XErr (Tok × Str) :=
  (fetchNumericLiteral s).map fun r =>
    (⟨if r.1.contains 'e' || r.1.contains 'E' then .doubleLiteral
      else if r.1.contains '.' then .decimalLiteral else .integerLiteral, r.1⟩, r.2)

/-- `keywords_spec` (src/xpath_impl/lexer.rs:307-342). -/
def keywords : List (Str × TType) := [
  (S "//", .slashSlash), (S "/", .slash), (S "::", .colonColon), (S ":=", .bind), (S ":*", .colonAsterisk),
  (S ":", .colon), (S "=>", .arrow), (S "=", .generalEQ), (S "!=", .generalNE), (S "!", .operatorMap),
  (S "||", .operatorConcat), (S "|", .union), (S "<=", .generalLE), (S "<<", .nodeBefore), (S "<", .generalLT),
  (S ">=", .generalGE), (S ">>", .nodeAfter), (S ">", .generalGT), (S ",", .comma), (S "?", .question),
  (S "+", .plus), (S "-", .minus), (S "*:", .asteriskColon), (S "*", .asterisk), (S "$", .dollar),
  (S "[", .leftBracket), (S "]", .rightBracket), (S "(", .leftParen), (S ")", .rightParen), (S "@", .at),
  (S "#", .sharp), (S "{", .leftCurly), (S "}", .rightCurly), (S "..", .dotDot)]

/-- The loop over the keywords (src/xpath_impl/lexer.rs:344-348) with `look_ahead_keyword`. -/
def matchKeyword : List (Str × TType) → Str → Option (Tok × Str)
  | [], _ => none
  | k :: ks, s =>
    match stripPrefix k.1 s with
    | some r => some (⟨k.2, k.1⟩, r)
    | none => matchKeyword ks s

/-- The last part of `get_tok` (src/xpath_impl/lexer.rs:293-392): what a character that starts no keyword begins. -/
def getTokChar : Str → Except XErr (Tok × Str)
  | [] => .ok (⟨.eof, []⟩, [])
  | c :: s =>
    if c = EOFC then .ok (⟨.eof, []⟩, s)
    else if isNameStart c then
      .ok (⟨.innerName, c :: s.takeWhile isNameCharX⟩, s.dropWhile isNameCharX)
    else if c = '"' ∨ c = '\'' then
      match fetchString c s with
      | some r => .ok (⟨.stringLiteral, r.1⟩, r.2)
      | none => .error .syntaxError
    else if isDigitX c then fetchNumerics (c :: s)
    else if c = '.' then
      match s with
      | d :: _ => if isDigitX d then fetchNumerics (c :: s) else .ok (⟨.dot, S "."⟩, s)
      | [] => .ok (⟨.dot, S "."⟩, s)
    else .error .syntaxError

/-- `get_tok` (src/xpath_impl/lexer.rs:293-392). -/
def getTok (s : Str) : Except XErr (Tok × Str) :=
  match stripPrefix (S "(:") s with
  | some r =>
    match skipComment 1 r with
    | some r' => .ok (⟨.nop, []⟩, r')
    | none => .error .syntaxError
  | none =>
    match stripPrefix (S "Q{") s with
    | some _ =>
      match fetchUntil '}' s with
      | some r => .ok (⟨.bracedURILiteral, r.1⟩, r.2)
      | none => .error .syntaxError
    | none =>
      match matchKeyword keywords s with
      | some r => .ok r
      | none => getTokChar s

/-! ## The token list -/

/-- The loop of `Lexer::new` (src/xpath_impl/lexer.rs:254-267): every turn that does not end the loop consumes input, so the
length of the input plus one turns suffice (`C52_lexer_total`). -/
def rawTokens : Nat → Str → Except XErr (List Tok)
  | 0, _ => .error .outOfFuel
  | n + 1, s =>
    (getTok (skipSpaces s)).bind fun r =>
      if r.1.ty = .eof then .ok []
      else if r.1.ty = .nop then rawTokens n r.2
      else (rawTokens n r.2).map fun l => r.1 :: l

/-- `prev_t_types` (src/xpath_impl/lexer.rs:405-446). -/
def prevTypes : List TType := [
  .eof, .at, .colonColon, .leftParen, .leftBracket, .comma, .andT, .orT, .div, .iDiv, .mod, .slash,
  .slashSlash, .union, .intersect, .except, .instanceOf, .treatAs, .castableAs, .castAs, .plus, .minus,
  .valueEQ, .valueNE, .valueGT, .valueGE, .valueLT, .valueLE, .generalEQ, .generalNE, .generalGT, .generalGE,
  .generalLT, .generalLE, .isSameNode, .to, .nodeBefore, .nodeAfter, .asterisk, .colon]

/-- `operator_words` (src/xpath_impl/lexer.rs:448-465). -/
def operatorWords : List (Str × TType) := [
  (S "and", .andT), (S "or", .orT), (S "div", .div), (S "mod", .mod), (S "idiv", .iDiv), (S "eq", .valueEQ),
  (S "ne", .valueNE), (S "lt", .valueLT), (S "le", .valueLE), (S "gt", .valueGT), (S "ge", .valueGE),
  (S "is", .isSameNode), (S "to", .to), (S "union", .union), (S "intersect", .intersect),
  (S "except", .except)]

/-- One turn of `rewrite_operator_type` (src/xpath_impl/lexer.rs:404-477). -/
def operatorTok (prev : TType) (t : Tok) : Tok :=
  if !prevTypes.contains prev && t.ty == .innerName then
    match operatorWords.find? fun e => e.1 == t.name with
    | some e => { t with ty := e.2 }
    | none => t
  else t

/-- `rewrite_operator_type` (src/xpath_impl/lexer.rs:404-477); `prev` is the (already rewritten) type of the token before. -/
def rewriteOperatorType : TType → List Tok → List Tok
  | _, [] => []
  | prev, t :: r => operatorTok prev t :: rewriteOperatorType (operatorTok prev t).ty r

/-- `operator_pair_words` (src/xpath_impl/lexer.rs:484-489). -/
def pairWords : List (Str × Str × TType) := [
  (S "instance", S "of", .instanceOf), (S "treat", S "as", .treatAs), (S "castable", S "as", .castableAs),
  (S "cast", S "as", .castAs)]

/-- The table entry that applies to two neighbouring tokens (src/xpath_impl/lexer.rs:492-500). -/
def pairEntry (a b : Tok) : Option TType :=
  if a.ty == .innerName && b.ty == .innerName then
    (pairWords.find? fun e => e.1 == a.name && e.2.1 == b.name).map (·.2.2)
  else none

/-- `rewrite_pair_words` (src/xpath_impl/lexer.rs:483-504) on the tokens between the sentinels. -/
def rewritePairWords : List Tok → List Tok
  | [] => []
  | [a] => [a]
  | a :: b :: r =>
    match pairEntry a b with
    | some t => { a with ty := t } :: rewritePairWords ({ b with ty := .nop } :: r)
    | none => a :: rewritePairWords (b :: r)
  termination_by l => l.length

/-- `eliminate_nops` (src/xpath_impl/lexer.rs:575-583). -/
def eliminateNops (l : List Tok) : List Tok := l.filter fun t => t.ty != .nop

/-- `name_and_symbol_tbl` (src/xpath_impl/lexer.rs:512-550). 37 entries. -/
def nameAndSymbolTbl : List (Str × TType × TType) := [
  (S "array", .leftParen, .arrayTest), (S "attribute", .leftParen, .attributeTest),
  (S "comment", .leftParen, .commentTest), (S "document-node", .leftParen, .documentTest),
  (S "element", .leftParen, .elementTest), (S "empty-sequence", .leftParen, .emptySequence),
  (S "function", .leftParen, .function), (S "if", .leftParen, .ifT), (S "item", .leftParen, .item),
  (S "map", .leftParen, .mapTest), (S "namespace-node", .leftParen, .namespaceNodeTest),
  (S "node", .leftParen, .anyKindTest), (S "processing-instruction", .leftParen, .piTest),
  (S "schema-attribute", .leftParen, .schemaAttributeTest),
  (S "schema-element", .leftParen, .schemaElementTest), (S "switch", .leftParen, .switch),
  (S "text", .leftParen, .textTest), (S "typeswitch", .leftParen, .typeSwitch), (S "for", .dollar, .forT),
  (S "some", .dollar, .someT), (S "every", .dollar, .every), (S "let", .dollar, .letT),
  (S "ancestor", .colonColon, .axisName), (S "ancestor-or-self", .colonColon, .axisName),
  (S "attribute", .colonColon, .axisName), (S "child", .colonColon, .axisName),
  (S "descendant", .colonColon, .axisName), (S "descendant-or-self", .colonColon, .axisName),
  (S "following", .colonColon, .axisName), (S "following-sibling", .colonColon, .axisName),
  (S "namespace", .colonColon, .axisName), (S "parent", .colonColon, .axisName),
  (S "preceding", .colonColon, .axisName), (S "preceding-sibling", .colonColon, .axisName),
  (S "self", .colonColon, .axisName), (S "map", .leftCurly, .map), (S "array", .leftCurly, .array)]

/-- One turn of `rewrite_name_and_symbol` (src/xpath_impl/lexer.rs:511-570). -/
def symbolTok (t : Tok) (next : TType) : Tok :=
  if t.ty == .innerName then
    match nameAndSymbolTbl.find? fun e => e.1 == t.name && e.2.1 == next with
    | some e => { t with ty := e.2.2 }
    | none => { t with ty := .name }
  else t

/-- The type of the token after the position: the sentinel at the end. -/
def nextType : List Tok → TType
  | [] => .eof
  | t :: _ => t.ty

/-- `rewrite_name_and_symbol` (src/xpath_impl/lexer.rs:511-570). -/
def rewriteNameAndSymbol : List Tok → List Tok
  | [] => []
  | t :: r => symbolTok t (nextType r) :: rewriteNameAndSymbol r

/-- The sentinel. -/
def eofTok : Tok := ⟨.eof, []⟩

/-- `Lexer::new` (src/xpath_impl/lexer.rs:240-290): the vector `tokens`. With no token between the sentinels
`rewrite_pair_words` reads `tokens[2]`, beyond the end: a panic. -/
def new (s : Str) : Except XErr (List Tok) :=
  (rawTokens (s.length + 1) s).bind fun ts =>
    let ts1 := rewriteOperatorType .eof ts
    if ts1.isEmpty then .error .panic
    else .ok (eofTok :: rewriteNameAndSymbol (eliminateNops (rewritePairWords ts1)) ++ [eofTok])

end Lexer
end Amxml
