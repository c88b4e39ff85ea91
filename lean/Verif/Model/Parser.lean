import Verif.Model.Lexer

/-!
# The XPath parser (`src/xpath_impl/parser.rs`)

The lexer object of the code is a token vector with an index; the parser only moves the index forward, except that it puts back
tokens it has just read (`unget_token`) or returns to a marked position (`mark_token_index`, `restore_marked_index`). The model's
parser state is the list of the tokens from the index up to, but without, the last EOF sentinel: at the end of the list
`next_token` reads the sentinel and `get_token` does not move.

A syntax tree node is written once its children are known; where the code mutates a node (`assign_as_left`,
`assign_as_right` ignore a nil child) the model builds the node with the child, a nil child reads as an absent one.

The parsers call each other recursively. `exprSingle n` is the parser of `ExprSingle` whose calls of itself are at most `n` deep,
and a loop makes at most as many turns as there are tokens left, plus one; `C54_parser_total` (Verif/Props/XParse.lean) shows that
neither bound is ever reached.
-/

namespace Amxml
namespace Parser

/-- A parser: reads tokens off the list, fails with an error or yields a value. -/
abbrev P := StateT (List Tok) (Except XErr)

/-- `next_token` (src/xpath_impl/lexer.rs:178-180). -/
def peek : P Tok := fun ts => .ok (ts.head?.getD Lexer.eofTok, ts)

/-- `get_token` (src/xpath_impl/lexer.rs:184-190), for its effect. -/
def advance : P Unit := fun ts => .ok ((), ts.tail)

/-- `return Err(...)`. -/
def fail {α : Type} (e : XErr) : P α := fun _ => .error e

/-- `if next_token().get_type() == t { get_token(); p } else { q }`; with `q = pure .nil` the macro
`return_nil_if_not_ttype!` (src/xpath_impl/parser.rs:238-244). -/
def ifTok {α : Type} (t : TType) (p q : P α) : P α := fun ts =>
  match ts with
  | k :: r => if k.ty = t then p r else q ts
  | [] => q ts

/-- `error_if_not_ttype!` (src/xpath_impl/parser.rs:211-219) followed by `get_token`. -/
def expect (t : TType) : P Unit := ifTok t (pure ()) (fail .syntaxError)

/-- `error_if_not_name!` (src/xpath_impl/parser.rs:225-234) followed by `get_token`: fails only if the token is neither a name nor spelled `w`. -/
def expectName (w : Str) : P Unit := fun ts =>
  match ts with
  | k :: r => if k.ty ≠ .name ∧ k.name ≠ w then .error .syntaxError else .ok ((), r)
  | [] => .error .syntaxError

/-- `return_if_non_nil!` (src/xpath_impl/parser.rs:250-256) with what follows. -/
def orIfNil (p q : P XNode) : P XNode := do
  let x ← p
  if x.isNil then q else pure x

/-- A loop that makes at most as many turns as there are tokens left, plus one. -/
def looping {α : Type} (f : Nat → P α) : P α := fun ts => f (ts.length + 1) ts

/-- `new_xnode` (src/xpath_impl/parser.rs:2817-2826) without children. -/
def leaf (t : XNodeType) (name : Str) : XNode := .node t name .nil .nil

/-- `assign_as_right` (src/xpath_impl/parser.rs:2845-2850) on a node without right child. -/
def setRight (x r : XNode) : XNode :=
  match x with
  | .nil => .nil
  | .node t n l _ => .node t n l r

/-- Nodes chained by their right children in order, `tail` at the end. What follows a nil node is attached to that nil node, which is attached to nothing:
it is lost (src/xpath_impl/parser.rs:2235-2243, 2632-2641). -/
def linkChain : List XNode → XNode → XNode
  | [], tail => tail
  | x :: l, tail => if x.isNil then .nil else setRight x (linkChain l tail)

/-! ## Names -/

/-- `parse_qname` (src/xpath_impl/parser.rs:2725-2750). -/
def qname (pre : Str) : P Str := fun ts =>
  match ts with
  | ⟨.name, n⟩ :: r =>
    match r with
    | ⟨.colon, c⟩ :: r' =>
      match r' with
      | ⟨.name, m⟩ :: r'' => .ok (n ++ c ++ m, r'')
      | _ => .error .syntaxError
    | _ => .ok (if pre = [] then n else pre ++ S ":" ++ n, r)
  | _ => .ok ([], ts)

/-- The second half of `parse_eqname` (src/xpath_impl/parser.rs:2686-2710). -/
def uriName : P Str := fun ts =>
  match ts with
  | ⟨.bracedURILiteral, u⟩ :: ⟨.name, n⟩ :: r => .ok (u ++ n, r)
  | _ => .ok ([], ts)

/-- `parse_eqname` (src/xpath_impl/parser.rs:2686-2710). -/
def eqname (pre : Str) : P Str := do
  let q ← qname pre
  if q = [] then uriName else pure q

/-- `parse_wildcard` (src/xpath_impl/parser.rs:2761-2809). -/
def wildcard : P Str := fun ts =>
  match ts with
  | ⟨.asterisk, n⟩ :: r => .ok (n, r)
  | ⟨.name, n⟩ :: ⟨.colonAsterisk, c⟩ :: r => .ok (n ++ c, r)
  | ⟨.asteriskColon, n⟩ :: ⟨.name, m⟩ :: r => .ok (n ++ m, r)
  | ⟨.bracedURILiteral, n⟩ :: ⟨.asterisk, m⟩ :: r => .ok (n ++ m, r)
  | _ => .ok ([], ts)

/-- `parse_eqname` where the name is required. -/
def eqnameRequired (pre : Str) : P Str := do
  let n ← eqname pre
  if n = [] then fail .syntaxError else pure n

/-! ## Kind tests -/

/-- `parse_kind_test_sub_none` (src/xpath_impl/parser.rs:747-759). -/
def kindTestSubNone (t : TType) (x : XNodeType) : P XNode :=
  ifTok t (do expect .leftParen; expect .rightParen; pure (leaf x [])) (pure .nil)

/-- `parse_kind_test_sub_one` (src/xpath_impl/parser.rs:656-676). -/
def kindTestSubOne (t : TType) (x : XNodeType) : P XNode :=
  ifTok t (do
    expect .leftParen
    let n ← eqnameRequired []
    expect .rightParen
    pure (leaf x n)) (pure .nil)

/-- `ElementNameOrWildcard`, `AttribNameOrWildcard` (src/xpath_impl/parser.rs:535-541, 593-599). -/
def nameOrStar : P Str := do
  let n ← eqname []
  if n = [] then ifTok .asterisk (pure (S "*")) (pure []) else pure n

/-- The optional `"?"` after a type name (src/xpath_impl/parser.rs:554-557). -/
def optQuestion (t : Str) : P Str := ifTok .question (pure (t ++ S "?")) (pure t)

/-- The type name of an element test, by default `xs:anyType?` (src/xpath_impl/parser.rs:543-561). -/
def elementTypeName (n : Str) : P Str :=
  if n = [] then pure (S "xs:anyType?")
  else ifTok .comma (do let t ← eqnameRequired (S "xs"); optQuestion t) (pure (S "xs:anyType?"))

/-- `parse_element_test` (src/xpath_impl/parser.rs:529-573). -/
def elementTest : P XNode :=
  ifTok .elementTest (do
    expect .leftParen
    let n ← nameOrStar
    let t ← elementTypeName n
    expect .rightParen
    pure (.node .elementTest (if n = [] then S "*" else n) (leaf .kindTestTypeName t) .nil)) (pure .nil)

/-- The type name of an attribute test, by default `xs:anyType` (src/xpath_impl/parser.rs:601-615). -/
def attributeTypeName (n : Str) : P Str :=
  if n = [] then pure (S "xs:anyType") else ifTok .comma (eqnameRequired (S "xs")) (pure (S "xs:anyType"))

/-- `parse_attribute_test` (src/xpath_impl/parser.rs:587-627). -/
def attributeTest : P XNode :=
  ifTok .attributeTest (do
    expect .leftParen
    let n ← nameOrStar
    let t ← attributeTypeName n
    expect .rightParen
    pure (.node .attributeTest (if n = [] then S "*" else n) (leaf .kindTestTypeName t) .nil)) (pure .nil)

/-- `parse_document_test` (src/xpath_impl/parser.rs:495-515). -/
def documentTest : P XNode :=
  ifTok .documentTest (do
    expect .leftParen
    let s ← orIfNil elementTest (kindTestSubOne .schemaElementTest .schemaElementTest)
    expect .rightParen
    pure (.node .documentTest [] s .nil)) (pure .nil)

/-- The target name in a processing instruction test (src/xpath_impl/parser.rs:688-701). -/
def piName (k : Tok) : P Str :=
  match k.ty with
  | .name | .stringLiteral => do advance; pure k.name
  | .rightParen => pure []
  | _ => fail .syntaxError

/-- `parse_pi_test` (src/xpath_impl/parser.rs:681-706). -/
def piTest : P XNode :=
  ifTok .piTest (do
    expect .leftParen
    let k ← peek
    let n ← piName k
    expect .rightParen
    pure (leaf .pITest n)) (pure .nil)

/-- `parse_kind_test` (src/xpath_impl/parser.rs:451-489). -/
def kindTest : P XNode := do
  let x ← orIfNil documentTest <| orIfNil elementTest <| orIfNil attributeTest <|
    orIfNil (kindTestSubOne .schemaElementTest .schemaElementTest) <|
    orIfNil (kindTestSubOne .schemaAttributeTest .schemaAttributeTest) <|
    orIfNil piTest <| orIfNil (kindTestSubNone .commentTest .commentTest) <|
    orIfNil (kindTestSubNone .textTest .textTest) <|
    orIfNil (kindTestSubNone .namespaceNodeTest .namespaceNodeTest)
      (kindTestSubNone .anyKindTest .anyKindTest)
  if x.isNil then pure .nil else pure (.node .kindTest [] x .nil)

/-! ## Sequence types -/

/-- `("," X)*` as collected by the list parsers, e.g. src/xpath_impl/parser.rs:1427-1434. -/
def commaList (p : P XNode) : Nat → P (List XNode)
  | 0 => fail .outOfFuel
  | n + 1 => ifTok .comma (do
      let x ← p
      let l ← commaList p n
      pure (x :: l)) (pure [])

/-- `default_sequence_type` (src/xpath_impl/parser.rs:2277-2282): `item()*`. -/
def defaultSequenceType : XNode := .node .sequenceType (S "*") (leaf .itemTest []) .nil

/-- `parse_sequence_type` (src/xpath_impl/parser.rs:1298-1326), with the parser of `ItemType`. -/
def sequenceTypeOf (itemType : P XNode) : P XNode := do
  let e ← kindTestSubNone .emptySequence .emptySequenceTest
  if e.isNil then do
    let x ← itemType
    if x.isNil then pure .nil
    else do
      let k ← peek
      match k.ty with
      | .question | .asterisk | .plus => do
        advance
        pure (.node .sequenceType k.name x .nil)
      | _ => pure (.node .sequenceType [] x .nil)
  else pure (.node .sequenceType [] e .nil)

/-- `parse_sequence_type_list` (src/xpath_impl/parser.rs:1420-1437). -/
def sequenceTypeList (itemType : P XNode) : P XNode := do
  let x ← sequenceTypeOf itemType
  if x.isNil then pure .nil
  else do
    let l ← looping (commaList (sequenceTypeOf itemType))
    pure (linkChain ((x :: l).map fun y => .node .param [] y .nil) .nil)

/-- `parse_function_test` (src/xpath_impl/parser.rs:1386-1418). -/
def functionTest (itemType : P XNode) : P XNode :=
  ifTok .function (do
    expect .leftParen
    ifTok .asterisk (do expect .rightParen; pure (leaf .anyFunctionTest []))
      (do
        let ps ← sequenceTypeList itemType
        expect .rightParen
        expectName (S "as")
        let r ← sequenceTypeOf itemType
        pure (.node .typedFunctionTest [] .nil (.node .returnType [] r ps)))) (pure .nil)

/-- `parse_map_test` (src/xpath_impl/parser.rs:1451-1492). -/
def mapTest (itemType : P XNode) : P XNode :=
  ifTok .mapTest (do
    expect .leftParen
    let x ← ifTok .asterisk
      (pure (.node .mapTest [] (leaf .atomicOrUnionType (S "xs:anyAtomicType")) defaultSequenceType))
      (do
        let k ← eqnameRequired (S "xs")
        expect .comma
        let v ← sequenceTypeOf itemType
        pure (.node .mapTest [] (leaf .atomicOrUnionType k) v))
    expect .rightParen
    pure x) (pure .nil)

/-- `parse_array_test` (src/xpath_impl/parser.rs:1506-1529). -/
def arrayTest (itemType : P XNode) : P XNode :=
  ifTok .arrayTest (do
    expect .leftParen
    let x ← ifTok .asterisk (pure defaultSequenceType) (sequenceTypeOf itemType)
    expect .rightParen
    pure (.node .arrayTest [] x .nil)) (pure .nil)

/-- `parse_parenthesized_item_type` (src/xpath_impl/parser.rs:1534-1546). -/
def parenthesizedItemType (itemType : P XNode) : P XNode :=
  ifTok .leftParen (do
    let x ← itemType
    expect .rightParen
    pure (.node .parenthesizedItemType [] x .nil)) (pure .nil)

/-- The alternative `AtomicOrUnionType` of `parse_item_type` (src/xpath_impl/parser.rs:1361-1365). -/
def atomicType : P XNode := do
  let n ← eqname (S "xs")
  if n = [] then pure .nil else pure (leaf .atomicOrUnionType n)

/-- `parse_item_type` (src/xpath_impl/parser.rs:1343-1370). -/
def itemTypeStep (itemType : P XNode) : P XNode :=
  orIfNil kindTest <| orIfNil (kindTestSubNone .item .itemTest) <| orIfNil (functionTest itemType) <|
    orIfNil (mapTest itemType) <| orIfNil (arrayTest itemType) <| orIfNil atomicType
      (parenthesizedItemType itemType)

/-- `parse_item_type` (src/xpath_impl/parser.rs:1343-1370) with bounded recursion. -/
def itemTypeF : Nat → P XNode
  | 0 => fail .outOfFuel
  | n + 1 => itemTypeStep (itemTypeF n)

/-- `parse_item_type` (src/xpath_impl/parser.rs:1343-1370). -/
def itemType : P XNode := looping itemTypeF

/-- `parse_sequence_type` (src/xpath_impl/parser.rs:1298-1326). -/
def sequenceType : P XNode := sequenceTypeOf itemType

/-- `parse_function_test` (src/xpath_impl/parser.rs:1386-1418), as the evaluator calls it on a signature. -/
def parseFunctionTest : P XNode := functionTest itemType

/-- The optional `"?"` of a single type (src/xpath_impl/parser.rs:1616-1620). -/
def singleTypeName (n : Str) (k : Tok) : P Str :=
  match k.ty with
  | .question => do advance; pure (n ++ k.name)
  | _ => pure n

/-- `parse_single_type` (src/xpath_impl/parser.rs:1611-1625). -/
def singleType : P XNode := do
  let n ← eqname []
  if n = [] then pure .nil
  else do
    let k ← peek
    let n' ← singleTypeName n k
    pure (.node .singleType [] (leaf .typeName n') .nil)

/-! ## Expressions

Every parser below takes the parser `es` of `ExprSingle`. -/

/-- The loop of `parse_bin_op_sub` (src/xpath_impl/parser.rs:1738-1762). -/
def binOpLoop (sub : P XNode) (tbl : TType → Option XNodeType) (once : Bool) : Nat → XNode → P XNode
  | 0, _ => fail .outOfFuel
  | n + 1, x => do
    let k ← peek
    match tbl k.ty with
    | none => pure x
    | some t => do
      advance
      let y ← sub
      let z := XNode.node t k.name x y
      if once then pure z else binOpLoop sub tbl once n z

/-- `parse_bin_op_sub` (src/xpath_impl/parser.rs:1738-1762). -/
def binOp (sub : P XNode) (tbl : TType → Option XNodeType) (once : Bool) : P XNode := do
  let x ← sub
  looping fun n => binOpLoop sub tbl once n x

/-- `token_node_map` of `parse_expr` (src/xpath_impl/parser.rs:819-825). -/
def commaOps : TType → Option XNodeType
  | .comma => some .operatorConcatenate
  | _ => none

/-- `parse_expr` (src/xpath_impl/parser.rs:819-825). -/
def expr (es : P XNode) : P XNode := binOp es commaOps false

/-- `parse_predicate` (src/xpath_impl/parser.rs:793-804). -/
def predicate (es : P XNode) : P XNode :=
  ifTok .leftBracket (do
    let x ← expr es
    expect .rightBracket
    pure x) (pure .nil)

/-- `parse_predicate_list` (src/xpath_impl/parser.rs:772-788). -/
def predicateList (es : P XNode) (rev : Bool) : Nat → P XNode
  | 0 => fail .outOfFuel
  | n + 1 => do
    let x ← predicate es
    if x.isNil then pure .nil
    else do
      let r ← predicateList es rev n
      pure (.node (if rev then .predicateRevTop else .predicateTop) (S "Predicate") x r)

/-- `is_xnode_reverse_axis` (src/xpath_impl/parser.rs:421-429). -/
def isReverseAxis (t : XNodeType) : Bool :=
  t == .axisParent || t == .axisAncestor || t == .axisAncestorOrSelf || t == .axisPreceding ||
    t == .axisPrecedingSibling

/-- The name in a node test: a wildcard or a qualified name (src/xpath_impl/parser.rs:393-397). -/
def nodeTestName (w : Str) : P Str := if w = [] then eqname [] else pure w

/-- `parse_node_test` (src/xpath_impl/parser.rs:391-416). -/
def nodeTest (es : P XNode) (axis : XNodeType) : P XNode := do
  let w ← wildcard
  let n ← nodeTestName w
  if n = [] then do
    let k ← kindTest
    if k.isNil then pure .nil
    else do
      let ps ← looping (predicateList es (isReverseAxis axis))
      pure (.node axis [] k ps)
  else do
    let ps ← looping (predicateList es (isReverseAxis axis))
    pure (.node axis n .nil ps)

/-- `axis_tbl` (src/xpath_impl/parser.rs:333-347). -/
def axisTbl : List (Str × XNodeType) := [
  (S "ancestor", .axisAncestor), (S "ancestor-or-self", .axisAncestorOrSelf), (S "attribute", .axisAttribute),
  (S "child", .axisChild), (S "descendant", .axisDescendant), (S "descendant-or-self", .axisDescendantOrSelf),
  (S "following", .axisFollowing), (S "following-sibling", .axisFollowingSibling),
  (S "namespace", .axisNamespace), (S "parent", .axisParent), (S "preceding", .axisPreceding),
  (S "preceding-sibling", .axisPrecedingSibling), (S "self", .axisSelf)]

/-- The name of an axis is looked up (src/xpath_impl/parser.rs:358-371). -/
def axisOf (n : Str) : Except XErr XNodeType :=
  match axisTbl.find? fun e => e.1 == n with
  | some e => if e.2 = .axisNamespace then .error .unimplemented else .ok e.2
  | none => .error .syntaxError

/-- `parse_axis_step` (src/xpath_impl/parser.rs:332-385). -/
def axisStep (es : P XNode) : P XNode := do
  let k ← peek
  match k.ty with
  | .axisName => do
    advance
    expect .colonColon
    match axisOf k.name with
    | .ok a => nodeTest es a
    | .error e => fail e
  | .at => do
    advance
    nodeTest es .axisAttribute
  | .dotDot => do
    advance
    pure (leaf .axisParent (S "node()"))
  | _ => nodeTest es .axisChild

/-- `parse_argument` (src/xpath_impl/parser.rs:2648-2663). -/
def argument (es : P XNode) : P XNode := do
  let x ← es
  if x.isNil then ifTok .question (pure (leaf .argumentPlaceholder (S "?"))) (pure .nil)
  else pure (.node .argumentTop [] x .nil)

/-- `parse_argument_list_sub` (src/xpath_impl/parser.rs:2628-2641). -/
def argumentListSub (es : P XNode) : P XNode := do
  let x ← argument es
  if x.isNil then pure .nil
  else do
    let l ← looping (commaList (argument es))
    pure (linkChain (x :: l) .nil)

/-- `parse_argument_list` (src/xpath_impl/parser.rs:2615-2626). -/
def argumentList (es : P XNode) : P XNode := do
  expect .leftParen
  let x ← argumentListSub es
  expect .rightParen
  pure x

/-- `parse_literal` (src/xpath_impl/parser.rs:2033-2056). -/
def literal : P XNode := do
  let k ← peek
  match k.ty with
  | .stringLiteral => do advance; pure (leaf .stringLiteral k.name)
  | .integerLiteral => do advance; pure (leaf .integerLiteral k.name)
  | .decimalLiteral => do advance; pure (leaf .decimalLiteral k.name)
  | .doubleLiteral => do advance; pure (leaf .doubleLiteral k.name)
  | _ => pure .nil

/-- `parse_varref` (src/xpath_impl/parser.rs:2065-2084). -/
def varref : P XNode :=
  ifTok .dollar (do
    let n ← eqnameRequired []
    pure (leaf .varRef n)) (pure .nil)

/-- `parse_parenthesized_expr` (src/xpath_impl/parser.rs:2093-2114). -/
def parenthesized (es : P XNode) : P XNode :=
  ifTok .leftParen (do
    let x ← expr es
    expect .rightParen
    pure (.node .parenthesizedExpr [] x .nil)) (pure .nil)

/-- `parse_context_item_expr` (src/xpath_impl/parser.rs:2122-2137). -/
def contextItem : P XNode := ifTok .dot (pure (leaf .contextItem (S "."))) (pure .nil)

/-- The part of `parse_function_call` (src/xpath_impl/parser.rs:2545-2600) behind the argument list: the number of arguments is
checked against the function tables, an argument that is a placeholder makes the call a partial one. -/
def functionCallOf (f : Str) (args : XNode) : Except XErr XNode :=
  if checkFunctionSpec f args.chain.length then
    .ok (.node (if args.chain.any fun a => a.ty == .argumentPlaceholder then .partialFunctionCall else .functionCall)
      f .nil args)
  else .error .syntaxError

/-- `parse_function_call` (src/xpath_impl/parser.rs:2545-2600). -/
def functionCall (es : P XNode) : P XNode := fun ts =>
  match eqname (S "fn") ts with
  | .error e => .error e
  | .ok (f, r) =>
    if f = [] then .ok (.nil, ts) else
    match r with
    | ⟨.leftParen, _⟩ :: _ =>
      (do
        let args ← argumentList es
        match functionCallOf f args with
        | .ok x => pure x
        | .error e => fail e : P XNode) r
    | _ => .ok (.nil, ts)

/-- `parse_named_function_ref` (src/xpath_impl/parser.rs:2153-2179). -/
def namedFunctionRef : P XNode := fun ts =>
  match eqname (S "fn") ts with
  | .error e => .error e
  | .ok (f, r) =>
    if f = [] then .ok (.nil, ts) else
    match r with
    | ⟨.sharp, _⟩ :: ⟨.integerLiteral, a⟩ :: r' => .ok (leaf .namedFunctionRef (f ++ S "#" ++ a), r')
    | _ => .ok (.nil, ts)

/-- The optional `"as" SequenceType`, by default `item()*` (src/xpath_impl/parser.rs:2208-2215, 2260-2272). -/
def asType : P XNode := fun ts =>
  match ts with
  | k :: r => if k.ty = .name ∧ k.name = S "as" then sequenceType r else .ok (defaultSequenceType, ts)
  | [] => .ok (defaultSequenceType, ts)

/-- `parse_param` (src/xpath_impl/parser.rs:2250-2272). -/
def param : P XNode :=
  ifTok .dollar (do
    let n ← eqnameRequired []
    let t ← asType
    pure (.node .param n t .nil)) (pure .nil)

/-- `parse_param_list` (src/xpath_impl/parser.rs:2231-2244). -/
def paramList : P XNode := do
  let x ← param
  if x.isNil then pure .nil
  else do
    let l ← looping (commaList param)
    pure (linkChain (x :: l) .nil)

/-- `parse_function_body` (src/xpath_impl/parser.rs:2288-2298). -/
def functionBody (es : P XNode) : P XNode := do
  expect .leftCurly
  let x ← expr es
  expect .rightCurly
  pure x

/-- `parse_inline_function_expr` (src/xpath_impl/parser.rs:2196-2226). -/
def inlineFunction (es : P XNode) : P XNode :=
  ifTok .function (do
    expect .leftParen
    let ps ← paramList
    expect .rightParen
    let t ← asType
    let b ← functionBody es
    pure (.node .inlineFunction (S "(inline function)") b (.node .returnType [] t ps))) (pure .nil)

/-- `parse_map_constructor_entry` (src/xpath_impl/parser.rs:2364-2378). -/
def mapEntry (es : P XNode) : P XNode := do
  let k ← es
  if k.isNil then pure .nil
  else do
    expect .colon
    let v ← es
    if v.isNil then fail .syntaxError else pure (.node .mapEntry [] k v)

/-- `parse_map_constructor_entries` (src/xpath_impl/parser.rs:2336-2353). -/
def mapEntries (es : P XNode) : P XNode := do
  let x ← mapEntry es
  if x.isNil then pure .nil
  else do
    let l ← looping (commaList (mapEntry es))
    pure (linkChain ((x :: l).map fun y => .node .mapConstruct [] y .nil) .nil)

/-- `parse_map_constructor` (src/xpath_impl/parser.rs:2314-2330). -/
def mapConstructor (es : P XNode) : P XNode :=
  ifTok .map (do
    expect .leftCurly
    let x ← mapEntries es
    expect .rightCurly
    pure (.node .map [] x .nil)) (pure .nil)

/-- `parse_expr_in_array` (src/xpath_impl/parser.rs:2440-2458). -/
def exprInArray (es : P XNode) : P XNode := do
  let x ← es
  if x.isNil then pure .nil
  else do
    let l ← looping (commaList es)
    pure (linkChain ((x :: l).map fun y => .node .arrayEntry [] y .nil) .nil)

/-- `parse_square_array_constructor` (src/xpath_impl/parser.rs:2396-2408). -/
def squareArray (es : P XNode) : P XNode :=
  ifTok .leftBracket (do
    let x ← exprInArray es
    expect .rightBracket
    pure (.node .squareArray [] x .nil)) (pure .nil)

/-- `parse_curly_array_constructor` (src/xpath_impl/parser.rs:2415-2430). -/
def curlyArray (es : P XNode) : P XNode :=
  ifTok .array (do
    expect .leftCurly
    let x ← expr es
    expect .rightCurly
    pure (.node .curlyArray [] x .nil)) (pure .nil)

/-- `parse_unary_lookup` (src/xpath_impl/parser.rs:2491-2529). -/
def unaryLookup (es : P XNode) : P XNode := fun ts =>
  match ts with
  | ⟨.question, _⟩ :: r =>
    match r with
    | ⟨.name, n⟩ :: r' => .ok (.node .unaryLookupByExpr [] (leaf .stringLiteral n) .nil, r')
    | ⟨.integerLiteral, n⟩ :: r' => .ok (.node .unaryLookupByExpr [] (leaf .integerLiteral n) .nil, r')
    | ⟨.asterisk, _⟩ :: r' => .ok (leaf .unaryLookupByWildcard (S "*"), r')
    | ⟨.leftParen, _⟩ :: _ =>
      (do
        let x ← parenthesized es
        pure (.node .unaryLookupByExpr [] x .nil) : P XNode) r
    | _ => .ok (.nil, ts)
  | _ => .ok (.nil, ts)

/-- `parse_primary_expr` (src/xpath_impl/parser.rs:1991-2021), with `parse_function_item_expr` (2143-2148) and
`parse_array_constructor` (2383-2391). -/
def primary (es : P XNode) : P XNode :=
  orIfNil literal <| orIfNil varref <| orIfNil (parenthesized es) <| orIfNil contextItem <|
    orIfNil (functionCall es) <| orIfNil (orIfNil namedFunctionRef (inlineFunction es)) <|
    orIfNil (mapConstructor es) <| orIfNil (orIfNil (curlyArray es) (squareArray es)) (unaryLookup es)

/-- `parse_postfix` (src/xpath_impl/parser.rs:1956-1978). -/
def postfixOp (es : P XNode) : P XNode := do
  let k ← peek
  match k.ty with
  | .leftBracket => do
    let x ← predicate es
    pure (.node .predicateTop [] x .nil)
  | .leftParen => do
    let x ← argumentList es
    pure (.node .argumentListTop [] x .nil)
  | .question => unaryLookup es
  | _ => pure .nil

/-- The node that applies a postfix (src/xpath_impl/parser.rs:1934-1944). -/
def applyType : XNodeType → XNodeType
  | .predicateTop => .applyPredicate
  | .argumentListTop => .applyArgument
  | _ => .operatorMap

/-- The loop of `parse_postfix_expr` (src/xpath_impl/parser.rs:1923-1949). -/
def postfixLoop (es : P XNode) : Nat → XNode → P XNode
  | 0, _ => fail .outOfFuel
  | n + 1, x => do
    let y ← postfixOp es
    if y.isNil then pure x else postfixLoop es n (.node (applyType y.ty) [] x y)

/-- `parse_postfix_expr` (src/xpath_impl/parser.rs:1923-1949). -/
def postfixExpr (es : P XNode) : P XNode := do
  let x ← primary es
  if x.isNil then pure .nil else looping fun n => postfixLoop es n x

/-- `parse_step_expr` (src/xpath_impl/parser.rs:1893-1899). -/
def stepExpr (es : P XNode) : P XNode := orIfNil (postfixExpr es) (axisStep es)

/-- The step `descendant-or-self::node()` that `//` stands for (src/xpath_impl/parser.rs:1801, 1864). -/
def descendantOrSelf : XNode := leaf .axisDescendantOrSelf (S "node()")

/-- The loop of `parse_relative_path_expr` (src/xpath_impl/parser.rs:1834-1888): what becomes the right child of the node before. -/
def relativePathLoop (es : P XNode) : Nat → P XNode
  | 0 => fail .outOfFuel
  | n + 1 => do
    let k ← peek
    match k.ty with
    | .slash => do
      advance
      let x ← stepExpr es
      let r ← relativePathLoop es n
      pure (.node .operatorPath (S "parse_relative_path_expr Slash") x r)
    | .slashSlash => do
      advance
      let x ← stepExpr es
      let r ← relativePathLoop es n
      pure (.node .operatorPath (S "parse_relative_path_expr SlashSlash 1") descendantOrSelf
        (.node .operatorPath (S "parse_relative_path_expr SlashSlash 2") x r))
    | _ => pure .nil

/-- `parse_relative_path_expr` (src/xpath_impl/parser.rs:1834-1888). -/
def relativePath (es : P XNode) : P XNode := do
  let x ← stepExpr es
  if x.isNil then pure .nil
  else do
    let r ← looping (relativePathLoop es)
    if r.isNil then pure x
    else pure (.node .operatorPath (S "parse_relative_path_expr TOP") x r)

/-- `parse_path_expr` (src/xpath_impl/parser.rs:1779-1819). -/
def pathExpr (es : P XNode) : P XNode := do
  let k ← peek
  match k.ty with
  | .slash => do
    advance
    let r ← relativePath es
    pure (.node .operatorPath (S "parse_path_expr Slash") (leaf .axisRoot (S "node()")) r)
  | .slashSlash => do
    advance
    let r ← relativePath es
    pure (.node .operatorPath (S "parse_path_expr SlashSlash 1") (leaf .axisRoot (S "/"))
      (.node .operatorPath (S "parse_path_expr SlashSlash 2") descendantOrSelf r))
  | _ => relativePath es

/-- `token_node_map` of `parse_value_expr` (src/xpath_impl/parser.rs:1725-1731). -/
def mapOps : TType → Option XNodeType
  | .operatorMap => some .operatorMap
  | _ => none

/-- `parse_value_expr` (src/xpath_impl/parser.rs:1725-1731). -/
def valueExpr (es : P XNode) : P XNode := binOp (pathExpr es) mapOps false

/-- `parse_unary_expr` (src/xpath_impl/parser.rs:1698-1719). -/
def unaryExpr (es : P XNode) : P XNode :=
  ifTok .minus (do
    let x ← valueExpr es
    pure (.node .operatorUnaryMinus (S "-") .nil x)) <|
  ifTok .plus (do
    let x ← valueExpr es
    pure (.node .operatorUnaryPlus (S "+") .nil x))
  (valueExpr es)

/-- The loop of `parse_arrow_expr` (src/xpath_impl/parser.rs:1651-1693). -/
def arrowLoop (es : P XNode) : Nat → XNode → P XNode
  | 0, _ => fail .outOfFuel
  | n + 1, x =>
    ifTok .arrow (do
      let f ← eqname (S "fn")
      if f = [] then do
        let v ← varref
        if v.isNil then fail .syntaxError
        else do
          let args ← argumentList es
          arrowLoop es n (.node .applyArgument [] v (.node .argumentListTop [] (.node .argumentTop [] x args) .nil))
      else do
        let args ← argumentList es
        arrowLoop es n (.node .functionCall f .nil (.node .argumentTop [] x args)))
    (pure x)

/-- `parse_arrow_expr` (src/xpath_impl/parser.rs:1651-1693). -/
def arrowExpr (es : P XNode) : P XNode := do
  let x ← unaryExpr es
  looping fun n => arrowLoop es n x

/-- `sub (op type)?`: the common form of `parse_cast_expr` (src/xpath_impl/parser.rs:1585-1604), `parse_castable_expr`
(1556-1575), `parse_treat_expr` (1267-1286) and `parse_instanceof_expr` (1244-1263). -/
def typeOp (sub : P XNode) (t : TType) (x : XNodeType) (type : P XNode) : P XNode := do
  let l ← sub
  ifTok t (do
    let r ← type
    if r.isNil then fail .syntaxError else pure (.node x [] l r)) (pure l)

/-- `parse_cast_expr` (src/xpath_impl/parser.rs:1585-1604). -/
def castExpr (es : P XNode) : P XNode := typeOp (arrowExpr es) .castAs .operatorCastAs singleType

/-- `parse_castable_expr` (src/xpath_impl/parser.rs:1556-1575). -/
def castableExpr (es : P XNode) : P XNode := typeOp (castExpr es) .castableAs .operatorCastableAs singleType

/-- `parse_treat_expr` (src/xpath_impl/parser.rs:1267-1285). -/
def treatExpr (es : P XNode) : P XNode := typeOp (castableExpr es) .treatAs .operatorTreatAs sequenceType

/-- `parse_instanceof_expr` (src/xpath_impl/parser.rs:1244-1262). -/
def instanceofExpr (es : P XNode) : P XNode :=
  typeOp (treatExpr es) .instanceOf .operatorInstanceOf sequenceType

/-- `token_node_map` of `parse_intersect_except_expr` (src/xpath_impl/parser.rs:1232-1239). -/
def intersectOps : TType → Option XNodeType
  | .intersect => some .operatorIntersect
  | .except => some .operatorExcept
  | _ => none

/-- `token_node_map` of `parse_union_expr` (src/xpath_impl/parser.rs:1218-1226). -/
def unionOps : TType → Option XNodeType
  | .union => some .operatorUnion
  | _ => none

/-- `token_node_map` of `parse_multiplicative_expr` (src/xpath_impl/parser.rs:1203-1212). -/
def multiplicativeOps : TType → Option XNodeType
  | .asterisk => some .operatorMultiply
  | .div => some .operatorDiv
  | .iDiv => some .operatorIDiv
  | .mod => some .operatorMod
  | _ => none

/-- `token_node_map` of `parse_additive_expr` (src/xpath_impl/parser.rs:1190-1197). -/
def additiveOps : TType → Option XNodeType
  | .plus => some .operatorAdd
  | .minus => some .operatorSubtract
  | _ => none

/-- `token_node_map` of `parse_range_expr` (src/xpath_impl/parser.rs:1178-1184). -/
def rangeOps : TType → Option XNodeType
  | .to => some .operatorTo
  | _ => none

/-- `token_node_map` of `parse_string_concat_expr` (src/xpath_impl/parser.rs:1167-1173). -/
def concatOps : TType → Option XNodeType
  | .operatorConcat => some .operatorConcat
  | _ => none

/-- `token_node_map` of `parse_comparison_expr` (src/xpath_impl/parser.rs:1142-1162). -/
def comparisonOps : TType → Option XNodeType
  | .valueEQ => some .operatorValueEQ
  | .valueNE => some .operatorValueNE
  | .valueLT => some .operatorValueLT
  | .valueGT => some .operatorValueGT
  | .valueLE => some .operatorValueLE
  | .valueGE => some .operatorValueGE
  | .generalEQ => some .operatorGeneralEQ
  | .generalNE => some .operatorGeneralNE
  | .generalLT => some .operatorGeneralLT
  | .generalGT => some .operatorGeneralGT
  | .generalLE => some .operatorGeneralLE
  | .generalGE => some .operatorGeneralGE
  | .isSameNode => some .operatorIsSameNode
  | .nodeBefore => some .operatorNodeBefore
  | .nodeAfter => some .operatorNodeAfter
  | _ => none

/-- `token_node_map` of `parse_and_expr` (src/xpath_impl/parser.rs:1126-1132). -/
def andOps : TType → Option XNodeType
  | .andT => some .operatorAnd
  | _ => none

/-- `token_node_map` of `parse_or_expr` (src/xpath_impl/parser.rs:1115-1121). -/
def orOps : TType → Option XNodeType
  | .orT => some .operatorOr
  | _ => none

/-- `parse_intersect_except_expr` (src/xpath_impl/parser.rs:1232-1239). -/
def intersectExpr (es : P XNode) : P XNode := binOp (instanceofExpr es) intersectOps false
/-- `parse_union_expr` (src/xpath_impl/parser.rs:1218-1226). -/
def unionExpr (es : P XNode) : P XNode := binOp (intersectExpr es) unionOps false
/-- `parse_multiplicative_expr` (src/xpath_impl/parser.rs:1203-1212). -/
def multiplicativeExpr (es : P XNode) : P XNode := binOp (unionExpr es) multiplicativeOps false
/-- `parse_additive_expr` (src/xpath_impl/parser.rs:1190-1197). -/
def additiveExpr (es : P XNode) : P XNode := binOp (multiplicativeExpr es) additiveOps false
/-- `parse_range_expr` (src/xpath_impl/parser.rs:1178-1184). -/
def rangeExpr (es : P XNode) : P XNode := binOp (additiveExpr es) rangeOps true
/-- `parse_string_concat_expr` (src/xpath_impl/parser.rs:1167-1173). -/
def concatExpr (es : P XNode) : P XNode := binOp (rangeExpr es) concatOps false
/-- `parse_comparison_expr` (src/xpath_impl/parser.rs:1142-1162). -/
def comparisonExpr (es : P XNode) : P XNode := binOp (concatExpr es) comparisonOps true
/-- `parse_and_expr` (src/xpath_impl/parser.rs:1126-1132). -/
def andExpr (es : P XNode) : P XNode := binOp (comparisonExpr es) andOps false
/-- `parse_or_expr` (src/xpath_impl/parser.rs:1115-1121). -/
def orExpr (es : P XNode) : P XNode := binOp (andExpr es) orOps false

/-- `parse_if_expr` (src/xpath_impl/parser.rs:1072-1110). -/
def ifExpr (es : P XNode) : P XNode :=
  ifTok .ifT (do
    expect .leftParen
    let c ← expr es
    if c.isNil then fail .syntaxError
    else do
      expect .rightParen
      expectName (S "then")
      let t ← es
      if t.isNil then fail .syntaxError
      else do
        expectName (S "else")
        let e ← es
        if e.isNil then fail .syntaxError
        else pure (.node .ifExpr (S "if_expr") c (.node .ifThenElse (S "if_then_else") t e))) (pure .nil)

/-- `parse_simple_binding` (src/xpath_impl/parser.rs:1041-1061); with `:=` for `in`, `parse_simple_let_binding` (951-970). -/
def binding (es : P XNode) (t : XNodeType) (sep : P Unit) : P XNode :=
  ifTok .dollar (do
    let n ← eqnameRequired []
    sep
    let x ← es
    pure (.node t n x .nil)) (pure .nil)

/-- The loop over the bindings (src/xpath_impl/parser.rs:865-878, 918-931, 1007-1020). -/
def bindings (es : P XNode) (t : XNodeType) (sep : P Unit) : Nat → P (List XNode)
  | 0 => fail .outOfFuel
  | n + 1 => do
    let b ← binding es t sep
    if b.isNil then pure []
    else ifTok .comma (do
        let l ← bindings es t sep n
        pure (b :: l)) (pure [b])

/-- `parse_for_expr` (src/xpath_impl/parser.rs:859-887), `parse_let_expr` (912-939) and `parse_quantified_expr` (986-1028)
behind their keyword. -/
def bindingExpr (es : P XNode) (top bind : XNodeType) (name : Str) (sep : P Unit) (kw : Str) : P XNode := do
  let bs ← looping (bindings es bind sep)
  expectName kw
  let x ← es
  pure (.node top name .nil (linkChain bs x))

/-- `parse_expr_single` (src/xpath_impl/parser.rs:834-848), with `parse_for_expr` (859-886), `parse_let_expr` (912-939) and
`parse_quantified_expr` (986-1028). -/
def exprSingleStep (es : P XNode) : P XNode :=
  ifTok .forT (bindingExpr es .forExpr .forVarBind (S "for") (expectName (S "in")) (S "return")) <|
  ifTok .letT (bindingExpr es .letExpr .letVarBind (S "let") (expect .bind) (S "return")) <|
  ifTok .someT (bindingExpr es .someExpr .someVarBind (S "some") (expectName (S "in")) (S "satisfies")) <|
  ifTok .every (bindingExpr es .everyExpr .everyVarBind (S "every") (expectName (S "in")) (S "satisfies")) <|
  orIfNil (ifExpr es) (orExpr es)

/-- `parse_expr_single` (src/xpath_impl/parser.rs:834-848) with bounded recursion. -/
def exprSingleF : Nat → P XNode
  | 0 => fail .outOfFuel
  | n + 1 => exprSingleStep (exprSingleF n)

/-- `parse_expr_single` (src/xpath_impl/parser.rs:834-848). -/
def exprSingle : P XNode := looping exprSingleF

/-- `parse_main` (src/xpath_impl/parser.rs:294-300). -/
def main (ts : List Tok) : Except XErr XNode :=
  match expr exprSingle ts with
  | .ok (x, []) => .ok x
  | .ok (_, _ :: _) => .error .syntaxError
  | .error e => .error e

/-- The token vector without its sentinels: what the parser reads. -/
def body (ts : List Tok) : List Tok := ts.tail.dropLast

/-- `compile_xpath` (src/xpath_impl/parser.rs:285-289). -/
def compileXPath (s : Str) : Except XErr XNode :=
  match Lexer.new s with
  | .ok ts => main (body ts)
  | .error e => .error e

end Parser
end Amxml
