import Verif.Model.XItem

/-!
# Texts of nodes, items and sequences (`Display`)

`NodePtr` (`src/dom.rs`), `XItem`, `XSeqMap`, `XSeqArray` (`src/xpath_impl/xitem.rs`), `XSequence` (`src/xpath_impl/xsequence.rs`), `XNodePtr`
(`src/xpath_impl/parser.rs`), and `Sequence::to_string`, `Item::to_string` (`src/xpath.rs`).
-/

namespace Amxml

/-- `Debug` and `Display` of `NodePtr`, two `impl`s (src/dom.rs:52-87). -/
def displayNode (h : Heap) (i : NodeId) : Str :=
  match (h.node i).ntype with
  | .documentRoot => S "(DocumentRoot)"
  | .element => '<' :: (h.node i).name ++
      ((h.node i).attributes.flatMap fun a => ' ' :: (h.node a).name ++ S "=\"" ++ (h.node a).value ++ S "\"") ++ S ">"
  | .text => (h.node i).value
  | .attribute => (h.node i).name ++ S "=\"" ++ (h.node i).value ++ S "\""
  | _ => []

/-- The derived `Debug` of `XNodeType` (src/xpath_impl/parser.rs:22-136): the name of the variant. -/
def XNodeType.text : XNodeType → Str
  | .nil => S "Nil"
  | .operatorPath => S "OperatorPath"
  | .axisRoot => S "AxisRoot"
  | .axisAncestor => S "AxisAncestor"
  | .axisAncestorOrSelf => S "AxisAncestorOrSelf"
  | .axisAttribute => S "AxisAttribute"
  | .axisChild => S "AxisChild"
  | .axisDescendant => S "AxisDescendant"
  | .axisDescendantOrSelf => S "AxisDescendantOrSelf"
  | .axisFollowing => S "AxisFollowing"
  | .axisFollowingSibling => S "AxisFollowingSibling"
  | .axisNamespace => S "AxisNamespace"
  | .axisParent => S "AxisParent"
  | .axisPreceding => S "AxisPreceding"
  | .axisPrecedingSibling => S "AxisPrecedingSibling"
  | .axisSelf => S "AxisSelf"
  | .predicateTop => S "PredicateTop"
  | .predicateRevTop => S "PredicateRevTop"
  | .operatorConcatenate => S "OperatorConcatenate"
  | .operatorOr => S "OperatorOr"
  | .operatorAnd => S "OperatorAnd"
  | .operatorGeneralEQ => S "OperatorGeneralEQ"
  | .operatorGeneralNE => S "OperatorGeneralNE"
  | .operatorGeneralLT => S "OperatorGeneralLT"
  | .operatorGeneralGT => S "OperatorGeneralGT"
  | .operatorGeneralLE => S "OperatorGeneralLE"
  | .operatorGeneralGE => S "OperatorGeneralGE"
  | .operatorValueEQ => S "OperatorValueEQ"
  | .operatorValueNE => S "OperatorValueNE"
  | .operatorValueLT => S "OperatorValueLT"
  | .operatorValueGT => S "OperatorValueGT"
  | .operatorValueLE => S "OperatorValueLE"
  | .operatorValueGE => S "OperatorValueGE"
  | .operatorAdd => S "OperatorAdd"
  | .operatorSubtract => S "OperatorSubtract"
  | .operatorUnaryPlus => S "OperatorUnaryPlus"
  | .operatorUnaryMinus => S "OperatorUnaryMinus"
  | .operatorMultiply => S "OperatorMultiply"
  | .operatorDiv => S "OperatorDiv"
  | .operatorIDiv => S "OperatorIDiv"
  | .operatorMod => S "OperatorMod"
  | .operatorUnion => S "OperatorUnion"
  | .operatorIntersect => S "OperatorIntersect"
  | .operatorExcept => S "OperatorExcept"
  | .operatorTo => S "OperatorTo"
  | .operatorIsSameNode => S "OperatorIsSameNode"
  | .operatorNodeBefore => S "OperatorNodeBefore"
  | .operatorNodeAfter => S "OperatorNodeAfter"
  | .operatorInstanceOf => S "OperatorInstanceOf"
  | .operatorTreatAs => S "OperatorTreatAs"
  | .operatorCastableAs => S "OperatorCastableAs"
  | .operatorCastAs => S "OperatorCastAs"
  | .ifExpr => S "IfExpr"
  | .ifThenElse => S "IfThenElse"
  | .forExpr => S "ForExpr"
  | .someExpr => S "SomeExpr"
  | .everyExpr => S "EveryExpr"
  | .forVarBind => S "ForVarBind"
  | .someVarBind => S "SomeVarBind"
  | .everyVarBind => S "EveryVarBind"
  | .stringLiteral => S "StringLiteral"
  | .integerLiteral => S "IntegerLiteral"
  | .decimalLiteral => S "DecimalLiteral"
  | .doubleLiteral => S "DoubleLiteral"
  | .contextItem => S "ContextItem"
  | .functionCall => S "FunctionCall"
  | .argumentTop => S "ArgumentTop"
  | .varRef => S "VarRef"
  | .applyPredicate => S "ApplyPredicate"
  | .applyArgument => S "ApplyArgument"
  | .kindTest => S "KindTest"
  | .documentTest => S "DocumentTest"
  | .elementTest => S "ElementTest"
  | .attributeTest => S "AttributeTest"
  | .schemaElementTest => S "SchemaElementTest"
  | .schemaAttributeTest => S "SchemaAttributeTest"
  | .pITest => S "PITest"
  | .commentTest => S "CommentTest"
  | .textTest => S "TextTest"
  | .namespaceNodeTest => S "NamespaceNodeTest"
  | .anyKindTest => S "AnyKindTest"
  | .kindTestTypeName => S "KindTestTypeName"
  | .emptySequenceTest => S "EmptySequenceTest"
  | .itemTest => S "ItemTest"
  | .typeName => S "TypeName"
  | .anyFunctionTest => S "AnyFunctionTest"
  | .typedFunctionTest => S "TypedFunctionTest"
  | .mapTest => S "MapTest"
  | .arrayTest => S "ArrayTest"
  | .atomicOrUnionType => S "AtomicOrUnionType"
  | .parenthesizedItemType => S "ParenthesizedItemType"
  | .singleType => S "SingleType"
  | .sequenceType => S "SequenceType"
  | .operatorConcat => S "OperatorConcat"
  | .operatorMap => S "OperatorMap"
  | .letExpr => S "LetExpr"
  | .letVarBind => S "LetVarBind"
  | .inlineFunction => S "InlineFunction"
  | .param => S "Param"
  | .returnType => S "ReturnType"
  | .argumentListTop => S "ArgumentListTop"
  | .namedFunctionRef => S "NamedFunctionRef"
  | .partialFunctionCall => S "PartialFunctionCall"
  | .argumentPlaceholder => S "ArgumentPlaceholder"
  | .map => S "Map"
  | .mapConstruct => S "MapConstruct"
  | .mapEntry => S "MapEntry"
  | .squareArray => S "SquareArray"
  | .curlyArray => S "CurlyArray"
  | .arrayEntry => S "ArrayEntry"
  | .unaryLookupByExpr => S "UnaryLookupByExpr"
  | .unaryLookupByWildcard => S "UnaryLookupByWildcard"
  | .parenthesizedExpr => S "ParenthesizedExpr"

/-- `xnode_dump_sub` (src/xpath_impl/parser.rs:185-200). -/
def dumpSub (indent : Nat) (pref : Str) : XNode → Str
  | .nil => List.replicate indent ' ' ++ pref ++ S " [Nil] \n"
  | .node t n l r =>
    List.replicate indent ' ' ++ pref ++ S " [" ++ t.text ++ S "] " ++ n ++ S "\n" ++
      (if l.isNil then [] else dumpSub (indent + 4) (S "L") l) ++ (if r.isNil then [] else dumpSub (indent + 4) (S "R") r)

/-- `Debug` and `Display` of `XNodePtr`: `xnode_dump` (src/xpath_impl/parser.rs:179-181). -/
def displayTree (x : XNode) : Str := dumpSub 0 (S "T") x

/-- `Display` of a decimal (src/xpath_impl/xitem.rs:387-393). -/
def displayDecimal (d : F64) : Str :=
  let s := F64.fmt d
  if s.contains '.' then s else s ++ S ".0"

/-- `Display` of a double (src/xpath_impl/xitem.rs:394-408). -/
def displayDouble (d : F64) : Str :=
  if d.isNan then S "NaN"
  else if d.isInf then (if d.signPos then S "+Infinity" else S "-Infinity")
  else if F64.eq d F64.zero && d.signNeg then S "-0e0"
  else F64.fmtExp d

/-- Texts with `, ` between them (src/xpath_impl/xsequence.rs:87-92, xitem.rs:138-143, 191-196). -/
def commaList : List Str → Str
  | [] => []
  | [s] => s
  | s :: l => s ++ S ", " ++ commaList l

/-- Parentheses unless there is exactly one item (src/xpath_impl/xsequence.rs:84-95). -/
def inParens (l : List Str) : Str := if l.length = 1 then commaList l else S "(" ++ commaList l ++ S ")"

mutual

/-- `Display` of `XItem` (src/xpath_impl/xitem.rs:58-126), with the one of `XSeqMap` (xitem.rs:135-147) and `XSeqArray` (xitem.rs:188-200);
`Item::to_string` (src/xpath.rs:270-272). -/
def displayItem (h : Heap) : XItem → Str
  | .node i => displayNode h i
  | .string s => '"' :: s ++ S "\""
  | .integer n => F64.intStr n
  | .decimal d => displayDecimal d
  | .double d => displayDouble d
  | .boolean b => if b then S "true" else S "false"
  | .fn x => displayTree x
  | .map e => S "{" ++ commaList (displayEntries h e) ++ S "}"
  | .array a => S "[" ++ commaList (displayMembers h a) ++ S "]"

/-- The texts of the items (src/xpath_impl/xsequence.rs:87-92). -/
def displayItems (h : Heap) : List XItem → List Str
  | [] => []
  | x :: s => displayItem h x :: displayItems h s

/-- The texts of the entries of a map (src/xpath_impl/xitem.rs:138-143). -/
def displayEntries (h : Heap) : List (XItem × List XItem) → List Str
  | [] => []
  | (k, v) :: e => (displayItem h k ++ S " => " ++ inParens (displayItems h v)) :: displayEntries h e

/-- The texts of the members of an array (src/xpath_impl/xitem.rs:191-196). -/
def displayMembers (h : Heap) : List (List XItem) → List Str
  | [] => []
  | m :: a => inParens (displayItems h m) :: displayMembers h a

end

/-- `Display` of `XSequence` (src/xpath_impl/xsequence.rs:26-28), `Sequence::to_string` (src/xpath.rs:243-245). -/
def displaySeq (h : Heap) (s : XSeq) : Str := inParens (displayItems h s)

/-! ## The public view of a value -/

/-- `Sequence::len` (src/xpath.rs:250-252), `XSequence::len` (src/xpath_impl/xsequence.rs:280-282). -/
def seqLen (s : XSeq) : Nat := s.length

/-- `Sequence::get_item` (src/xpath.rs:258-261), `XSequence::get_item` (src/xpath_impl/xsequence.rs:292-294): indexing beyond the end panics. -/
def seqItem (s : XSeq) (pos : Nat) : Except XErr XItem :=
  match s[pos]? with
  | some x => .ok x
  | none => .error .panic

/-- `Item::as_nodeptr` (src/xpath.rs:277-279). -/
def itemNode (x : XItem) : Option NodeId := x.asNode

end Amxml
