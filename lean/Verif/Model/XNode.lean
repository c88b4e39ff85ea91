import Verif.Model.F64
import Verif.Model.Dom

/-!
# Syntax trees, items and sequences of XPath (`src/xpath_impl/parser.rs`, `xitem.rs`)

A syntax tree node is an `Rc<RefCell<XNode>>`; nodes are mutated only while the parser builds the tree, so the model
uses an ordinary tree. An absent child reads as a node of type `Nil` (`get_left`, `get_right`).
-/

namespace Amxml

/-- `XNodeType` (src/xpath_impl/parser.rs:22-136). -/
inductive XNodeType where
  | nil | operatorPath | axisRoot | axisAncestor | axisAncestorOrSelf | axisAttribute | axisChild
  | axisDescendant | axisDescendantOrSelf | axisFollowing | axisFollowingSibling | axisNamespace | axisParent
  | axisPreceding | axisPrecedingSibling | axisSelf | predicateTop | predicateRevTop | operatorConcatenate
  | operatorOr | operatorAnd | operatorGeneralEQ | operatorGeneralNE | operatorGeneralLT | operatorGeneralGT
  | operatorGeneralLE | operatorGeneralGE | operatorValueEQ | operatorValueNE | operatorValueLT
  | operatorValueGT | operatorValueLE | operatorValueGE | operatorAdd | operatorSubtract | operatorUnaryPlus
  | operatorUnaryMinus | operatorMultiply | operatorDiv | operatorIDiv | operatorMod | operatorUnion
  | operatorIntersect | operatorExcept | operatorTo | operatorIsSameNode | operatorNodeBefore
  | operatorNodeAfter | operatorInstanceOf | operatorTreatAs | operatorCastableAs | operatorCastAs | ifExpr
  | ifThenElse | forExpr | someExpr | everyExpr | forVarBind | someVarBind | everyVarBind | stringLiteral
  | integerLiteral | decimalLiteral | doubleLiteral | contextItem | functionCall | argumentTop | varRef
  | applyPredicate | applyArgument | kindTest | documentTest | elementTest | attributeTest
  | schemaElementTest | schemaAttributeTest | pITest | commentTest | textTest | namespaceNodeTest
  | anyKindTest | kindTestTypeName | emptySequenceTest | itemTest | typeName | anyFunctionTest
  | typedFunctionTest | mapTest | arrayTest | atomicOrUnionType | parenthesizedItemType | singleType
  | sequenceType | operatorConcat | operatorMap | letExpr | letVarBind | inlineFunction | param | returnType
  | argumentListTop | namedFunctionRef | partialFunctionCall | argumentPlaceholder | map | mapConstruct
  | mapEntry | squareArray | curlyArray | arrayEntry | unaryLookupByExpr | unaryLookupByWildcard
  | parenthesizedExpr
  deriving DecidableEq, Repr

/-- `XNodePtr` / `XNode` (src/xpath_impl/parser.rs:154-159); `nil` is the node of type `Nil` without name and
children (`new_nil_xnode`, src/xpath_impl/parser.rs:2830-2832). -/
inductive XNode where
  | nil
  | node (t : XNodeType) (name : Str) (left right : XNode)
  deriving DecidableEq, Repr

namespace XNode

/-- `get_xnode_type` (src/xpath_impl/parser.rs:2864-2866). -/
def ty : XNode → XNodeType
  | .nil => .nil
  | .node t _ _ _ => t

/-- `get_xnode_name` (src/xpath_impl/parser.rs:2858-2860). -/
def name : XNode → Str
  | .nil => []
  | .node _ n _ _ => n

/-- `get_left` (src/xpath_impl/parser.rs:2876-2887). -/
def left : XNode → XNode
  | .nil => .nil
  | .node _ _ l _ => l

/-- `get_right` (src/xpath_impl/parser.rs:2891-2902). -/
def right : XNode → XNode
  | .nil => .nil
  | .node _ _ _ r => r

/-- `is_nil_xnode` (src/xpath_impl/parser.rs:2870-2872). -/
def isNil (x : XNode) : Bool := x.ty == .nil

/-- The nodes met by following `right` (the loops `while ! is_nil_xnode(&curr) { .. curr = get_right(&curr) }`,
e.g. src/xpath_impl/eval.rs:665-678). -/
def chain : XNode → List XNode
  | .nil => []
  | .node .nil _ _ _ => []
  | .node t n l r => .node t n l r :: chain r

end XNode

/-- `XItem` (src/xpath_impl/xitem.rs:58-126), with `XSequence` (xsequence.rs:26-28) as a list of items, `XSeqMap` (xitem.rs:129-131)
as the list of its entries and `XSeqArray` (xitem.rs:178-180) as the list of its members. `i64` is `Int`
(operations that leave the 64-bit range are modelled explicitly), `f64` is `F64`. -/
inductive XItem where
  | fn (value : XNode)
  | map (value : List (XItem × List XItem))
  | array (value : List (List XItem))
  | node (value : NodeId)
  | string (value : Str)
  | integer (value : Int)
  | decimal (value : F64)
  | double (value : F64)
  | boolean (value : Bool)

/-- `XSequence` (src/xpath_impl/xsequence.rs:26-28). -/
abbrev XSeq := List XItem

/-- What an evaluation can end with other than a value: the `XmlErrorType`s that occur (src/xmlerror.rs:18-27), a Rust
panic, and exhaustion of the model's recursion bound. -/
inductive XErr where
  | typeError | dynamicError | cantOccur | syntaxError | unimplemented | panic | outOfFuel
  deriving DecidableEq, Repr

end Amxml
