import Verif.Spec.Shortest
import Verif.Spec.Values
import Verif.Spec.Tree

/-!
# The text of a value (`Sequence::to_string`, `Item::to_string`)
-/

namespace Amxml.Spec

/-- Texts in a row, with a comma and a space between them. -/
def spaced (l : List Str) : Str := (l.intersperse (S ", ")).flatten

/-- One text alone, any other number of texts as a list in parentheses. -/
def grouped : List Str → Str
  | [t] => t
  | l => S "(" ++ spaced l ++ S ")"

/-- An attribute: name and value, which is not escaped. -/
def attributeText (a : Str × Str) : Str := a.1 ++ S "=\"" ++ a.2 ++ S "\""

/-- The sign of a number. -/
def sign (v : ℚ) : Str := if v < 0 then S "-" else []

/-- The kinds of the nodes of a syntax tree, in the order of the declaration in the code (src/xpath_impl/parser.rs:22-136). -/
def kindNames : List String := [
  "Nil", "OperatorPath", "AxisRoot", "AxisAncestor", "AxisAncestorOrSelf", "AxisAttribute", "AxisChild", "AxisDescendant", "AxisDescendantOrSelf",
  "AxisFollowing", "AxisFollowingSibling", "AxisNamespace", "AxisParent", "AxisPreceding", "AxisPrecedingSibling", "AxisSelf", "PredicateTop",
  "PredicateRevTop", "OperatorConcatenate", "OperatorOr", "OperatorAnd", "OperatorGeneralEQ", "OperatorGeneralNE", "OperatorGeneralLT",
  "OperatorGeneralGT", "OperatorGeneralLE", "OperatorGeneralGE", "OperatorValueEQ", "OperatorValueNE", "OperatorValueLT", "OperatorValueGT",
  "OperatorValueLE", "OperatorValueGE", "OperatorAdd", "OperatorSubtract", "OperatorUnaryPlus", "OperatorUnaryMinus", "OperatorMultiply",
  "OperatorDiv", "OperatorIDiv", "OperatorMod", "OperatorUnion", "OperatorIntersect", "OperatorExcept", "OperatorTo", "OperatorIsSameNode",
  "OperatorNodeBefore", "OperatorNodeAfter", "OperatorInstanceOf", "OperatorTreatAs", "OperatorCastableAs", "OperatorCastAs", "IfExpr", "IfThenElse",
  "ForExpr", "SomeExpr", "EveryExpr", "ForVarBind", "SomeVarBind", "EveryVarBind", "StringLiteral", "IntegerLiteral", "DecimalLiteral",
  "DoubleLiteral", "ContextItem", "FunctionCall", "ArgumentTop", "VarRef", "ApplyPredicate", "ApplyArgument", "KindTest", "DocumentTest",
  "ElementTest", "AttributeTest", "SchemaElementTest", "SchemaAttributeTest", "PITest", "CommentTest", "TextTest", "NamespaceNodeTest",
  "AnyKindTest", "KindTestTypeName", "EmptySequenceTest", "ItemTest", "TypeName", "AnyFunctionTest", "TypedFunctionTest", "MapTest", "ArrayTest",
  "AtomicOrUnionType", "ParenthesizedItemType", "SingleType", "SequenceType", "OperatorConcat", "OperatorMap", "LetExpr", "LetVarBind",
  "InlineFunction", "Param", "ReturnType", "ArgumentListTop", "NamedFunctionRef", "PartialFunctionCall", "ArgumentPlaceholder", "Map",
  "MapConstruct", "MapEntry", "SquareArray", "CurlyArray", "ArrayEntry", "UnaryLookupByExpr", "UnaryLookupByWildcard", "ParenthesizedExpr"]

/-- The name of a kind. -/
def kindName (t : XNodeType) : Str := (kindNames.getD t.ctorIdx "").toList

/-- The lines that show a syntax tree: its root, then its left part, then its right part, if there are any, indented by four more spaces. Each line shows where the
node stands (`T` at the top, `L` on the left, `R` on the right), its kind and its name. -/
def treeLines (depth : Nat) (place : Char) : XNode → List Str
  | .nil => [List.replicate (4 * depth) ' ' ++ [place] ++ S " [Nil] "]
  | .node t n l r =>
    (List.replicate (4 * depth) ' ' ++ [place] ++ S " [" ++ kindName t ++ S "] " ++ n) ::
      ((if l.isNil then [] else treeLines (depth + 1) 'L' l) ++ (if r.isNil then [] else treeLines (depth + 1) 'R' r))

/-- What is shown for an item. -/
inductive ItemText (h : Heap) : XItem → Str → Prop
  | root {i} : (contentOf h i).ntype = .documentRoot → ItemText h (.node i) (S "(DocumentRoot)")
  /-- An element is shown as its start tag. -/
  | element {i} : (contentOf h i).ntype = .element →
      ItemText h (.node i) (S "<" ++ (contentOf h i).name ++ ((contentOf h i).attrs.flatMap fun a => S " " ++ attributeText a) ++ S ">")
  | text {i} : (contentOf h i).ntype = .text → ItemText h (.node i) (contentOf h i).value
  | attribute {i} : (contentOf h i).ntype = .attribute → ItemText h (.node i) (attributeText ((contentOf h i).name, (contentOf h i).value))
  | other {i} : (contentOf h i).ntype ∈ [NodeType.comment, .xmlDecl, .instruction, .directive] → ItemText h (.node i) []
  | string {s} : ItemText h (.string s) (S "\"" ++ s ++ S "\"")
  | yes : ItemText h (.boolean true) (S "true")
  | no : ItemText h (.boolean false) (S "false")
  | integer {n : Int} : ItemText h (.integer n) (toString n).toList
  /-- A decimal is shown in positional notation, always with a decimal point. -/
  | decimal {d v t m e} : FloatIs d (.real v) → v ≠ 0 → Fixed t m e → NoSpareZeros t → Shortest (if v < 0 then -((m : ℚ) * 10 ^ e) else (m : ℚ) * 10 ^ e) d v →
      ItemText h (.decimal d) (sign v ++ if '.' ∈ t then t else t ++ S ".0")
  | decimal_zero {d : F64} : d.unpack = .zero .positive → ItemText h (.decimal d) (S "0.0")
  | decimal_minus_zero {d : F64} : d.unpack = .zero .negative → ItemText h (.decimal d) (S "-0.0")
  | decimal_nan {d} : FloatIs d .nan → ItemText h (.decimal d) (S "NaN.0")
  | decimal_infinity {d} : FloatIs d .infinity → ItemText h (.decimal d) (S "inf.0")
  | decimal_minusInfinity {d} : FloatIs d .minusInfinity → ItemText h (.decimal d) (S "-inf.0")
  /-- A double is shown in scientific notation. -/
  | double {d v t m e} {n : Int} : FloatIs d (.real v) → v ≠ 0 → Fixed t m e → Scientific t →
      Shortest (if v < 0 then -((m : ℚ) * 10 ^ (e + n)) else (m : ℚ) * 10 ^ (e + n)) d v →
      ItemText h (.double d) (sign v ++ t ++ S "e" ++ (toString n).toList)
  | double_zero {d : F64} : d.unpack = .zero .positive → ItemText h (.double d) (S "0e0")
  | double_minus_zero {d : F64} : d.unpack = .zero .negative → ItemText h (.double d) (S "-0e0")
  | nan {d} : FloatIs d .nan → ItemText h (.double d) (S "NaN")
  | infinity {d} : FloatIs d .infinity → ItemText h (.double d) (S "+Infinity")
  | minusInfinity {d} : FloatIs d .minusInfinity → ItemText h (.double d) (S "-Infinity")
  /-- The entries of a map in their order, each as key and value. -/
  | map {e : List (XItem × XSeq)} {ks : List Str} {vs : List (List Str)} : List.Forall₂ (fun p k => ItemText h p.1 k) e ks →
      List.Forall₂ (fun p v => List.Forall₂ (ItemText h) p.2 v) e vs →
      ItemText h (.map e) (S "{" ++ spaced (List.zipWith (fun k v => k ++ S " => " ++ grouped v) ks vs) ++ S "}")
  /-- The members of an array in their order. -/
  | array {a : List XSeq} {vs : List (List Str)} : List.Forall₂ (fun m v => List.Forall₂ (ItemText h) m v) a vs →
      ItemText h (.array a) (S "[" ++ spaced (vs.map grouped) ++ S "]")
  /-- A function is shown as its syntax tree, each line with a line break behind it. -/
  | function {x} : ItemText h (.fn x) ((treeLines 0 'T' x).flatMap fun l => l ++ S "\n")

/-- What is shown for a value: the texts of its items, in parentheses unless there is exactly one. -/
def ValueText (h : Heap) (s : XSeq) (t : Str) : Prop := ∃ ts, List.Forall₂ (ItemText h) s ts ∧ t = grouped ts

/-- A text without the characters that are escaped in XML. -/
def Bare (s : Str) : Prop := ∀ c ∈ s, c ∉ ['&', '<', '>', '"', '\'']

end Amxml.Spec
