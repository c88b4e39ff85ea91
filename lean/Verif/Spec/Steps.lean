import Verif.Lemmas.AxisOrder
import Verif.Spec.XEval

/-!
# Vocabulary for the steps of a path

What the axes and the node tests of XPath mean, in terms of the links between the nodes, the document order and the types and names of
the nodes.
-/

namespace Amxml.Spec

/-- The first node comes before the second in the list. -/
def Before (D : List NodeId) (a b : NodeId) : Prop := [a, b].Sublist D

/-- The node `j` is on the axis that starts at the node `i`. The document has the root `r` and the nodes `r :: F.toList`, attributes
apart, in document order. (For the axes of following and preceding nodes and siblings, `i` has to be in that list: no attribute.) -/
def OnAxis (h : Heap) (r : NodeId) (F : Forest NodeId) (t : XNodeType) (i j : NodeId) : Prop :=
  match t with
  | .axisSelf => j = i
  | .axisRoot => j = r
  | .axisChild => j ∈ F.toList ∧ (h.node j).parent = some i
  | .axisParent => (h.node i).parent = some j
  | .axisAttribute => j ∈ (h.node i).attributes
  | .axisAncestor => Ancestor h j i
  | .axisAncestorOrSelf => j = i ∨ Ancestor h j i
  | .axisDescendant => j ∈ F.toList ∧ Ancestor h i j
  | .axisDescendantOrSelf => j = i ∨ (j ∈ F.toList ∧ Ancestor h i j)
  | .axisFollowing => Before (r :: F.toList) i j ∧ ¬ Ancestor h i j
  | .axisPreceding => Before (r :: F.toList) j i ∧ ¬ Ancestor h j i
  | .axisFollowingSibling => Before F.toList i j ∧ (h.node i).parent = (h.node j).parent
  | .axisPrecedingSibling => Before F.toList j i ∧ (h.node i).parent = (h.node j).parent
  | _ => False

/-- The node tests of XPath. -/
inductive NTest where
  /-- `n` or `p:n`. -/
  | name (n : Str)
  /-- `*`. -/
  | any
  /-- `p:*`. -/
  | inPrefix (p : Str)
  /-- `node()`. -/
  | anyNode
  /-- What `..` and `//` stand for. -/
  | dots
  /-- `text()`. -/
  | text
  /-- `comment()`. -/
  | comment
  /-- `processing-instruction()`, `processing-instruction(n)`. -/
  | pi (target : Option Str)
  /-- `element()`, `element(*)`, `element(n)`. -/
  | element (n : Option Str)
  /-- `element(n, T)`, `element(n, T?)` and the same with `*`. -/
  | elementOf (n : Option Str) (T : Str) (nillable : Bool)
  /-- `attribute()`, `attribute(*)`, `attribute(n)`. -/
  | attr (n : Option Str)
  /-- `attribute(n, T)`, `attribute(*, T)`. -/
  | attrOf (n : Option Str) (T : Str)

namespace NTest

/-- The name in the syntax tree for a step with the test. -/
def label : NTest → Str
  | name n => n
  | any => S "*"
  | inPrefix p => p ++ S ":*"
  | dots => S "node()"
  | _ => []

/-- What stands for an optional name. -/
def nameOr : Option Str → Str
  | some n => n
  | none => S "*"

/-- A kind test in the syntax tree. -/
def kind (t : XNodeType) (n : Str) (l : XNode) : XNode := .node .kindTest [] (.node t n l .nil) .nil

/-- The left child in the syntax tree for a step with the test. -/
def tree : NTest → XNode
  | name _ | any | inPrefix _ | dots => .nil
  | anyNode => kind .anyKindTest [] .nil
  | text => kind .textTest [] .nil
  | comment => kind .commentTest [] .nil
  | pi none => kind .pITest [] .nil
  | pi (some n) => kind .pITest n .nil
  | element n => kind .elementTest (nameOr n) (.node .kindTestTypeName (S "xs:anyType?") .nil .nil)
  | elementOf n T q => kind .elementTest (nameOr n) (.node .kindTestTypeName (if q then T ++ S "?" else T) .nil .nil)
  | attr n => kind .attributeTest (nameOr n) (.node .kindTestTypeName (S "xs:anyType") .nil .nil)
  | attrOf n T => kind .attributeTest (nameOr n) (.node .kindTestTypeName T .nil .nil)

/-- A name: no `*`, no `(`. -/
def IsLabel (n : Str) : Prop := n ≠ [] ∧ '*' ∉ n ∧ '(' ∉ n

/-- The names in the test are names; the name of a type does not end in a question mark. -/
def Proper : NTest → Prop
  | name n => IsLabel n
  | inPrefix p => IsLabel p ∧ ':' ∉ p
  | pi n => ∀ m, n = some m → IsLabel m
  | element n => ∀ m, n = some m → IsLabel m
  | elementOf n T _ => (∀ m, n = some m → IsLabel m) ∧ T.getLast? ≠ some '?'
  | attr n => ∀ m, n = some m → IsLabel m
  | attrOf n _ => ∀ m, n = some m → IsLabel m
  | _ => True

/-- The principal kind of node of an axis. -/
def principal (t : XNodeType) : NodeType := if t = .axisAttribute then .attribute else .element

/-- The node `j`, on the axis `t`, passes the test. An element of a document without schema has the type `xs:untyped`, an attribute
`xs:untypedAtomic`; an element with `xsi:nil="true"` is nilled. -/
def Passes (h : Heap) (t : XNodeType) (j : NodeId) : NTest → Prop
  | name n => (h.node j).ntype = principal t ∧ (h.node j).name = n
  | any => (h.node j).ntype = principal t
  | inPrefix p => (h.node j).ntype = principal t ∧ ∃ l, (h.node j).name = p ++ S ":" ++ l
  | anyNode => True
  | dots => True
  | text => (h.node j).ntype = .text
  | comment => (h.node j).ntype = .comment
  | pi n => (h.node j).ntype = .instruction ∧ ∀ m, n = some m → (h.node j).name = m
  | element n => (h.node j).ntype = .element ∧ ∀ m, n = some m → (h.node j).name = m
  | elementOf n T q => (h.node j).ntype = .element ∧ (∀ m, n = some m → (h.node j).name = m) ∧ T ∈ [S "xs:untyped", S "xs:anyType"] ∧
      (q = false → h.attributeValue j (S "xsi:nil") ≠ some (S "true"))
  | attr n => (h.node j).ntype = .attribute ∧ ∀ m, n = some m → (h.node j).name = m
  | attrOf n T => (h.node j).ntype = .attribute ∧ (∀ m, n = some m → (h.node j).name = m) ∧
      T ∈ [S "xs:untypedAtomic", S "xs:anyAtomicType", S "xs:anySimpleType", S "xs:anyType"]

end NTest

/-- The step `axis::test`. -/
def stepOf (t : XNodeType) (T : NTest) : XNode := .node t T.label T.tree .nil

end Amxml.Spec
