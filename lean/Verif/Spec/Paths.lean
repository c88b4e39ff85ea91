import Verif.Spec.Steps
import Verif.Spec.Lexical
import Verif.Spec.XFunc
import Verif.Model.F64

/-!
# Location paths (specification)

The abbreviated and unabbreviated location paths of XPath, as texts and as sets of nodes: `a/b`, `/a//b[2]`, `//a[@k='v']/../text()`,
`ancestor::*[last()]`. Nothing of the lexer, the parser or the evaluator is used here.
-/

namespace Amxml.Spec

/-- The text is an `NCName`. -/
def IsNCName (n : Str) : Prop := (∃ c ∈ n.head?, NameStartC c) ∧ ∀ c ∈ n, NameC c

instance (n : Str) : Decidable (IsNCName n) := by unfold IsNCName; infer_instance

/-- Node tests, as they are written. -/
inductive PTest where
  /-- `n` -/
  | name (n : Str)
  /-- `p:n` -/
  | qname (p n : Str)
  /-- `*` -/
  | any
  /-- `p:*` -/
  | inPrefix (p : Str)
  /-- `node()` -/
  | node
  /-- `text()` -/
  | text
  /-- `comment()` -/
  | comment
  /-- `processing-instruction()` -/
  | pi
  /-- `element()` -/
  | element

namespace PTest

/-- The text of a test. -/
def text' : PTest → Str
  | name n => n
  | qname p n => p ++ ':' :: n
  | any => S "*"
  | inPrefix p => p ++ S ":*"
  | node => S "node()"
  | text => S "text()"
  | comment => S "comment()"
  | pi => S "processing-instruction()"
  | element => S "element()"

/-- The names in the test are names. -/
def Ok : PTest → Prop
  | name n => IsNCName n
  | qname p n => IsNCName p ∧ IsNCName n
  | inPrefix p => IsNCName p
  | _ => True

/-- The test among the node tests of `Spec/Steps.lean`, which says what passes it. -/
def toTest : PTest → NTest
  | name n => .name n
  | qname p n => .name (p ++ ':' :: n)
  | any => .any
  | inPrefix p => .inPrefix p
  | node => .anyNode
  | text => .text
  | comment => .comment
  | pi => .pi none
  | element => .element none

end PTest

/-- An axis with a test, as it is written. -/
inductive Core where
  /-- `T` -/
  | child (T : PTest)
  /-- `@T` -/
  | attr (T : PTest)
  /-- `child::T`, `ancestor-or-self::T`, … -/
  | along (w : Str) (T : PTest)

/-- The axes by name, the reverse axes marked. (The namespace axis is not supported.) -/
def axisTable : List (Str × XNodeType × Bool) := [
  (S "child", .axisChild, false), (S "descendant", .axisDescendant, false), (S "attribute", .axisAttribute, false),
  (S "self", .axisSelf, false), (S "descendant-or-self", .axisDescendantOrSelf, false),
  (S "following-sibling", .axisFollowingSibling, false), (S "following", .axisFollowing, false),
  (S "parent", .axisParent, true), (S "ancestor", .axisAncestor, true), (S "preceding-sibling", .axisPrecedingSibling, true),
  (S "preceding", .axisPreceding, true), (S "ancestor-or-self", .axisAncestorOrSelf, true)]

namespace Core

def text : Core → Str
  | child T => T.text'
  | attr T => '@' :: T.text'
  | along w T => w ++ S "::" ++ T.text'

def test : Core → PTest
  | child T | attr T | along _ T => T

/-- The axis and whether it is a reverse axis. -/
def axis : Core → XNodeType × Bool
  | child _ => (.axisChild, false)
  | attr _ => (.axisAttribute, false)
  | along w _ => ((axisTable.find? (·.1 == w)).map (·.2)).getD (.axisSelf, false)

def Ok : Core → Prop
  | child T | attr T => T.Ok
  | along w T => w ∈ axisTable.map (·.1) ∧ T.Ok

/-- The node `j` is on the axis from `i` and passes the test. -/
def Reaches (h : Heap) (r : NodeId) (F : Forest NodeId) (c : Core) (i j : NodeId) : Prop :=
  OnAxis h r F c.axis.1 i j ∧ c.test.toTest.Passes h c.axis.1 j

end Core

/-- Predicates, as they are written. -/
inductive Pred where
  /-- `[12]` -/
  | nth (n : Nat)
  /-- `[last()]` -/
  | last
  /-- `[T='v']`, `[@T='v']`, `[axis::T='v']` -/
  | eq (c : Core) (v : Str)
  /-- `[.='v']` -/
  | selfEq (v : Str)

/-- What atomization (`fn:data`, see C71) makes of the node is the string `v`. -/
def DataIs (h : Heap) (j : NodeId) (v : Str) : Prop := CallGives h (S "fn:data") [[.node j]] [.string v]

namespace Pred

/-- The text, with an apostrophe in `v` doubled. -/
def text : Pred → Str
  | nth n => '[' :: F64.natStr n ++ S "]"
  | last => S "[last()]"
  | eq c v => '[' :: c.text ++ '=' :: quoted '\'' v ++ S "]"
  | selfEq v => S "[.=" ++ quoted '\'' v ++ S "]"

def Ok : Pred → Prop
  | nth n => n < 2 ^ 63
  | last => True
  | eq c v => c.Ok ∧ '\x00' ∉ v
  | selfEq v => '\x00' ∉ v

open Classical in
/-- What the predicate leaves of a list of nodes in document order; along a reverse axis positions are counted from its end. -/
noncomputable def keep (h : Heap) (r : NodeId) (F : Forest NodeId) (rev : Bool) (l : List NodeId) : Pred → List NodeId
  | nth 0 => []
  | nth (n + 1) => ((if rev then l.reverse else l)[n]?).toList
  | last => (if rev then l.head? else l.getLast?).toList
  | eq c v => l.filter fun j => ∃ k, c.Reaches h r F j k ∧ DataIs h k v
  | selfEq v => l.filter fun j => DataIs h j v

end Pred

/-- A step, as it is written. -/
inductive Seg where
  /-- An axis, a test and predicates. -/
  | step (c : Core) (ps : List Pred)
  /-- `..` -/
  | parent
  /-- `.` -/
  | self

namespace Seg

def text : Seg → Str
  | step c ps => c.text ++ ps.flatMap Pred.text
  | parent => S ".."
  | self => S "."

def Ok : Seg → Prop
  | step c ps => c.Ok ∧ ∀ p ∈ ps, p.Ok
  | _ => True

open Classical in
/-- The nodes the step selects from the node `i`: those of the document, in document order, that are on the axis and pass the test,
filtered by the predicates from left to right. -/
noncomputable def nodes (h : Heap) (r : NodeId) (F : Forest NodeId) (i : NodeId) : Seg → List NodeId
  | step c ps => ps.foldl (fun l p => p.keep h r F c.axis.2 l) ((docIds h (.cons r F .nil)).filter fun j => c.Reaches h r F i j)
  | parent => (h.node i).parent.toList
  | self => [i]

end Seg

/-- Steps separated by `/` and `//`. -/
inductive Rel where
  | one (s : Seg)
  /-- `s/q`, or `s//q` if `deep` -/
  | more (s : Seg) (deep : Bool) (q : Rel)

/-- What separates steps. -/
def slashes (deep : Bool) : Str := if deep then S "//" else S "/"

/-- The step from a node to the next one that `/` and `//` allow: `/` stays at the node, `//` also goes to any node below it. -/
def Between (h : Heap) (F : Forest NodeId) (deep : Bool) (i j : NodeId) : Prop :=
  j = i ∨ (deep = true ∧ j ∈ F.toList ∧ Ancestor h i j)

namespace Rel

def text : Rel → Str
  | one s => s.text
  | more s d q => s.text ++ slashes d ++ q.text

def Ok : Rel → Prop
  | one s => s.Ok
  | more s _ q => s.Ok ∧ q.Ok

/-- The path leads from the node `i` to the node `j`. -/
def Leads (h : Heap) (r : NodeId) (F : Forest NodeId) : Rel → NodeId → NodeId → Prop
  | one s, i, j => j ∈ s.nodes h r F i
  | more s d q, i, j => ∃ k ∈ s.nodes h r F i, ∃ k', Between h F d k k' ∧ q.Leads h r F k' j

end Rel

/-- Location paths. -/
inductive LPath where
  /-- `/` -/
  | root
  /-- `a/b` -/
  | rel (q : Rel)
  /-- `/a/b` or, if `deep`, `//a/b` -/
  | abs (deep : Bool) (q : Rel)

namespace LPath

def text : LPath → Str
  | root => S "/"
  | rel q => q.text
  | abs d q => slashes d ++ q.text

def Ok : LPath → Prop
  | root => True
  | rel q | abs _ q => q.Ok

/-- The path leads from the node `i` of the document to the node `j`. -/
def Leads (h : Heap) (r : NodeId) (F : Forest NodeId) : LPath → NodeId → NodeId → Prop
  | root, _, j => j = r
  | rel q, i, j => q.Leads h r F i j
  | abs d q, _, j => ∃ k, Between h F d r k ∧ q.Leads h r F k j

open Classical in
/-- The nodes the path selects from the node `i`: those it leads to, in document order. -/
noncomputable def nodes (h : Heap) (r : NodeId) (F : Forest NodeId) (p : LPath) (i : NodeId) : List NodeId :=
  (docIds h (.cons r F .nil)).filter fun j => p.Leads h r F i j

end LPath

end Amxml.Spec
