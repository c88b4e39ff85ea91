import Verif.Model.Dom
import Verif.Spec.Xml

/-!
# Specification vocabulary for document trees

`Forest α` is a list of ordered trees with labels in `α`. A document in the heap is described by the forest of the ids
of its nodes (attributes apart), its abstract content by the forest of the nodes' contents.
-/

namespace Amxml.Spec

/-- A list of ordered trees: the first tree has root label `a` and the trees `kids` below it; `rest` follows. -/
inductive Forest (α : Type) where
  | nil
  | cons (a : α) (kids rest : Forest α)
  deriving Repr, DecidableEq

namespace Forest
variable {α β : Type}

/-- The labels of the roots. -/
def roots : Forest α → List α
  | nil => []
  | cons a _ r => a :: r.roots

/-- All labels, each before those below it, left to right. -/
def toList : Forest α → List α
  | nil => []
  | cons a k r => a :: (k.toList ++ r.toList)

def map (f : α → β) : Forest α → Forest β
  | nil => nil
  | cons a k r => cons (f a) (k.map f) (r.map f)

def append : Forest α → Forest α → Forest α
  | nil, g => g
  | cons a k r, g => cons a k (r.append g)

instance : Append (Forest α) := ⟨append⟩

end Forest

/-- Links of the nodes of a forest in the heap: every node has the parent `p` (`none` for a document root), its
attributes have the node as their parent, and its children are, in order, the roots of the forest below it. -/
def Linked (h : Heap) (p : Option NodeId) : Forest NodeId → Prop
  | .nil => True
  | .cons i k r =>
    (h.node i).parent = p ∧ (∀ a ∈ (h.node i).attributes, (h.node a).parent = some i) ∧
    (h.node i).children = k.roots ∧ Linked h (some i) k ∧ Linked h p r

/-- All nodes of a forest in document order: a node, then its attributes in order, then the trees below it. -/
def docIds (h : Heap) : Forest NodeId → List NodeId
  | .nil => []
  | .cons i k r => i :: ((h.node i).attributes ++ (docIds h k ++ docIds h r))

/-- The heap holds a well-linked document with root `r`, and `F` is the forest of ids below the root: every link is
mutual, no node occurs twice, and all nodes are allocated. -/
structure DocTree (h : Heap) (r : NodeId) (F : Forest NodeId) : Prop where
  linked : Linked h none (.cons r F .nil)
  nodup : (docIds h (.cons r F .nil)).Nodup
  bound : ∀ i ∈ docIds h (.cons r F .nil), i < h.size

/-- The content of a node: type, name, value, and names and values of its attributes in order. -/
structure Content where
  ntype : NodeType
  name : Str
  value : Str
  attrs : List (Str × Str)
  deriving Repr, DecidableEq

/-- The content of a node in the heap. -/
def contentOf (h : Heap) (i : NodeId) : Content :=
  { ntype := (h.node i).ntype, name := (h.node i).name, value := (h.node i).value,
    attrs := (h.node i).attributes.map fun a => ((h.node a).name, (h.node a).value) }

/-- The shape of a node of a parsed document: only elements have children and attributes; attribute nodes have type
Attribute and nothing below them. -/
structure TypedNode (h : Heap) (i : NodeId) : Prop where
  type : (h.node i).ntype ≠ .documentRoot ∧ (h.node i).ntype ≠ .attribute ∧ (h.node i).ntype ≠ .directive
  leaf : (h.node i).ntype ≠ .element → (h.node i).children = [] ∧ (h.node i).attributes = []
  attr : ∀ a ∈ (h.node i).attributes, (h.node a).ntype = .attribute ∧ (h.node a).children = [] ∧
    (h.node a).attributes = []

/-- A document as the parser builds it. -/
structure ParsedDoc (h : Heap) (r : NodeId) (F : Forest NodeId) : Prop extends DocTree h r F where
  root_type : (h.node r).ntype = .documentRoot
  root_attrs : (h.node r).attributes = []
  typed : ∀ i ∈ F.toList, TypedNode h i

/-- Parents are allocated before their children; unallocated nodes are blank. Holds in the empty heap and is
preserved by every operation. -/
structure HeapWF (h : Heap) : Prop where
  parent_lt : ∀ i p, (h.node i).parent = some p → p < i
  fresh : ∀ i, h.size ≤ i → (h.node i).parent = none ∧ (h.node i).children = [] ∧ (h.node i).attributes = []
  closed : ∀ i j, j ∈ (h.node i).children ∨ j ∈ (h.node i).attributes → j < h.size

/-! ## documents that can be written and read back -/

/-- A character allowed in content that survives writing and reading: not U+0000 and not a carriage return. -/
def CleanStr (s : Str) : Prop := '\x00' ∉ s ∧ '\r' ∉ s

/-- Content of a node that the serialiser writes faithfully: XML names; clean values; comments without `-->`;
instructions without `?>` whose data does not start with white space. -/
def Content.Writable (c : Content) : Prop :=
  match c.ntype with
  | .element => IsName c.name ∧ c.value = [] ∧ ∀ a ∈ c.attrs, IsName a.1 ∧ CleanStr a.2
  | .text => c.name = [] ∧ c.attrs = [] ∧ CleanStr c.value
  | .comment => c.name = [] ∧ c.attrs = [] ∧ CleanStr c.value ∧ NoSub (S "-->") c.value
  | .xmlDecl => c.name = S "xml" ∧ c.attrs = [] ∧ CleanStr c.value ∧ NoSub (S "?>") c.value ∧
      ∀ x, c.value.head? = some x → isSpace x = false
  | .instruction => (IsName c.name ∨ c.name = []) ∧ c.name ≠ S "xml" ∧ c.attrs = [] ∧ CleanStr c.value ∧
      NoSub (S "?>") c.value ∧ ∀ x, c.value.head? = some x → isSpace x = false
  | _ => False

/-- All nodes of the forest are writable, and only elements have something below them. -/
def WritableForest : Forest Content → Prop
  | .nil => True
  | .cons c k r => c.Writable ∧ (c.ntype ≠ .element → k = .nil) ∧ WritableForest k ∧ WritableForest r

/-- Text nodes are non-empty and never adjacent. -/
def NormalForest : Forest Content → Prop
  | .nil => True
  | .cons c k r => (c.ntype = .text → c.value ≠ [] ∧ ∀ d, r.roots.head? = some d → d.ntype ≠ .text) ∧
      NormalForest k ∧ NormalForest r

/-- Text nodes are non-empty. -/
def NoEmptyText (F : Forest Content) : Prop := ∀ c ∈ F.toList, c.ntype = .text → c.value ≠ []

/-- A text node in front of a forest, if the text is not empty. -/
def consText (u : Str) (F : Forest Content) : Forest Content :=
  if u = [] then F else .cons ⟨.text, [], u, []⟩ .nil F

/-- The forest with adjacent text nodes (including a pending text `u` to the left) joined and empty ones dropped. -/
def joinTexts : Str → Forest Content → Forest Content
  | u, .nil => consText u .nil
  | u, .cons c k r =>
    if c.ntype = .text then joinTexts (u ++ c.value) r
    else consText u (.cons c (joinTexts [] k) (joinTexts [] r))

end Amxml.Spec
