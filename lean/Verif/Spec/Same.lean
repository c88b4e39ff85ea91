import Mathlib.Data.List.Forall2
import Verif.Model.XNode
import Verif.Spec.Tree

/-!
# The same document twice (specification)

Two documents - in one state of the program or in two, built in whatever way - are the same up to the identity of their nodes if
their trees of contents are equal. The nodes at the same place in document order correspond; values correspond if they differ only
in such nodes.
-/

namespace Amxml.Spec

/-- The first components are related by `P`, the second by `Q`. -/
inductive Both {α β γ δ : Type} (P : α → β → Prop) (Q : γ → δ → Prop) : α × γ → β × δ → Prop where
  | mk {a b c d} : P a b → Q c d → Both P Q (a, c) (b, d)

/-- Items that are equal but for nodes, which correspond by `R`. -/
inductive SameItem (R : NodeId → NodeId → Prop) : XItem → XItem → Prop where
  | fn (x : XNode) : SameItem R (.fn x) (.fn x)
  | map {m m'} : List.Forall₂ (Both (SameItem R) (List.Forall₂ (SameItem R))) m m' → SameItem R (.map m) (.map m')
  | array {a a'} : List.Forall₂ (List.Forall₂ (SameItem R)) a a' → SameItem R (.array a) (.array a')
  | node {i j} : R i j → SameItem R (.node i) (.node j)
  | string (s : Str) : SameItem R (.string s) (.string s)
  | integer (n : Int) : SameItem R (.integer n) (.integer n)
  | decimal (d : F64) : SameItem R (.decimal d) (.decimal d)
  | double (d : F64) : SameItem R (.double d) (.double d)
  | boolean (b : Bool) : SameItem R (.boolean b) (.boolean b)

/-- Sequences of the same length whose items are the same, one by one. -/
abbrev SameSeq (R : NodeId → NodeId → Prop) : XSeq → XSeq → Prop := List.Forall₂ (SameItem R)

/-- Both fail with the same error, or both have values, related by `P`. -/
inductive SameOutcome {α β : Type} (P : α → β → Prop) : Except XErr α → Except XErr β → Prop where
  | ok {a b} : P a b → SameOutcome P (.ok a) (.ok b)
  | error (e : XErr) : SameOutcome P (.error e) (.error e)

/-- Attribute nodes carry their name and value and nothing else. -/
def AttrLeaves (h : Heap) (F : Forest NodeId) : Prop :=
  ∀ i ∈ F.toList, ∀ a ∈ (h.node i).attributes, (h.node a).ntype = .attribute ∧ (h.node a).children = [] ∧ (h.node a).attributes = []

/-- The node `i` of the document with root `r` and the node `j` of the one with root `r'` are at the same place in document order. -/
def SamePlace (h : Heap) (r : NodeId) (F : Forest NodeId) (h' : Heap) (r' : NodeId) (F' : Forest NodeId) (i j : NodeId) : Prop :=
  ∃ k : Nat, (docIds h (.cons r F .nil))[k]? = some i ∧ (docIds h' (.cons r' F' .nil))[k]? = some j

end Amxml.Spec
