import Verif.Model.Eval
import Verif.Spec.Edit

/-!
# Editing the nodes that a query selects (specification)

`each_node(q, f)` with a function `f` that edits the node it is given.
-/

namespace Amxml.Spec

/-- `|n| if let Some(p) = n.parent() { p.delete_child(&n) }` -/
def deleteNode (h : Heap) (i : NodeId) : Heap :=
  match (h.node i).parent with
  | some p => h.deleteChild p i
  | none => h

/-- The forest without the trees whose root is in `d`, wherever they stand. -/
def Forest.prune {α : Type} (d : α → Bool) : Forest α → Forest α
  | .nil => .nil
  | .cons a k r => if d a then r.prune d else .cons a (k.prune d) (r.prune d)

/-- The attributes after an attribute has been set: its first occurrence gets the value, at its place; if there is none it comes last. -/
def setIn (n v : Str) : List (Str × Str) → List (Str × Str)
  | [] => [(n, v)]
  | a :: as => if a.1 = n then (n, v) :: as else a :: setIn n v as

/-- The content of a node after `set_attribute(n, v)`. -/
def Content.setAttr (n v : Str) (c : Content) : Content := { c with attrs := setIn n v c.attrs }

/-- The content of a node after `delete_attribute(n)`, where no attribute is repeated. -/
def Content.dropAttr (n : Str) (c : Content) : Content := { c with attrs := c.attrs.filter fun a => a.1 ≠ n }

end Amxml.Spec
