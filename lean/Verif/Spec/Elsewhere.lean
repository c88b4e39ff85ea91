import Verif.Spec.Edit

/-!
# What a program does elsewhere (specification)

A program holds many documents at a time. Seen from the document with root `r`, everything it does elsewhere is: parsing texts into new
documents, editing nodes that do not belong to the document (whose root is not `r`; the nodes handed over as arguments may belong to it),
and asking for the document order of nodes, of this document or of others.
-/

namespace Amxml.Spec

/-- The node an editing function is called on. -/
def Edit.self : Edit → NodeId
  | .setAttribute i _ _ | .deleteAttribute i _ | .appendChild i _ | .insertPrev i _ | .insertNext i _ | .deleteChild i _ | .replaceWith i _ => i

/-- From the state `h` the program gets to the state `h'` without an edit of the document with root `r`. -/
inductive Elsewhere (r : NodeId) (h : Heap) : Heap → Prop where
  | refl : Elsewhere r h h
  | parse {g g' : Heap} {xml : Str} {r' : NodeId} : Elsewhere r h g → newDocument g xml = some (.ok (g', r')) → Elsewhere r h g'
  | edit {g : Heap} (e : Edit) : Elsewhere r h g → e.Valid g → g.root e.self ≠ r → Elsewhere r h (e.apply g)
  | query {g g' : Heap} {r' : NodeId} {F' : Forest NodeId} {i : NodeId} {fuel : Nat} {o : Int} : Elsewhere r h g →
      DocTree g r' F' → i ∈ docIds g (.cons r' F' .nil) → g.documentOrder fuel i = some (o, g') → Elsewhere r h g'

end Amxml.Spec
