import Verif.Spec.Tree

/-!
# Elements with nothing but empty text (specification)
-/

namespace Amxml.Spec

/-- Every tree of the forest is an empty text. -/
def Forest.blank : Forest Content → Bool
  | .nil => true
  | .cons c _ r => decide (c.ntype = .text ∧ c.value = []) && r.blank

/-- The forest in which elements with nothing but empty text in them have nothing in them. -/
def Forest.settle : Forest Content → Forest Content
  | .nil => .nil
  | .cons c k r => .cons c (if k.blank then .nil else k.settle) r.settle

/-- The node is an element that has children, all of them empty texts. -/
def Hollow (h : Heap) (i : NodeId) : Prop :=
  (h.node i).ntype = .element ∧ (h.node i).children ≠ [] ∧ ∀ c ∈ (h.node i).children, (h.node c).ntype = .text ∧ (h.node c).value = []

end Amxml.Spec
