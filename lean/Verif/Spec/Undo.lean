import Verif.Spec.Same
import Verif.Spec.EditText
import Verif.Model.Display
import Verif.Model.Eval

/-!
# Taking an edit back (specification)

Seen from a document with root `r`, a state is the old one again if nothing that can be asked about the document tells the two apart.
-/

namespace Amxml.Spec

/-- Nothing tells the states apart: the document is the same tree of the same nodes, every query asked at any of its nodes has the outcome it had - the
same error, or a value with the very same nodes and the same text -, and `to_string()`, `to_pretty_string()` and `inner_xml()` return what they
returned. -/
structure Restored (h h' : Heap) (r : NodeId) (F : Forest NodeId) : Prop where
  tree : DocTree h' r F
  nodes : docIds h' (.cons r F .nil) = docIds h (.cons r F .nil)
  answers : ∀ i ∈ docIds h (.cons r F .nil), ∀ n q, evalXPath h' n i q = evalXPath h n i q ∧
    (evalXPath h' n i q).map (displaySeq h') = (evalXPath h n i q).map (displaySeq h)
  texts : ∀ i ∈ r :: F.toList, ∀ n, h'.toString n i = h.toString n i ∧ h'.toPrettyString n i = h.toPrettyString n i ∧ h'.innerXml n i = h.innerXml n i

/-- Nothing but the identity of nodes tells the states apart: as `Restored`, but the nodes in the value of a query are those at the same places. -/
structure Reproduced (h h' : Heap) (r : NodeId) (F : Forest NodeId) : Prop where
  tree : DocTree h' r F
  answers : ∀ i j, SamePlace h r F h' r F i j → ∀ n q, SameOutcome (SameSeq (SamePlace h r F h' r F)) (evalXPath h n i q) (evalXPath h' n j q) ∧
    (evalXPath h n i q).map (displaySeq h) = (evalXPath h' n j q).map (displaySeq h')
  texts : ∀ i ∈ r :: F.toList, ∀ n, h'.toString n i = h.toString n i ∧ h'.toPrettyString n i = h.toPrettyString n i ∧ h'.innerXml n i = h.innerXml n i

end Amxml.Spec
