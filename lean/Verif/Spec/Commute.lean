import Verif.Spec.Undo
import Verif.Spec.Elsewhere

/-!
# Edits that do not interfere (specification)
-/

namespace Amxml.Spec

/-- The edits that bring no other nodes into the document. -/
def Edit.Simple : Edit → Prop
  | .setAttribute .. | .deleteAttribute .. | .deleteChild .. => True
  | _ => False

/-- The edits do not interfere: if both are about attributes of one node, then about attributes of different names, and only one of them sets its attribute
(of two new attributes the one that is set first comes first). -/
def Edit.Apart : Edit → Edit → Prop
  | .setAttribute i _ _, .setAttribute j _ _ => i ≠ j
  | .setAttribute i n _, .deleteAttribute j m => i = j → n ≠ m
  | .deleteAttribute i n, .setAttribute j m _ => i = j → n ≠ m
  | _, _ => True

/-- All edits, one after the other. -/
def applyAll (h : Heap) (es : List Edit) : Heap := es.foldl Edit.apply h

end Amxml.Spec
