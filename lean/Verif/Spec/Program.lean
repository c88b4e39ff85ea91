import Verif.Model.Program
import Verif.Spec.Tree

/-!
# Errors and the command line program (specification)
-/

namespace Amxml.Spec

/-- What the description of an error of a kind begins with. -/
def kindPrefix : ErrKind → String
  | .cantOccur => "Can't Occur: problem in amxml library:"
  | .unimplemented => "Feature not inplemented yet:"
  | .xmlSyntaxError => "Syntax Error in XML:"
  | .xpathSyntaxError => "Syntax Error in XPath:"
  | .staticError => "Static Error:"
  | .dynamicError => "Dynamic Error:"
  | .typeError => "Type Error:"

/-- `p` is the pretty text of the document `r`: what `to_pretty_string()` gives, with enough stack. -/
def PrettyText (h : Heap) (r : NodeId) (p : Str) : Prop := ∃ n, ∀ m ≥ n, h.toPrettyString m r = some p

end Amxml.Spec
