import Verif.Spec.XEval
import Verif.Spec.XCompare

/-!
# Vocabulary for operators

The meaning of an operator is stated for the expression that applies it, whatever its operands are: only their values count.
-/

namespace Amxml.Spec

/-- Whatever expressions are the operands of the operator `t`: if their values are `A` and `B` then the expression has the value `v`. -/
def OpGives (h : Heap) (t : XNodeType) (A B v : XSeq) : Prop :=
  ∀ c env n a b, Value h c a env A → Value h c b env B → Value h c (.node t n a b) env v

/-- The same for an expression that fails. -/
def OpFails (h : Heap) (t : XNodeType) (A B : XSeq) (e : XErr) : Prop :=
  ∀ c env n a b, Value h c a env A → Value h c b env B → Fails h c (.node t n a b) env e

/-- The general comparison `=`, `!=`, … -/
def Cmp.general : Cmp → XNodeType
  | .eq => .operatorGeneralEQ | .ne => .operatorGeneralNE | .lt => .operatorGeneralLT
  | .le => .operatorGeneralLE | .gt => .operatorGeneralGT | .ge => .operatorGeneralGE

/-- The value comparison `eq`, `ne`, … -/
def Cmp.value : Cmp → XNodeType
  | .eq => .operatorValueEQ | .ne => .operatorValueNE | .lt => .operatorValueLT
  | .le => .operatorValueLE | .gt => .operatorValueGT | .ge => .operatorValueGE

/-- The prefix operators. -/
def UnaryGives (h : Heap) (t : XNodeType) (A v : XSeq) : Prop :=
  ∀ c env n l a, Value h c a env A → Value h c (.node t n l a) env v

/-- The prefix operators, failing. -/
def UnaryFails (h : Heap) (t : XNodeType) (A : XSeq) (e : XErr) : Prop :=
  ∀ c env n l a, Value h c a env A → Fails h c (.node t n l a) env e

/-- The expression `x cast as T`, `x castable as T` with a type name. -/
def typed (t : XNodeType) (x : XNode) (T : Str) : XNode :=
  .node t [] x (.node .singleType [] (.node .typeName T .nil .nil) .nil)

/-- The call `f(a₁, …, aₙ)` of a function item, a map or an array. -/
def applied (f : XNode) (args : XNode) : XNode := .node .applyArgument [] f (.node .argumentListTop [] args .nil)

end Amxml.Spec
