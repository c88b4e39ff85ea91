import Verif.Props.XOper
import Verif.Props.XNodeFn

/-!
What `castable as` and `cast as` ask about a node (C48): the first looks at its string value, the second at its typed value.
-/

namespace Amxml
open Spec

private theorem call_value {h : Heap} {c : XSeq} {env : Env} {x : XNode} {f : Str} {i : NodeId} {v : XSeq}
    (hx : Value h c x env [.node i]) (hg : CallGives h f [[.node i]] v) : Value h c (callOf f [x]) env v :=
  hg c env [x] (.cons hx .nil)

/-- **C48**, what the code does for every node: `x castable as T` says whether `fn:string(x) cast as T` has a value, `x cast as T` has the
value of `fn:data(x) cast as T`. -/
theorem C48_exact (h : Heap) (i : NodeId) (T : Str) (c : XSeq) (env : Env) (x : XNode) (hx : Value h c x env [.node i]) :
    (Value h c (typed .operatorCastableAs x T) env [.boolean true] ↔
      ∃ v, Value h c (typed .operatorCastAs (callOf (S "fn:string") [x]) T) env v) ∧
    ∀ v, Value h c (typed .operatorCastAs x T) env v ↔ Value h c (typed .operatorCastAs (callOf (S "fn:data") [x]) T) env v := by
  have hs := call_value hx (node_text h i).1
  have hd := call_value hx (node_text h i).2
  have h1 := castable_run T hx
  have h2 := cast_run T hs
  have h3 := cast_run T hx
  have h4 := cast_run T hd
  constructor
  · have e : XSeq.castableAs h [.node i] T = (match (XItem.string (stringValue h i)).castAs h (XSeq.trimQ T) with | .ok _ => true | .error _ => false) := by
      show XItem.castableAs h (.node i) (XSeq.trimQ T) = _
      unfold XItem.castableAs
      rw [castAs_node]
      cases (XItem.string (stringValue h i)).castAs h (XSeq.trimQ T) <;> rfl
    have e2 : XSeq.castAs h [.string (stringValue h i)] T = (match (XItem.string (stringValue h i)).castAs h (XSeq.trimQ T) with | .ok r => .ok [r] | .error _ => .error .typeError) := rfl
    rw [e] at h1
    rw [e2] at h2
    revert h1 h2
    cases (XItem.string (stringValue h i)).castAs h (XSeq.trimQ T) with
    | ok r => exact fun h1 h2 => ⟨fun _ => ⟨[r], h2⟩, fun _ => h1⟩
    | error z =>
      refine fun h1 h2 => ⟨fun k => ?_, fun ⟨v, k⟩ => ?_⟩
      · cases h1.symm.trans k
      · cases h2.symm.trans k
  · intro v
    rw [Value, Value, h3, h4]
    rfl

end Amxml
