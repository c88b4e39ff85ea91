import Verif.Lemmas.Swap
import Verif.Props.XOper

/-!
# Exchanging the operands (C106)
-/

namespace Amxml
open Spec

/-- **C106**: an operator and its converse on exchanged operands have the same value. -/
theorem C106_value (h : Heap) {t t' : XNodeType} (ht : (t, t') ∈ swaps) (A B v : XSeq) : OpGives h t A B v ↔ OpGives h t' B A v := by
  obtain ⟨f, g, hf, hg, e⟩ := Swap.op_swap h ht
  rw [opGives_iff hf, opGives_iff hg, e]

/-- **C106**: and the same error. -/
theorem C106_error (h : Heap) {t t' : XNodeType} (ht : (t, t') ∈ swaps) (A B : XSeq) (e : XErr) :
    OpFails h t A B e ↔ OpFails h t' B A e := by
  obtain ⟨f, g, hf, hg, k⟩ := Swap.op_swap h ht
  rw [opFails_iff hf, opFails_iff hg, k]

/-- `2 + 3.5` is `5.5`, so `3.5 + 2` is. -/
example (h : Heap) : OpGives h .operatorAdd [.decimal (atof (S "3.5"))] [.integer 2] [.decimal (atof (S "5.5"))] :=
  (C106_value h (t := .operatorAdd) (by decide) _ _ _).1
    ((opGives_iff rfl).2 (congrArg (fun d => Except.ok [XItem.decimal d])
      (show F64.ofInt 2 + atof (S "3.5") = atof (S "5.5") by decide +kernel)))

/-- `'a' lt 1` is a type error, so `1 gt 'a'` is. -/
example (h : Heap) : OpFails h .operatorValueGT [.integer 1] [.string (S "a")] .typeError :=
  (C106_error h (t := .operatorValueLT) (by decide) _ _ _).1
    ((opFails_iff rfl).2 ⟨rfl, by decide⟩)

end Amxml
