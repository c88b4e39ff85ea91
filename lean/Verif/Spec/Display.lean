import Verif.Spec.Numbers

/-!
# Vocabulary for the texts of values (`Sequence::to_string`)
-/

namespace Amxml.Spec

/-- Values of which the text says everything: no nodes and no functions, and no quote characters inside strings. -/
inductive Plain : XItem → Prop
  | string {s : Str} : '"' ∉ s → Plain (.string s)
  | integer {n : Int} : Plain (.integer n)
  | decimal {d : F64} : Plain (.decimal d)
  | double {d : F64} : Plain (.double d)
  | boolean {b : Bool} : Plain (.boolean b)
  | map {e : List (XItem × XSeq)} : (∀ p ∈ e, Plain p.1) → (∀ p ∈ e, ∀ x ∈ p.2, Plain x) → Plain (.map e)
  | array {a : List XSeq} : (∀ m ∈ a, ∀ x ∈ m, Plain x) → Plain (.array a)

/-- Values for which XPath has literals: strings (without quote characters and NUL), numbers (finite; the least integer of 64 bits excepted), and arrays
of sequences of these. -/
inductive Literal : XItem → Prop
  | string {s : Str} : '"' ∉ s → '\x00' ∉ s → Literal (.string s)
  | integer {n : Int} : -2 ^ 63 < n → n < 2 ^ 63 → Literal (.integer n)
  | decimal {d : F64} {q : ℚ} : F64.val d = some q → Literal (.decimal d)
  | double {d : F64} {q : ℚ} : F64.val d = some q → Literal (.double d)
  | array {a : List XSeq} : (∀ m ∈ a, ∀ x ∈ m, Literal x) → Literal (.array a)

end Amxml.Spec
