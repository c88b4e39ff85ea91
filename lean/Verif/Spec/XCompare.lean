import Verif.Model.XItem

/-!
# Specification of comparisons

The relations `=`, `!=`, `<`, `<=`, `>`, `>=` on atomic items, stated directly: integers by value, other numbers as
IEEE doubles, strings by code points, booleans with false before true. Items of different kinds are not comparable.
-/

namespace Amxml.Spec

/-- The six comparison operators. -/
inductive Cmp where
  | eq | ne | lt | le | gt | ge
  deriving DecidableEq, Repr

/-- The operator with its operands exchanged. -/
def Cmp.swap : Cmp → Cmp
  | .eq => .eq | .ne => .ne | .lt => .gt | .le => .ge | .gt => .lt | .ge => .le

/-- The operator as a relation, given a strict order and an equality. -/
def Cmp.rel {α : Type} (lt eq : α → α → Prop) : Cmp → α → α → Prop
  | .eq, a, b => eq a b
  | .ne, a, b => ¬ eq a b
  | .lt, a, b => lt a b
  | .le, a, b => lt a b ∨ eq a b
  | .gt, a, b => lt b a
  | .ge, a, b => lt b a ∨ eq a b

/-- A number as an `f64`; an integer is converted by writing it in decimal and reading it back. -/
def asDouble : XItem → Option F64
  | .integer n => some (atof (F64.intStr n ++ S ".0"))
  | .decimal d => some d
  | .double d => some d
  | _ => none

/-- Strings are ordered by the first code point in which they differ, a proper prefix being smaller. -/
def StrBefore (a b : Str) : Prop :=
  (∃ c t, b = a ++ c :: t) ∨ ∃ p x y s t, a = p ++ x :: s ∧ b = p ++ y :: t ∧ x.toNat < y.toNat

/-- The comparison of two atomic items. -/
def Holds (op : Cmp) : XItem → XItem → Prop
  | .integer a, .integer b => op.rel (· < ·) (· = ·) a b
  | .string a, .string b => op.rel StrBefore (· = ·) a b
  | .boolean a, .boolean b => op.rel (fun a b => a = false ∧ b = true) (· = ·) a b
  | x, y => ∃ a b, asDouble x = some a ∧ asDouble y = some b ∧
      op.rel (fun a b => F64.lt a b = true) (fun a b => F64.eq a b = true) a b

/-- Both items are numbers, not both integers, and one of them is NaN. -/
def NaNPair (x y : XItem) : Prop :=
  (∀ a b, ¬ (x = .integer a ∧ y = .integer b)) ∧
  ∃ a b, asDouble x = some a ∧ asDouble y = some b ∧ (F64.isNan a = true ∨ F64.isNan b = true)

/-- Items that can be compared: two numbers, two strings or two booleans. -/
def Comparable (x y : XItem) : Prop :=
  ((asDouble x).isSome ∧ (asDouble y).isSome) ∨ (∃ a b, x = .string a ∧ y = .string b) ∨
    ∃ a b, x = .boolean a ∧ y = .boolean b

/-! ## Effective boolean value -/

/-- A float that counts as false: positive or negative zero, or NaN. -/
def FalseFloat (d : F64) : Prop :=
  (∃ s, d.unpack = .zero s) ∨ d.unpack = .notANumber

/-- The effective boolean value of a sequence. -/
inductive Ebv : XSeq → Bool → Prop
  | empty : Ebv [] false
  | node (i : NodeId) (r : XSeq) : Ebv (.node i :: r) true
  | boolean (b : Bool) : Ebv [.boolean b] b
  | emptyString : Ebv [.string []] false
  | string (c : Char) (s : Str) : Ebv [.string (c :: s)] true
  | zeroInteger : Ebv [.integer 0] false
  | integer (n : Int) : n ≠ 0 → Ebv [.integer n] true
  | falseDecimal (d : F64) : FalseFloat d → Ebv [.decimal d] false
  | decimal (d : F64) : ¬ FalseFloat d → Ebv [.decimal d] true
  | falseDouble (d : F64) : FalseFloat d → Ebv [.double d] false
  | double (d : F64) : ¬ FalseFloat d → Ebv [.double d] true

end Amxml.Spec
