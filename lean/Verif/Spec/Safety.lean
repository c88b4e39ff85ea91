import Verif.Model.XNode
import Verif.Model.Basic

/-!
# Queries that end, and queries that do not panic (specification)

Conditions on the syntax tree of a query, each a condition on every node of it.
-/

namespace Amxml
namespace Spec

/-- Every node of the tree has the property (of its type, name and children). -/
def Everywhere (p : XNodeType → Str → XNode → XNode → Prop) : XNode → Prop
  | .nil => True
  | .node t n l r => p t n l r ∧ Everywhere p l ∧ Everywhere p r

/-- The functions that call a function they are given. -/
def callers : List Str := [S "fn:for-each", S "fn:filter"]

/-- The tree calls no function items: neither with arguments in parentheses behind an expression nor through `fn:for-each` or `fn:filter`. -/
def CallFree : XNode → Prop := Everywhere fun t n _ _ => t ≠ .applyArgument ∧ (t = .functionCall → n ∉ callers)

/-- No function made by the query calls a function item: the body of an inline function, and the arguments of a partial call, are free of such
calls, and no partial call is one of `fn:for-each` or `fn:filter`. -/
def FirstOrder : XNode → Prop := Everywhere fun t n l r =>
  (t = .inlineFunction ∨ t = .partialFunctionCall → CallFree l ∧ CallFree r) ∧ (t = .partialFunctionCall → n ∉ callers)

/-! ## Functions that call functions

Variables are looked up where a function is called, so that a function can call itself through the name it is bound to. It cannot if the names of
functions can be ranked so that every function calls only functions of lower rank. -/

/-- The expression without the parentheses around it. -/
def bare : XNode → XNode
  | .node .parenthesizedExpr _ l _ => bare l
  | x => x

/-- A function written out: an inline function, a reference to a function of the library, or a call with some of its arguments left open. -/
def WrittenFunction (x : XNode) : Prop := x.ty = .inlineFunction ∨ x.ty = .namedFunctionRef ∨ x.ty = .partialFunctionCall

/-- A map or an array written out. -/
def WrittenData (x : XNode) : Prop := x.ty = .map ∨ x.ty = .squareArray ∨ x.ty = .curlyArray

/-- What may be called in a function of rank `k`: a function, a map or an array that is written at the place of the call, and a variable with a rank
below `k`. -/
def Callee (rank : Str → Option Nat) (k : Nat) (x : XNode) : Prop :=
  WrittenFunction (bare x) ∨ WrittenData (bare x) ∨ (bare x).ty = .varRef ∧ ∃ j ∈ rank (bare x).name, j < k

/-- Everything called in the tree may be called in a function of rank `k`: what stands before arguments in parentheses, and the second argument of
`fn:for-each` and `fn:filter`. -/
def CallsBelow (rank : Str → Option Nat) (k : Nat) : XNode → Prop := Everywhere fun t n l r =>
  (t = .applyArgument → Callee rank k l) ∧ (t = .functionCall → n ∈ callers → Callee rank k (r.chain.getD 1 .nil).left)

/-- The query respects the ranks: a variable with rank `j` is bound by `let` only, to a map, an array or a function of rank `j` written out, or is a parameter
without type or with the type `item()`, a type of maps or one of arrays (no function item is taken for such a parameter); every function
has at most rank `k`; and no partial call is one of `fn:for-each` or `fn:filter`. What is called outside of functions can be anything. -/
def Ranked (rank : Str → Option Nat) (k : Nat) : XNode → Prop := Everywhere fun t n l r =>
  (t = .inlineFunction ∨ t = .partialFunctionCall → CallsBelow rank k l ∧ CallsBelow rank k r) ∧
  (t = .partialFunctionCall → n ∉ callers) ∧
  (t = .inlineFunction → ∀ p ∈ r.right.chain, rank p.name = none ∨ p.left.left.ty ∈ [.itemTest, .mapTest, .arrayTest]) ∧
  (t = .forVarBind ∨ t = .someVarBind ∨ t = .everyVarBind → rank n = none) ∧
  (t = .letVarBind → ∀ j ∈ rank n, WrittenData (bare l) ∨ WrittenFunction (bare l) ∧ CallsBelow rank j (bare l))

/-- The operators of integer arithmetic that can leave the range of `i64`. -/
def overflowing : List XNodeType := [.operatorAdd, .operatorSubtract, .operatorMultiply, .operatorIDiv, .operatorMod, .operatorUnaryMinus]

/-- The functions that do integer arithmetic that can leave the range of `i64`. -/
def overflowingFunctions : List Str :=
  [S "fn:abs", S "fn:substring", S "fn:subsequence", S "fn:insert-before", S "fn:sum", S "fn:avg"]

/-- The query does nothing that can panic: no integer arithmetic that can overflow; no lookup `?*`; no pair of braces with nothing in it; and with some
number `k`, at least 1, every call of a function item has from 1 to `k` arguments, none of them a `?`, and every inline function at least `k` parameters.
The part of a reference before its `#` is the name of the function. -/
def Harmless (k : Nat) : XNode → Prop := Everywhere fun t n l r =>
  t ∉ overflowing ∧ t ≠ .unaryLookupByWildcard ∧
  (t = .functionCall ∨ t = .partialFunctionCall → n ∉ overflowingFunctions) ∧
  (t = .namedFunctionRef → n.takeWhile (· ≠ '#') ∉ overflowingFunctions) ∧
  (t = .curlyArray ∨ t = .inlineFunction → l.ty ≠ .nil) ∧
  (t = .applyArgument → (∀ a ∈ r.left.chain, a.ty = .argumentTop) ∧ 1 ≤ r.left.chain.length ∧ r.left.chain.length ≤ k) ∧
  (t = .inlineFunction → k ≤ r.right.chain.length)

end Spec
end Amxml
