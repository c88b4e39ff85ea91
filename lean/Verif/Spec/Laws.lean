import Verif.Spec.Scoping

/-!
# Laws of the expression language (specification)

Pairs of expressions that a user takes to be the same (`Law`), and the least relation between queries that contains them and lets an
expression be replaced by an equal one anywhere in a query (`Equal`).
-/

namespace Amxml
namespace Spec

/-! ### Expressions as the parser builds them -/

namespace Q

/-- `(a)` -/
def paren (a : XNode) : XNode := .node .parenthesizedExpr [] a .nil
/-- `()` -/
def none : XNode := .node .parenthesizedExpr [] .nil .nil
/-- `a, b` -/
def comma (a b : XNode) : XNode := .node .operatorConcatenate (S ",") a b
/-- `a and b` -/
def and (a b : XNode) : XNode := .node .operatorAnd (S "and") a b
/-- `a or b` -/
def or (a b : XNode) : XNode := .node .operatorOr (S "or") a b
/-- `if (c) then a else b` -/
def ite (c a b : XNode) : XNode := .node .ifExpr (S "if_expr") c (.node .ifThenElse (S "if_then_else") a b)
/-- `f(a)` -/
def call (f : Str) (a : XNode) : XNode := .node .functionCall f .nil (.node .argumentTop [] a .nil)
/-- `f()` -/
def call0 (f : Str) : XNode := .node .functionCall f .nil .nil
/-- `not(a)` -/
def not (a : XNode) : XNode := call (S "fn:not") a
/-- `boolean(a)` -/
def boolean (a : XNode) : XNode := call (S "fn:boolean") a
/-- `for $n in a return b` -/
def forIn (n : Str) (a b : XNode) : XNode := .node .forExpr (S "for") .nil (.node .forVarBind n a b)
/-- `let $n := a return b` -/
def letBe (n : Str) (a b : XNode) : XNode := .node .letExpr (S "let") .nil (.node .letVarBind n a b)
/-- `some $n in a satisfies b` -/
def some (n : Str) (a b : XNode) : XNode := .node .someExpr (S "some") .nil (.node .someVarBind n a b)
/-- `every $n in a satisfies b` -/
def every (n : Str) (a b : XNode) : XNode := .node .everyExpr (S "every") .nil (.node .everyVarBind n a b)
/-- `$n` -/
def var (n : Str) : XNode := .node .varRef n .nil .nil
/-- `a ! b` -/
def map (a b : XNode) : XNode := .node .operatorMap (S "!") a b
/-- `a || b` -/
def concat (a b : XNode) : XNode := .node .operatorConcat (S "||") a b
/-- `a[p]` -/
def filter (a p : XNode) : XNode := .node .applyPredicate [] a (.node .predicateTop [] p .nil)
/-- `.` -/
def context : XNode := .node .contextItem (S ".") .nil .nil
/-- `f(a, b)` -/
def call2 (f : Str) (a b : XNode) : XNode :=
  .node .functionCall f .nil (.node .argumentTop [] a (.node .argumentTop [] b .nil))
/-- `true()` -/
def yes : XNode := call0 (S "fn:true")
/-- `false()` -/
def no : XNode := call0 (S "fn:false")
/-- An integer literal. -/
def int (s : Str) : XNode := .node .integerLiteral s .nil .nil
/-- `a = b` -/
def eq (a b : XNode) : XNode := .node .operatorGeneralEQ (S "=") a b

end Q

/-- The types of the nodes of the syntax tree that are parts of an expression but no expressions. -/
def parts : List XNodeType :=
  [.nil, .ifThenElse, .predicateTop, .predicateRevTop, .argumentTop, .argumentListTop, .mapConstruct, .mapEntry, .arrayEntry]

/-- A node of the syntax tree that stands for an expression. -/
def IsExpr (x : XNode) : Prop := x.ty ∉ parts

instance (x : XNode) : Decidable (IsExpr x) := inferInstanceAs (Decidable (_ ∉ _))

/-- Expressions whose values are single booleans: comparisons with `=`, `!=`, `<`, …, `and`, `or`, quantified expressions, `not`, `boolean`,
`exists`, `empty`. -/
inductive BooleanValued : XNode → Prop where
  | general {t n l r} : t ∈ [XNodeType.operatorGeneralEQ, .operatorGeneralNE, .operatorGeneralLT, .operatorGeneralGT, .operatorGeneralLE,
      .operatorGeneralGE] → BooleanValued (.node t n l r)
  | logic {t n l r} : t ∈ [XNodeType.operatorAnd, .operatorOr] → BooleanValued (.node t n l r)
  | some {n a b} : BooleanValued (Q.some n a b)
  | every {n a b} : BooleanValued (Q.every n a b)
  | call {f a} : f ∈ [S "fn:not", S "fn:boolean", S "fn:exists", S "fn:empty"] → BooleanValued (Q.call f a)
  | paren {a} : BooleanValued a → IsExpr a → BooleanValued (Q.paren a)
  | yes : BooleanValued Q.yes
  | no : BooleanValued Q.no

/-- Expressions that look neither at the position nor at the size of the focus: without `position()` and `last()`. -/
def PositionFree : XNode → Prop := Everywhere fun t n _ _ => t = .functionCall → n ≠ S "fn:position" ∧ n ≠ S "fn:last"

/-- The nodes of the syntax tree that bind a variable. -/
def binders : List XNodeType := [.forVarBind, .letVarBind, .someVarBind, .everyVarBind]

/-- The nodes of the syntax tree that make function items. -/
def functionItems : List XNodeType := [.inlineFunction, .namedFunctionRef, .partialFunctionCall]

/-- The nodes of the syntax tree whose right side is a type. -/
def typeTests : List XNodeType := [.operatorInstanceOf, .operatorCastableAs, .operatorCastAs]

/-- `$n` and `$n'` refer to the same binding, if the bindings in whose scope they stand correspond as in the list (the innermost first). -/
def Refer : List (Str × Str) → Str → Str → Prop
  | [], n, n' => n = n'
  | (a, b) :: ρ, n, n' => (n = a ∧ n' = b) ∨ (n ≠ a ∧ n' ≠ b ∧ Refer ρ n n')

/-- `y` is `x` with other names for the bound variables; the variables bound around them correspond as in the list. -/
inductive Renamed : List (Str × Str) → XNode → XNode → Prop where
  | nil {ρ} : Renamed ρ .nil .nil
  | var {ρ n n'} : Refer ρ n n' → Renamed ρ (Q.var n) (Q.var n')
  | binder {ρ t n n' l l' r r'} : t ∈ binders → Renamed ρ l l' → Renamed ((n, n') :: ρ) r r' → Renamed ρ (.node t n l r) (.node t n' l' r')
  | item {ρ t n l r} : t ∈ functionItems → Renamed ρ (.node t n l r) (.node t n l r)
  | other {ρ t n l l' r r'} : t ∉ .varRef :: (binders ++ functionItems) → (t ∈ typeTests → r = r') → (t ∈ axes → l = l') →
      (t = .applyPredicate → r.ty = .predicateTop) → Renamed ρ l l' → Renamed ρ r r' → Renamed ρ (.node t n l r) (.node t n l' r')

/-- Literals and variables. -/
inductive Simple : XNode → Prop where
  | literal {t n} : t ∈ [XNodeType.stringLiteral, .integerLiteral, .decimalLiteral, .doubleLiteral] → Simple (.node t n .nil .nil)
  | var {n} : Simple (Q.var n)

/-- `y` is `x` with `c` put in for `$n`. -/
inductive Filled (n : Str) (c : XNode) : XNode → XNode → Prop where
  | var : Filled n c (Q.var n) c
  | same {x} : n ∉ freeVars x → Filled n c x x
  | binder {t m l l' r r'} : t ∈ binders → m ≠ n → m ∉ freeVars c → Filled n c l l' → Filled n c r r' →
      Filled n c (.node t m l r) (.node t m l' r')
  | other {t m l l' r r'} : t ∉ .varRef :: (binders ++ functionItems) → (t ∈ typeTests → r = r') → (t ∈ axes → l = l') →
      (t = .applyPredicate → r.ty = .predicateTop) → Filled n c l l' → Filled n c r r' → Filled n c (.node t m l r) (.node t m l' r')

/-- Operators, and the operators that say the same of the operands in the other order. -/
def swaps : List (XNodeType × XNodeType) :=
  [(.operatorGeneralEQ, .operatorGeneralEQ), (.operatorGeneralNE, .operatorGeneralNE), (.operatorGeneralLT, .operatorGeneralGT),
   (.operatorGeneralLE, .operatorGeneralGE), (.operatorValueEQ, .operatorValueEQ), (.operatorValueNE, .operatorValueNE),
   (.operatorValueLT, .operatorValueGT), (.operatorValueLE, .operatorValueGE), (.operatorAdd, .operatorAdd),
   (.operatorMultiply, .operatorMultiply), (.operatorIsSameNode, .operatorIsSameNode), (.operatorNodeBefore, .operatorNodeAfter)]

/-- Pairs of expressions with the same value. -/
inductive Law : XNode → XNode → Prop where
  /-- `(a)` is `a` -/
  | paren {a} : IsExpr a → Law (Q.paren a) a
  /-- `a, (b, c)` is `(a, b), c` -/
  | comma_assoc {a b c} : Law (Q.comma a (Q.comma b c)) (Q.comma (Q.comma a b) c)
  /-- `a, ()` is `a` -/
  | comma_none {a} : IsExpr a → Law (Q.comma a Q.none) a
  /-- `(), a` is `a` -/
  | none_comma {a} : IsExpr a → Law (Q.comma Q.none a) a
  /-- `not(not(a))` is `boolean(a)` -/
  | not_not {a} : Law (Q.not (Q.not a)) (Q.boolean a)
  /-- `boolean(a)` is `a` if the value of `a` is a boolean -/
  | boolean {a} : BooleanValued a → IsExpr a → Law (Q.boolean a) a
  /-- `not(a and b)` is `not(a) or not(b)` -/
  | not_and {a b} : Law (Q.not (Q.and a b)) (Q.or (Q.not a) (Q.not b))
  /-- `not(a or b)` is `not(a) and not(b)` -/
  | not_or {a b} : Law (Q.not (Q.or a b)) (Q.and (Q.not a) (Q.not b))
  /-- `a and (b and c)` is `(a and b) and c` -/
  | and_assoc {a b c} : Law (Q.and a (Q.and b c)) (Q.and (Q.and a b) c)
  /-- `a or (b or c)` is `(a or b) or c` -/
  | or_assoc {a b c} : Law (Q.or a (Q.or b c)) (Q.or (Q.or a b) c)
  /-- `a and a` is `boolean(a)` -/
  | and_self {a} : Law (Q.and a a) (Q.boolean a)
  /-- `a or a` is `boolean(a)` -/
  | or_self {a} : Law (Q.or a a) (Q.boolean a)
  /-- `if (not(c)) then a else b` is `if (c) then b else a` -/
  | if_not {c a b} : Law (Q.ite (Q.not c) a b) (Q.ite c b a)
  /-- `if (c and d) then a else b` is `if (c) then (if (d) then a else b) else b` -/
  | if_and {c d a b} : Law (Q.ite (Q.and c d) a b) (Q.ite c (Q.ite d a b) b)
  /-- `if (c or d) then a else b` is `if (c) then a else (if (d) then a else b)` -/
  | if_or {c d a b} : Law (Q.ite (Q.or c d) a b) (Q.ite c a (Q.ite d a b))
  /-- `if (c) then true() else false()` is `boolean(c)` -/
  | if_true_false {c} : Law (Q.ite c (Q.call0 (S "fn:true")) (Q.call0 (S "fn:false"))) (Q.boolean c)
  /-- `every $n in a satisfies b` is `not(some $n in a satisfies not(b))` -/
  | every {n a b} : Law (Q.every n a b) (Q.not (Q.some n a (Q.not b)))
  /-- `for $n in (a, b) return c` is `(for $n in a return c), (for $n in b return c)` -/
  | for_comma {n a b c} : Law (Q.forIn n (Q.comma a b) c) (Q.comma (Q.forIn n a c) (Q.forIn n b c))
  /-- `for $n in () return c` is `()` -/
  | for_none {n c} : Law (Q.forIn n Q.none c) Q.none
  /-- `for $n in a return $n` is `a` -/
  | for_var {n a} : IsExpr a → Law (Q.forIn n a (Q.var n)) a
  /-- `for $n in (for $m in a return b) return c` is `for $m in a return for $n in b return c` if `c` does not refer to `$m` -/
  | for_for {n m a b c} : m ∉ freeVars c → Law (Q.forIn n (Q.forIn m a b) c) (Q.forIn m a (Q.forIn n b c))
  /-- `let $n := a return $n` is `a` -/
  | let_var {n a} : IsExpr a → Law (Q.letBe n a (Q.var n)) a
  /-- `let $n := a return (b, c)` is `(let $n := a return b), (let $n := a return c)` -/
  | let_comma {n a b c} : Law (Q.letBe n a (Q.comma b c)) (Q.comma (Q.letBe n a b) (Q.letBe n a c))
  /-- `let $n := (let $m := a return b) return c` is `let $m := a return let $n := b return c` if `c` does not refer to `$m` -/
  | let_let {n m a b c} : m ∉ freeVars c → Law (Q.letBe n (Q.letBe m a b) c) (Q.letBe m a (Q.letBe n b c))
  /-- `let $n := c return b` is `b` with `c` put in for `$n`, if `c` is a literal or a variable -/
  | let_simple {n c b b'} : Simple c → IsExpr b → Filled n c b b' → Law (Q.letBe n c b) b'
  /-- Bound variables may have any names. -/
  | rename {x y} : IsExpr x → Renamed [] x y → Law x y
  /-- `a ! (b ! c)` is `(a ! b) ! c` -/
  | map_assoc {a b c} : IsExpr a → IsExpr b → IsExpr c → Law (Q.map a (Q.map b c)) (Q.map (Q.map a b) c)
  /-- `(a, b) ! c` is `(a ! c), (b ! c)` -/
  | comma_map {a b c} : IsExpr a → IsExpr b → IsExpr c → Law (Q.map (Q.comma a b) c) (Q.comma (Q.map a c) (Q.map b c))
  /-- `a ! .` is `a` -/
  | map_context {a} : IsExpr a → Law (Q.map a Q.context) a
  /-- `a || (b || c)` is `(a || b) || c` -/
  | concat_assoc {a b c} : Law (Q.concat a (Q.concat b c)) (Q.concat (Q.concat a b) c)
  /-- `a[p][q]` is `a[p and q]`, if the values of `p` and `q` are booleans and `q` does not look at the position -/
  | filter_filter {a p q} : IsExpr p → IsExpr q → BooleanValued p → BooleanValued q → PositionFree q →
      Law (Q.filter (Q.filter a p) q) (Q.filter a (Q.and p q))
  /-- The same for the predicates of a step. -/
  | step_filter {t n l ps p q qs} (rev : Bool) : t ∈ axes → IsExpr p → IsExpr q → BooleanValued p → BooleanValued q → PositionFree q →
      Law (.node t n l (predChain rev (ps ++ p :: q :: qs))) (.node t n l (predChain rev (ps ++ Q.and p q :: qs)))
  /-- `(a, b)[p]` is `a[p], b[p]`, if the value of `p` is a boolean and `p` does not look at the position -/
  | comma_filter {a b p} : IsExpr p → BooleanValued p → PositionFree p →
      Law (Q.filter (Q.comma a b) p) (Q.comma (Q.filter a p) (Q.filter b p))
  /-- `reverse(reverse(a))` is `a` -/
  | reverse_reverse {a} : IsExpr a → Law (Q.call (S "fn:reverse") (Q.call (S "fn:reverse") a)) a
  /-- `reverse((a, b))` is `reverse(b), reverse(a)` -/
  | reverse_comma {a b} : Law (Q.call (S "fn:reverse") (Q.comma a b)) (Q.comma (Q.call (S "fn:reverse") b) (Q.call (S "fn:reverse") a))
  /-- `head(a), tail(a)` is `a` -/
  | head_tail {a} : IsExpr a → Law (Q.comma (Q.call (S "fn:head") a) (Q.call (S "fn:tail") a)) a
  /-- `a[1]` is `head(a)` -/
  | first {a} : Law (Q.filter a (Q.int (S "1"))) (Q.call (S "fn:head") a)
  /-- `empty(a)` is `not(exists(a))` -/
  | empty {a} : Law (Q.call (S "fn:empty") a) (Q.not (Q.call (S "fn:exists") a))
  /-- `a < b` is `b > a`, `a + b` is `b + a`, and so on (`swaps`) -/
  | swap {t t' n n' a b} : (t, t') ∈ swaps → Law (.node t n a b) (.node t' n' b a)
  /-- `a || b` is `concat(a, b)` -/
  | concat {a b} : Law (Q.concat a b) (Q.call2 (S "fn:concat") a b)
  /-- `exists(a)` is `not(empty(a))` -/
  | exists_empty {a} : Law (Q.call (S "fn:exists") a) (Q.not (Q.call (S "fn:empty") a))
  /-- `f(reverse(a))` is `f(a)`, where `f` is `count`, `empty` or `exists` -/
  | count_reverse {f a} : f ∈ [S "fn:count", S "fn:empty", S "fn:exists"] → Law (Q.call f (Q.call (S "fn:reverse") a)) (Q.call f a)
  /-- `some $n in a satisfies b` is `not(every $n in a satisfies not(b))` -/
  | some {n a b} : Law (Q.some n a b) (Q.not (Q.every n a (Q.not b)))
  /-- `some $n in () satisfies c` is `false()` -/
  | some_none {n c} : Law (Q.some n Q.none c) Q.no
  /-- `every $n in () satisfies c` is `true()` -/
  | every_none {n c} : Law (Q.every n Q.none c) Q.yes
  /-- `a = c` is `some $n in a satisfies $n = c`, if `c` is a literal or a variable; the same for `!=`, `<`, … -/
  | compare_some {t n m k a c} : t ∈ [XNodeType.operatorGeneralEQ, .operatorGeneralNE, .operatorGeneralLT, .operatorGeneralGT,
      .operatorGeneralLE, .operatorGeneralGE] → Simple c → n ∉ freeVars c → Law (.node t m a c) (Q.some n a (.node t k (Q.var n) c))
  /-- `if (true()) then a else b` is `a` -/
  | if_yes {a b} : IsExpr a → Law (Q.ite Q.yes a b) a
  /-- `if (false()) then a else b` is `b` -/
  | if_no {a b} : IsExpr b → Law (Q.ite Q.no a b) b
  /-- `true() and a` is `boolean(a)` -/
  | yes_and {a} : Law (Q.and Q.yes a) (Q.boolean a)
  /-- `false() and a` is `false()` -/
  | no_and {a} : Law (Q.and Q.no a) Q.no
  /-- `true() or a` is `true()` -/
  | yes_or {a} : Law (Q.or Q.yes a) Q.yes
  /-- `false() or a` is `boolean(a)` -/
  | no_or {a} : Law (Q.or Q.no a) (Q.boolean a)
  /-- `if (c) then (if (c) then a else b) else d` is `if (c) then a else d` -/
  | if_again {c a b d} : Law (Q.ite c (Q.ite c a b) d) (Q.ite c a d)
  /-- `if (if (c) then d else e) then a else b` is `if (c) then (if (d) then a else b) else (if (e) then a else b)` -/
  | if_if {c d e a b} : Law (Q.ite (Q.ite c d e) a b) (Q.ite c (Q.ite d a b) (Q.ite e a b))
  /-- `f(if (c) then a else b)` is `if (c) then f(a) else f(b)` -/
  | call_if {f c a b} : Law (Q.call f (Q.ite c a b)) (Q.ite c (Q.call f a) (Q.call f b))
  /-- `(if (c) then a else b), d` is `if (c) then (a, d) else (b, d)` -/
  | comma_if {c a b d} : Law (Q.comma (Q.ite c a b) d) (Q.ite c (Q.comma a d) (Q.comma b d))
  /-- `for $n in (if (c) then a else b) return d` is `if (c) then (for $n in a return d) else (for $n in b return d)` -/
  | for_if {n c a b d} : Law (Q.forIn n (Q.ite c a b) d) (Q.ite c (Q.forIn n a d) (Q.forIn n b d))
  /-- `let $n := (if (c) then a else b) return d` is `if (c) then (let $n := a return d) else (let $n := b return d)` -/
  | let_if {n c a b d} : Law (Q.letBe n (Q.ite c a b) d) (Q.ite c (Q.letBe n a d) (Q.letBe n b d))
  /-- `let $n := a return if (c) then b else d` is `if (c) then (let $n := a return b) else (let $n := a return d)`, if `a` is a literal
  or a variable and `c` does not refer to `$n` -/
  | let_if' {n c a b d} : Simple a → n ∉ freeVars c →
      Law (Q.letBe n a (Q.ite c b d)) (Q.ite c (Q.letBe n a b) (Q.letBe n a d))
  /-- `a[true()]` is `a` -/
  | filter_yes {a} : IsExpr a → Law (Q.filter a Q.yes) a
  /-- `(for $n in a return b)[p]` is `for $n in a return b[p]`, if the value of `p` is a boolean and `p` looks neither at the position nor at `$n` -/
  | for_filter {n a b p} : IsExpr p → BooleanValued p → PositionFree p → n ∉ freeVars p →
      Law (Q.filter (Q.forIn n a b) p) (Q.forIn n a (Q.filter b p))
  /-- `empty(a)` is `count(a) = 0` -/
  | count_zero {a} : Law (Q.call (S "fn:empty") a) (Q.eq (Q.call (S "fn:count") a) (Q.int (S "0")))

/-- `y` is `x` with some of the expressions in it replaced, each by one that `R` relates it with. Function items are left alone (their expression
is their value), and so are the types in `instance of`, `castable as`, `cast as` and the node tests of steps. -/
inductive Within (R : XNode → XNode → Prop) : XNode → XNode → Prop where
  | here {x y} : R x y → Within R x y
  | same {x} : Within R x x
  | inside {t n l l' r r'} : t ∉ [XNodeType.inlineFunction, .namedFunctionRef, .partialFunctionCall] →
      (t ∈ [XNodeType.operatorInstanceOf, .operatorCastableAs, .operatorCastAs] → r = r') → (t ∈ axes → l = l') →
      (t = .applyPredicate → r.ty = .predicateTop) → Within R l l' → Within R r r' →
      Within R (.node t n l r) (.node t n l' r')

/-- Queries that the laws make equal. -/
inductive Equal : XNode → XNode → Prop where
  | step {x y} : Within Law x y → Equal x y
  | symm {x y} : Equal x y → Equal y x
  | trans {x y z} : Equal x y → Equal y z → Equal x z

end Spec
end Amxml
