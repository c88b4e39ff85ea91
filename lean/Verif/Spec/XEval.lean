import Verif.Lemmas.Eval

/-!
# Vocabulary for the evaluation of expressions

`evaluate h c x env` (Verif/Lemmas/Eval.lean) is the result of evaluating the syntax tree `x` with context `c` in the environment
`env`; it obeys the recursion of the code without a bound on the depth (`evaluate_eq`).
-/

namespace Amxml.Spec

/-- With context `c` and environment `env`, the expression `x` has the value `v`, and its evaluation leaves the environment as it was. -/
def Value (h : Heap) (c : XSeq) (x : XNode) (env : Env) (v : XSeq) : Prop := evaluate h c x env = .ok (v, env)

/-- The expression fails with an error (or a panic). -/
def Fails (h : Heap) (c : XSeq) (x : XNode) (env : Env) (e : XErr) : Prop :=
  evaluate h c x env = .error e ∧ e ≠ .outOfFuel

/-- The effective boolean value of the expression is `b`. -/
def Truth (h : Heap) (c : XSeq) (x : XNode) (env : Env) (b : Bool) : Prop := ∃ v, Value h c x env v ∧ v.ebv = .ok b

/-- The same for an evaluation that may leave another environment behind. -/
def TruthTo (h : Heap) (c : XSeq) (x : XNode) (env env' : Env) (b : Bool) : Prop :=
  ∃ v, evaluate h c x env = .ok (v, env') ∧ v.ebv = .ok b

/-- The environment inside `for $n in …`, `let $n := …`, …: `$n` has the value `v`. -/
def withVar (env : Env) (n : Str) (v : XSeq) : Env := { env with vars := (n, v) :: env.vars }

/-- The environment in which a predicate is evaluated for an item. -/
def atPos (env : Env) (position last : Nat) : Env := { env with position := position, last := last }

/-- The constructs that can change variable bindings: quantified expressions (which leave early without removing their variable), and calls
of function items. Expressions without them are called quiet. -/
def Quiet : XNode → Prop
  | .nil => True
  | .node t n l r =>
    t ≠ .someVarBind ∧ t ≠ .everyVarBind ∧ t ≠ .applyArgument ∧
    (t = .functionCall → n ≠ S "fn:for-each" ∧ n ≠ S "fn:filter") ∧ Quiet l ∧ Quiet r

/-- The axes. -/
def axes : List XNodeType :=
  [.axisAncestor, .axisAncestorOrSelf, .axisAttribute, .axisChild, .axisDescendant, .axisDescendantOrSelf, .axisFollowing,
   .axisFollowingSibling, .axisParent, .axisPreceding, .axisPrecedingSibling, .axisRoot, .axisSelf]

/-- Path expressions: steps along any axis with any node test and any predicates, `.`, and whatever `/`, parentheses, filtering by a
predicate, `union`, `intersect` and `except` make of them. -/
inductive PathExpr : XNode → Prop where
  | step {t n l r} : t ∈ axes → PathExpr (.node t n l r)
  | context {n l r} : PathExpr (.node .contextItem n l r)
  | slash {n a b} : PathExpr a → PathExpr b → PathExpr (.node .operatorPath n a b)
  | last {n a} : PathExpr a → PathExpr (.node .operatorPath n a .nil)
  | filter {n a p} : PathExpr a → PathExpr (.node .applyPredicate n a p)
  | paren {n a r} : PathExpr a → PathExpr (.node .parenthesizedExpr n a r)
  | union {n a b} : PathExpr a → PathExpr b → PathExpr (.node .operatorUnion n a b)
  | intersect {n a b} : PathExpr a → PathExpr b → PathExpr (.node .operatorIntersect n a b)
  | except {n a b} : PathExpr a → PathExpr b → PathExpr (.node .operatorExcept n a b)

/-- The item at a position counted from 1, as a sequence of one item, or nothing. -/
def nth (s : XSeq) : Int → XSeq
  | .ofNat (k + 1) => s[k]?.toList
  | _ => []

/-- The items at the positions, counted from `p`, that satisfy `f`. -/
def selectFrom {α : Type} (f : Nat → Bool) : Nat → List α → List α
  | _, [] => []
  | p, x :: s => if f p then x :: selectFrom f (p + 1) s else selectFrom f (p + 1) s

/-- The items at the positions, counted from 1, that satisfy `f`. -/
def select {α : Type} (f : Nat → Bool) (s : List α) : List α := selectFrom f 1 s

/-- The number of the `k`-th of `n` items when counting along the axis: reverse axes count from the end. -/
def along (rev : Bool) (n k : Nat) : Nat := if rev then n + 1 - k else k

/-- What the value of a predicate says about the item at a position: a number selects by position, anything else by its effective
boolean value. -/
def PredTruth (position : Nat) (v : XSeq) (b : Bool) : Prop :=
  match v with
  | [.integer n] => b = decide (n = (position : Int))
  | _ => v.ebv = .ok b

/-- The values for which the code decides as `PredTruth` says: an integer, a boolean, a node, nothing. -/
inductive PlainPred : XSeq → Prop where
  | integer (n : Int) : PlainPred [.integer n]
  | boolean (b : Bool) : PlainPred [.boolean b]
  | node (i : NodeId) : PlainPred [.node i]
  | empty : PlainPred []

/-- Filtering `s` with the predicate `p` keeps the items at the positions in `T`: for every item the predicate, evaluated with that
item as context, its number along the axis as position and the number of items as last, says so. -/
def Filter (h : Heap) (rev : Bool) (env : Env) (p : XNode) (s : XSeq) (T : Nat → Bool) : Prop :=
  ∀ k x, s[k]? = some x → ∃ v, Value h [x] p (atPos env (along rev s.length (k + 1)) s.length) v ∧ PlainPred v ∧
    PredTruth (along rev s.length (k + 1)) v (T (k + 1))

/-- Filtering with several predicates, one after the other, each counting anew. -/
inductive Filters (h : Heap) (rev : Bool) (env : Env) : List XNode → XSeq → XSeq → Prop where
  | nil {s} : Filters h rev env [] s s
  | cons {p ps s T v} : Filter h rev env p s T → Filters h rev env ps (select T s) v → Filters h rev env (p :: ps) s v

/-- The predicates of a step as the parser links them. -/
def predChain (rev : Bool) : List XNode → XNode
  | [] => .nil
  | p :: ps => .node (if rev then .predicateRevTop else .predicateTop) (S "Predicate") p (predChain rev ps)

end Amxml.Spec
