import Verif.Spec.XFunc
import Verif.Props.XHigher

/-!
# Which part of an expression is evaluated next

`Next h c x env c' y env'`: the evaluation of `x` with context `c` in the environment `env` comes to evaluate its part `y`, with context
`c'` in the environment `env'` — the parts before it have been evaluated and gave values. (A part that is not evaluated, such as the
right side of `or` after a true left side, is not `Next`.)
-/

namespace Amxml.Spec

/-- The expression has the value `v`, and its evaluation leaves the environment `env'` behind. -/
def Gives (h : Heap) (c : XSeq) (x : XNode) (env : Env) (v : XSeq) (env' : Env) : Prop := evaluate h c x env = .ok (v, env')

/-- One after the other, each from the environment the previous one left behind. -/
inductive Threads {α : Type} (R : α → Env → Env → Prop) : List α → Env → Env → Prop where
  | nil {env} : Threads R [] env env
  | cons {x l env env1 env2} : R x env env1 → Threads R l env1 env2 → Threads R (x :: l) env env2

/-- The operators that evaluate both operands, the left one first. -/
def twoSided : List XNodeType :=
  [.operatorConcatenate, .operatorGeneralEQ, .operatorGeneralNE, .operatorGeneralLT, .operatorGeneralLE, .operatorGeneralGT,
   .operatorGeneralGE, .operatorValueEQ, .operatorValueNE, .operatorValueLT, .operatorValueLE, .operatorValueGT, .operatorValueGE,
   .operatorAdd, .operatorSubtract, .operatorMultiply, .operatorDiv, .operatorIDiv, .operatorMod, .operatorConcat, .operatorUnion,
   .operatorIntersect, .operatorExcept, .operatorTo, .operatorIsSameNode, .operatorNodeBefore, .operatorNodeAfter]

/-- The expressions that begin with their left part, in the same context. -/
def leftFirst : List XNodeType :=
  twoSided ++ [.operatorPath, .operatorMap, .applyPredicate, .applyArgument, .operatorOr, .operatorAnd, .ifExpr, .forVarBind,
    .letVarBind, .someVarBind, .everyVarBind, .operatorInstanceOf, .operatorCastableAs, .operatorCastAs, .parenthesizedExpr,
    .curlyArray, .unaryLookupByExpr]

/-- The predicate `p` has been evaluated for the items from the `k`-th on of `n` items. -/
inductive Looked (h : Heap) (rev : Bool) (p : XNode) (n : Nat) : Nat → XSeq → Env → Env → Prop where
  | nil {k env} : Looked h rev p n k [] env env
  | cons {k x s env v env1 env2} : Gives h [x] p (atPos env (along rev n k) n) v env1 →
      Looked h rev p n (k + 1) s (atPos env1 env.position env.last) env2 → Looked h rev p n k (x :: s) env env2

/-- The part `y` of `x` is evaluated next. -/
inductive Next (h : Heap) : XSeq → XNode → Env → XSeq → XNode → Env → Prop where
  /-- The left part comes first. -/
  | left {c t n a b env} : t ∈ leftFirst → a.isNil = false → Next h c (.node t n a b) env c a env
  /-- The right operand, when the left one has a value. -/
  | right {c t n a b env l env1} : t ∈ twoSided → Gives h c a env l env1 → Next h c (.node t n a b) env c b env1
  /-- The operand of a sign. -/
  | sign {c t n a b env} : t = .operatorUnaryPlus ∨ t = .operatorUnaryMinus → Next h c (.node t n a b) env c b env
  /-- The right side of `or`, when the left one is false. -/
  | or {c n a b env l env1} : Gives h c a env l env1 → Ebv l false → Next h c (.node .operatorOr n a b) env c b env1
  /-- The right side of `and`, when the left one is true. -/
  | and {c n a b env l env1} : Gives h c a env l env1 → Ebv l true → Next h c (.node .operatorAnd n a b) env c b env1
  /-- The branch of `if` that the condition chooses. -/
  | branch {c n m a x y env l env1 t} : Gives h c a env l env1 → Ebv l t →
      Next h c (.node .ifExpr n a (.node .ifThenElse m x y)) env c (if t then x else y) env1
  /-- `for`, `let`, `some`, `every`: the part with the bindings. -/
  | clause {c t n a b env} : t ∈ [XNodeType.forExpr, .letExpr, .someExpr, .everyExpr] → Next h c (.node t n a b) env c b env
  /-- `for $n in A return B`: `B` for an item of `A`. -/
  | forItem {c n a b env s x r env1 env2} : Gives h c a env (s ++ x :: r) env1 →
      Threads (fun y e e' => ∃ v, Gives h c b (withVar e n [y]) v (withVar e' n [y])) s env1 env2 →
      Next h c (.node .forVarBind n a b) env c b (withVar env2 n [x])
  /-- `let $n := A return B`: `B`. -/
  | letBody {c n a b env v env1} : Gives h c a env v env1 → Next h c (.node .letVarBind n a b) env c b (withVar env1 n v)
  /-- `some $n in A satisfies B`: `B` for an item of `A`, when it was false for those before. -/
  | someItem {c n a b env s x r env1 env2} : Gives h c a env (s ++ x :: r) env1 →
      Threads (fun y e e' => ∃ v, Gives h c b (withVar e n [y]) v (withVar e' n [y]) ∧ Ebv v false) s env1 env2 →
      Next h c (.node .someVarBind n a b) env c b (withVar env2 n [x])
  /-- `every $n in A satisfies B`: `B` for an item of `A`, when it was true for those before. -/
  | everyItem {c n a b env s x r env1 env2} : Gives h c a env (s ++ x :: r) env1 →
      Threads (fun y e e' => ∃ v, Gives h c b (withVar e n [y]) v (withVar e' n [y]) ∧ Ebv v true) s env1 env2 →
      Next h c (.node .everyVarBind n a b) env c b (withVar env2 n [x])
  /-- `A/B`: `B` for a node of `A`, when those before gave nodes. -/
  | slash {c n a b env s i r env1 env2} : b.isNil = false → a.isNil = false → Gives h c a env (XSeq.ofNodes (s ++ i :: r)) env1 →
      Threads (fun j e e' => ∃ l, Gives h [.node j] b e (XSeq.ofNodes l) e') s env1 env2 →
      Next h c (.node .operatorPath n a b) env [.node i] b env2
  /-- `A!B`: `B` for an item of `A`. -/
  | bang {c n a b env s x r env1 env2} : b.isNil = false → a.isNil = false → Gives h c a env (s ++ x :: r) env1 →
      Threads (fun y e e' => ∃ v, Gives h [y] b e v e') s env1 env2 → Next h c (.node .operatorMap n a b) env [x] b env2
  /-- `A[P]`: `P` for an item of `A`. -/
  | filter {c n a t m p q env s x r env1 env2} : p.isNil = false → Gives h c a env (s ++ x :: r) env1 →
      Looked h false p (s ++ x :: r).length 1 s env1 env2 →
      Next h c (.node .applyPredicate n a (.node t m p q)) env [x] p (atPos env2 (s.length + 1) (s ++ x :: r).length)
  /-- A predicate of a step, for a node that the predicates before it kept. -/
  | predicate {t n l rev ps p qs i env w s x r env2} : t ∈ axes → (∀ q ∈ ps, q.isNil = false) → p.isNil = false →
      Value h [.node i] (.node t n l .nil) env w → Filters h rev env ps w (s ++ x :: r) →
      Looked h rev p (s ++ x :: r).length 1 s env env2 →
      Next h [.node i] (.node t n l (predChain rev (ps ++ p :: qs))) env [x] p
        (atPos env2 (along rev (s ++ x :: r).length (s.length + 1)) (s ++ x :: r).length)
  /-- An argument of a function. -/
  | argument {c f as a bs env env1} : Threads (fun b e e' => ∃ v, Gives h c b e v e') as env env1 →
      Next h c (callOf f (as ++ a :: bs)) env c a env1
  /-- An argument of a function item. -/
  | itemArgument {c n m g as a bs env v env0 env1} : Gives h c g env v env0 →
      Threads (fun b e e' => ∃ v, Gives h c b e v e') as env0 env1 →
      Next h c (.node .applyArgument n g (.node .argumentListTop m (argChain (as ++ a :: bs)) .nil)) env c a env1
  /-- A member of `[…]`. -/
  | member {c as a bs env env1} : Threads (fun b e e' => ∃ v, Gives h c b e v e') as env env1 →
      Next h c (arrayOf (as ++ a :: bs)) env c a env1
  /-- The key of an entry of a map. -/
  | key {c as k v bs env env1} :
      Threads (fun b e e' => ∃ k e1 v, Gives h c b.1 e [k] e1 ∧ Gives h c b.2 e1 v e') as env env1 →
      Next h c (mapOf (as ++ (k, v) :: bs)) env c k env1
  /-- The value of an entry of a map. -/
  | entry {c as k v bs env env1 w env2} :
      Threads (fun b e e' => ∃ k e1 v, Gives h c b.1 e [k] e1 ∧ Gives h c b.2 e1 v e') as env env1 → Gives h c k env1 [w] env2 →
      Next h c (mapOf (as ++ (k, v) :: bs)) env c v env2
  /-- The body of an inline function that is called. -/
  | body {c f as vs ps r b env} : Value h c f env [.fn (inlineOf ps r b)] → List.Forall₂ (fun a v => Value h c a env v) as vs →
      List.Forall₂ (fun p v => Fit h p.2 v ∧ p.2.Matches h v) ps vs → Next h c (applied f (argChain as)) env c b (bound env ps vs)
  /-- The body of an inline function that `fn:for-each` calls for an item. -/
  | eachBody {c x f s i t ps r b env} : Value h c x env (s ++ i :: t) → Value h c f env [.fn (inlineOf ps r b)] →
      (∀ y ∈ s, ∃ v, ItemCalls h c env (inlineOf ps r b) [[y]] v) →
      List.Forall₂ (fun p v => Fit h p.2 v ∧ p.2.Matches h v) ps [[i]] →
      Next h c (callOf (S "fn:for-each") [x, f]) env c b (bound env ps [[i]])
  /-- The body of an inline function that `fn:filter` calls for an item. -/
  | filterBody {c x f s i t ps r b env} : Value h c x env (s ++ i :: t) → Value h c f env [.fn (inlineOf ps r b)] →
      (∀ y ∈ s, ∃ v t, ItemCalls h c env (inlineOf ps r b) [[y]] v ∧ Ebv v t) →
      List.Forall₂ (fun p v => Fit h p.2 v ∧ p.2.Matches h v) ps [[i]] →
      Next h c (callOf (S "fn:filter") [x, f]) env c b (bound env ps [[i]])

/-- A part of a part of … `x`, evaluated on the way. -/
inductive Comes (h : Heap) : XSeq → XNode → Env → XSeq → XNode → Env → Prop where
  | here {c x env} : Comes h c x env c x env
  | next {c x env c1 x1 env1 c2 x2 env2} : Next h c x env c1 x1 env1 → Comes h c1 x1 env1 c2 x2 env2 → Comes h c x env c2 x2 env2

end Amxml.Spec
