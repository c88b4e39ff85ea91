import Verif.Spec.Safety
import Verif.Spec.XEval

/-!
# The meaning of expressions with lexical scope (specification)

`meaning` says what an expression means at a place: the context, position and size of the focus, and for every variable the value of the
binding in whose scope the place lies. Nothing is changed in the course of it: a binding is made by looking at the body of `for`, `let`,
`some` and `every` at another place. What an operator makes of the values of its operands, a library function of its arguments, and which nodes an
axis and a node test select is taken from the model (it is what C30–C40, C44–C48, C59–C70, C76–C79 are about).
-/

namespace Amxml
namespace Spec

/-- The variables an expression refers to without binding them. -/
def freeVars : XNode → List Str
  | .nil => []
  | .node .varRef n l r => n :: (freeVars l ++ freeVars r)
  | .node .forVarBind n l r | .node .letVarBind n l r | .node .someVarBind n l r | .node .everyVarBind n l r =>
    freeVars l ++ (freeVars r).filter fun m => decide (m ≠ n)
  | .node _ _ l r => freeVars l ++ freeVars r

/-- The variables of the quantified expressions in an expression. -/
def quantified : XNode → List Str
  | .nil => []
  | .node t n l r => (if t = .someVarBind ∨ t = .everyVarBind then [n] else []) ++ (quantified l ++ quantified r)

/-- No expression within `x` refers to a variable from outside it under the name that a quantified expression inside it gives to its variable. -/
def WellNamed : XNode → Prop := Everywhere fun t n l r => ∀ m ∈ freeVars (.node t n l r), m ∉ quantified (.node t n l r)

/-- A place in an expression. -/
structure Scene where
  /-- The context. -/
  context : XSeq
  /-- The position of the context item. -/
  position : Nat
  /-- The number of items the context item is one of. -/
  last : Nat
  /-- The values of the variables in scope; the empty sequence for a variable that is not in scope. -/
  vars : Str → XSeq

/-- The scope of a binding. -/
def Scene.bind (s : Scene) (n : Str) (v : XSeq) : Scene := { s with vars := fun m => if m = n then v else s.vars m }

/-- The right side of `/` and `!` for an item of the left side. -/
def Scene.over (s : Scene) (i : XItem) : Scene := { s with context := [i] }

/-- The predicate for an item. -/
def Scene.item (s : Scene) (i : XItem) (position last : Nat) : Scene := { s with context := [i], position := position, last := last }

/-- Whether a predicate with that value keeps the item at the position (see C35, C36). -/
def selects (position : Nat) : XSeq → Bool
  | [.integer n] => decide (n = (position : Int))
  | [.node _] => true
  | [.boolean b] => b
  | _ => false

/-- The items of a sequence for which the predicate holds, each looked at in its place. -/
def filtered (rev : Bool) (p : Scene → Except XErr XSeq) (s : Scene) (q : XSeq) : Except XErr XSeq := do
  let vs ← q.zipIdx.mapM fun e => do
    let v ← p (s.item e.1 (along rev q.length (e.2 + 1)) q.length)
    pure (if selects (along rev q.length (e.2 + 1)) v then [e.1] else [])
  pure vs.flatten

/-- What a path makes of the values of its right side: nodes in document order without repetitions; or atomic values as they come; but not both. -/
def joined (h : Heap) (vs : List XSeq) : Except XErr XSeq :=
  let ws := vs.filter fun v => !v.isEmpty
  if ws.all XSeq.isNoAtom then .ok (XSeq.ofNodes (sortByDocOrder h (XSeq.toNodeset ws.flatten)))
  else if ws.all fun w => !XSeq.isNoAtom w then .ok ws.flatten
  else .error .typeError

/-- A library function, which may look at the focus. -/
def library (h : Heap) (f : Str) (vs : List XSeq) (s : Scene) : Except XErr XSeq :=
  (evaluateFunction h (fun _ _ _ => liftE (.error .cantOccur)) f vs s.context ⟨s.position, s.last, []⟩).map fun r => r.1

mutual

/-- The meaning of an expression at a place. -/
def meaning (h : Heap) : XNode → Scene → Except XErr XSeq
  | .nil, _ => .error .panic
  | .node t n l r, s =>
    match t with
    | .nil => .error .panic
    | .stringLiteral => .ok [.string n]
    | .integerLiteral => .ok [.integer (atoi n)]
    | .decimalLiteral => .ok [.decimal (atof n)]
    | .doubleLiteral => .ok [.double (atof n)]
    | .varRef => .ok (s.vars n)
    | .contextItem => .ok s.context
    | .parenthesizedExpr => if l.isNil then .ok [] else meaning h l s
    | .forExpr | .letExpr | .someExpr | .everyExpr => meaning h r s
    | .forVarBind => do
      let q ← meaning h l s
      let vs ← q.mapM fun i => meaning h r (s.bind n [i])
      pure vs.flatten
    | .letVarBind => do
      let v ← meaning h l s
      meaning h r (s.bind n v)
    | .someVarBind => do
      let q ← meaning h l s
      let b ← q.anyM fun i => do XSeq.ebv (← meaning h r (s.bind n [i]))
      pure [.boolean b]
    | .everyVarBind => do
      let q ← meaning h l s
      let b ← q.allM fun i => do XSeq.ebv (← meaning h r (s.bind n [i]))
      pure [.boolean b]
    | .ifExpr => do
      let v ← meaning h l s
      match r with
      | .node .ifThenElse _ a b => if ← XSeq.ebv v then meaning h a s else meaning h b s
      | _ => .error .cantOccur
    | .operatorOr => do
      if ← XSeq.ebv (← meaning h l s) then pure [.boolean true] else pure [.boolean (← XSeq.ebv (← meaning h r s))]
    | .operatorAnd => do
      if ← XSeq.ebv (← meaning h l s) then pure [.boolean (← XSeq.ebv (← meaning h r s))] else pure [.boolean false]
    | .operatorUnaryPlus => do opUnary numUPlus (← meaning h r s)
    | .operatorUnaryMinus => do opUnary numUMinus (← meaning h r s)
    | .operatorInstanceOf => do pure [.boolean (← matchSequenceType h (← meaning h l s) r)]
    | .operatorCastableAs => do pure [.boolean (XSeq.castableAs h (← meaning h l s) r.left.name)]
    | .operatorCastAs => do XSeq.castAs h (← meaning h l s) r.left.name
    | .operatorPath => do
      let q ← (if l.isNil then .ok [] else meaning h l s : Except XErr XSeq)
      if r.isNil then .ok q
      else if XSeq.isNoAtom q then do joined h (← q.mapM fun i => meaning h r (s.over i))
      else .error .typeError
    | .operatorMap => do
      let q ← (if l.isNil then .ok [] else meaning h l s : Except XErr XSeq)
      if r.isNil then .ok q
      else do
        let vs ← q.mapM fun i => meaning h r (s.over i)
        pure vs.flatten
    | .axisAncestor | .axisAncestorOrSelf | .axisAttribute | .axisChild | .axisDescendant | .axisDescendantOrSelf
    | .axisFollowing | .axisFollowingSibling | .axisParent | .axisPreceding | .axisPrecedingSibling | .axisRoot
    | .axisSelf => do
      let vs ← (XSeq.toNodeset s.context).mapM fun i =>
        match axisNodes h i (.node t n l r) with
        | none => .error .cantOccur
        | some ns => predicates h r s (XSeq.ofNodes ns)
      pure (XSeq.ofNodes (vs.flatMap XSeq.toNodeset))
    | .applyPredicate => do
      let q ← meaning h l s
      match r with
      | .node _ _ p _ => if p.isNil then .error .cantOccur else filtered false (meaning h p) s q
      | .nil => .error .cantOccur
    | .functionCall => do library h n (← arguments h r s) s
    | .inlineFunction | .namedFunctionRef | .partialFunctionCall => .ok [.fn (.node t n l r)]
    | .map => do pure [.map (← entries h l s)]
    | .squareArray => do pure [.array (← members h l s)]
    | .curlyArray => do pure [.array ((← meaning h l s).map fun i : XItem => [i])]
    | .unaryLookupByWildcard => lookupWildcard h s.context
    | .unaryLookupByExpr => do lookupKeys h (← meaning h l s) s.context
    | t =>
      match binaryOp h t with
      | some f => do
        let a ← meaning h l s
        let b ← meaning h r s
        f a b
      | none => .error .cantOccur

/-- The predicates of a step, one after the other. -/
def predicates (h : Heap) : XNode → Scene → XSeq → Except XErr XSeq
  | .nil, _, q => .ok q
  | .node t _ l r, s, q =>
    match t with
    | .nil => .ok q
    | .predicateTop => do
      if l.isNil then .error .cantOccur else predicates h r s (← filtered false (meaning h l) s q)
    | .predicateRevTop => do
      if l.isNil then .error .cantOccur else predicates h r s (← filtered true (meaning h l) s q)
    | _ => .error .cantOccur

/-- The arguments of a function call. -/
def arguments (h : Heap) : XNode → Scene → Except XErr (List XSeq)
  | .nil, _ => .ok []
  | .node t _ l r, s =>
    match t with
    | .nil => .ok []
    | .argumentTop => do
      let v ← meaning h l s
      let vs ← arguments h r s
      pure (v :: vs)
    | _ => .error .cantOccur

/-- The entries of a map. -/
def entries (h : Heap) : XNode → Scene → Except XErr (List (XItem × XSeq))
  | .nil, _ => .ok []
  | .node t _ l r, s =>
    match t with
    | .nil => .ok []
    | .mapConstruct =>
      match l with
      | .node .mapEntry _ k v => do
        let k ← XSeq.item1 (← meaning h k s)
        let v ← meaning h v s
        let es ← entries h r s
        pure ((k, v) :: es)
      | _ => .error .cantOccur
    | _ => .error .cantOccur

/-- The members of an array. -/
def members (h : Heap) : XNode → Scene → Except XErr (List XSeq)
  | .nil, _ => .ok []
  | .node t _ l r, s =>
    match t with
    | .nil => .ok []
    | .arrayEntry => do
      let v ← meaning h l s
      let vs ← members h r s
      pure (v :: vs)
    | _ => .error .cantOccur

end

/-- The place where the evaluation of a query starts. -/
def Scene.start (i : NodeId) : Scene := ⟨[.node i], 0, 0, fun _ => []⟩

end Spec
end Amxml
