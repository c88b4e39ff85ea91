import Verif.Spec.Scoping

/-!
# The meaning of expressions that call function items (specification)

`means` is `meaning` of Spec/Scoping with calls: an inline function is called by looking at its body at a place where its parameters have the
values of the arguments and no other variable is in scope. `callItem n` is the calling of function items up to nesting depth `n`. Where
`callItem` says `outOfFuel` nothing is claimed: beyond the depth, and for function items whose body refers to variables that are not
its parameters (the code does not keep the values such variables had where the function was written), that have
two parameters of the same name, that are called with another number of arguments than they have parameters, or that contain
quantified expressions; nor for `f(?)` where `f` is not the name of a function.
-/

namespace Amxml
namespace Spec

/-- The calling of a function item with arguments, at a place. -/
abbrev Caller := XNode → List XSeq → Scene → Except XErr XSeq

/-- The expressions whose value is a function item. -/
def itemKinds : List XNodeType := [.inlineFunction, .namedFunctionRef, .partialFunctionCall]

/-- The variables the evaluation of an expression refers to without binding them. A function item is not evaluated until it is called. -/
def used : XNode → List Str
  | .nil => []
  | .node t n l r =>
    if t ∈ itemKinds then []
    else if t = .varRef then n :: (used l ++ used r)
    else if t = .forVarBind ∨ t = .letVarBind ∨ t = .someVarBind ∨ t = .everyVarBind then used l ++ (used r).filter fun m => decide (m ≠ n)
    else used l ++ used r

/-- The variables of the quantified expressions in an expression, not counting those in function items. -/
def tested : XNode → List Str
  | .nil => []
  | .node t n l r =>
    if t ∈ itemKinds then []
    else if t = .someVarBind ∨ t = .everyVarBind then n :: (tested l ++ tested r)
    else tested l ++ tested r

/-- No expression within `x` refers to a variable from outside it under the name that a quantified expression inside it gives to its variable. -/
def Apart : XNode → Prop
  | .nil => True
  | .node t n l r =>
    if t ∈ itemKinds then True else (∀ m ∈ used (.node t n l r), m ∉ tested (.node t n l r)) ∧ Apart l ∧ Apart r

/-- What `fn:for-each`, `fn:filter`, which call a function item, and the other library functions make of their arguments. -/
def named (call : Caller) (h : Heap) (f : Str) (vs : List XSeq) (s : Scene) : Except XErr XSeq :=
  match vs with
  | [q, g] =>
    if f = S "fn:for-each" then do
      let g ← XSeq.fn1 g
      let rs ← q.mapM fun x => call g [[x]] s
      pure rs.flatten
    else if f = S "fn:filter" then do
      let g ← XSeq.fn1 g
      let rs ← q.mapM fun x => do pure (if ← XSeq.ebv (← call g [[x]] s) then [x] else [])
      pure rs.flatten
    else library h f vs s
  | _ => library h f vs s

/-- What `v(…)` makes of the value `v` and the arguments: the call of an inline function, the value of a key in a map, of an index in an array. -/
def putTo (call : Caller) (h : Heap) (v : XSeq) (vs : List XSeq) (s : Scene) : Except XErr XSeq :=
  match v with
  | [.fn f] => if f.ty = .inlineFunction then call f vs s else .error .cantOccur
  | [.map e] => do
    let k ← firstArg vs
    match mapGet h e k with
    | some v => pure v
    | none => .error .dynamicError
  | [.array a] => do
    let k ← firstArg vs
    match arrayGet h a k with
    | some v => pure v
    | none => .error .dynamicError
  | _ => .error .cantOccur

mutual

/-- The meaning of an expression at a place. -/
def means (call : Caller) (h : Heap) : XNode → Scene → Except XErr XSeq
  | .nil, _ => .error .panic
  | .node t n l r, s =>
    match t with
    | .nil => .error .panic
    | .stringLiteral => .ok [.string n]
    | .integerLiteral => .ok [.integer (atoi n)]
    | .decimalLiteral => .ok [.decimal (atof n)]
    | .doubleLiteral => .ok [.double (atof n)]
    | .varRef => .ok (s.vars n)
    | .contextItem => .ok s.context
    | .parenthesizedExpr => if l.isNil then .ok [] else means call h l s
    | .forExpr | .letExpr | .someExpr | .everyExpr => means call h r s
    | .forVarBind => do
      let q ← means call h l s
      let vs ← q.mapM fun i => means call h r (s.bind n [i])
      pure vs.flatten
    | .letVarBind => do
      let v ← means call h l s
      means call h r (s.bind n v)
    | .someVarBind => do
      let q ← means call h l s
      let b ← q.anyM fun i => do XSeq.ebv (← means call h r (s.bind n [i]))
      pure [.boolean b]
    | .everyVarBind => do
      let q ← means call h l s
      let b ← q.allM fun i => do XSeq.ebv (← means call h r (s.bind n [i]))
      pure [.boolean b]
    | .ifExpr => do
      let v ← means call h l s
      match r with
      | .node .ifThenElse _ a b => if ← XSeq.ebv v then means call h a s else means call h b s
      | _ => .error .cantOccur
    | .operatorOr => do
      if ← XSeq.ebv (← means call h l s) then pure [.boolean true] else pure [.boolean (← XSeq.ebv (← means call h r s))]
    | .operatorAnd => do
      if ← XSeq.ebv (← means call h l s) then pure [.boolean (← XSeq.ebv (← means call h r s))] else pure [.boolean false]
    | .operatorUnaryPlus => do opUnary numUPlus (← means call h r s)
    | .operatorUnaryMinus => do opUnary numUMinus (← means call h r s)
    | .operatorInstanceOf => do pure [.boolean (← matchSequenceType h (← means call h l s) r)]
    | .operatorCastableAs => do pure [.boolean (XSeq.castableAs h (← means call h l s) r.left.name)]
    | .operatorCastAs => do XSeq.castAs h (← means call h l s) r.left.name
    | .operatorPath => do
      let q ← (if l.isNil then .ok [] else means call h l s : Except XErr XSeq)
      if r.isNil then .ok q
      else if XSeq.isNoAtom q then do joined h (← q.mapM fun i => means call h r (s.over i))
      else .error .typeError
    | .operatorMap => do
      let q ← (if l.isNil then .ok [] else means call h l s : Except XErr XSeq)
      if r.isNil then .ok q
      else do
        let vs ← q.mapM fun i => means call h r (s.over i)
        pure vs.flatten
    | .axisAncestor | .axisAncestorOrSelf | .axisAttribute | .axisChild | .axisDescendant | .axisDescendantOrSelf
    | .axisFollowing | .axisFollowingSibling | .axisParent | .axisPreceding | .axisPrecedingSibling | .axisRoot
    | .axisSelf => do
      let vs ← (XSeq.toNodeset s.context).mapM fun i =>
        match axisNodes h i (.node t n l r) with
        | none => .error .cantOccur
        | some ns => chosen call h r s (XSeq.ofNodes ns)
      pure (XSeq.ofNodes (vs.flatMap XSeq.toNodeset))
    | .applyPredicate => do
      let q ← means call h l s
      match r with
      | .node .predicateTop _ p _ => if p.isNil then .error .cantOccur else filtered false (means call h p) s q
      | _ => .error .outOfFuel
    | .functionCall => do named call h n (← argumentValues call h r s) s
    | .applyArgument => do
      let v ← means call h l s
      match r with
      | .node .argumentListTop _ as _ => do putTo call h v (← givenValues call h as s) s
      | _ => .error .outOfFuel
    | .inlineFunction | .namedFunctionRef | .partialFunctionCall => .ok [.fn (.node t n l r)]
    | .map => do pure [.map (← entryValues call h l s)]
    | .squareArray => do pure [.array (← memberValues call h l s)]
    | .curlyArray => do pure [.array ((← means call h l s).map fun i : XItem => [i])]
    | .unaryLookupByWildcard => lookupWildcard h s.context
    | .unaryLookupByExpr => do lookupKeys h (← means call h l s) s.context
    | t =>
      match binaryOp h t with
      | some f => do
        let a ← means call h l s
        let b ← means call h r s
        f a b
      | none => .error .cantOccur

/-- The predicates of a step, one after the other. -/
def chosen (call : Caller) (h : Heap) : XNode → Scene → XSeq → Except XErr XSeq
  | .nil, _, q => .ok q
  | .node t _ l r, s, q =>
    match t with
    | .nil => .ok q
    | .predicateTop => do
      if l.isNil then .error .cantOccur else chosen call h r s (← filtered false (means call h l) s q)
    | .predicateRevTop => do
      if l.isNil then .error .cantOccur else chosen call h r s (← filtered true (means call h l) s q)
    | _ => .error .cantOccur

/-- The arguments of a function call. -/
def argumentValues (call : Caller) (h : Heap) : XNode → Scene → Except XErr (List XSeq)
  | .nil, _ => .ok []
  | .node t _ l r, s =>
    match t with
    | .nil => .ok []
    | .argumentTop => do
      let v ← means call h l s
      let vs ← argumentValues call h r s
      pure (v :: vs)
    | _ => .error .cantOccur

/-- The entries of a map. -/
def entryValues (call : Caller) (h : Heap) : XNode → Scene → Except XErr (List (XItem × XSeq))
  | .nil, _ => .ok []
  | .node t _ l r, s =>
    match t with
    | .nil => .ok []
    | .mapConstruct =>
      match l with
      | .node .mapEntry _ k v => do
        let k ← XSeq.item1 (← means call h k s)
        let v ← means call h v s
        let es ← entryValues call h r s
        pure ((k, v) :: es)
      | _ => .error .cantOccur
    | _ => .error .cantOccur

/-- The members of an array. -/
def memberValues (call : Caller) (h : Heap) : XNode → Scene → Except XErr (List XSeq)
  | .nil, _ => .ok []
  | .node t _ l r, s =>
    match t with
    | .nil => .ok []
    | .arrayEntry => do
      let v ← means call h l s
      let vs ← memberValues call h r s
      pure (v :: vs)
    | _ => .error .cantOccur

/-- The arguments in parentheses behind an expression; nothing is claimed if there are placeholders among them. -/
def givenValues (call : Caller) (h : Heap) : XNode → Scene → Except XErr (List XSeq)
  | .nil, _ => .ok []
  | .node t _ l r, s =>
    match t with
    | .nil => .ok []
    | .argumentTop => do
      let v ← means call h l s
      let vs ← givenValues call h r s
      pure (v :: vs)
    | _ => .error .outOfFuel

end

/-- The parameters of an inline function: name and type. -/
def parametersOf (f : XNode) : List (Str × XNode) := f.right.right.chain.map fun p => (p.name, p.left)

/-- The function refers to its parameters only, which have different names, and it has no quantified expressions. -/
def Closed (f : XNode) : Prop :=
  ((parametersOf f).map fun p => p.1).Nodup ∧ (∀ m ∈ used f.left, m ∈ (parametersOf f).map fun p => p.1) ∧ tested f.left = []

instance (f : XNode) : Decidable (Closed f) := by unfold Closed; infer_instance

/-- The body of a function called at a place: the parameters are in scope, no other variables are. -/
def Scene.inside (s : Scene) (ps : List (Str × XNode)) (vs : List XSeq) : Scene :=
  { s with vars := fun m => (((ps.map fun p => p.1).zip vs).lookup m).getD [] }

/-- The arguments have the types of the parameters. -/
def admitted (h : Heap) (ps : List (Str × XNode)) (vs : List XSeq) : Except XErr Unit :=
  (ps.zip vs).forM fun e => do if ← matchSequenceType h e.2 e.1.2 then pure () else .error .typeError

/-- The arguments of a partial call, the given values in the places of the placeholders. -/
def filledValues (call : Caller) (h : Heap) (s : Scene) : List XNode → List XSeq → Except XErr (List XSeq)
  | [], _ => .ok []
  | a :: l, vs =>
    match a.ty with
    | .argumentTop => do
      let v ← means call h a.left s
      let r ← filledValues call h s l vs
      pure (v :: r)
    | .argumentPlaceholder =>
      match vs with
      | [] => .error .dynamicError
      | v :: vs => do
        let r ← filledValues call h s l vs
        pure (v :: r)
    | _ => .error .cantOccur

/-- Calling a function item, with calls nested at most as deep as the number says. -/
def callItem (h : Heap) : Nat → Caller
  | 0, _, _, _ => .error .outOfFuel
  | n + 1, f, vs, s =>
    match f.ty with
    | .inlineFunction =>
      if Closed f ∧ vs.length = (parametersOf f).length then do
        admitted h (parametersOf f) vs
        means (callItem h n) h f.left (s.inside (parametersOf f) vs)
      else .error .outOfFuel
    | .namedFunctionRef =>
      match splitHash f.name with
      | nm :: ar :: _ => if asUsize (atoi ar) = vs.length then named (callItem h n) h nm vs s else .error .typeError
      | _ => .error .panic
    | .partialFunctionCall =>
      if used f.right = [] ∧ tested f.right = [] then do named (callItem h n) h f.name (← filledValues (callItem h n) h s f.right.chain vs) s
      else .error .outOfFuel
    | _ => .error .cantOccur

end Spec
end Amxml
