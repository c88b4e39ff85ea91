import Verif.Model.Types

/-!
# The evaluator (`src/xpath_impl/eval.rs`) and the queries (`src/xpath.rs`)

`evaluate_xnode` is recursive and need not terminate (an inline function can call itself through a variable). `eval h n` allows
recursion to depth `n`; with more depth the result stays the same once it is not `outOfFuel` (`eval_mono` in
Verif/Lemmas/Eval.lean). A theorem about `eval` that holds for every `n` is a theorem about the code's terminating evaluations.

The heap is a parameter: evaluation does not change the document (it only computes the cached document order, which no result depends
on by C23, and reads through strong references).
-/

namespace Amxml

/-- `EvalEnv` (src/xpath_impl/eval.rs:56-61): `vars` is `var_vec`. -/
structure Env where
  position : Nat
  last : Nat
  vars : List (Str × XSeq)

/-- `new_eval_env` (src/xpath_impl/eval.rs:63-69). -/
def Env.new : Env := ⟨0, 0, []⟩

/-- `set_var` (src/xpath_impl/eval.rs:103-108). -/
def Env.setVar (e : Env) (n : Str) (v : XSeq) : Env := { e with vars := (n, v) :: e.vars }

/-- The loop of `remove_var` (src/xpath_impl/eval.rs:121-132): the first entry with the name is removed. -/
def removeFirst (n : Str) : List (Str × XSeq) → List (Str × XSeq)
  | [] => []
  | e :: l => if e.1 = n then l else e :: removeFirst n l

/-- `remove_var` (src/xpath_impl/eval.rs:121-132). -/
def Env.removeVar (e : Env) (n : Str) : Env := { e with vars := removeFirst n e.vars }

/-- `get_var` (src/xpath_impl/eval.rs:136-143). -/
def Env.getVar (e : Env) (n : Str) : Option XSeq := (e.vars.find? fun b => b.1 == n).map (·.2)

/-- An evaluation: reads and updates the environment, or fails. -/
abbrev E := StateT Env (Except XErr)

/-- A result that does not depend on the environment. -/
def liftE {α : Type} (r : Except XErr α) : E α := fun env =>
  match r with
  | .ok a => .ok (a, env)
  | .error e => .error e

/-- An update of the environment. -/
def modifyE (f : Env → Env) : E Unit := fun env => .ok ((), f env)

/-- An evaluator: context sequence and syntax tree to a sequence. -/
abbrev Evaluator := XSeq → XNode → E XSeq

/-- The results for the items of a sequence, concatenated, e.g. the loop of `OperatorMap` (src/xpath_impl/eval.rs:291-297). -/
def concatE (f : XItem → E XSeq) : XSeq → E XSeq
  | [] => pure []
  | x :: l => do
    let v ← f x
    let r ← concatE f l
    pure (v ++ r)

/-- The results of a list of evaluations. -/
def listE {α β : Type} (f : α → E β) : List α → E (List β)
  | [] => pure []
  | x :: l => do
    let v ← f x
    let r ← listE f l
    pure (v :: r)

/-! ## Paths and predicates -/

/-- The loop of `OperatorPath` (src/xpath_impl/eval.rs:222-244); `node`, `atom` are `node_exists`, `atom_exists`. Yields `node_exists` and the
concatenation. -/
def pathLoop (f : XItem → E XSeq) (node atom : Bool) : XSeq → E (Bool × XSeq)
  | [] => pure (node, [])
  | x :: l => do
    let v ← f x
    if v.isEmpty then pathLoop f node atom l
    else
      let node' := node || XSeq.isNoAtom v
      let atom' := atom || !XSeq.isNoAtom v
      if node' && atom' then liftE (.error .typeError)
      else do
        let r ← pathLoop f node' atom' l
        pure (r.1, v ++ r.2)

/-- `OperatorPath` (src/xpath_impl/eval.rs:192-255) behind the evaluation of its left side. -/
def pathOver (h : Heap) (f : XItem → E XSeq) (lhs : XSeq) : E XSeq :=
  if XSeq.isNoAtom lhs then do
    let r ← pathLoop f false false lhs
    if r.1 then pure (XSeq.ofNodes (sortByDocOrder h (XSeq.toNodeset r.2))) else pure r.2
  else liftE (.error .typeError)

/-- Whether a predicate's value keeps the item at a position (src/xpath_impl/eval.rs:1308-1320). -/
def keeps (position : Nat) : XSeq → Bool
  | [.integer n] => n == (position : Int)
  | [.node _] => true
  | [.boolean b] => b
  | _ => false

/-- The evaluation of a predicate for one item (src/xpath_impl/eval.rs:1294-1306): `position` and `last` are set for its duration. -/
def atPosition (ev : Evaluator) (p : XNode) (position last : Nat) (x : XItem) : E XSeq := fun env =>
  match ev [x] p { env with position := position, last := last } with
  | .ok (v, env') => .ok (v, { env' with position := env.position, last := env.last })
  | .error e => .error e

/-- The loop of `filter_by_predicate` (src/xpath_impl/eval.rs:1282-1327), at index `i`. -/
def filterLoop (ev : Evaluator) (p : XNode) (rev : Bool) (last : Nat) : Nat → XSeq → E XSeq
  | _, [] => pure []
  | i, x :: l => do
    let position := if rev then last - i else i + 1
    let v ← atPosition ev p position last x
    let r ← filterLoop ev p rev last (i + 1) l
    pure (if keeps position v then x :: r else r)

/-- `filter_by_predicate` (src/xpath_impl/eval.rs:1282-1327). -/
def filterByPredicate (ev : Evaluator) (s : XSeq) (p : XNode) (rev : Bool) : E XSeq :=
  if p.isNil then liftE (.error .cantOccur) else filterLoop ev p rev s.length 0 s

/-- `filter_by_predicates` (src/xpath_impl/eval.rs:1250-1276) over the chain of predicates. -/
def filterByPredicates (ev : Evaluator) : List XNode → XSeq → E XSeq
  | [], s => pure s
  | p :: ps, s =>
    match p.ty with
    | .predicateTop => do
      let r ← filterByPredicate ev s p.left false
      filterByPredicates ev ps r
    | .predicateRevTop => do
      let r ← filterByPredicate ev s p.left true
      filterByPredicates ev ps r
    | _ => liftE (.error .cantOccur)

/-- `match_loc_step` (src/xpath_impl/eval.rs:794-873). -/
def locStep (h : Heap) (ev : Evaluator) (x : XNode) (i : NodeId) : E XSeq :=
  match axisNodes h i x with
  | none => liftE (.error .cantOccur)
  | some l => filterByPredicates ev x.right.chain (XSeq.ofNodes l)

/-- `match_location_path` (src/xpath_impl/eval.rs:777-787). -/
def locationPath (h : Heap) (ev : Evaluator) (c : XSeq) (x : XNode) : E XSeq := do
  let r ← listE (fun i : NodeId => locStep h ev x i) (XSeq.toNodeset c)
  pure (XSeq.ofNodes (r.flatMap XSeq.toNodeset))

/-! ## Variables and functions -/

/-- The loop of `ForVarBind` (src/xpath_impl/eval.rs:558-563). -/
def forLoop (name : Str) (body : E XSeq) : XSeq → E XSeq
  | [] => pure []
  | x :: l => do
    modifyE fun env => env.setVar name [x]
    let v ← body
    modifyE fun env => env.removeVar name
    let r ← forLoop name body l
    pure (v ++ r)

/-- The loops of `SomeVarBind` (`stop = true`, src/xpath_impl/eval.rs:593-600) and `EveryVarBind` (`stop = false`, 611-618): returns early at the first
item whose condition is `stop`, and then does not remove the variable. -/
def quantLoop (name : Str) (stop : Bool) (body : E XSeq) : XSeq → E XSeq
  | [] => pure (xbool !stop)
  | x :: l => do
    modifyE fun env => env.setVar name [x]
    let v ← body
    let b ← liftE (XSeq.ebv v)
    if b = stop then pure (xbool stop)
    else do
      modifyE fun env => env.removeVar name
      quantLoop name stop body l

/-- The parameters of an inline function (src/xpath_impl/eval.rs:1435-1443). -/
def paramsOf (f : XNode) : List (Str × XNode) := f.right.right.chain.map fun p => (p.name, p.left)

/-- The loop that binds the arguments (src/xpath_impl/eval.rs:1448-1455); more arguments than parameters: indexing beyond the end panics. -/
def bindParams (h : Heap) : List (Str × XNode) → List XSeq → E Unit
  | _, [] => pure ()
  | [], _ :: _ => liftE (.error .panic)
  | (n, t) :: ps, v :: vs => do
    let b ← liftE (matchSequenceType h v t)
    if b then do
      modifyE fun env => env.setVar n v
      bindParams h ps vs
    else liftE (.error .typeError)

/-- `call_inline_func` (src/xpath_impl/eval.rs:1421-1472). -/
def callInline (h : Heap) (ev : Evaluator) (f : XNode) (args : List XSeq) (c : XSeq) : E XSeq := do
  bindParams h (paramsOf f) args
  let v ← ev c f.left
  modifyE fun env => ((paramsOf f).map (·.1)).foldr (fun n e => e.removeVar n) env
  pure v

/-- `s.split("#")`. -/
def splitHash : Str → List Str
  | [] => [[]]
  | c :: s =>
    if c = '#' then [] :: splitHash s
    else
      match splitHash s with
      | p :: ps => (c :: p) :: ps
      | [] => [[c]]

/-- A function of `FUNC_CONTEXT_TBL` applied (src/xpath_impl/func.rs:153-180 and the functions it names); `call` is `call_function`. -/
def applyCtxFn (h : Heap) (call : XNode → List XSeq → XSeq → E XSeq) (f : CtxFn) (args : List XSeq) (c : XSeq) : E XSeq :=
  match f with
  | .nilled0 => liftE (fnNilled h c)
  | .string0 => liftE (fnString h c)
  | .data0 => liftE (fnData h c)
  | .number0 => liftE (fnNumber h c)
  | .stringLength0 => liftE (fnStringLength c)
  | .normalizeSpace0 => liftE (fnNormalizeSpace c)
  | .name0 => liftE (fnNodeString (fun i => (h.node i).name) c)
  | .localName0 => liftE (fnNodeString (fun i => localName (h.node i).name) c)
  | .namespaceUri0 => liftE (fnNodeString (fun i => h.namespaceUri i) c)
  | .lang1 => liftE (fnLang h (arg args 0) c)
  | .root0 => liftE (fnRoot h c)
  | .position => fun env => .ok ([.integer env.position], env)
  | .last => fun env => .ok ([.integer env.last], env)
  | .forEach => do
    let f ← liftE (XSeq.fn1 (arg args 1))
    concatE (fun x => call f [[x]] c) (arg args 0)
  | .filter => do
    let f ← liftE (XSeq.fn1 (arg args 1))
    concatE (fun x => do
      let v ← call f [[x]] c
      let b ← liftE (XSeq.ebv v)
      pure (if b then [x] else [])) (arg args 0)

/-- `evaluate_function` (src/xpath_impl/func.rs:305-332). -/
def evaluateFunction (h : Heap) (call : XNode → List XSeq → XSeq → E XSeq) (name : Str) (args : List XSeq) (c : XSeq) :
    E XSeq :=
  match findCtxFn name args.length with
  | some f => applyCtxFn h call f args c
  | none =>
    match findPureFn name args.length with
    | some f => liftE (f h args)
    | none => liftE (.error .cantOccur)

/-- The arguments of a partial function call (src/xpath_impl/eval.rs:1525-1546): placeholders take the given arguments in order. -/
def partialArgs (ev : Evaluator) (c : XSeq) : List XNode → List XSeq → E (List XSeq)
  | [], _ => pure []
  | a :: l, args =>
    match a.ty with
    | .argumentTop => do
      let v ← ev c a.left
      let r ← partialArgs ev c l args
      pure (v :: r)
    | .argumentPlaceholder =>
      match args with
      | [] => liftE (.error .dynamicError)
      | v :: args' => do
        let r ← partialArgs ev c l args'
        pure (v :: r)
    | _ => liftE (.error .cantOccur)

/-- `atoi(..) as usize` (src/xpath_impl/eval.rs:1487): a negative number wraps. -/
def asUsize (n : Int) : Nat := (n % 2 ^ 64).toNat

/-- `call_function` (src/xpath_impl/eval.rs:1557-1577), with `call_named_func` (1477-1494) and `call_partial_func` (1520-1550). A function
called through a function item may itself be `fn:for-each` and call functions: these calls go to `call`. -/
def callStep (h : Heap) (ev : Evaluator) (call : XNode → List XSeq → XSeq → E XSeq) (f : XNode) (args : List XSeq) (c : XSeq) :
    E XSeq :=
  match f.ty with
  | .inlineFunction => callInline h ev f args c
  | .namedFunctionRef =>
    match splitHash f.name with
    | nm :: ar :: _ =>
      if asUsize (atoi ar) = args.length then evaluateFunction h call nm args c
      else liftE (.error .typeError)
    | _ => liftE (.error .panic)
  | .partialFunctionCall => do
    let as ← partialArgs ev c f.right.chain args
    evaluateFunction h call f.name as c
  | _ => liftE (.error .cantOccur)

/-- `call_function` (src/xpath_impl/eval.rs:1557-1577), with recursion to depth at most `n`. -/
def callFunctionF (h : Heap) (ev : Evaluator) : Nat → XNode → List XSeq → XSeq → E XSeq
  | 0, _, _, _ => liftE (.error .outOfFuel)
  | n + 1, f, args, c => callStep h ev (callFunctionF h ev n) f args c

/-- The arguments of a function call (src/xpath_impl/eval.rs:650-664). -/
def callArg (ev : Evaluator) (c : XSeq) (a : XNode) : E XSeq :=
  match a.ty with
  | .argumentTop => ev c a.left
  | _ => liftE (.error .cantOccur)

/-- `argument_xseq[0].get_singleton_item()?` (src/xpath_impl/eval.rs:1392, 1405). -/
def firstArg (args : List XSeq) : Except XErr XItem :=
  match args with
  | [] => .error .panic
  | a :: _ => XSeq.item1 a

/-- `apply_argument` (src/xpath_impl/eval.rs:1360-1417) behind the evaluation of the arguments. -/
def applyTo (h : Heap) (ev : Evaluator) (c : XSeq) (args : List XSeq) : XSeq → E XSeq
  | [.fn f] => if f.ty = .inlineFunction then callInline h ev f args c else liftE (.error .cantOccur)
  | [.map e] => do
    let k ← liftE (firstArg args)
    match mapGet h e k with
    | some v => pure v
    | none => liftE (.error .dynamicError)
  | [.array a] => do
    let k ← liftE (firstArg args)
    match arrayGet h a k with
    | some v => pure v
    | none => liftE (.error .dynamicError)
  | _ => liftE (.error .cantOccur)

/-! ## Maps and arrays -/

/-- One turn of the loop over the entries of a map constructor (src/xpath_impl/eval.rs:2394-2414). -/
def mapEntryE (ev : Evaluator) (c : XSeq) (m : XNode) : E (XItem × XSeq) :=
  if m.ty ≠ .mapConstruct then liftE (.error .cantOccur)
  else if m.left.ty ≠ .mapEntry then liftE (.error .cantOccur)
  else do
    let k ← ev c m.left.left
    let k ← liftE (XSeq.item1 k)
    let v ← ev c m.left.right
    pure (k, v)

/-- One turn of the loop over the members of a square array constructor (src/xpath_impl/eval.rs:2431-2443). -/
def arrayEntryE (ev : Evaluator) (c : XSeq) (m : XNode) : E XSeq :=
  if m.ty ≠ .arrayEntry then liftE (.error .cantOccur) else ev c m.left

/-- The values of all keys, in order (src/xpath_impl/eval.rs:700-704): a key that is not found panics (`unwrap`). -/
def lookupAll (h : Heap) (e : List (XItem × XSeq)) : List XItem → Except XErr XSeq
  | [] => .ok []
  | k :: l =>
    match mapGet h e k with
    | none => .error .panic
    | some v => (lookupAll h e l).map fun r => v ++ r

/-- `UnaryLookupByWildcard` (src/xpath_impl/eval.rs:698-718). -/
def lookupWildcard (h : Heap) : XSeq → Except XErr XSeq
  | [.map e] => lookupAll h e (e.map (·.1))
  | [.array a] => .ok a.flatten
  | _ => .error .typeError

/-- `UnaryLookupByExpr` (src/xpath_impl/eval.rs:720-746) with the values of the keys. -/
def lookupKeys (h : Heap) (keys : XSeq) : XSeq → Except XErr XSeq
  | [.map e] => .ok (keys.flatMap fun k : XItem => (mapGet h e k).getD [])
  | [.array a] => .ok (keys.flatMap fun k : XItem => (arrayGet h a k).getD [])
  | _ => .error .typeError

/-! ## The evaluator -/

/-- The binary operators that evaluate both operands, left first (src/xpath_impl/eval.rs:340-533). -/
def binaryOp (h : Heap) : XNodeType → Option (XSeq → XSeq → Except XErr XSeq)
  | .operatorConcatenate => some opConcatenate
  | .operatorGeneralEQ => some (generalEq h)
  | .operatorGeneralNE => some (generalNe h)
  | .operatorGeneralLT => some (generalLt h)
  | .operatorGeneralLE => some (generalLe h)
  | .operatorGeneralGT => some (generalGt h)
  | .operatorGeneralGE => some (generalGe h)
  | .operatorValueEQ => some (valueEq h)
  | .operatorValueNE => some (valueNe h)
  | .operatorValueLT => some (valueLt h)
  | .operatorValueLE => some (valueLe h)
  | .operatorValueGT => some (valueGt h)
  | .operatorValueGE => some (valueGe h)
  | .operatorAdd => some (opNumeric numAdd)
  | .operatorSubtract => some (opNumeric numSub)
  | .operatorMultiply => some (opNumeric numMul)
  | .operatorDiv => some (opNumeric numDiv)
  | .operatorIDiv => some (opNumeric numIDiv)
  | .operatorMod => some (opNumeric numMod)
  | .operatorConcat => some fun a b => fnConcat h [a, b]
  | .operatorUnion => some (opUnion h)
  | .operatorIntersect => some opIntersect
  | .operatorExcept => some opExcept
  | .operatorTo => some opTo
  | .operatorIsSameNode => some (opIs h)
  | .operatorNodeBefore => some (opBefore h)
  | .operatorNodeAfter => some (opAfter h)
  | _ => none

/-- `if ! is_nil_xnode(&x) { evaluate_xnode(..)? } else { new_xsequence() }`. -/
def evalOrEmpty (ev : Evaluator) (c : XSeq) (x : XNode) : E XSeq := if x.isNil then pure [] else ev c x

/-- One turn of `evaluate_xnode` (src/xpath_impl/eval.rs:182-771), recursive calls going to `ev`, those of `call_function` to `call`. -/
def evalStep (h : Heap) (call : XNode → List XSeq → XSeq → E XSeq) (ev : Evaluator) (c : XSeq) (x : XNode) : E XSeq :=
  match x.ty with
  | .nil => liftE (.error .panic)
  | .operatorPath => do
    let l ← evalOrEmpty ev c x.left
    if x.right.isNil then pure l else pathOver h (fun i => ev [i] x.right) l
  | .operatorMap => do
    let l ← evalOrEmpty ev c x.left
    if x.right.isNil then pure l else concatE (fun i => ev [i] x.right) l
  | .axisAncestor | .axisAncestorOrSelf | .axisAttribute | .axisChild | .axisDescendant | .axisDescendantOrSelf
  | .axisFollowing | .axisFollowingSibling | .axisParent | .axisPreceding | .axisPrecedingSibling | .axisRoot
  | .axisSelf => locationPath h ev c x
  | .contextItem => pure c
  | .applyPredicate => do
    let v ← ev c x.left
    filterByPredicate ev v x.right.left false
  | .applyArgument => do
    let v ← ev c x.left
    let args ← listE (fun a : XNode => ev c a.left) x.right.left.chain
    applyTo h ev c args v
  | .operatorOr => do
    let l ← ev c x.left
    let b ← liftE (XSeq.ebv l)
    if b then pure (xbool true)
    else do
      let r ← ev c x.right
      let b ← liftE (XSeq.ebv r)
      pure (xbool b)
  | .operatorAnd => do
    let l ← ev c x.left
    let b ← liftE (XSeq.ebv l)
    if b then do
      let r ← ev c x.right
      let b ← liftE (XSeq.ebv r)
      pure (xbool b)
    else pure (xbool false)
  | .operatorUnaryPlus => do
    let r ← ev c x.right
    liftE (opUnary numUPlus r)
  | .operatorUnaryMinus => do
    let r ← ev c x.right
    liftE (opUnary numUMinus r)
  | .ifExpr => do
    let v ← ev c x.left
    if x.right.ty ≠ .ifThenElse then liftE (.error .cantOccur)
    else do
      let b ← liftE (XSeq.ebv v)
      if b then ev c x.right.left else ev c x.right.right
  | .forExpr | .letExpr | .someExpr | .everyExpr => ev c x.right
  | .forVarBind => do
    let s ← ev c x.left
    forLoop x.name (ev c x.right) s
  | .letVarBind => do
    let v ← ev c x.left
    modifyE fun env => env.setVar x.name v
    let r ← ev c x.right
    modifyE fun env => env.removeVar x.name
    pure r
  | .someVarBind => do
    let s ← ev c x.left
    quantLoop x.name true (ev c x.right) s
  | .everyVarBind => do
    let s ← ev c x.left
    quantLoop x.name false (ev c x.right) s
  | .operatorInstanceOf => do
    let v ← ev c x.left
    let b ← liftE (matchSequenceType h v x.right)
    pure (xbool b)
  | .operatorCastableAs => do
    let v ← ev c x.left
    pure (xbool (XSeq.castableAs h v x.right.left.name))
  | .operatorCastAs => do
    let v ← ev c x.left
    liftE (XSeq.castAs h v x.right.left.name)
  | .functionCall => do
    let args ← listE (callArg ev c) x.right.chain
    evaluateFunction h call x.name args c
  | .stringLiteral => pure [.string x.name]
  | .integerLiteral => pure [.integer (atoi x.name)]
  | .decimalLiteral => pure [.decimal (atof x.name)]
  | .doubleLiteral => pure [.double (atof x.name)]
  | .inlineFunction | .namedFunctionRef | .partialFunctionCall => pure [.fn x]
  | .map => do
    let e ← listE (mapEntryE ev c) x.left.chain
    pure [.map e]
  | .squareArray => do
    let a ← listE (arrayEntryE ev c) x.left.chain
    pure [.array a]
  | .curlyArray => do
    let v ← ev c x.left
    pure [.array (v.map fun i : XItem => [i])]
  | .unaryLookupByWildcard => liftE (lookupWildcard h c)
  | .unaryLookupByExpr => do
    let k ← ev c x.left
    liftE (lookupKeys h k c)
  | .varRef => fun env => .ok ((env.getVar x.name).getD [], env)
  | .parenthesizedExpr => evalOrEmpty ev c x.left
  | t =>
    match binaryOp h t with
    | some f => do
      let l ← ev c x.left
      let r ← ev c x.right
      liftE (f l r)
    | none => liftE (.error .cantOccur)

/-- `evaluate_xnode` (src/xpath_impl/eval.rs:182-771), with recursion to depth at most the first argument. -/
def eval (h : Heap) : Nat → Evaluator
  | 0 => fun _ _ => liftE (.error .outOfFuel)
  | n + 1 => evalStep h (callFunctionF h (eval h n) n) (eval h n)

/-- `match_xpath` (src/xpath_impl/eval.rs:171-177). -/
def matchXPath (h : Heap) (n : Nat) (start : NodeId) (x : XNode) : Except XErr XSeq :=
  match eval h n [.node start] x Env.new with
  | .ok (v, _) => .ok v
  | .error e => .error e

/-! ## The queries of `NodePtr` -/

/-- `NodePtr::eval_xpath` (src/xpath.rs:99-103). -/
def evalXPath (h : Heap) (n : Nat) (start : NodeId) (q : Str) : Except XErr XSeq :=
  match Parser.compileXPath q with
  | .ok x => matchXPath h n start x
  | .error e => .error e

/-- `NodePtr::get_nodeset` (src/xpath.rs:191-198). -/
def getNodeset (h : Heap) (n : Nat) (start : NodeId) (q : Str) : Except XErr (List NodeId) :=
  (evalXPath h n start q).map XSeq.toNodeset

/-- `NodePtr::get_first_node` (src/xpath.rs:126-136): errors give `None`; a panic is no error and gets through (as does the end of the
model's depth of recursion). -/
def getFirstNode (h : Heap) (n : Nat) (start : NodeId) (q : Str) : Except XErr (Option NodeId) :=
  match getNodeset h n start q with
  | .ok l => .ok l.head?
  | .error .panic => .error .panic
  | .error .outOfFuel => .error .outOfFuel
  | .error _ => .ok none

/-- `NodePtr::each_node` (src/xpath.rs:160-168), with the calls of the callback folded into a state. -/
def eachNode {σ : Type} (h : Heap) (n : Nat) (start : NodeId) (q : Str) (f : σ → NodeId → σ) (s : σ) : Except XErr σ :=
  (getNodeset h n start q).map fun l => l.foldl f s

end Amxml
