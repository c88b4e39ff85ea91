import Verif.Model.Parser

/-!
# Sequence types (`src/xpath_impl/eval.rs`, lines 1590 to 2345)

Both `match_sequence_type` and `subtype` descend the type's syntax tree; the models count the depth down. The depth of the tree is
enough (`subtypeItemF_iff` and `matchF_ok` in Verif/Props/XTypes.lean hold for every bound that is at least the depth).
-/

namespace Amxml

/-- The depth of a syntax tree. -/
def XNode.depth : XNode → Nat
  | .nil => 0
  | .node _ _ l r => max l.depth r.depth + 1

/-- Conjunction that stops at the first `false` or error: the loops `for .. { if ! f(..)? { return Ok(false); } }`. -/
def allE {α : Type} (f : α → Except XErr Bool) : List α → Except XErr Bool
  | [] => .ok true
  | a :: l =>
    match f a with
    | .ok true => allE f l
    | .ok false => .ok false
    | .error e => .error e

/-- `match_occurence` (src/xpath_impl/eval.rs:1969-1980) on the length of the sequence. -/
def matchOccurrence (len : Nat) (ind : Str) : Except XErr Bool :=
  if ind = S "?" then .ok (decide (len ≤ 1))
  else if ind = S "*" then .ok true
  else if ind = S "+" then .ok (decide (1 ≤ len))
  else if ind = [] then .ok (decide (len = 1))
  else .error .cantOccur

/-- `subtype_entry` (src/xpath_impl/eval.rs:2010-2035): 0 = empty sequence, 1 = `?`, 2 = `*`, 3 = exactly one, 4 = `+`, 5 = xs:error. -/
def subtypeEntry (x : XNode) : Fin 6 :=
  if x.left.ty = .emptySequenceTest then 0
  else if x.left.ty = .atomicOrUnionType ∧ x.left.name = S "xs:error" then
    if x.name = S "?" then 0 else if x.name = S "*" then 0 else 5
  else if x.name = S "?" then 1
  else if x.name = S "*" then 2
  else if x.name = [] then 3
  else if x.name = S "+" then 4
  else 3

/-- `SUBTYPE_TBL` (src/xpath_impl/eval.rs:1993-2000): `some b` = decided, `none` (9 in the code) = compare the item types. -/
def subtypeTbl (a b : Fin 6) : Option Bool :=
  match a, b with
  | 0, 0 => some true | 0, 1 => some true | 0, 2 => some true | 0, _ => some false
  | 1, 1 => none | 1, 2 => none | 1, _ => some false
  | 2, 2 => none | 2, _ => some false
  | 3, 1 => none | 3, 2 => none | 3, 3 => none | 3, 4 => none | 3, _ => some false
  | 4, 2 => none | 4, 4 => none | 4, _ => some false
  | 5, _ => some true

/-- `subtype` (src/xpath_impl/eval.rs:2002-2008), with the comparison of item types. -/
def subtypeWith (item : XNode → XNode → Bool) (a b : XNode) : Bool :=
  match subtypeTbl (subtypeEntry a) (subtypeEntry b) with
  | some r => r
  | none => item a.left b.left

/-- The return type and the parameter types of a function test or an inline function: the left children along the right chain
(src/xpath_impl/eval.rs:1746-1751, 2172-2184). -/
def signatureOf (x : XNode) : List XNode := x.right.chain.map XNode.left

/-- Signatures are compared (src/xpath_impl/eval.rs:1796-1817, 2186-2199): the return type covariantly, parameters contravariantly, and
they have equally many parameters. The code indexes element 0 of both vectors in `subtype_itemtype`: a function test has a return type. -/
def sigSubtype (sub : XNode → XNode → Bool) : Nat → List XNode → List XNode → Bool
  | _, [], [] => true
  | _, [], _ :: _ => false
  | _, _ :: _, [] => false
  | i, a :: as, b :: bs => (if i = 0 then sub a b else sub b a) && sigSubtype sub (i + 1) as bs

/-- The rules for `KindTest` in `subtype_itemtype` (src/xpath_impl/eval.rs:2104-2147). -/
def subtypeKind (a b : XNode) : Bool :=
  match b.left.ty with
  | .anyKindTest => a.ty == .kindTest
  | .textTest => a.ty == .kindTest && a.left.ty == .textTest
  | .commentTest => a.ty == .kindTest && a.left.ty == .commentTest
  | .namespaceNodeTest => a.ty == .kindTest && a.left.ty == .namespaceNodeTest
  | .pITest =>
    if b.name = [] then a.ty == .kindTest && a.left.ty == .pITest
    else a.ty == .kindTest && a.left.ty == .pITest && a.left.name == b.name
  | _ => false

/-- `subtype_itemtype` (src/xpath_impl/eval.rs:2044-2339). -/
def subtypeItemF : Nat → XNode → XNode → Bool
  | 0, _, _ => false
  | n + 1, a, b =>
    (a.ty == .atomicOrUnionType && b.ty == .atomicOrUnionType &&
      (derivesFrom a.name b.name || a.name == S "xs:error")) ||
    b.ty == .itemTest ||
    (b.ty == .kindTest && subtypeKind a b) ||
    (b.ty == .anyFunctionTest && (a.ty == .anyFunctionTest || a.ty == .typedFunctionTest)) ||
    (b.ty == .typedFunctionTest && a.ty == .typedFunctionTest &&
      sigSubtype (subtypeWith (subtypeItemF n)) 0 (signatureOf a) (signatureOf b)) ||
    (a.ty == .mapTest && b.ty == .mapTest && subtypeItemF n a.left b.left &&
      subtypeWith (subtypeItemF n) a.right b.right) ||
    (a.ty == .mapTest && b.ty == .anyFunctionTest) ||
    (a.ty == .mapTest && b.ty == .typedFunctionTest && subtypeItemF n a.left b.right.right.left.left &&
      subtypeWith (subtypeItemF n) a.right b.right.left) ||
    (a.ty == .arrayTest && b.ty == .arrayTest && subtypeWith (subtypeItemF n) a.left b.left) ||
    (a.ty == .arrayTest && b.ty == .anyFunctionTest) ||
    (a.ty == .arrayTest && b.ty == .typedFunctionTest &&
      derivesFrom (S "xs:integer") b.right.right.left.left.name && subtypeWith (subtypeItemF n) a.left b.right.left)

/-- `subtype_itemtype` (src/xpath_impl/eval.rs:2044-2339). -/
def subtypeItem (a b : XNode) : Bool := subtypeItemF (max a.depth b.depth + 1) a b

/-- `subtype` (src/xpath_impl/eval.rs:2002-2008). -/
def subtype (a b : XNode) : Bool := subtypeWith subtypeItem a b

/-- `match_sequence_any_function_test` (src/xpath_impl/eval.rs:1708-1732) on one item. -/
def isFunctionItem : XItem → Bool
  | .fn f => f.ty == .inlineFunction || f.ty == .namedFunctionRef || f.ty == .partialFunctionCall
  | .array _ => true
  | .map _ => true
  | _ => false

/-- The signature of a function item (src/xpath_impl/eval.rs:1756-1790); `none`: it has none. -/
def functionItemSignature (f : XNode) : Except XErr (Option (List XNode)) :=
  match f.ty with
  | .namedFunctionRef =>
    let sig := functionSignature f.name
    if sig = [] then .ok none
    else
      match Lexer.new sig with
      | .error e => .error e
      | .ok ts =>
        match Parser.parseFunctionTest (Parser.body ts) with
        | .error e => .error e
        | .ok r => .ok (some (signatureOf r.1))
  | .inlineFunction => .ok (some (signatureOf f))
  | .partialFunctionCall => .ok (some (signatureOf f))
  | _ => .ok none

/-- `match_array_sequence_type` (src/xpath_impl/eval.rs:1893-1905): every index from 1 to the size has a member. -/
def matchArrayMembers (m : XSeq → XNode → Except XErr Bool) (a : List XSeq) (t : XNode) : Except XErr Bool :=
  allE (fun s => m s t) a

/-- `match_map_sequence_type` (src/xpath_impl/eval.rs:1933-1949). -/
def matchMapEntries (h : Heap) (m : XSeq → XNode → Except XErr Bool) (e : List (XItem × XSeq)) (key : Str) (t : XNode) :
    Except XErr Bool :=
  allE (fun k : XItem =>
    if derivesFrom k.xsType key then
      match mapGet h e k with
      | some v => m v t
      | none => .ok false
    else .ok false) (e.map (·.1))

/-- The body of the loop of `match_sequence_typed_function_test` (src/xpath_impl/eval.rs:1738-1867) for one item. -/
def matchTypedFunction (h : Heap) (m : XSeq → XNode → Except XErr Bool) (sig : List XNode) : XItem → Except XErr Bool
  | .fn f =>
    match functionItemSignature f with
    | .error e => .error e
    | .ok none => .ok false
    | .ok (some own) => .ok (sigSubtype subtype 0 own sig)
  | .map e =>
    match sig with
    | [r, p] => matchMapEntries h m e p.left.name r
    | _ => .ok false
  | .array a =>
    match sig with
    | [r, p] =>
      match m [.integer 1] p with
      | .ok true => matchArrayMembers m a r
      | .ok false => .ok false
      | .error e => .error e
    | _ => .ok false
  | _ => .ok false

/-- `match_sequence_array_test` (src/xpath_impl/eval.rs:1876-1888) for one item. -/
def matchArrayItem (m : XSeq → XNode → Except XErr Bool) (t : XNode) : XItem → Except XErr Bool
  | .array a => matchArrayMembers m a t.left
  | _ => .ok false

/-- `match_sequence_map_test` (src/xpath_impl/eval.rs:1914-1927) for one item. -/
def matchMapItem (h : Heap) (m : XSeq → XNode → Except XErr Bool) (t : XNode) : XItem → Except XErr Bool
  | .map e => matchMapEntries h m e t.left.name t.right
  | _ => .ok false

/-- `match_sequence_kind_test` (src/xpath_impl/eval.rs:1674-1685). -/
def matchKindAll (h : Heap) (t : XNode) (s : XSeq) : Bool :=
  s.all fun x : XItem =>
    match x.asNode with
    | some i => matchKindTest h i t
    | none => false

/-- The second half of `match_sequence_type` (src/xpath_impl/eval.rs:1597-1665): the items against the item type. -/
def matchItems (h : Heap) (m : XSeq → XNode → Except XErr Bool) (s : XSeq) (t : XNode) : Except XErr Bool :=
  match t.ty with
  | .kindTest => .ok (matchKindAll h t s)
  | .itemTest => .ok (s.all XItem.isItem)
  | .anyFunctionTest => .ok (s.all isFunctionItem)
  | .typedFunctionTest => allE (matchTypedFunction h m (signatureOf t)) s
  | .arrayTest => allE (matchArrayItem m t) s
  | .mapTest => allE (matchMapItem h m t) s
  | .atomicOrUnionType => .ok (s.all fun x : XItem => derivesFrom x.xsType t.name)
  | .parenthesizedItemType => .ok false
  | _ => .error .cantOccur

/-- `match_sequence_type` (src/xpath_impl/eval.rs:1597-1665). -/
def matchSequenceTypeF (h : Heap) : Nat → XSeq → XNode → Except XErr Bool
  | 0, _, _ => .error .outOfFuel
  | n + 1, s, x =>
    if x.ty ≠ .sequenceType then .error .cantOccur
    else if x.left.ty = .emptySequenceTest then .ok s.isEmpty
    else
      match matchOccurrence s.length x.name with
      | .error e => .error e
      | .ok false => .ok false
      | .ok true => matchItems h (matchSequenceTypeF h n) s x.left

/-- `match_sequence_type` (src/xpath_impl/eval.rs:1597-1665). -/
def matchSequenceType (h : Heap) (s : XSeq) (x : XNode) : Except XErr Bool := matchSequenceTypeF h (x.depth + 1) s x

end Amxml
