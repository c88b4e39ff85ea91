import Verif.Model.XSeq

/-!
# Axes and node tests (`src/xpath_impl/eval.rs`)

The recursions over the tree are bounded by fuel; the number of nodes of the heap is always enough (`Lemmas/Axes.lean`).
-/

namespace Amxml

/-- `array_ancestor` (src/xpath_impl/eval.rs:895-902). Parents have smaller ids, so `i + 1` rounds suffice. -/
def ancestorF (h : Heap) : Nat → NodeId → List NodeId
  | 0, _ => []
  | fuel + 1, i =>
    match (h.node i).parent with
    | none => []
    | some p => ancestorF h fuel p ++ [p]

/-- `array_ancestor` (src/xpath_impl/eval.rs:895-902). -/
def arrayAncestor (h : Heap) (i : NodeId) : List NodeId := ancestorF h (i + 1) i

/-- `array_ancestor_or_self` (src/xpath_impl/eval.rs:907-912). -/
def arrayAncestorOrSelf (h : Heap) (i : NodeId) : List NodeId := arrayAncestor h i ++ [i]

/-- `array_descendant` (src/xpath_impl/eval.rs:917-924): the loop over a list of siblings. -/
def descendantF (h : Heap) : Nat → List NodeId → List NodeId
  | _, [] => []
  | 0, _ :: _ => []
  | fuel + 1, c :: cs => c :: (descendantF h fuel (h.node c).children ++ descendantF h fuel cs)

/-- `array_descendant` (src/xpath_impl/eval.rs:917-924). -/
def arrayDescendant (h : Heap) (i : NodeId) : List NodeId := descendantF h (h.size + 1) (h.node i).children

/-- `array_descendant_or_self` (src/xpath_impl/eval.rs:929-934). -/
def arrayDescendantOrSelf (h : Heap) (i : NodeId) : List NodeId := i :: arrayDescendant h i

/-- The loop of `array_following` (src/xpath_impl/eval.rs:939-955); `occ` is `self_occured`. -/
def followingLoop (self : NodeId) (desc : List NodeId) : Bool → List NodeId → List NodeId
  | _, [] => []
  | occ, c :: cs =>
    let rest := followingLoop self desc (occ || c == self) cs
    if occ && !desc.contains c then c :: rest else rest

/-- `array_following` (src/xpath_impl/eval.rs:939-955). -/
def arrayFollowing (h : Heap) (i : NodeId) : List NodeId :=
  if (h.node i).ntype ≠ .attribute then
    followingLoop i (arrayDescendantOrSelf h i) false (arrayDescendantOrSelf h (h.root i))
  else []

/-- The loop of `array_following_sibling` (src/xpath_impl/eval.rs:960-976). -/
def followingSiblingLoop (self : NodeId) : Bool → List NodeId → List NodeId
  | _, [] => []
  | occ, c :: cs =>
    let rest := followingSiblingLoop self (occ || c == self) cs
    if occ then c :: rest else rest

/-- `array_following_sibling` (src/xpath_impl/eval.rs:960-976). -/
def arrayFollowingSibling (h : Heap) (i : NodeId) : List NodeId :=
  if (h.node i).ntype ≠ .attribute then
    match (h.node i).parent with
    | some p => followingSiblingLoop i false (h.node p).children
    | none => []
  else []

/-- The loop of `array_preceding` (src/xpath_impl/eval.rs:981-997). -/
def precedingLoop (self : NodeId) (anc : List NodeId) : Bool → List NodeId → List NodeId
  | _, [] => []
  | occ, c :: cs =>
    let occ' := occ || c == self
    let rest := precedingLoop self anc occ' cs
    if !occ' && !anc.contains c then c :: rest else rest

/-- `array_preceding` (src/xpath_impl/eval.rs:981-997). -/
def arrayPreceding (h : Heap) (i : NodeId) : List NodeId :=
  if (h.node i).ntype ≠ .attribute then
    precedingLoop i (arrayAncestor h i) false (arrayDescendantOrSelf h (h.root i))
  else []

/-- The loop of `array_preceding_sibling` (src/xpath_impl/eval.rs:1002-1018). -/
def precedingSiblingLoop (self : NodeId) : Bool → List NodeId → List NodeId
  | _, [] => []
  | occ, c :: cs =>
    let occ' := occ || c == self
    let rest := precedingSiblingLoop self occ' cs
    if !occ' then c :: rest else rest

/-- `array_preceding_sibling` (src/xpath_impl/eval.rs:1002-1018). -/
def arrayPrecedingSibling (h : Heap) (i : NodeId) : List NodeId :=
  if (h.node i).ntype ≠ .attribute then
    match (h.node i).parent with
    | some p => precedingSiblingLoop i false (h.node p).children
    | none => []
  else []

/-! ## Types -/

/-- The table in `derives_from` (src/xpath_impl/eval.rs:2343-2370). -/
def derivesTbl : List (Str × Str) := [
  (S "xs:integer", S "xs:decimal"), (S "xs:decimal", S "xs:numeric"), (S "xs:double", S "xs:numeric"),
  (S "xs:numeric", S "xs:anyAtomicType"), (S "xs:string", S "xs:anyAtomicType"), (S "xs:anyURI", S "xs:string"),
  (S "xs:boolean", S "xs:anyAtomicType"), (S "xs:untypedAtomic", S "xs:anyAtomicType"),
  (S "xs:anyAtomicType", S "xs:anySimpleType"), (S "xs:anySimpleType", S "xs:anyType"),
  (S "xs:untyped", S "xs:anyType")]

/-- `derives_from_map.get(..)`. -/
def derivesStep (t : Str) : Option Str := (derivesTbl.find? fun e => e.1 == t).map (·.2)

/-- The loop of `derives_from` (src/xpath_impl/eval.rs:2343-2370). -/
def derivesLoop (b : Str) : Nat → Str → Bool
  | 0, _ => false
  | fuel + 1, t =>
    if t = b then true
    else match derivesStep t with
      | some s => derivesLoop b fuel s
      | none => false

/-- `derives_from` (src/xpath_impl/eval.rs:2343-2370). Chains in the table are shorter than the table. -/
def derivesFrom (a b : Str) : Bool := derivesLoop b (derivesTbl.length + 1) a

/-! ## Node tests -/

/-- `match_name_test` (src/xpath_impl/eval.rs:1042-1097). -/
def matchNameTest (h : Heap) (i : NodeId) (x : XNode) : Bool :=
  let pat := x.name
  if pat = S "node()" then true
  else
    let main : NodeType := if x.ty = .axisAttribute then .attribute else .element
    if main ≠ (h.node i).ntype then false
    else if pat = (h.node i).name then true
    else if pat = S "*" then true
    else match splitOnce (S ":") pat with
      | some (a, b) => b == S "*" && spaceName (h.node i).name == a
      | none => false

/-- `match_kind_test` (src/xpath_impl/eval.rs:1135-1231). -/
def matchKindTest (h : Heap) (i : NodeId) (x : XNode) : Bool :=
  let t := x.left
  match t.ty with
  | .elementTest =>
    if (h.node i).ntype ≠ .element then false
    else if t.name ≠ S "*" ∧ t.name ≠ (h.node i).name then false
    else
      let tn := t.left.name
      if !derivesFrom (S "xs:untyped") (XSeq.trimQ tn) then false
      else if tn.getLast? ≠ some '?' then
        match h.attributeValue i (S "xsi:nil") with
        | some p => p != S "true"
        | none => true
      else true
  | .attributeTest =>
    if (h.node i).ntype ≠ .attribute then false
    else if t.name ≠ S "*" ∧ t.name ≠ (h.node i).name then false
    else derivesFrom (S "xs:untypedAtomic") t.left.name
  | .pITest => (h.node i).ntype == .instruction && (t.name == [] || t.name == (h.node i).name)
  | .commentTest => (h.node i).ntype == .comment
  | .textTest => (h.node i).ntype == .text
  | .anyKindTest => true
  | _ => false

/-- `match_node_test` (src/xpath_impl/eval.rs:1023-1037). -/
def matchNodeTest (h : Heap) (i : NodeId) (x : XNode) : Bool :=
  if x.left.isNil then matchNameTest h i x else matchKindTest h i x.left

/-- `match_along_axis` (src/xpath_impl/eval.rs:879-890). -/
def matchAlongAxis (h : Heap) (i : NodeId) (x : XNode) (axis : Heap → NodeId → List NodeId) : List NodeId :=
  (axis h i).filter fun n => matchNodeTest h n x

/-- The first part of `match_loc_step` (src/xpath_impl/eval.rs:794-873): the nodes along the axis that pass the node test;
`none` if the syntax tree node is not an axis. -/
def axisNodes (h : Heap) (i : NodeId) (x : XNode) : Option (List NodeId) :=
  match x.ty with
  | .axisAncestor => some (matchAlongAxis h i x arrayAncestor)
  | .axisAncestorOrSelf => some (matchAlongAxis h i x arrayAncestorOrSelf)
  | .axisAttribute => some (matchAlongAxis h i x fun h i => (h.node i).attributes)
  | .axisChild => some (matchAlongAxis h i x fun h i => (h.node i).children)
  | .axisDescendant => some (matchAlongAxis h i x arrayDescendant)
  | .axisDescendantOrSelf => some (matchAlongAxis h i x arrayDescendantOrSelf)
  | .axisFollowing => some (matchAlongAxis h i x arrayFollowing)
  | .axisFollowingSibling => some (matchAlongAxis h i x arrayFollowingSibling)
  | .axisParent =>
    match (h.node i).parent with
    | some p => some (if matchNodeTest h p x then [p] else [])
    | none => some []
  | .axisPreceding => some (matchAlongAxis h i x arrayPreceding)
  | .axisPrecedingSibling => some (matchAlongAxis h i x arrayPrecedingSibling)
  | .axisRoot => some [h.root i]
  | .axisSelf => some (if matchNodeTest h i x then [i] else [])
  | _ => none

end Amxml
