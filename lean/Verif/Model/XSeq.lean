import Verif.Model.XItem

/-!
# Sequences (`src/xpath_impl/xsequence.rs`) and operators (`src/xpath_impl/oper.rs`)

An `XSequence` is a vector of items: a list. Functions that take a vector of argument sequences and use a fixed number of
them take that many arguments here.
-/

namespace Amxml

namespace XSeq

/-- `get_singleton_item` (src/xpath_impl/xsequence.rs:107-113). -/
def item1 : XSeq → Except XErr XItem
  | [x] => .ok x
  | _ => .error .typeError

/-- `get_singleton_xnodeptr` (src/xpath_impl/xsequence.rs:118-126). -/
def fn1 : XSeq → Except XErr XNode
  | [.fn f] => .ok f
  | _ => .error .typeError

/-- `get_singleton_node` (src/xpath_impl/xsequence.rs:131-139). -/
def node1 : XSeq → Except XErr NodeId
  | [.node i] => .ok i
  | _ => .error .typeError

/-- `get_singleton_map` (src/xpath_impl/xsequence.rs:144-152). -/
def map1 : XSeq → Except XErr (List (XItem × XSeq))
  | [.map m] => .ok m
  | _ => .error .typeError

/-- `get_singleton_array` (src/xpath_impl/xsequence.rs:157-165). -/
def array1 : XSeq → Except XErr (List XSeq)
  | [.array a] => .ok a
  | _ => .error .typeError

/-- `get_singleton_string` (src/xpath_impl/xsequence.rs:170-178). -/
def string1 : XSeq → Except XErr Str
  | [.string s] => .ok s
  | _ => .error .typeError

/-- `get_singleton_integer` (src/xpath_impl/xsequence.rs:183-191). -/
def integer1 : XSeq → Except XErr Int
  | [.integer n] => .ok n
  | _ => .error .typeError

/-- `get_singleton_boolean` (src/xpath_impl/xsequence.rs:196-204). -/
def boolean1 : XSeq → Except XErr Bool
  | [.boolean b] => .ok b
  | _ => .error .typeError

/-- `effective_boolean_value` (src/xpath_impl/xsequence.rs:209-237). -/
def ebv : XSeq → Except XErr Bool
  | [] => .ok false
  | .node _ :: _ => .ok true
  | [.boolean b] => .ok b
  | [.string s] => .ok (s != [])
  | [.double d] => .ok (!F64.eq d F64.zero && !d.isNan)
  | [.decimal d] => .ok (!F64.eq d F64.zero && !d.isNan)
  | [.integer n] => .ok (n != 0)
  | _ => .error .typeError

/-- `atomize` (src/xpath_impl/xsequence.rs:242-248). -/
def atomize (h : Heap) (s : XSeq) : XSeq := s.map (XItem.atomize h)

/-- `is_no_atom` (src/xpath_impl/xsequence.rs:266-276). -/
def isNoAtom (s : XSeq) : Bool := s.all fun x => x.asNode.isSome

/-- `to_nodeset` (src/xpath_impl/xsequence.rs:360-368). -/
def toNodeset (s : XSeq) : List NodeId := s.filterMap XItem.asNode

/-- `new_xsequence_from_node_array` (src/xpath_impl/xsequence.rs:42-48). -/
def ofNodes (l : List NodeId) : XSeq := l.map XItem.node

/-- `str::trim_right_matches('?')`. -/
def trimQ (t : Str) : Str := (t.reverse.dropWhile (· == '?')).reverse

/-- `castable_as` (src/xpath_impl/xsequence.rs:320-330). -/
def castableAs (h : Heap) (s : XSeq) (t : Str) : Bool :=
  match s with
  | [] => t.getLast? == some '?'
  | [x] => x.castableAs h (trimQ t)
  | _ => false

/-- `cast_as` (src/xpath_impl/xsequence.rs:340-355). -/
def castAs (h : Heap) (s : XSeq) (t : Str) : Except XErr XSeq :=
  match s with
  | [] => if t.getLast? = some '?' then .ok [] else .error .typeError
  | [x] =>
    match (x.atomize h).castAs h (trimQ t) with
    | .ok r => .ok [r]
    | .error _ => .error .typeError
  | _ => .error .typeError

end XSeq

/-- `new_singleton_boolean` (src/xpath_impl/xsequence.rs:74-76). -/
def xbool (b : Bool) : XSeq := [.boolean b]

/-! ## Functions used by the comparisons -/

/-- `fn_compare` (src/xpath_impl/func.rs:635-654). -/
def fnCompare (a b : XSeq) : Except XErr XSeq :=
  if a.isEmpty ∨ b.isEmpty then .ok [] else
  (XSeq.string1 a).bind fun s => (XSeq.string1 b).bind fun t =>
    .ok [.integer (if strLt s t then -1 else if s = t then 0 else 1)]

/-- `fn_not` (src/xpath_impl/func.rs:1065-1068). -/
def fnNot (a : XSeq) : Except XErr XSeq := (XSeq.ebv a).map fun b => xbool !b

/-! ## Operators on numbers and booleans (`oper.rs`) -/

/-- `op_numeric_operation` (src/xpath_impl/oper.rs:66-73). -/
def opNumeric (f : XItem → XItem → Except XErr XItem) (a b : XSeq) : Except XErr XSeq :=
  (XSeq.item1 a).bind fun x => (XSeq.item1 b).bind fun y => (f x y).map fun r => [r]

/-- `op_numeric_unary_plus` (src/xpath_impl/oper.rs:52-56), `op_numeric_unary_minus` (src/xpath_impl/oper.rs:58-62). -/
def opUnary (f : XItem → Except XErr XItem) (a : XSeq) : Except XErr XSeq :=
  (XSeq.item1 a).bind fun x => (f x).map fun r => [r]

/-- `op_numeric_comparison` (src/xpath_impl/oper.rs:94-101). -/
def opNumCmp (f : XItem → XItem → Except XErr Bool) (a b : XSeq) : Except XErr XSeq :=
  (XSeq.item1 a).bind fun x => (XSeq.item1 b).bind fun y => (f x y).map xbool

/-- `op_boolean_equal` (src/xpath_impl/oper.rs:113-117), `op_boolean_less_than` (src/xpath_impl/oper.rs:121-125),
`op_boolean_greater_than` (src/xpath_impl/oper.rs:129-133). -/
def opBool (f : Bool → Bool → Bool) (a b : XSeq) : Except XErr XSeq :=
  (XSeq.boolean1 a).bind fun x => (XSeq.boolean1 b).map fun y => xbool (f x y)

/-! ## Value comparisons -/

/-- `value_comparison` (src/xpath_impl/xsequence.rs:414-444). -/
def valueComparison (h : Heap) (num : XSeq → XSeq → Except XErr XSeq) (str : Int → Bool)
    (bool : XSeq → XSeq → Except XErr XSeq) (lhs rhs : XSeq) : Except XErr XSeq :=
  if lhs.isEmpty ∨ rhs.isEmpty then .ok []
  else if lhs.length ≠ 1 ∨ rhs.length ≠ 1 then .error .typeError
  else
    let a := lhs.atomize h
    let b := rhs.atomize h
    match num a b with
    | .ok r => .ok r
    | .error _ =>
      match fnCompare a b with
      | .ok r => (XSeq.integer1 r).map fun n => xbool (str n)
      | .error _ =>
        match bool a b with
        | .ok r => .ok r
        | .error _ => .error .typeError

/-- `value_compare_eq` (src/xpath_impl/xsequence.rs:376-381). -/
def valueEq (h : Heap) : XSeq → XSeq → Except XErr XSeq :=
  valueComparison h (opNumCmp numEq) (fun n => n == 0) (opBool fun a b => a == b)
/-- `value_compare_lt` (src/xpath_impl/xsequence.rs:388-393). -/
def valueLt (h : Heap) : XSeq → XSeq → Except XErr XSeq :=
  valueComparison h (opNumCmp numLt) (fun n => decide (n < 0)) (opBool fun a b => !a && b)
/-- `value_compare_gt` (src/xpath_impl/xsequence.rs:400-405). -/
def valueGt (h : Heap) : XSeq → XSeq → Except XErr XSeq :=
  valueComparison h (opNumCmp numGt) (fun n => decide (0 < n)) (opBool fun a b => a && !b)
/-- `value_compare_ne` (src/xpath_impl/xsequence.rs:383-386). -/
def valueNe (h : Heap) (a b : XSeq) : Except XErr XSeq := (valueEq h a b).bind fnNot
/-- `value_compare_le` (src/xpath_impl/xsequence.rs:395-398). -/
def valueLe (h : Heap) (a b : XSeq) : Except XErr XSeq := (valueGt h a b).bind fnNot
/-- `value_compare_ge` (src/xpath_impl/xsequence.rs:407-410). -/
def valueGe (h : Heap) (a b : XSeq) : Except XErr XSeq := (valueLt h a b).bind fnNot

/-! ## General comparisons -/

/-- One turn of the loop of `general_comparison` (src/xpath_impl/xsequence.rs:500-529): whether it returns true. -/
def pairHolds (num : XItem → XItem → Except XErr Bool) (str : Int → Bool) (bool : XItem → XItem → Except XErr Bool)
    (x y : XItem) : Bool :=
  (match num x y with | .ok b => b | .error _ => false) ||
  (match xitemCompare x y with | .ok n => str n | .error _ => false) ||
  (match bool x y with | .ok b => b | .error _ => false)

/-- `general_comparison` (src/xpath_impl/xsequence.rs:500-529): the two loops with their early exit. -/
def generalComparison (h : Heap) (num : XItem → XItem → Except XErr Bool) (str : Int → Bool)
    (bool : XItem → XItem → Except XErr Bool) (lhs rhs : XSeq) : Except XErr XSeq :=
  .ok (xbool ((lhs.atomize h).any fun x => (rhs.atomize h).any fun y => pairHolds num str bool x y))

/-- `let b = f(s, t)?; return Ok(! b)` (src/xpath_impl/xsequence.rs:469, 471, 483, 485, 497, 499). -/
def negCmp (f : XItem → XItem → Except XErr Bool) (x y : XItem) : Except XErr Bool := (f x y).map (!·)

/-- `general_compare_eq` (src/xpath_impl/xsequence.rs:456-461). -/
def generalEq (h : Heap) : XSeq → XSeq → Except XErr XSeq := generalComparison h numEq (fun n => n == 0) boolEq
/-- `general_compare_ne` (src/xpath_impl/xsequence.rs:463-468). -/
def generalNe (h : Heap) : XSeq → XSeq → Except XErr XSeq :=
  generalComparison h (negCmp numEq) (fun n => n != 0) (negCmp boolEq)
/-- `general_compare_lt` (src/xpath_impl/xsequence.rs:470-475). -/
def generalLt (h : Heap) : XSeq → XSeq → Except XErr XSeq := generalComparison h numLt (fun n => decide (n < 0)) boolLt
/-- `general_compare_le` (src/xpath_impl/xsequence.rs:477-482). -/
def generalLe (h : Heap) : XSeq → XSeq → Except XErr XSeq :=
  generalComparison h (negCmp numGt) (fun n => decide (n ≤ 0)) (negCmp boolGt)
/-- `general_compare_gt` (src/xpath_impl/xsequence.rs:484-489). -/
def generalGt (h : Heap) : XSeq → XSeq → Except XErr XSeq := generalComparison h numGt (fun n => decide (0 < n)) boolGt
/-- `general_compare_ge` (src/xpath_impl/xsequence.rs:491-496). -/
def generalGe (h : Heap) : XSeq → XSeq → Except XErr XSeq :=
  generalComparison h (negCmp numLt) (fun n => decide (0 ≤ n)) (negCmp boolLt)

/-! ## Document order -/

/-- `document_order` of a node as the evaluator reads it (src/dom.rs, `document_order`; see `Heap.documentOrder`). The cached
numbers written as a side effect are left out: by `C23_never_stale` they never change the answer. -/
def orderOf (h : Heap) (i : NodeId) : Int := ((h.documentOrder (h.size + 1) i).map (·.1)).getD 0

/-- Insertion of a node behind all nodes that are not after it, for the stable `Vec::sort_by`. -/
def insertByOrder (h : Heap) (i : NodeId) : List NodeId → List NodeId
  | [] => [i]
  | j :: l => if orderOf h j ≤ orderOf h i then j :: insertByOrder h i l else i :: j :: l

/-- Stable sort by document order: `node_array.sort_by(..)` (src/xpath_impl/eval.rs:79-81). Every stable sort gives the same
result, so an insertion sort stands for the merge sort of the standard library. -/
def sortByOrder (h : Heap) (l : List NodeId) : List NodeId := l.foldl (fun acc i => insertByOrder h i acc) []

/-- The loop that removes a node equal to its predecessor (src/xpath_impl/eval.rs:82-88). -/
def dedupe : List NodeId → List NodeId
  | [] => []
  | i :: l =>
    match dedupe l with
    | [] => [i]
    | j :: r => if i = j then i :: r else i :: j :: r

/-- `sort_by_doc_order` (src/xpath_impl/eval.rs:76-90). -/
def sortByDocOrder (h : Heap) (l : List NodeId) : List NodeId :=
  if l.length ≤ 1 then l else dedupe (sortByOrder h l)

/-! ## Operators on nodes and sequences -/

/-- `op_is_same_node` (src/xpath_impl/oper.rs:171-173) through `op_node_compare` (src/xpath_impl/oper.rs:183-189). -/
def opNodeCompare (h : Heap) (ok : Int → Int → Bool) (a b : XSeq) : Except XErr XSeq :=
  (XSeq.node1 a).bind fun i => (XSeq.node1 b).map fun j => xbool (ok (orderOf h i) (orderOf h j))

/-- `op_is_same_node` (src/xpath_impl/oper.rs:171-173). -/
def opIs (h : Heap) : XSeq → XSeq → Except XErr XSeq := opNodeCompare h fun a b => a == b
/-- `op_node_before` (src/xpath_impl/oper.rs:175-177). -/
def opBefore (h : Heap) : XSeq → XSeq → Except XErr XSeq := opNodeCompare h fun a b => decide (a < b)
/-- `op_node_after` (src/xpath_impl/oper.rs:179-181). -/
def opAfter (h : Heap) : XSeq → XSeq → Except XErr XSeq := opNodeCompare h fun a b => decide (b < a)

/-- `op_concatenate` (src/xpath_impl/oper.rs:199-204). -/
def opConcatenate (a b : XSeq) : Except XErr XSeq := .ok (a ++ b)

/-- `op_union` (src/xpath_impl/oper.rs:210-220). -/
def opUnion (h : Heap) (a b : XSeq) : Except XErr XSeq :=
  .ok (XSeq.ofNodes (sortByDocOrder h (a.toNodeset ++ b.toNodeset)))

/-- `op_intersect` (src/xpath_impl/oper.rs:222-232). -/
def opIntersect (a b : XSeq) : Except XErr XSeq :=
  .ok (XSeq.ofNodes (a.toNodeset.filter fun i => b.toNodeset.contains i))

/-- `op_except` (src/xpath_impl/oper.rs:234-244). -/
def opExcept (a b : XSeq) : Except XErr XSeq :=
  .ok (XSeq.ofNodes (a.toNodeset.filter fun i => !b.toNodeset.contains i))

/-- `firstval ..= lastval`. -/
def intRange (a b : Int) : List Int := List.map (fun k : Nat => a + (k : Int)) (List.range (b - a + 1).toNat)

/-- `op_to` (src/xpath_impl/oper.rs:251-259). -/
def opTo (a b : XSeq) : Except XErr XSeq :=
  (XSeq.integer1 a).bind fun m => (XSeq.integer1 b).map fun n => (intRange m n).map .integer

end Amxml
