import Verif.Model.XNode

/-!
# Items (`src/xpath_impl/xitem.rs`)

`Result<T, Box<Error>>` is `Except XErr T`. Where a function of the code can panic (integer overflow in a debug
build, `i64::MIN / -1` in every build) the model returns `XErr.panic`.
-/

namespace Amxml

/-- `char::is_whitespace` (Unicode `White_Space`), used by `str::trim`. -/
def isWhite (c : Char) : Bool :=
  let n := c.toNat
  decide (9 ≤ n ∧ n ≤ 13) || n == 0x20 || n == 0x85 || n == 0xA0 || n == 0x1680 ||
  decide (0x2000 ≤ n ∧ n ≤ 0x200A) || n == 0x2028 || n == 0x2029 || n == 0x202F || n == 0x205F || n == 0x3000

/-- `str::trim`. -/
def trim (s : Str) : Str := ((s.dropWhile isWhite).reverse.dropWhile isWhite).reverse

/-- Bounds of `i64`. -/
def i64Min : Int := -2 ^ 63
/-- Bounds of `i64`. -/
def i64Max : Int := 2 ^ 63 - 1

/-- Whether an integer is an `i64`. -/
def isI64 (n : Int) : Prop := i64Min ≤ n ∧ n ≤ i64Max

instance (n : Int) : Decidable (isI64 n) := inferInstanceAs (Decidable (_ ∧ _))

/-- `i64::from_str`: optional sign, then ASCII digits, in range. -/
def parseI64 (s : Str) : Option Int :=
  match F64.parseExp s with
  | some n => if isI64 n then some n else none
  | none => none

/-- `atof` (src/xpath_impl/xitem.rs:23-25, eval.rs:32-34). -/
def atof (s : Str) : F64 := (F64.parse (trim s)).getD F64.nan

/-- `atoi` (src/xpath_impl/xitem.rs:27-29, eval.rs:36-38). -/
def atoi (s : Str) : Int := (parseI64 (trim s)).getD 0

/-- `int_to_dec`, `int_to_dbl` (src/xpath_impl/xitem.rs:48-50, 48-50). -/
def intToDec (n : Int) : F64 := atof (F64.intStr n ++ S ".0")

/-! ## Nodes as items -/

/-- `string_value` (src/xpath_impl/xitem.rs:295-312). Recursion over the children is bounded by `fuel`; the number of
nodes plus one suffices because children have larger ids than their parents. -/
def stringValueF (h : Heap) : Nat → NodeId → Str
  | 0, _ => []
  | fuel + 1, i =>
    match (h.node i).ntype with
    | .documentRoot | .element => (h.node i).children.flatMap (stringValueF h fuel)
    | .text | .attribute | .comment => (h.node i).value
    | .xmlDecl | .instruction => (h.node i).name ++ ' ' :: (h.node i).value
    | .directive => []

/-- `string_value` (src/xpath_impl/xitem.rs:295-312). -/
def stringValue (h : Heap) (i : NodeId) : Str := stringValueF h (h.size + 1) i

/-- `typed_value` (src/xpath_impl/xitem.rs:338-368). -/
def typedValueF (h : Heap) : Nat → NodeId → Str
  | 0, _ => []
  | fuel + 1, i =>
    match (h.node i).ntype with
    | .documentRoot | .element => (h.node i).children.flatMap (typedValueF h fuel)
    | .text | .attribute | .comment => (h.node i).value
    | .instruction => (h.node i).name ++ ' ' :: (h.node i).value
    | .xmlDecl | .directive => []

/-- `typed_value` (src/xpath_impl/xitem.rs:338-368). -/
def typedValue (h : Heap) (i : NodeId) : Str := typedValueF h (h.size + 1) i

namespace XItem

/-- `xs_type` (src/xpath_impl/xitem.rs:435-449). -/
def xsType : XItem → Str
  | .fn _ => S "function(*)"
  | .map _ => S "map(*)"
  | .array _ => S "array(*)"
  | .node _ => S "node"
  | .string _ => S "xs:string"
  | .integer _ => S "xs:integer"
  | .decimal _ => S "xs:decimal"
  | .double _ => S "xs:double"
  | .boolean _ => S "xs:boolean"

/-- `as_nodeptr` (src/xpath_impl/xitem.rs:453-458). -/
def asNode : XItem → Option NodeId
  | .node i => some i
  | _ => none

/-- `atomize` (src/xpath_impl/xitem.rs:469-478). -/
def atomize (h : Heap) : XItem → XItem
  | .node i => .string (typedValue h i)
  | x => x

/-- `is_item` (src/xpath_impl/xitem.rs:483-488). -/
def isItem : XItem → Bool
  | .fn _ => false
  | _ => true

/-- `is_numeric` (src/xpath_impl/xitem.rs:492-499). -/
def isNumeric : XItem → Bool
  | .integer _ | .decimal _ | .double _ => true
  | _ => false

/-- The string of a double (src/xpath_impl/xitem.rs:629-640). -/
def doubleStr (d : F64) : Str :=
  if d.isNan then S "NaN"
  else if d.isInf then (if d.signPos then S "+Infinity" else S "-Infinity")
  else F64.fmt d

/-- `get_as_raw_string` (src/xpath_impl/xitem.rs:621-659). -/
def rawString (h : Heap) : XItem → Except XErr Str
  | .node i => .ok (stringValue h i)
  | .string s => .ok s
  | .integer n => .ok (F64.intStr n)
  | .decimal d => .ok (F64.fmt d)
  | .double d => .ok (doubleStr d)
  | .boolean b => .ok (if b then S "true" else S "false")
  | _ => .error .typeError

/-- `get_as_raw_double` (src/xpath_impl/xitem.rs:663-687) and `get_as_raw_decimal` (src/xpath_impl/xitem.rs:691-715), which are the same. -/
def rawDouble (h : Heap) : XItem → Except XErr F64
  | .node i => .ok (atof (stringValue h i))
  | .string s => .ok (atof s)
  | .integer n => .ok (F64.ofInt n)
  | .decimal d => .ok d
  | .double d => .ok d
  | .boolean b => .ok (if b then F64.ofInt 1 else F64.zero)
  | _ => .error .typeError

/-- `get_as_raw_integer` (src/xpath_impl/xitem.rs:719-743). -/
def rawInteger (h : Heap) : XItem → Except XErr Int
  | .node i => .ok (atoi (stringValue h i))
  | .integer n => .ok n
  | .string s => .ok (atoi s)
  | .decimal d => .ok (F64.toI64 d)
  | .double d => .ok (F64.toI64 d)
  | .boolean b => .ok (if b then 1 else 0)
  | _ => .error .typeError

/-- The booleans written as strings (src/xpath_impl/xitem.rs:751-755, 759-763). -/
def boolOfStr (s : Str) : Except XErr Bool :=
  if s = S "true" ∨ s = S "1" then .ok true
  else if s = S "false" ∨ s = S "0" then .ok false
  else .error .typeError

/-- `*value == 0.0 || value.is_nan()`, negated (src/xpath_impl/xitem.rs:766, 773, xsequence.rs:216, 219). -/
def fltTrue (d : F64) : Bool := !(F64.eq d F64.zero || d.isNan)

/-- `get_as_raw_boolean` (src/xpath_impl/xitem.rs:747-785). -/
def rawBoolean (h : Heap) : XItem → Except XErr Bool
  | .node i => boolOfStr (stringValue h i)
  | .integer n => .ok (n != 0)
  | .string s => boolOfStr s
  | .decimal d => .ok (fltTrue d)
  | .double d => .ok (fltTrue d)
  | .boolean b => .ok b
  | _ => .error .typeError

/-- `op_same_key` (src/xpath_impl/xitem.rs:516-530). -/
def sameKey (h : Heap) (a b : XItem) : Bool :=
  match a.rawString h, b.rawString h with
  | .ok s, .ok t => s == t
  | _, _ => false

/-- The error of `cast_as` (src/xpath_impl/xitem.rs:570-571) hides the one of the conversion. -/
def castErr : Except XErr XItem → Except XErr XItem
  | .ok x => .ok x
  | .error _ => .error .typeError

/-- `cast_as` (src/xpath_impl/xitem.rs:547-578). -/
def castAs (h : Heap) (x : XItem) (t : Str) : Except XErr XItem :=
  if t = S "string" ∨ t = S "xs:string" then castErr ((x.rawString h).map .string)
  else if t = S "double" ∨ t = S "xs:double" then castErr ((x.rawDouble h).map .double)
  else if t = S "decimal" ∨ t = S "xs:decimal" then castErr ((x.rawDouble h).map .decimal)
  else if t = S "integer" ∨ t = S "xs:integer" then castErr ((x.rawInteger h).map .integer)
  else if t = S "boolean" ∨ t = S "xs:boolean" then castErr ((x.rawBoolean h).map .boolean)
  else .error .typeError

/-- `castable_as` (src/xpath_impl/xitem.rs:535-540). -/
def castableAs (h : Heap) (x : XItem) (t : Str) : Bool :=
  match x.castAs h t with
  | .ok _ => true
  | .error _ => false

end XItem

/-! ## Maps and arrays -/

/-- `map_contains` (src/xpath_impl/xitem.rs:162-169). -/
def mapContains (h : Heap) (m : List (XItem × XSeq)) (k : XItem) : Bool := m.any fun e => e.1.sameKey h k

/-- `map_get` (src/xpath_impl/xitem.rs:171-178). -/
def mapGet (h : Heap) (m : List (XItem × XSeq)) (k : XItem) : Option XSeq :=
  (m.find? fun e => e.1.sameKey h k).map (·.2)

/-- `array_get` (src/xpath_impl/xitem.rs:207-218). -/
def arrayGet (h : Heap) (a : List XSeq) (i : XItem) : Option XSeq :=
  match i.rawInteger h with
  | .ok n => if 1 ≤ n ∧ n ≤ a.length then a[(n - 1).toNat]? else none
  | .error _ => none

mutual
/-- `array_flatten` (src/xpath_impl/xitem.rs:220-235): the loop over the members. -/
def flattenArray : List (List XItem) → XSeq
  | [] => []
  | s :: r => flattenSeq s ++ flattenArray r
/-- `array_flatten`: the loop over the items of a member. -/
def flattenSeq : List XItem → XSeq
  | [] => []
  | x :: r => flattenItem x ++ flattenSeq r
/-- `array_flatten`: one item; nested arrays are expanded. -/
def flattenItem : XItem → XSeq
  | .array v => flattenArray v
  | .fn v => [.fn v]
  | .map v => [.map v]
  | .node v => [.node v]
  | .string v => [.string v]
  | .integer v => [.integer v]
  | .decimal v => [.decimal v]
  | .double v => [.double v]
  | .boolean v => [.boolean v]
end

/-! ## Comparison of strings -/

/-- `<` on `str`: lexicographic by code points (equal to the order of the UTF-8 bytes). -/
def strLt : Str → Str → Bool
  | _, [] => false
  | [], _ :: _ => true
  | a :: s, b :: t => decide (a.toNat < b.toNat) || (a == b && strLt s t)

/-- `xitem_compare` (src/xpath_impl/xitem.rs:791-810). -/
def xitemCompare : XItem → XItem → Except XErr Int
  | .string a, .string b => .ok (if strLt a b then -1 else if a = b then 0 else 1)
  | _, _ => .error .typeError

/-! ## Arithmetic -/

/-- The result of an `i64` operation: a panic if it leaves the range (debug build; a release build wraps around). -/
def checkI64 (n : Int) : Except XErr Int := if isI64 n then .ok n else .error .panic

/-- `xitem_numeric_operation` (src/xpath_impl/xitem.rs:952-1004). The decimal and double operations passed by all
callers are the same. -/
def numOp (intOp : Int → Int → Except XErr Int) (fltOp : F64 → F64 → F64) : XItem → XItem → Except XErr XItem
  | .integer a, .integer b => (intOp a b).map .integer
  | .integer a, .decimal b => .ok (.decimal (fltOp (intToDec a) b))
  | .integer a, .double b => .ok (.double (fltOp (intToDec a) b))
  | .decimal a, .integer b => .ok (.decimal (fltOp a (intToDec b)))
  | .decimal a, .decimal b => .ok (.decimal (fltOp a b))
  | .decimal a, .double b => .ok (.double (fltOp a b))
  | .double a, .integer b => .ok (.double (fltOp a (intToDec b)))
  | .double a, .decimal b => .ok (.double (fltOp a b))
  | .double a, .double b => .ok (.double (fltOp a b))
  | _, _ => .error .typeError

/-- `xitem_numeric_add` (src/xpath_impl/xitem.rs:814-819). -/
def numAdd : XItem → XItem → Except XErr XItem := numOp (fun a b => checkI64 (a + b)) (· + ·)
/-- `xitem_numeric_subtract` (src/xpath_impl/xitem.rs:821-826). -/
def numSub : XItem → XItem → Except XErr XItem := numOp (fun a b => checkI64 (a - b)) (· - ·)
/-- `xitem_numeric_multiply` (src/xpath_impl/xitem.rs:828-833). -/
def numMul : XItem → XItem → Except XErr XItem := numOp (fun a b => checkI64 (a * b)) (· * ·)

/-- `i64` division: truncating; `MIN / -1` panics, and so does a zero divisor. -/
def i64Div (a b : Int) : Except XErr Int := if b = 0 then .error .panic else checkI64 (a.tdiv b)

/-- `i64::rem`: `MIN % -1` panics, and so does a zero divisor. -/
def i64Rem (a b : Int) : Except XErr Int :=
  if b = 0 then .error .panic else if a = i64Min ∧ b = -1 then .error .panic else .ok (a.tmod b)

/-- `xitem_numeric_divide` (src/xpath_impl/xitem.rs:837-859). -/
def numDiv (lhs : XItem) : XItem → Except XErr XItem
  | .integer b =>
    if b = 0 then .error .dynamicError else numOp i64Div (· / ·) lhs (.decimal (F64.ofInt b))
  | .decimal b =>
    if F64.eq b F64.zero then .error .dynamicError else numOp i64Div (· / ·) lhs (.decimal b)
  | .double b => numOp i64Div (· / ·) lhs (.double b)
  | _ => .error .cantOccur

/-- The operand of `idiv` as an integer; anything that is not a number counts as 0
(src/xpath_impl/xitem.rs:887-898). -/
def idivOperand : XItem → Int
  | .integer n => n
  | .decimal d => F64.toI64 d
  | .double d => F64.toI64 d
  | _ => 0

/-- `xitem_numeric_integer_divide` (src/xpath_impl/xitem.rs:863-901). -/
def numIDiv (lhs rhs : XItem) : Except XErr XItem :=
  let bad : Bool := (match lhs with | .double d => d.isNan || !d.isFinite | _ => false) ||
    (match rhs with | .double d => d.isNan | _ => false)
  if bad then .error .dynamicError
  else if idivOperand rhs ≠ 0 then (i64Div (idivOperand lhs) (idivOperand rhs)).map .integer
  else .error .dynamicError

/-- The tests for a zero divisor in `xitem_numeric_mod` (src/xpath_impl/xitem.rs:906-918). -/
def modZero : XItem → Bool
  | .integer b => b == 0
  | .decimal b => F64.eq b F64.zero
  | _ => false

/-- `xitem_numeric_mod` (src/xpath_impl/xitem.rs:905-924). -/
def numMod (lhs rhs : XItem) : Except XErr XItem :=
  if modZero rhs then .error .dynamicError else numOp i64Rem F64.rem lhs rhs

/-- `xitem_numeric_unary_plus` (src/xpath_impl/xitem.rs:928-935). -/
def numUPlus : XItem → Except XErr XItem
  | .integer n => .ok (.integer n)
  | .decimal d => .ok (.decimal d)
  | .double d => .ok (.double d)
  | _ => .error .typeError

/-- `xitem_numeric_unary_minus` (src/xpath_impl/xitem.rs:939-948). -/
def numUMinus : XItem → Except XErr XItem
  | .integer n => (checkI64 (-n)).map .integer
  | .decimal d => .ok (.decimal (-d))
  | .double d => .ok (.double (-d))
  | _ => .error .typeError

/-! ## Comparisons of items -/

/-- `xitem_numeric_comparison` (src/xpath_impl/xitem.rs:1032-1084). -/
def numCmp (intOp : Int → Int → Bool) (fltOp : F64 → F64 → Bool) : XItem → XItem → Except XErr Bool
  | .integer a, .integer b => .ok (intOp a b)
  | .integer a, .decimal b => .ok (fltOp (intToDec a) b)
  | .integer a, .double b => .ok (fltOp (intToDec a) b)
  | .decimal a, .integer b => .ok (fltOp a (intToDec b))
  | .decimal a, .decimal b => .ok (fltOp a b)
  | .decimal a, .double b => .ok (fltOp a b)
  | .double a, .integer b => .ok (fltOp a (intToDec b))
  | .double a, .decimal b => .ok (fltOp a b)
  | .double a, .double b => .ok (fltOp a b)
  | _, _ => .error .typeError

/-- `xitem_numeric_equal` (src/xpath_impl/xitem.rs:1008-1013). -/
def numEq : XItem → XItem → Except XErr Bool := numCmp (fun a b => a == b) F64.eq
/-- `xitem_numeric_less_than` (src/xpath_impl/xitem.rs:1015-1020). -/
def numLt : XItem → XItem → Except XErr Bool := numCmp (fun a b => decide (a < b)) F64.lt
/-- `xitem_numeric_greater_than` (src/xpath_impl/xitem.rs:1022-1027). -/
def numGt : XItem → XItem → Except XErr Bool := numCmp (fun a b => decide (b < a)) (fun a b => F64.lt b a)

/-- `xitem_boolean_equal`, `_less_than`, `_greater_than` (src/xpath_impl/xitem.rs:1093-1118); also `op_boolean_*` on
singletons (oper.rs:118-141). -/
def boolCmp (op : Bool → Bool → Bool) : XItem → XItem → Except XErr Bool
  | .boolean a, .boolean b => .ok (op a b)
  | _, _ => .error .typeError

/-- `xitem_boolean_equal`. -/
def boolEq : XItem → XItem → Except XErr Bool := boolCmp (fun a b => a == b)
/-- `xitem_boolean_less_than`. -/
def boolLt : XItem → XItem → Except XErr Bool := boolCmp (fun a b => !a && b)
/-- `xitem_boolean_greater_than`. -/
def boolGt : XItem → XItem → Except XErr Bool := boolCmp (fun a b => a && !b)

end Amxml
