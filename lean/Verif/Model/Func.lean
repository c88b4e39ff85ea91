import Verif.Model.Axes

/-!
# The function library (`src/xpath_impl/func.rs`)

A function of `FUNC_TBL` takes the vector of its argument sequences; here the list of them, read with `arg args n`
(the evaluator only calls a function with the number of arguments its table entry names, so the index is always in
range; `fn:concat` takes any number and never indexes). The functions of `FUNC_CONTEXT_TBL` are given by name (`CtxFn`)
and interpreted by the evaluator (`Model/Eval.lean`).
-/

namespace Amxml

/-- `args[n]`. -/
def arg (args : List XSeq) (n : Nat) : XSeq := (args[n]?).getD []

/-! ## 2 Accessors -/

/-- `fn_nilled` (src/xpath_impl/func.rs:357-379). -/
def fnNilled (h : Heap) (a : XSeq) : Except XErr XSeq :=
  if a.isEmpty then .ok [] else
  match XSeq.node1 a with
  | .ok i =>
    match (h.node i).ntype with
    | .element =>
      match h.attributeValue i (S "xsi:nil") with
      | some v => .ok (xbool (v == S "true"))
      | none => .ok (xbool false)
    | _ => .ok []
  | .error _ => .error .typeError

/-- `fn_string` (src/xpath_impl/func.rs:394-402). -/
def fnString (h : Heap) (a : XSeq) : Except XErr XSeq :=
  if a.isEmpty then .ok [.string []] else
  (XSeq.item1 a).bind fun x => (x.rawString h).map fun s => [.string s]

/-- `fn_data` (src/xpath_impl/func.rs:414-416). -/
def fnData (h : Heap) (a : XSeq) : Except XErr XSeq := .ok (a.atomize h)

/-! ## 4 Numbers -/

namespace F64

/-- `0.5`. -/
def half : F64 := mk .positive 1 (-1)
/-- `-0.5`. -/
def negHalf : F64 := mk .negative 1 (-1)
/-- `-1.0`. -/
def negOne : F64 := mk .negative 1 0
/-- `1.0 / f64::NEG_INFINITY`: negative zero. -/
def negZero : F64 := pack (.zero .negative)
/-- `f64::INFINITY`. -/
def inf : F64 := pack (.infinity .positive)

/-- `ceil_x` (src/xpath_impl/func.rs:485-492). -/
def ceilX (x : F64) : F64 :=
  if (eq x zero && signNeg x) || (lt negOne x && lt x zero) then negZero else ceil x

/-- `floor_x` (src/xpath_impl/func.rs:494-500). -/
def floorX (x : F64) : F64 := if eq x zero && signNeg x then negZero else floor x

/-- `round_x` (src/xpath_impl/func.rs:502-509). -/
def roundX (x : F64) : F64 :=
  if (eq x zero && signNeg x) || ((lt negHalf x || eq negHalf x) && lt x zero) then negZero else floor (x + half)

end F64

/-- `fn_numeric_unary` (src/xpath_impl/func.rs:513-533). -/
def fnNumericUnary (intOp : Int → Except XErr Int) (decOp dblOp : F64 → F64) (a : XSeq) : Except XErr XSeq :=
  match XSeq.item1 a with
  | .ok (.integer n) => (intOp n).map fun r => [.integer r]
  | .ok (.decimal d) => .ok [.decimal (decOp d)]
  | .ok (.double d) => .ok [.double (dblOp d)]
  | _ => .ok []

/-- `fn_abs` (src/xpath_impl/func.rs:437-442). `i64::MIN.abs()` panics. -/
def fnAbs (a : XSeq) : Except XErr XSeq :=
  fnNumericUnary (fun n => checkI64 n.natAbs) Float.Model.abs Float.Model.abs a
/-- `fn_ceiling` (src/xpath_impl/func.rs:449-454). -/
def fnCeiling (a : XSeq) : Except XErr XSeq := fnNumericUnary .ok F64.ceil F64.ceilX a
/-- `fn_floor` (src/xpath_impl/func.rs:461-466). -/
def fnFloor (a : XSeq) : Except XErr XSeq := fnNumericUnary .ok F64.floor F64.floorX a
/-- `fn_round` (src/xpath_impl/func.rs:473-480). -/
def fnRound (a : XSeq) : Except XErr XSeq := fnNumericUnary .ok (fun d => F64.floor (d + F64.half)) F64.roundX a

/-- `fn_number` (src/xpath_impl/func.rs:545-554). -/
def fnNumber (h : Heap) (a : XSeq) : Except XErr XSeq :=
  if a.isEmpty then .ok [.double F64.nan] else
  match XSeq.item1 a with
  | .ok x => (x.rawDouble h).map fun d => [.double d]
  | .error _ => .ok [.double F64.zero]

/-! ## 5 Strings -/

/-- `String::from_utf16`. -/
def fromUtf16 : List Nat → Option Str
  | [] => some []
  | u :: r =>
    if 0xD800 ≤ u ∧ u ≤ 0xDBFF then
      match r with
      | [] => none
      | l :: r' =>
        if 0xDC00 ≤ l ∧ l ≤ 0xDFFF then
          (fromUtf16 r').map fun s => Char.ofNat (0x10000 + (u - 0xD800) * 0x400 + (l - 0xDC00)) :: s
        else none
    else if 0xDC00 ≤ u ∧ u ≤ 0xDFFF then none
    else (fromUtf16 r).map fun s => Char.ofNat u :: s

/-- `n as u64` for an `i64`. -/
def asU64 (n : Int) : Nat := (n % 2 ^ 64).toNat

/-- The code units pushed for one code point (src/xpath_impl/func.rs:569-577). -/
def unitsOf (u : Nat) : List Nat :=
  if 0x10000 ≤ u then
    [((u - 0x10000) / 0x400 + 0xD800) % 0x10000, ((u - 0x10000) % 0x400 + 0xDC00) % 0x10000]
  else [u]

/-- `fn_codepoints_to_string` (src/xpath_impl/func.rs:566-583). -/
def fnCodepointsToString (h : Heap) (a : XSeq) : Except XErr XSeq :=
  (a.mapM fun x : XItem => x.rawInteger h).bind fun ns =>
    match fromUtf16 (ns.flatMap fun n => unitsOf (asU64 n)) with
    | some s => .ok [.string s]
    | none => .error .dynamicError

/-- `string_to_codepoints_sub` (src/xpath_impl/func.rs:603-620): one character, through its UTF-16 code units. -/
def codepointOf (c : Char) : Nat :=
  let n := c.toNat
  let hi := if n < 0x10000 then n else 0xD800 + (n - 0x10000) / 0x400
  let lo := if n < 0x10000 then 0 else 0xDC00 + (n - 0x10000) % 0x400
  if 0xD800 ≤ hi ∧ hi ≤ 0xDBFF ∧ 0xDC00 ≤ lo ∧ lo ≤ 0xDFFF then 0x10000 + (hi - 0xD800) * 0x400 + (lo - 0xDC00)
  else hi

/-- `fn_string_to_codepoints` (src/xpath_impl/func.rs:589-601). -/
def fnStringToCodepoints (a : XSeq) : Except XErr XSeq :=
  if a.isEmpty then .ok [] else
  (XSeq.string1 a).map fun s => s.map fun c => XItem.integer (codepointOf c)

/-- `fn_codepoint_equal` (src/xpath_impl/func.rs:662-671), `codepoint_equal_sub` (src/xpath_impl/func.rs:673-688). -/
def fnCodepointEqual (a b : XSeq) : Except XErr XSeq :=
  if a.isEmpty ∨ b.isEmpty then .ok [] else
  (XSeq.string1 a).bind fun s => (XSeq.string1 b).map fun t => xbool (s.map codepointOf == t.map codepointOf)

/-- One turn of `fn_concat` (src/xpath_impl/func.rs:714-722). -/
def concatPiece (h : Heap) (a : XSeq) : Except XErr Str :=
  if a.isEmpty then .ok [] else (XSeq.item1 a).bind fun x => x.rawString h

/-- `fn_concat` (src/xpath_impl/func.rs:714-722). -/
def fnConcat (h : Heap) (args : List XSeq) : Except XErr XSeq :=
  (args.mapM (concatPiece h)).map fun ps => [.string ps.flatten]

/-- Strings with a separator between them (src/xpath_impl/func.rs:736-742). -/
def joinWith (sep : Str) : List Str → Str
  | [] => []
  | [s] => s
  | s :: r => s ++ sep ++ joinWith sep r

/-- `fn_string_join` (src/xpath_impl/func.rs:729-744). -/
def fnStringJoin (h : Heap) (args : List XSeq) : Except XErr XSeq :=
  (if args.length < 2 then .ok [] else XSeq.string1 (arg args 1)).bind fun sep =>
    ((arg args 0).mapM fun x : XItem => x.rawString h).map fun ss => [.string (joinWith sep ss)]

/-- `subcollection_index_sub` (src/xpath_impl/func.rs:1699-1737). -/
def subIndex (len : Nat) (start length : F64) : Except XErr (Nat × Nat) :=
  if start.isNan || start.isInf then .ok (0, 0) else
  let beg := F64.toI64 (F64.roundX start)
  (checkI64 (beg - 1)).bind fun b0 =>
    let b1 : Int := if b0 < 0 then 0 else b0
    let b : Int := if (len : Int) ≤ b1 then len else b1
    if length.isInf && F64.signPos length then .ok (b.toNat, len)
    else if length.isNan || F64.signNeg length then .ok (0, 0)
    else
      (checkI64 (beg + F64.toI64 (F64.roundX length))).bind fun e0 =>
      (checkI64 (e0 - 1)).map fun e1 =>
        let e2 : Int := if e1 < b then b else e1
        let e : Int := if (len : Int) ≤ e2 then len else e2
        (b.toNat, e.toNat)

/-- The elements `b .. e` (src/xpath_impl/func.rs:778-781, 1333-1336). -/
def sliceOf {α} (l : List α) (be : Nat × Nat) : List α := (l.drop be.1).take (be.2 - be.1)

/-- The two numbers of `fn:substring` and `fn:subsequence` (src/xpath_impl/func.rs:770-775, 1324-1329). -/
def startLength (h : Heap) (args : List XSeq) : Except XErr (F64 × F64) :=
  (XSeq.item1 (arg args 1)).bind fun x => (x.rawDouble h).bind fun s =>
    if args.length = 2 then .ok (s, F64.inf)
    else (XSeq.item1 (arg args 2)).bind fun y => (y.rawDouble h).map fun l => (s, l)

/-- `fn_substring` (src/xpath_impl/func.rs:761-783). -/
def fnSubstring (h : Heap) (args : List XSeq) : Except XErr XSeq :=
  if (arg args 0).isEmpty then .ok [.string []] else
  (XSeq.string1 (arg args 0)).bind fun s => (startLength h args).bind fun p =>
    (subIndex s.length p.1 p.2).map fun be => [.string (sliceOf s be)]

/-- `fn_string_length` (src/xpath_impl/func.rs:795-804). -/
def fnStringLength (a : XSeq) : Except XErr XSeq :=
  if a.isEmpty then .ok [.integer 0] else (XSeq.string1 a).map fun s => [.integer s.length]

/-- `str::split_whitespace`: the maximal runs of characters that are not white space. `cur` is the run being read,
reversed. -/
def splitWhiteAux : Str → Str → List Str
  | cur, [] => if cur.isEmpty then [] else [cur.reverse]
  | cur, c :: s =>
    if isWhite c then (if cur.isEmpty then splitWhiteAux [] s else cur.reverse :: splitWhiteAux [] s)
    else splitWhiteAux (c :: cur) s

/-- `str::split_whitespace`. -/
def splitWhite (s : Str) : List Str := splitWhiteAux [] s

/-- `fn_normalize_space` (src/xpath_impl/func.rs:816-828): the words are appended without a space between them. -/
def fnNormalizeSpace (a : XSeq) : Except XErr XSeq :=
  if a.isEmpty then .ok [.string []] else
  (XSeq.string1 a).map fun s => [.string ((splitWhite s).foldl (fun r t => r ++ t) [])]

/-- Upper case of one ASCII character. -/
def asciiUpper (c : Char) : Char := if 'a'.toNat ≤ c.toNat ∧ c.toNat ≤ 'z'.toNat then Char.ofNat (c.toNat - 32) else c

/-- `str::to_uppercase` of a string with characters outside ASCII (Unicode tables, not modelled). -/
opaque unicodeUpper : Str → Str
/-- `str::to_lowercase` of a string with characters outside ASCII (Unicode tables, not modelled). -/
opaque unicodeLower : Str → Str

/-- Whether a string is ASCII. -/
def allAscii (s : Str) : Bool := s.all fun c => decide (c.toNat < 128)

/-- `str::to_uppercase`: modelled for ASCII strings, unknown for others. -/
def toUppercase (s : Str) : Str := if allAscii s then s.map asciiUpper else unicodeUpper s
/-- `str::to_lowercase`: modelled for ASCII strings, unknown for others. -/
def toLowercase (s : Str) : Str := if allAscii s then s.map F64.asciiLower else unicodeLower s

/-- `fn_upper_case` (src/xpath_impl/func.rs:834-841). -/
def fnUpperCase (a : XSeq) : Except XErr XSeq :=
  if a.isEmpty then .ok [.string []] else (XSeq.string1 a).map fun s => [.string (toUppercase s)]
/-- `fn_lower_case` (src/xpath_impl/func.rs:847-854). -/
def fnLowerCase (a : XSeq) : Except XErr XSeq :=
  if a.isEmpty then .ok [.string []] else (XSeq.string1 a).map fun s => [.string (toLowercase s)]

/-- The inner loop of `fn_translate` (src/xpath_impl/func.rs:862-893): the index of the last occurrence of the character,
`none` for `usize::MAX`. -/
def lastIndex (c : Char) : Str → Nat → Option Nat → Option Nat
  | [], _, found => found
  | f :: fs, i, found => lastIndex c fs (i + 1) (if c = f then some i else found)

/-- One turn of the outer loop of `fn_translate` (src/xpath_impl/func.rs:862-893). -/
def translateChar (from' to' : Str) (c : Char) : Str :=
  match lastIndex c from' 0 none with
  | some i => match to'[i]? with
    | some d => [d]
    | none => []
  | none => [c]

/-- `fn_translate` (src/xpath_impl/func.rs:862-893). -/
def fnTranslate (a b c : XSeq) : Except XErr XSeq :=
  if a.isEmpty then .ok [.string []] else
  (XSeq.string1 a).bind fun s => (XSeq.string1 b).bind fun f => (XSeq.string1 c).map fun t =>
    [.string (s.flatMap (translateChar f t))]

/-- An optional string argument, empty sequence read as `""` (src/xpath_impl/func.rs:906-914). -/
def optString (a : XSeq) : Except XErr Str := if a.isEmpty then .ok [] else XSeq.string1 a

/-- `str::splitn(2, pat)` with any pattern; an empty pattern matches before the first character
(src/xpath_impl/func.rs:982, 1008). -/
def splitn2 (pat s : Str) : Option (Str × Str) := if pat.isEmpty then some ([], s) else splitOnce pat s

/-- `fn_contains` (src/xpath_impl/func.rs:905-918). -/
def fnContains (a b : XSeq) : Except XErr XSeq :=
  (optString a).bind fun s => (optString b).map fun t => xbool (splitn2 t s).isSome
/-- `fn_starts_with` (src/xpath_impl/func.rs:927-940). -/
def fnStartsWith (a b : XSeq) : Except XErr XSeq :=
  (optString a).bind fun s => (optString b).map fun t => xbool (stripPrefix t s).isSome
/-- `fn_ends_with` (src/xpath_impl/func.rs:949-962). -/
def fnEndsWith (a b : XSeq) : Except XErr XSeq :=
  (optString a).bind fun s => (optString b).map fun t => xbool (stripPrefix t.reverse s.reverse).isSome
/-- `fn_substring_before` (src/xpath_impl/func.rs:971-988). -/
def fnSubstringBefore (a b : XSeq) : Except XErr XSeq :=
  (optString a).bind fun s => (optString b).map fun t => [.string (((splitn2 t s).map (·.1)).getD [])]
/-- `fn_substring_after` (src/xpath_impl/func.rs:997-1014). -/
def fnSubstringAfter (a b : XSeq) : Except XErr XSeq :=
  (optString a).bind fun s => (optString b).map fun t => [.string (((splitn2 t s).map (·.2)).getD [])]

/-! ## 7 Booleans -/

/-- `fn_boolean` (src/xpath_impl/func.rs:1054-1058). -/
def fnBoolean (a : XSeq) : Except XErr XSeq := (XSeq.ebv a).map xbool

/-! ## 13 Nodes -/

/-- `fn_name` (src/xpath_impl/func.rs:1094-1103), `fn_local_name` (src/xpath_impl/func.rs:1115-1124),
`fn_namespace_uri` (src/xpath_impl/func.rs:1136-1145): the same but for the property of the node. -/
def fnNodeString (f : NodeId → Str) (a : XSeq) : Except XErr XSeq :=
  if a.isEmpty then .ok [.string []] else
  match XSeq.node1 a with
  | .ok i => .ok [.string (f i)]
  | .error _ => .error .dynamicError

/-- The loop of `fn_lang` (src/xpath_impl/func.rs:1157-1176). -/
def langOf (h : Heap) : List NodeId → Str
  | [] => []
  | i :: r =>
    match h.attributeValue i (S "xml:lang") with
    | some v => toLowercase v
    | none => langOf h r

/-- The part before the first `-` (src/xpath_impl/func.rs:1172). -/
def beforeDash (s : Str) : Str := ((splitOnce (S "-") s).map (·.1)).getD s

/-- `fn_lang` (src/xpath_impl/func.rs:1157-1176). -/
def fnLang (h : Heap) (a b : XSeq) : Except XErr XSeq :=
  if a.isEmpty then .ok [.string []] else
  (XSeq.string1 a).bind fun t => (XSeq.node1 b).map fun i =>
    xbool (beforeDash (langOf h (arrayAncestorOrSelf h i)) == t)

/-- `fn_root` (src/xpath_impl/func.rs:1188-1200). -/
def fnRoot (h : Heap) (a : XSeq) : Except XErr XSeq :=
  if a.isEmpty then .ok [] else
  match XSeq.node1 a with
  | .ok i => .ok [.node (h.root i)]
  | .error _ => .error .dynamicError

/-! ## 14 Sequences -/

/-- `fn_empty` (src/xpath_impl/func.rs:1212-1214). -/
def fnEmpty (a : XSeq) : Except XErr XSeq := .ok (xbool (a.length == 0))
/-- `fn_exists` (src/xpath_impl/func.rs:1220-1222). -/
def fnExists (a : XSeq) : Except XErr XSeq := .ok (xbool (a.length != 0))
/-- `fn_head` (src/xpath_impl/func.rs:1228-1235). -/
def fnHead (a : XSeq) : Except XErr XSeq := .ok (a.take 1)
/-- `fn_tail` (src/xpath_impl/func.rs:1241-1251). -/
def fnTail (a : XSeq) : Except XErr XSeq := .ok (a.drop 1)

/-- `fn_insert_before` (src/xpath_impl/func.rs:1259-1280). `i64::MIN - 1` panics. -/
def fnInsertBefore (t p ins : XSeq) : Except XErr XSeq :=
  (XSeq.integer1 p).bind fun n => (checkI64 (n - 1)).map fun p0 =>
    let p1 : Int := if p0 ≤ 0 then 0 else p0
    let p2 : Int := if (t.length : Int) ≤ p1 then t.length else p1
    t.take p2.toNat ++ ins ++ t.drop p2.toNat

/-- The loop of `fn_remove` (src/xpath_impl/func.rs:1286-1296), from index `n` on. -/
def removeLoop (pos : Int) : Nat → XSeq → XSeq
  | _, [] => []
  | n, x :: r => if (n : Int) + 1 ≠ pos then x :: removeLoop pos (n + 1) r else removeLoop pos (n + 1) r

/-- `fn_remove` (src/xpath_impl/func.rs:1286-1296). A negative position, cast to `usize`, is larger than any index. -/
def fnRemove (t p : XSeq) : Except XErr XSeq := (XSeq.integer1 p).map fun n => removeLoop n 0 t

/-- `fn_reverse` (src/xpath_impl/func.rs:1302-1306). -/
def fnReverse (a : XSeq) : Except XErr XSeq := .ok a.reverse

/-- `fn_subsequence` (src/xpath_impl/func.rs:1316-1338). -/
def fnSubsequence (h : Heap) (args : List XSeq) : Except XErr XSeq :=
  if (arg args 0).isEmpty then .ok [] else
  (startLength h args).bind fun p =>
    (subIndex (arg args 0).length p.1 p.2).map fun be => sliceOf (arg args 0) be

/-- The loop of `fn_index_of` (src/xpath_impl/func.rs:1351-1361), from index `i` on. -/
def indexOfLoop (h : Heap) (srch : XSeq) : Nat → XSeq → Except XErr XSeq
  | _, [] => .ok []
  | i, v :: r =>
    ((valueEq h [v] srch).bind XSeq.boolean1).bind fun b =>
      (indexOfLoop h srch (i + 1) r).map fun rest => if b then .integer ((i + 1 : Nat) : Int) :: rest else rest

/-- `fn_index_of` (src/xpath_impl/func.rs:1351-1361). -/
def fnIndexOf (h : Heap) (a b : XSeq) : Except XErr XSeq := indexOfLoop h b 0 a

/-- `fn_zero_or_one` (src/xpath_impl/func.rs:1370-1376). -/
def fnZeroOrOne (a : XSeq) : Except XErr XSeq := if a.length ≤ 1 then .ok a else .error .dynamicError
/-- `fn_one_or_more` (src/xpath_impl/func.rs:1382-1388). -/
def fnOneOrMore (a : XSeq) : Except XErr XSeq := if 1 ≤ a.length then .ok a else .error .dynamicError
/-- `fn_exactly_one` (src/xpath_impl/func.rs:1394-1400). -/
def fnExactlyOne (a : XSeq) : Except XErr XSeq := if a.length = 1 then .ok a else .error .dynamicError
/-- `fn_count` (src/xpath_impl/func.rs:1409-1411). -/
def fnCount (a : XSeq) : Except XErr XSeq := .ok [.integer a.length]

/-- The loop of `fn_sum` (src/xpath_impl/func.rs:1483-1503). -/
def sumLoop (h : Heap) : XItem → XSeq → Except XErr XItem
  | v, [] => .ok v
  | v, n :: r =>
    (if n.isNumeric then numAdd v n else (n.castAs h (S "double")).bind fun d => numAdd v d).bind fun v' =>
      sumLoop h v' r

/-- `fn_sum` (src/xpath_impl/func.rs:1483-1503). -/
def fnSum (h : Heap) (args : List XSeq) : Except XErr XSeq :=
  if (arg args 0).isEmpty then
    (if args.length ≤ 1 then .ok [.integer 0] else .ok (arg args 1))
  else (sumLoop h (.integer 0) (arg args 0)).map fun v => [v]

/-- `fn_avg` (src/xpath_impl/func.rs:1421-1431). -/
def fnAvg (h : Heap) (a : XSeq) : Except XErr XSeq :=
  if a.isEmpty then .ok [] else
  (fnSum h [a]).bind fun s => (XSeq.item1 s).bind fun x => (numDiv x (.integer a.length)).map fun r => [r]

/-- The loop of `fn_max` (src/xpath_impl/func.rs:1438-1452) and `fn_min` (src/xpath_impl/func.rs:1459-1473). -/
def extremeLoop (cmp : XSeq → XSeq → Except XErr XSeq) : XItem → XSeq → Except XErr XItem
  | m, [] => .ok m
  | m, x :: r => ((cmp [m] [x]).bind XSeq.ebv).bind fun b => extremeLoop cmp (if b then x else m) r

/-- `fn_max` (src/xpath_impl/func.rs:1438-1452). -/
def fnMax (h : Heap) : XSeq → Except XErr XSeq
  | [] => .ok []
  | x :: r => (extremeLoop (valueLt h) x (x :: r)).map fun m => [m]
/-- `fn_min` (src/xpath_impl/func.rs:1459-1473). -/
def fnMin (h : Heap) : XSeq → Except XErr XSeq
  | [] => .ok []
  | x :: r => (extremeLoop (valueGt h) x (x :: r)).map fun m => [m]

/-! ## 17 Maps and arrays -/

/-- `map_size` (src/xpath_impl/func.rs:1589-1593). -/
def fnMapSize (a : XSeq) : Except XErr XSeq := (XSeq.map1 a).map fun m => [.integer m.length]
/-- `map_keys` (src/xpath_impl/func.rs:1599-1606). -/
def fnMapKeys (a : XSeq) : Except XErr XSeq := (XSeq.map1 a).map fun m => m.map (·.1)
/-- `map_contains` (src/xpath_impl/func.rs:1612-1617). -/
def fnMapContains (h : Heap) (a b : XSeq) : Except XErr XSeq :=
  (XSeq.map1 a).bind fun m => (XSeq.item1 b).map fun k => xbool (mapContains h m k)
/-- `map_get` (src/xpath_impl/func.rs:1623-1630). -/
def fnMapGet (h : Heap) (a b : XSeq) : Except XErr XSeq :=
  (XSeq.map1 a).bind fun m => (XSeq.item1 b).map fun k => (mapGet h m k).getD []
/-- `array_size` (src/xpath_impl/func.rs:1640-1644). -/
def fnArraySize (a : XSeq) : Except XErr XSeq := (XSeq.array1 a).map fun v => [.integer v.length]
/-- `array_get` (src/xpath_impl/func.rs:1650-1657). -/
def fnArrayGet (h : Heap) (a b : XSeq) : Except XErr XSeq :=
  (XSeq.array1 a).bind fun v => (XSeq.item1 b).map fun k => (arrayGet h v k).getD []
/-- `array_flatten` (src/xpath_impl/func.rs:1663-1676). -/
def fnArrayFlatten (a : XSeq) : Except XErr XSeq := .ok (flattenSeq a)

/-! ## Tables -/

/-- The functions of `FUNC_CONTEXT_TBL`. -/
inductive CtxFn where
  | nilled0 | string0 | data0 | number0 | stringLength0 | normalizeSpace0 | name0 | localName0 | namespaceUri0
  | lang1 | root0 | position | last | forEach | filter
  deriving DecidableEq, Repr

/-- `FUNC_CONTEXT_TBL` (src/xpath_impl/func.rs:153-156). -/
def funcContextTbl : List (Nat × Str × CtxFn) := [
  (0, S "fn:nilled", .nilled0), (0, S "fn:string", .string0), (0, S "fn:data", .data0),
  (0, S "fn:number", .number0), (0, S "fn:string-length", .stringLength0),
  (0, S "fn:normalize-space", .normalizeSpace0), (0, S "fn:name", .name0), (0, S "fn:local-name", .localName0),
  (0, S "fn:namespace-uri", .namespaceUri0), (1, S "fn:lang", .lang1), (0, S "fn:root", .root0),
  (0, S "fn:position", .position), (0, S "fn:last", .last), (2, S "fn:for-each", .forEach),
  (2, S "fn:filter", .filter)]

/-- A function of `FUNC_TBL`. -/
abbrev PureFn := Heap → List XSeq → Except XErr XSeq

/-- `FUNC_TBL` (src/xpath_impl/func.rs:191-194); `none` stands for the number `M` (any number of arguments). -/
def funcTbl : List (Option Nat × Str × PureFn) := [
  (some 1, S "fn:nilled", fun h a => fnNilled h (arg a 0)),
  (some 1, S "fn:string", fun h a => fnString h (arg a 0)),
  (some 1, S "fn:data", fun h a => fnData h (arg a 0)),
  (some 1, S "fn:abs", fun _ a => fnAbs (arg a 0)),
  (some 1, S "fn:ceiling", fun _ a => fnCeiling (arg a 0)),
  (some 1, S "fn:floor", fun _ a => fnFloor (arg a 0)),
  (some 1, S "fn:round", fun _ a => fnRound (arg a 0)),
  (some 1, S "fn:number", fun h a => fnNumber h (arg a 0)),
  (some 1, S "fn:codepoints-to-string", fun h a => fnCodepointsToString h (arg a 0)),
  (some 1, S "fn:string-to-codepoints", fun _ a => fnStringToCodepoints (arg a 0)),
  (some 2, S "fn:compare", fun _ a => fnCompare (arg a 0) (arg a 1)),
  (some 2, S "fn:codepoint-equal", fun _ a => fnCodepointEqual (arg a 0) (arg a 1)),
  (none, S "fn:concat", fun h a => fnConcat h a),
  (some 1, S "fn:string-join", fun h a => fnStringJoin h a),
  (some 2, S "fn:string-join", fun h a => fnStringJoin h a),
  (some 2, S "fn:substring", fun h a => fnSubstring h a),
  (some 3, S "fn:substring", fun h a => fnSubstring h a),
  (some 1, S "fn:string-length", fun _ a => fnStringLength (arg a 0)),
  (some 1, S "fn:normalize-space", fun _ a => fnNormalizeSpace (arg a 0)),
  (some 1, S "fn:upper-case", fun _ a => fnUpperCase (arg a 0)),
  (some 1, S "fn:lower-case", fun _ a => fnLowerCase (arg a 0)),
  (some 3, S "fn:translate", fun _ a => fnTranslate (arg a 0) (arg a 1) (arg a 2)),
  (some 2, S "fn:contains", fun _ a => fnContains (arg a 0) (arg a 1)),
  (some 2, S "fn:starts-with", fun _ a => fnStartsWith (arg a 0) (arg a 1)),
  (some 2, S "fn:ends-with", fun _ a => fnEndsWith (arg a 0) (arg a 1)),
  (some 2, S "fn:substring-before", fun _ a => fnSubstringBefore (arg a 0) (arg a 1)),
  (some 2, S "fn:substring-after", fun _ a => fnSubstringAfter (arg a 0) (arg a 1)),
  (some 0, S "fn:true", fun _ _ => .ok (xbool true)),
  (some 0, S "fn:false", fun _ _ => .ok (xbool false)),
  (some 1, S "fn:boolean", fun _ a => fnBoolean (arg a 0)),
  (some 1, S "fn:not", fun _ a => fnNot (arg a 0)),
  (some 1, S "fn:name", fun h a => fnNodeString (fun i => (h.node i).name) (arg a 0)),
  (some 1, S "fn:local-name", fun h a => fnNodeString (fun i => localName (h.node i).name) (arg a 0)),
  (some 1, S "fn:namespace-uri", fun h a => fnNodeString (fun i => h.namespaceUri i) (arg a 0)),
  (some 2, S "fn:lang", fun h a => fnLang h (arg a 0) (arg a 1)),
  (some 1, S "fn:root", fun h a => fnRoot h (arg a 0)),
  (some 1, S "fn:empty", fun _ a => fnEmpty (arg a 0)),
  (some 1, S "fn:exists", fun _ a => fnExists (arg a 0)),
  (some 1, S "fn:head", fun _ a => fnHead (arg a 0)),
  (some 1, S "fn:tail", fun _ a => fnTail (arg a 0)),
  (some 3, S "fn:insert-before", fun _ a => fnInsertBefore (arg a 0) (arg a 1) (arg a 2)),
  (some 2, S "fn:remove", fun _ a => fnRemove (arg a 0) (arg a 1)),
  (some 1, S "fn:reverse", fun _ a => fnReverse (arg a 0)),
  (some 2, S "fn:subsequence", fun h a => fnSubsequence h a),
  (some 3, S "fn:subsequence", fun h a => fnSubsequence h a),
  (some 2, S "fn:index-of", fun h a => fnIndexOf h (arg a 0) (arg a 1)),
  (some 1, S "fn:zero-or-one", fun _ a => fnZeroOrOne (arg a 0)),
  (some 1, S "fn:one-or-more", fun _ a => fnOneOrMore (arg a 0)),
  (some 1, S "fn:exactly-one", fun _ a => fnExactlyOne (arg a 0)),
  (some 1, S "fn:count", fun _ a => fnCount (arg a 0)),
  (some 1, S "fn:avg", fun h a => fnAvg h (arg a 0)),
  (some 1, S "fn:max", fun h a => fnMax h (arg a 0)),
  (some 1, S "fn:min", fun h a => fnMin h (arg a 0)),
  (some 1, S "fn:sum", fun h a => fnSum h a),
  (some 2, S "fn:sum", fun h a => fnSum h a),
  (some 1, S "map:size", fun _ a => fnMapSize (arg a 0)),
  (some 1, S "map:keys", fun _ a => fnMapKeys (arg a 0)),
  (some 2, S "map:contains", fun h a => fnMapContains h (arg a 0) (arg a 1)),
  (some 2, S "map:get", fun h a => fnMapGet h (arg a 0) (arg a 1)),
  (some 1, S "array:size", fun _ a => fnArraySize (arg a 0)),
  (some 2, S "array:get", fun h a => fnArrayGet h (arg a 0) (arg a 1)),
  (some 1, S "array:flatten", fun _ a => fnArrayFlatten (arg a 0))]

/-- The search in `FUNC_CONTEXT_TBL` (src/xpath_impl/func.rs:153-156, 315-319). -/
def findCtxFn (name : Str) (n : Nat) : Option CtxFn :=
  (funcContextTbl.find? fun e => e.1 == n && e.2.1 == name).map (·.2.2)

/-- The search in `FUNC_TBL` (src/xpath_impl/func.rs:191-194, 321-328). -/
def findPureFn (name : Str) (n : Nat) : Option PureFn :=
  (funcTbl.find? fun e => (e.1 == some n || e.1 == none) && e.2.1 == name).map (·.2.2)

/-- `check_function_spec` (src/xpath_impl/func.rs:279-297). -/
def checkFunctionSpec (name : Str) (n : Nat) : Bool := (findCtxFn name n).isSome || (findPureFn name n).isSome

/-- `FUNC_SIGNATURE_TBL` (src/xpath_impl/func.rs:28-30). 86 entries. -/
def funcSignatureTbl : List (Str × Str) := [
  (S "fn:nilled#0", S "function() as xs:boolean?"),
  (S "fn:nilled#1", S "function(node()?) as xs:boolean?"),
  (S "fn:string#0", S "function() as xs:string"),
  (S "fn:string#1", S "function(item()?) as xs:string"),
  (S "fn:data#0", S "function() as xs:anyAtomicType*"),
  (S "fn:data#1", S "function(item()*) as xs:anyAtomicType*"),
  (S "fn:abs#1", S "function(numeric?) as numeric?"),
  (S "fn:ceiling#1", S "function(numeric?) as numeric?"),
  (S "fn:floor#1", S "function(numeric?) as numeric?"),
  (S "fn:round#1", S "function(numeric?) as numeric?"),
  (S "fn:number#0", S "function() as xs:double"),
  (S "fn:number#1", S "function(xs:anyAtomicType?) as xs:double"),
  (S "fn:codepoints-to-string#1", S "function(xs:integer*) as xs:string"),
  (S "fn:string-to-codepoints#1", S "function(xs:string*) as xs:integer*"),
  (S "fn:compare#2", S "function(xs:string?, xs:string?) as xs:integer?"),
  (S "fn:compare#3", S "function(xs:string?, xs:string?, xs:string) as xs:integer?"),
  (S "fn:codepoint-equal#2", S "function(xs:string?, xs:string?) as xs:boolean?"),
  (S "fn:concat#2", S "function(xs:anyAtomicType?, xs:anyAtomicType?) as xs:string"),
  (S "fn:string-join#1", S "function(xs:string*) as xs:string"),
  (S "fn:string-join#2", S "function(xs:string*, xs:string) as xs:string"),
  (S "fn:substring#2", S "function(xs:string?, xs:double) as xs:string"),
  (S "fn:substring#3", S "function(xs:string?, xs:double, xs:double) as xs:string"),
  (S "fn:string-length#0", S "function() as xs:integer"),
  (S "fn:string-length#1", S "function(xs:string?) as xs:integer"),
  (S "fn:normalize-space#0", S "function() as xs:integer"),
  (S "fn:normalize-space#1", S "function(xs:string?) as xs:integer"),
  (S "fn:upper-case#1", S "function(xs:string?) as xs:string"),
  (S "fn:lower-case#1", S "function(xs:string?) as xs:string"),
  (S "fn:translate#3", S "function(xs:string?, xs:string, xs:string) as xs:string"),
  (S "fn:contains#2", S "function(xs:string?, xs:string?) as xs:boolean"),
  (S "fn:contains#3", S "function(xs:string?, xs:string?, xs:string) as xs:boolean"),
  (S "fn:starts-with#2", S "function(xs:string?, xs:string?) as xs:boolean"),
  (S "fn:starts-with#3", S "function(xs:string?, xs:string?, xs:string) as xs:boolean"),
  (S "fn:ends-with#2", S "function(xs:string?, xs:string?) as xs:boolean"),
  (S "fn:ends-with#3", S "function(xs:string?, xs:string?, xs:string) as xs:boolean"),
  (S "fn:substring-before#2", S "function(xs:string?, xs:string?) as xs:string"),
  (S "fn:substring-before#3", S "function(xs:string?, xs:string?, xs:string) as xs:string"),
  (S "fn:substring-after#2", S "function(xs:string?, xs:string?) as xs:string"),
  (S "fn:substring-after#3", S "function(xs:string?, xs:string?, xs:string) as xs:string"),
  (S "fn:true#0", S "function() as xs:boolean"),
  (S "fn:false#0", S "function() as xs:boolean"),
  (S "fn:boolean#1", S "function(item()*) as xs:boolean"),
  (S "fn:not#1", S "function(item()*) as xs:boolean"),
  (S "fn:name#0", S "function() as xs:string"),
  (S "fn:name#1", S "function(node()?) as xs:string"),
  (S "fn:local-name#0", S "function() as xs:string"),
  (S "fn:local-name#1", S "function(node()?) as xs:string"),
  (S "fn:namespace-uri#0", S "function() as xs:anyURI"),
  (S "fn:namespace-uri#1", S "function(node()?) as xs:anyURI"),
  (S "fn:lang#1", S "function(xs:string?) as xs:boolean"),
  (S "fn:lang#2", S "function(xs:string?, node()) as xs:boolean"),
  (S "fn:root#0", S "function() as node()"),
  (S "fn:root#1", S "function(node()?) as node()?"),
  (S "fn:empty#1", S "function(item()*) as xs:boolean"),
  (S "fn:exists#1", S "function(item()*) as xs:boolean"),
  (S "fn:head#1", S "function(item()*) as item()?"),
  (S "fn:tail#1", S "function(item()*) as item()*"),
  (S "fn:insert-before#3", S "function(item()*, xs:integer, item()*) as item()*"),
  (S "fn:remove#2", S "function(item()*, xs:integer) as item()*"),
  (S "fn:reverse#1", S "function(item()*) as item()*"),
  (S "fn:subsequence#2", S "function(item()*, xs:double) as item()*"),
  (S "fn:subsequence#3", S "function(item()*, xs:double, xs:double) as item()*"),
  (S "fn:index-of#2", S "function(xs:anyAtomicType*, xs:anyAtomicType) as xs:integer*"),
  (S "fn:index-of#3", S "function(xs:anyAtomicType*, xs:anyAtomicType, xs:string) as xs:integer*"),
  (S "fn:zero-or-one#1", S "function(item()*) as item()?"),
  (S "fn:one-or-more#1", S "function(item()*) as item()?"),
  (S "fn:exactly-one#1", S "function(item()*) as item()?"),
  (S "fn:count#1", S "function(item()*) as xs:integer"),
  (S "fn:avg#1", S "function(xs:anyAtomicType*) as xs:anyAtomicType?"),
  (S "fn:max#1", S "function(xs:anyAtomicType*) as xs:anyAtomicType?"),
  (S "fn:max#2", S "function(xs:anyAtomicType*, xs:string) as xs:anyAtomicType?"),
  (S "fn:min#1", S "function(xs:anyAtomicType*) as xs:anyAtomicType?"),
  (S "fn:min#2", S "function(xs:anyAtomicType*, xs:string) as xs:anyAtomicType?"),
  (S "fn:sum#1", S "function(xs:anyAtomicType*) as xs:anyAtomicType?"),
  (S "fn:sum#2", S "function(xs:anyAtomicType*, xs:anyAtomicType?) as xs:anyAtomicType?"),
  (S "fn:position#0", S "function() as xs:integer"),
  (S "fn:last#0", S "function() as xs:integer"),
  (S "fn:for-each#2", S "function(item()*, function(item()) as item()*) as item()*"),
  (S "fn:filter#2", S "function(item()*, function(item()) as xs:boolean) as item()*"),
  (S "map:size#1", S "function(map(*)) as xs:integer"),
  (S "map:keys#1", S "function(map(*)) as xs:anyAtomicType*"),
  (S "map:contains#2", S "function(map(*), xs:anyAtomicType) as xs:boolean"),
  (S "map:get#2", S "function(map(*), xs:anyAtomicType) as item()*"),
  (S "array:size#1", S "function(array(*)) as xs:integer"),
  (S "array:get#2", S "function(array(*), xs:integer) as item()*"),
  (S "array:flatten#1", S "function(item()*) as item()*")]

/-- `get_function_signature` (src/xpath_impl/func.rs:123-130). -/
def functionSignature (name : Str) : Str := ((funcSignatureTbl.find? fun e => e.1 == name).map (·.2)).getD []

end Amxml
