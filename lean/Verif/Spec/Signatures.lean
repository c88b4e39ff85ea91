import Verif.Spec.SeqTypes

/-!
# The signatures of the function library (specification)

"XQuery and XPath Functions and Operators 3.1": the parameter types and the return types of the functions that the library offers.
-/

namespace Amxml.Spec

/-- `item()`. -/
abbrev anyItem (o : Occ) : SType := .of .item o
/-- `node()`. -/
abbrev anyNode (o : Occ) : SType := .of (.kind .anyNode) o
/-- `xs:anyAtomicType`. -/
abbrev anyAtomic (o : Occ) : SType := .of (.atomic (S "xs:anyAtomicType")) o
/-- `xs:string`. -/
abbrev aString (o : Occ) : SType := .of (.atomic (S "xs:string")) o
/-- `xs:boolean`. -/
abbrev aBoolean (o : Occ) : SType := .of (.atomic (S "xs:boolean")) o
/-- `xs:integer`. -/
abbrev anInteger (o : Occ) : SType := .of (.atomic (S "xs:integer")) o
/-- `xs:double`. -/
abbrev aDouble (o : Occ) : SType := .of (.atomic (S "xs:double")) o
/-- `xs:numeric`. -/
abbrev aNumeric (o : Occ) : SType := .of (.atomic (S "xs:numeric")) o
/-- `map(*)`. -/
abbrev anyMap : SType := .of (.map (S "xs:anyAtomicType") (anyItem .many)) .one
/-- `array(*)`. -/
abbrev anyArray : SType := .of (.array (anyItem .many)) .one

/-- The parameter types as a list of types. -/
def PTypes.ofList : List SType → PTypes
  | [] => .nil
  | t :: ts => .cons t (PTypes.ofList ts)

/-- The functions with as many parameters as there are parameter types, and their return type. -/
def librarySignatures : List (Str × List SType × SType) := [
  (S "fn:nilled", [], aBoolean .opt),
  (S "fn:nilled", [anyNode .opt], aBoolean .opt),
  (S "fn:string", [], aString .one),
  (S "fn:string", [anyItem .opt], aString .one),
  (S "fn:data", [], anyAtomic .many),
  (S "fn:data", [anyItem .many], anyAtomic .many),
  (S "fn:abs", [aNumeric .opt], aNumeric .opt),
  (S "fn:ceiling", [aNumeric .opt], aNumeric .opt),
  (S "fn:floor", [aNumeric .opt], aNumeric .opt),
  (S "fn:round", [aNumeric .opt], aNumeric .opt),
  (S "fn:number", [], aDouble .one),
  (S "fn:number", [anyAtomic .opt], aDouble .one),
  (S "fn:codepoints-to-string", [anInteger .many], aString .one),
  (S "fn:string-to-codepoints", [aString .opt], anInteger .many),
  (S "fn:compare", [aString .opt, aString .opt], anInteger .opt),
  (S "fn:codepoint-equal", [aString .opt, aString .opt], aBoolean .opt),
  (S "fn:concat", [anyAtomic .opt, anyAtomic .opt], aString .one),
  (S "fn:concat", [anyAtomic .opt, anyAtomic .opt, anyAtomic .opt], aString .one),
  (S "fn:string-join", [anyAtomic .many], aString .one),
  (S "fn:string-join", [anyAtomic .many, aString .one], aString .one),
  (S "fn:substring", [aString .opt, aDouble .one], aString .one),
  (S "fn:substring", [aString .opt, aDouble .one, aDouble .one], aString .one),
  (S "fn:string-length", [], anInteger .one),
  (S "fn:string-length", [aString .opt], anInteger .one),
  (S "fn:normalize-space", [], aString .one),
  (S "fn:normalize-space", [aString .opt], aString .one),
  (S "fn:upper-case", [aString .opt], aString .one),
  (S "fn:lower-case", [aString .opt], aString .one),
  (S "fn:translate", [aString .opt, aString .one, aString .one], aString .one),
  (S "fn:contains", [aString .opt, aString .opt], aBoolean .one),
  (S "fn:starts-with", [aString .opt, aString .opt], aBoolean .one),
  (S "fn:ends-with", [aString .opt, aString .opt], aBoolean .one),
  (S "fn:substring-before", [aString .opt, aString .opt], aString .one),
  (S "fn:substring-after", [aString .opt, aString .opt], aString .one),
  (S "fn:true", [], aBoolean .one),
  (S "fn:false", [], aBoolean .one),
  (S "fn:boolean", [anyItem .many], aBoolean .one),
  (S "fn:not", [anyItem .many], aBoolean .one),
  (S "fn:name", [], aString .one),
  (S "fn:name", [anyNode .opt], aString .one),
  (S "fn:local-name", [], aString .one),
  (S "fn:local-name", [anyNode .opt], aString .one),
  (S "fn:namespace-uri", [], .of (.atomic (S "xs:anyURI")) .one),
  (S "fn:namespace-uri", [anyNode .opt], .of (.atomic (S "xs:anyURI")) .one),
  (S "fn:lang", [aString .opt], aBoolean .one),
  (S "fn:lang", [aString .opt, anyNode .one], aBoolean .one),
  (S "fn:root", [], anyNode .one),
  (S "fn:root", [anyNode .opt], anyNode .opt),
  (S "fn:empty", [anyItem .many], aBoolean .one),
  (S "fn:exists", [anyItem .many], aBoolean .one),
  (S "fn:head", [anyItem .many], anyItem .opt),
  (S "fn:tail", [anyItem .many], anyItem .many),
  (S "fn:insert-before", [anyItem .many, anInteger .one, anyItem .many], anyItem .many),
  (S "fn:remove", [anyItem .many, anInteger .one], anyItem .many),
  (S "fn:reverse", [anyItem .many], anyItem .many),
  (S "fn:subsequence", [anyItem .many, aDouble .one], anyItem .many),
  (S "fn:subsequence", [anyItem .many, aDouble .one, aDouble .one], anyItem .many),
  (S "fn:index-of", [anyAtomic .many, anyAtomic .one], anInteger .many),
  (S "fn:zero-or-one", [anyItem .many], anyItem .opt),
  (S "fn:one-or-more", [anyItem .many], anyItem .plus),
  (S "fn:exactly-one", [anyItem .many], anyItem .one),
  (S "fn:count", [anyItem .many], anInteger .one),
  (S "fn:avg", [anyAtomic .many], anyAtomic .opt),
  (S "fn:max", [anyAtomic .many], anyAtomic .opt),
  (S "fn:min", [anyAtomic .many], anyAtomic .opt),
  (S "fn:sum", [anyAtomic .many], anyAtomic .one),
  (S "fn:sum", [anyAtomic .many, anyAtomic .opt], anyAtomic .opt),
  (S "fn:position", [], anInteger .one),
  (S "fn:last", [], anInteger .one),
  (S "fn:for-each", [anyItem .many, .of (.function (.cons (anyItem .one) .nil) (anyItem .many)) .one], anyItem .many),
  (S "fn:filter", [anyItem .many, .of (.function (.cons (anyItem .one) .nil) (aBoolean .one)) .one], anyItem .many),
  (S "map:size", [anyMap], anInteger .one),
  (S "map:keys", [anyMap], anyAtomic .many),
  (S "map:contains", [anyMap, anyAtomic .one], aBoolean .one),
  (S "map:get", [anyMap, anyAtomic .one], anyItem .many),
  (S "array:size", [anyArray], anInteger .one),
  (S "array:get", [anyArray, anInteger .one], anyItem .many),
  (S "array:flatten", [anyItem .many], anyItem .many)]

/-- The functions which the code takes for functions of another type, and the type it takes them for. -/
def mistakenSignatures : List (Str × List SType × SType) := [
  (S "fn:string-to-codepoints", [aString .many], anInteger .many),
  (S "fn:string-join", [aString .many], aString .one),
  (S "fn:string-join", [aString .many, aString .one], aString .one),
  (S "fn:normalize-space", [], anInteger .one),
  (S "fn:normalize-space", [aString .opt], anInteger .one),
  (S "fn:one-or-more", [anyItem .many], anyItem .opt),
  (S "fn:exactly-one", [anyItem .many], anyItem .opt),
  (S "fn:sum", [anyAtomic .many], anyAtomic .opt)]

/-- `f#n`, for `n` of one digit. -/
def reference (f : Str) (n : Nat) : XNode := .node .namedFunctionRef (f ++ ['#', Char.ofNat (48 + n)]) .nil .nil

end Amxml.Spec
