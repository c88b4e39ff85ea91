import Verif.Spec.Steps

/-!
# Vocabulary for sequence types

The types of XPath 3.1, the values they have, and the subtype relation (section 2.5.6 of the recommendation), on types without schema
types. Independent of the matching functions of the model; `tree` gives the syntax tree of a type (compare `TypeD` in
Verif/Spec/Grammar.lean).
-/

namespace Amxml.Spec

/-- The occurrence indicators: none, `?`, `*`, `+`. -/
inductive Occ where
  | one | opt | many | plus
  deriving DecidableEq

namespace Occ

/-- The text of the indicator. -/
def mark : Occ → Str
  | one => []
  | opt => S "?"
  | many => S "*"
  | plus => S "+"

/-- The lengths it admits. -/
def Admits : Occ → Nat → Prop
  | one, n => n = 1
  | opt, n => n ≤ 1
  | many, _ => True
  | plus, n => 1 ≤ n

end Occ

mutual

/-- `SequenceType`. -/
inductive SType where
  /-- `empty-sequence()`. -/
  | empty
  /-- An item type with an occurrence indicator. -/
  | of (t : IType) (o : Occ)

/-- `ItemType`. -/
inductive IType where
  /-- `item()`. -/
  | item
  /-- A kind test. -/
  | kind (T : NTest)
  /-- The name of an atomic type. -/
  | atomic (n : Str)
  /-- `function(*)`. -/
  | anyFunction
  /-- `function(P₁, …, Pₙ) as R`. -/
  | function (ps : PTypes) (r : SType)
  /-- `map(K, V)`; `map(*)` is `map(xs:anyAtomicType, item()*)`. -/
  | map (k : Str) (v : SType)
  /-- `array(T)`; `array(*)` is `array(item()*)`. -/
  | array (t : SType)

/-- A list of sequence types. -/
inductive PTypes where
  | nil
  | cons (t : SType) (ts : PTypes)

end

mutual

/-- The syntax tree of a sequence type. -/
def SType.tree : SType → XNode
  | .empty => .node .sequenceType [] (.node .emptySequenceTest [] .nil .nil) .nil
  | .of t o => .node .sequenceType o.mark t.tree .nil

/-- The syntax tree of an item type. -/
def IType.tree : IType → XNode
  | .item => .node .itemTest [] .nil .nil
  | .kind T => T.tree
  | .atomic n => .node .atomicOrUnionType n .nil .nil
  | .anyFunction => .node .anyFunctionTest [] .nil .nil
  | .function ps r => .node .typedFunctionTest [] .nil (.node .returnType [] r.tree ps.tree)
  | .map k v => .node .mapTest [] (.node .atomicOrUnionType k .nil .nil) v.tree
  | .array t => .node .arrayTest [] t.tree .nil

/-- The syntax tree of a list of types. -/
def PTypes.tree : PTypes → XNode
  | .nil => .nil
  | .cons t ts => .node .param [] t.tree ts.tree

end

/-- The atomic types a value belongs to. (Nodes, maps, arrays and functions are no atomic values.) -/
def valueTypes : XItem → List Str
  | .string _ => [S "xs:string", S "xs:anyAtomicType", S "xs:anySimpleType", S "xs:anyType"]
  | .boolean _ => [S "xs:boolean", S "xs:anyAtomicType", S "xs:anySimpleType", S "xs:anyType"]
  | .integer _ => [S "xs:integer", S "xs:decimal", S "xs:numeric", S "xs:anyAtomicType", S "xs:anySimpleType", S "xs:anyType"]
  | .decimal _ => [S "xs:decimal", S "xs:numeric", S "xs:anyAtomicType", S "xs:anySimpleType", S "xs:anyType"]
  | .double _ => [S "xs:double", S "xs:numeric", S "xs:anyAtomicType", S "xs:anySimpleType", S "xs:anyType"]
  | _ => []

/-- Direct derivation of atomic types. -/
def directlyDerived : List (Str × Str) := [
  (S "xs:integer", S "xs:decimal"), (S "xs:decimal", S "xs:numeric"), (S "xs:double", S "xs:numeric"), (S "xs:numeric", S "xs:anyAtomicType"),
  (S "xs:string", S "xs:anyAtomicType"), (S "xs:anyURI", S "xs:string"), (S "xs:boolean", S "xs:anyAtomicType"),
  (S "xs:untypedAtomic", S "xs:anyAtomicType"), (S "xs:anyAtomicType", S "xs:anySimpleType"), (S "xs:anySimpleType", S "xs:anyType"),
  (S "xs:untyped", S "xs:anyType")]

/-- Derivation of atomic types: the reflexive and transitive closure. -/
inductive Derived : Str → Str → Prop
  | refl (a : Str) : Derived a a
  | step {a b c : Str} : (a, b) ∈ directlyDerived → Derived b c → Derived a c

mutual

/-- The subtype relation of sequence types. -/
inductive SType.Sub : SType → SType → Prop
  | empty : SType.Sub .empty .empty
  | none {b : IType} {p : Occ} : p.Admits 0 → SType.Sub .empty (.of b p)
  | of {a b : IType} {o p : Occ} : (∀ n, o.Admits n → p.Admits n) → IType.Sub a b → SType.Sub (.of a o) (.of b p)

/-- The subtype relation of item types. (Not all rules are here: an element or attribute test is a subtype of `node()` and `item()`, its
relation to other element and attribute tests is left out, and so is the one of maps and arrays to `function(P) as R`.) -/
inductive IType.Sub : IType → IType → Prop
  | item {a : IType} : IType.Sub a .item
  | atomic {m n : Str} : Derived m n → IType.Sub (.atomic m) (.atomic n)
  | node {T : NTest} : IType.Sub (.kind T) (.kind .anyNode)
  | text : IType.Sub (.kind .text) (.kind .text)
  | comment : IType.Sub (.kind .comment) (.kind .comment)
  | pi {n : Option Str} : IType.Sub (.kind (.pi n)) (.kind (.pi none))
  | anyFunction : IType.Sub .anyFunction .anyFunction
  | functionAny {ps : PTypes} {r : SType} : IType.Sub (.function ps r) .anyFunction
  | mapAny {k : Str} {v : SType} : IType.Sub (.map k v) .anyFunction
  | arrayAny {t : SType} : IType.Sub (.array t) .anyFunction
  | function {ps qs : PTypes} {r s : SType} : SType.Sub r s → PTypes.Sub qs ps → IType.Sub (.function ps r) (.function qs s)
  | map {k l : Str} {v w : SType} : Derived k l → SType.Sub v w → IType.Sub (.map k v) (.map l w)
  | array {a b : SType} : SType.Sub a b → IType.Sub (.array a) (.array b)

/-- Lists of types of equal length, with the subtype relation at every place. -/
inductive PTypes.Sub : PTypes → PTypes → Prop
  | nil : PTypes.Sub .nil .nil
  | cons {a b : SType} {as bs : PTypes} : SType.Sub a b → PTypes.Sub as bs → PTypes.Sub (.cons a as) (.cons b bs)

end

/-- The node tests that are kind tests. -/
def NTest.IsKind : NTest → Prop
  | .name _ | .any | .inPrefix _ | .dots => False
  | _ => True

mutual

/-- Every name in the type is one: an atomic type is named with a prefix (the parser puts `xs:` where there is none); no `xs:error`. -/
def SType.Proper : SType → Prop
  | .empty => True
  | .of t _ => t.Proper

/-- See `SType.Proper`. -/
def IType.Proper : IType → Prop
  | .item | .anyFunction => True
  | .kind T => T.IsKind ∧ T.Proper
  | .atomic n => ':' ∈ n ∧ n ≠ S "xs:error"
  | .function ps r => ps.Proper ∧ r.Proper
  | .map k v => ':' ∈ k ∧ k ≠ S "xs:error" ∧ v.Proper
  | .array t => t.Proper

/-- See `SType.Proper`. -/
def PTypes.Proper : PTypes → Prop
  | .nil => True
  | .cons t ts => t.Proper ∧ ts.Proper

end

mutual

/-- Item types that meet `P` occur nowhere in the type. -/
def SType.Without (P : IType → Prop) : SType → Prop
  | .empty => True
  | .of t _ => t.Without P

/-- See `SType.Without`. -/
def IType.Without (P : IType → Prop) : IType → Prop
  | .item => ¬ P .item
  | .anyFunction => ¬ P .anyFunction
  | .kind T => ¬ P (.kind T)
  | .atomic n => ¬ P (.atomic n)
  | .function ps r => ¬ P (.function ps r) ∧ ps.Without P ∧ r.Without P
  | .map k v => ¬ P (.map k v) ∧ v.Without P
  | .array t => ¬ P (.array t) ∧ t.Without P

/-- See `SType.Without`. -/
def PTypes.Without (P : IType → Prop) : PTypes → Prop
  | .nil => True
  | .cons t ts => t.Without P ∧ ts.Without P

end

/-- `function(P₁, …) as R`. -/
def IsTyped (t : IType) : Prop := ∃ ps r, t = .function ps r
/-- A map or array type. -/
def IsContainer (t : IType) : Prop := (∃ k v, t = .map k v) ∨ ∃ a, t = .array a
/-- `processing-instruction(n)`. -/
def IsNamedPI (t : IType) : Prop := ∃ n, t = .kind (.pi (some n))

/-- The parameters of an inline function: names and types. -/
def paramsTree : List (Str × SType) → XNode
  | [] => .nil
  | (n, t) :: ps => .node .param n t.tree (paramsTree ps)

/-- The types of the parameters. -/
def paramTypes : List (Str × SType) → PTypes
  | [] => .nil
  | (_, t) :: ps => .cons t (paramTypes ps)

/-- `function($n₁ as P₁, …) as R { body }`. -/
def inlineOf (ps : List (Str × SType)) (r : SType) (body : XNode) : XNode :=
  .node .inlineFunction (S "(inline function)") body (.node .returnType [] r.tree (paramsTree ps))

mutual

/-- The sequence is of the type. -/
def SType.Matches (h : Heap) : SType → XSeq → Prop
  | .empty, s => s = []
  | .of t o, s => o.Admits s.length ∧ ∀ x ∈ s, t.Has h x

/-- The item is of the type. A function is of the types that its signature is a subtype of. -/
def IType.Has (h : Heap) : IType → XItem → Prop
  | .item, _ => True
  | .kind T, x => ∃ i, x = .node i ∧ T.Passes h .axisSelf i
  | .atomic n, x => n ∈ valueTypes x
  | .anyFunction, x => (∃ f, x = .fn f) ∨ (∃ es, x = .map es) ∨ ∃ ms, x = .array ms
  | .function ps r, x => ∃ qs q body, x = .fn (inlineOf qs q body) ∧ q.Sub r ∧ ps.Sub (paramTypes qs)
  | .map k v, x => ∃ es, x = .map es ∧ ∀ e ∈ es, k ∈ valueTypes e.1 ∧ v.Matches h e.2
  | .array t, x => ∃ ms, x = .array ms ∧ ∀ s ∈ ms, t.Matches h s

end

end Amxml.Spec
