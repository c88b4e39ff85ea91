import Verif.Spec.Signatures

/-!
# The types as the code takes them (specification)

What `instance of` gives for all types and values, also where this is not what XPath says. The differences: a function is no `item()`; all tests
`processing-instruction(…)` are the same type; a map type counts as a subtype of a function type, whatever further parameters this has, and an array
type as one of the function types with a first parameter of a numeric type that integers belong to; a map is a function from any of the types of all
its keys, an array a function from any type that the integer 1 is of; the library functions have the types of `C112_mistaken`.
-/

namespace Amxml.Spec

mutual

/-- The subtype relation of the code, on sequence types. -/
inductive SType.Under : SType → SType → Prop
  | empty : SType.Under .empty .empty
  | none {b : IType} {p : Occ} : p.Admits 0 → SType.Under .empty (.of b p)
  | of {a b : IType} {o p : Occ} : (∀ n, o.Admits n → p.Admits n) → IType.Under a b → SType.Under (.of a o) (.of b p)

/-- The subtype relation of the code, on item types. -/
inductive IType.Under : IType → IType → Prop
  | item {a : IType} : IType.Under a .item
  | atomic {m n : Str} : Derived m n → IType.Under (.atomic m) (.atomic n)
  | node {T : NTest} : IType.Under (.kind T) (.kind .anyNode)
  | text : IType.Under (.kind .text) (.kind .text)
  | comment : IType.Under (.kind .comment) (.kind .comment)
  | pi {m n : Option Str} : IType.Under (.kind (.pi m)) (.kind (.pi n))
  | anyFunction : IType.Under .anyFunction .anyFunction
  | functionAny {ps : PTypes} {r : SType} : IType.Under (.function ps r) .anyFunction
  | mapAny {k : Str} {v : SType} : IType.Under (.map k v) .anyFunction
  | arrayAny {t : SType} : IType.Under (.array t) .anyFunction
  | function {ps qs : PTypes} {r s : SType} : SType.Under r s → PTypes.Under qs ps → IType.Under (.function ps r) (.function qs s)
  | map {k l : Str} {v w : SType} : Derived k l → SType.Under v w → IType.Under (.map k v) (.map l w)
  | array {a b : SType} : SType.Under a b → IType.Under (.array a) (.array b)
  | mapFunction {k : Str} {v r : SType} {t : IType} {o : Occ} {ts : PTypes} : IType.Under (.atomic k) t → SType.Under v r →
      IType.Under (.map k v) (.function (.cons (.of t o) ts) r)
  | arrayFunction {a r : SType} {n : Str} {o : Occ} {ts : PTypes} : Derived (S "xs:integer") n → SType.Under a r →
      IType.Under (.array a) (.function (.cons (.of (.atomic n) o) ts) r)

/-- Lists of types of equal length, with the subtype relation at every place. -/
inductive PTypes.Under : PTypes → PTypes → Prop
  | nil : PTypes.Under .nil .nil
  | cons {a b : SType} {as bs : PTypes} : SType.Under a b → PTypes.Under as bs → PTypes.Under (.cons a as) (.cons b bs)

end

/-- The function item has the parameter types and the return type, in the eyes of the code. -/
inductive TakenFor : XNode → PTypes → SType → Prop
  | inline {qs : List (Str × SType)} {q : SType} {body : XNode} : (paramTypes qs).Proper → q.Proper → TakenFor (inlineOf qs q body) (paramTypes qs) q
  | library {f : Str} {qs : List SType} {q : SType} : (f, qs, q) ∈ librarySignatures → (∀ m ∈ mistakenSignatures, ¬ (m.1 = f ∧ m.2.1.length = qs.length)) →
      ¬ (f = S "fn:concat" ∧ qs.length = 3) → TakenFor (reference f qs.length) (PTypes.ofList qs) q
  | mistaken {f : Str} {qs : List SType} {q : SType} : (f, qs, q) ∈ mistakenSignatures → TakenFor (reference f qs.length) (PTypes.ofList qs) q

/-- The only parameter type is this atomic type. -/
def PTypes.OnlyAtomic (n : Str) (ps : PTypes) : Prop := ∃ o, ps = .cons (.of (.atomic n) o) .nil

mutual

/-- The sequence is of the type, for the code. -/
def SType.Taken (h : Heap) : SType → XSeq → Prop
  | .empty, s => s = []
  | .of t o, s => o.Admits s.length ∧ ∀ x ∈ s, t.Takes h x

/-- The item is of the type, for the code. -/
def IType.Takes (h : Heap) : IType → XItem → Prop
  | .item, x => ∀ f, x ≠ .fn f
  | .kind T, x => ∃ i, x = .node i ∧ T.Passes h .axisSelf i
  | .atomic n, x => n ∈ valueTypes x
  | .anyFunction, x => (∃ f, x = .fn f) ∨ (∃ es, x = .map es) ∨ ∃ ms, x = .array ms
  | .function ps r, x => (∃ f qs q, x = .fn f ∧ TakenFor f qs q ∧ q.Under r ∧ ps.Under qs) ∨
      (∃ es, x = .map es ∧ ps.IsOne ∧ ∀ e ∈ es, (∃ n ∈ valueTypes e.1, ps.OnlyAtomic n) ∧ r.Taken h e.2) ∨
      ∃ ms, x = .array ms ∧ ps.TakesOne h ∧ ∀ s ∈ ms, r.Taken h s
  | .map k v, x => ∃ es, x = .map es ∧ ∀ e ∈ es, k ∈ valueTypes e.1 ∧ v.Taken h e.2
  | .array t, x => ∃ ms, x = .array ms ∧ ∀ s ∈ ms, t.Taken h s

/-- There is one parameter, and the integer 1 is of its type. -/
def PTypes.TakesOne (h : Heap) : PTypes → Prop
  | .nil => False
  | .cons t ts => ts.IsNone ∧ t.Taken h [.integer 1]

/-- There is one parameter. -/
def PTypes.IsOne : PTypes → Prop
  | .nil => False
  | .cons _ ts => ts.IsNone

/-- There is no parameter. -/
def PTypes.IsNone : PTypes → Prop
  | .nil => True
  | .cons _ _ => False

end

end Amxml.Spec
