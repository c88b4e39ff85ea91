import Verif.Spec.XEval
import Mathlib.Data.List.Forall2

/-!
# Vocabulary for the function library
-/

namespace Amxml.Spec

/-- The argument list of a function call as the parser links it. -/
def argChain : List XNode → XNode
  | [] => .nil
  | a :: as => .node .argumentTop [] a (argChain as)

/-- The call `f(a₁, …, aₙ)`. -/
def callOf (f : Str) (as : List XNode) : XNode := .node .functionCall f .nil (argChain as)

/-- Whatever expressions are written as the arguments of the function `f`: if their values are `vs` then the call has the value `v`. -/
def CallGives (h : Heap) (f : Str) (vs : List XSeq) (v : XSeq) : Prop :=
  ∀ c env as, List.Forall₂ (fun a w => Value h c a env w) as vs → Value h c (callOf f as) env v

/-- Whatever expressions are written as the arguments of the function `f`: if their values are `vs` then the call fails with `e`. -/
def CallFails (h : Heap) (f : Str) (vs : List XSeq) (e : XErr) : Prop :=
  ∀ c env as, List.Forall₂ (fun a w => Value h c a env w) as vs → Fails h c (callOf f as) env e

/-- The text of a sequence of at most one item is `t`: the value of `fn:string` for it. -/
def TextOf (h : Heap) (v : XSeq) (t : Str) : Prop := CallGives h (S "fn:string") [v] [.string t]

/-- A string argument that may be left out: `()` stands for the empty string. -/
inductive OptText : XSeq → Str → Prop where
  | none : OptText [] []
  | some (s : Str) : OptText [.string s] s

/-- The strings with the separator between any two neighbours. -/
def separated (sep : Str) : List Str → Str
  | [] => []
  | s :: ss => s ++ (ss.map fun t => sep ++ t).flatten

/-- `s` is `u`, then `t`, then `w`, and `t` does not occur further to the left. -/
def FirstOccurrence (t s u w : Str) : Prop :=
  s = u ++ t ++ w ∧ ∀ u' w', s = u' ++ t ++ w' → u.length ≤ u'.length

/-- `t` occurs in `s`. -/
def Occurs (t s : Str) : Prop := ∃ u w, s = u ++ t ++ w

/-- `s` with every character `c` replaced by the character of `to'` at the place where `c` first occurs in `from'`, dropped if `to'`
is too short, kept if `from'` does not contain it. -/
def translated (from' to' : Str) (s : Str) : Str :=
  s.flatMap fun c => match from'.findIdx? (· == c) with
    | none => [c]
    | some i => (to'[i]?).toList

/-- The white space of XML and XPath: space, tab, line feed, carriage return. -/
def isBlank (c : Char) : Bool := c == ' ' || c == '\t' || c == '\n' || c == '\r'

/-- The words of a text: the non-empty pieces between white space. -/
def wordsOf (s : Str) : List Str := (s.splitOnP isBlank).filter (! ·.isEmpty)

/-- The text with white space at the ends removed and each run of white space inside made a single space. -/
def normalized (s : Str) : Str := separated (S " ") (wordsOf s)

/-- `t` with `ins` put before position `p` (counted from 1): at the front if `p` is less than 1, at the end if it is beyond the end. -/
def Inserted (t : XSeq) (p : Int) (ins v : XSeq) : Prop :=
  ∃ a b, t = a ++ b ∧ v = a ++ ins ++ b ∧ (a.length : Int) = max 0 (min (p - 1) t.length)

end Amxml.Spec
