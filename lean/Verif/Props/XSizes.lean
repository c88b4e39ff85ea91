import Verif.Props.XAccepts

/-!
# C115: compiling does not blow up
-/

namespace Amxml
open Spec Amxml.Parser

/-- The number of nodes of a tree. -/
def Spec.nodeCount : XNode → Nat
  | .nil => 0
  | .node _ _ l r => 1 + nodeCount l + nodeCount r

namespace XSizes

theorem nameD_length {pre : Str} {ts : List Tok} {n : Str} {bad : List TType} (h : NameD pre ts n bad) : 1 ≤ ts.length := by
  cases h <;> simp

theorem kindTest_count {ts : List Tok} {x : XNode} (h : KindTestD ts x) : nodeCount x ≤ 4 ∧ 3 ≤ ts.length := by
  cases h <;> simp [nodeCount, tip, elementTree]

theorem nodeTest_count {ts : List Tok} {n : Str} {x : XNode} {bad : List TType} (h : NodeTestD ts n x bad) : nodeCount x + 1 ≤ 5 * ts.length := by
  cases h with
  | name h => have := nameD_length h; simp [nodeCount]; omega
  | wildcard h => cases h <;> simp [nodeCount]
  | kind h => have := kindTest_count h; simp [nodeCount]; omega

/-- What is known of the types. -/
def TypeBound (ts : List Tok) (x : XNode) : TCat → Prop
  | .item => x = .nil ∨ nodeCount x + 2 ≤ 5 * ts.length
  | .seq => x = .nil ∨ nodeCount x + 1 ≤ 5 * ts.length
  | .seqs => nodeCount x ≤ 5 * ts.length + 1

theorem count_of {x : XNode} {n k : Nat} (h : x = .nil ∨ nodeCount x + k ≤ n) : nodeCount x ≤ n := by
  rcases h with rfl | h
  · simp [nodeCount]
  · omega

theorem type_count {c : TCat} {ts : List Tok} {x : XNode} (h : TypeA True c ts x) : TypeBound ts x c := by
  induction h with
  | missing => exact .inl rfl
  | missingSeq => exact .inl rfl
  | kind h => have := kindTest_count h; refine .inr ?_; simp [nodeCount]; omega
  | anyItem | anyFunction | anyMap | anyArray | empty => refine .inr ?_; simp [nodeCount, tip, anyItems]
  | function0 _ _ ih => have := count_of ih; refine .inr ?_; simp [nodeCount]; omega
  | function _ _ _ ih ih' => have := count_of ih'; simp only [TypeBound] at ih; refine .inr ?_; simp [nodeCount]; omega
  | map h _ ih => have := count_of ih; refine .inr ?_; simp [nodeCount, tip]; omega
  | array _ ih => have := count_of ih; refine .inr ?_; simp [nodeCount]; omega
  | atomic h => have := nameD_length h; refine .inr ?_; simp [nodeCount, tip]; omega
  | paren _ ih => have := count_of ih; refine .inr ?_; simp [nodeCount]; omega
  | one _ hx ih => rcases ih with rfl | ih; exact absurd rfl hx; refine .inr ?_; simp [nodeCount]; omega
  | occurs _ hx _ ih => rcases ih with rfl | ih; exact absurd rfl hx; refine .inr ?_; simp [nodeCount]; omega
  | last _ ih => have := count_of ih; simp [TypeBound, nodeCount]; omega
  | more _ _ ih ih' => have := count_of ih; simp only [TypeBound] at ih'; simp [TypeBound, nodeCount]; omega

theorem seq_count {ts : List Tok} {x : XNode} (h : TypeA True .seq ts x) : nodeCount x ≤ 5 * ts.length := count_of (type_count h)

theorem as_count {ts : List Tok} {x : XNode} (h : AsA True ts x) : nodeCount x ≤ 5 * ts.length + 2 := by
  cases h with
  | none => simp [nodeCount, anyItems, tip]
  | as h => have := seq_count h; simp; omega

theorem params_count {ts : List Tok} {x : XNode} (h : ParamsA True ts x) : nodeCount x ≤ 5 * ts.length := by
  induction h with
  | last h1 h2 => have := nameD_length h1; have := as_count h2; simp [nodeCount]; omega
  | more h1 h2 _ ih => have := nameD_length h1; have := as_count h2; simp [nodeCount]; omega
  | missing => simp [nodeCount]
  | missingMore => simp [nodeCount]

theorem typeOp_count {l : Nat} {k : TType} {t : XNodeType} {ts : List Tok} {x : XNode} (h : TypeOpA True l k t ts x) : nodeCount x ≤ 5 * ts.length := by
  cases h with
  | instanceOf h => exact seq_count h
  | treatAs h => exact seq_count h
  | castableAs h | castAs h => cases h with
    | plain h => have := nameD_length h; simp [nodeCount, tip]; omega
    | optional h => have := nameD_length h; simp [nodeCount, tip]; omega

theorem followedBy_count (x y : XNode) : nodeCount (followedBy x y) ≤ nodeCount x + nodeCount y := by
  cases x with
  | nil => simp [followedBy, nodeCount]
  | node => simp [followedBy, nodeCount]

/-- The nodes that may come from no token at all. -/
def spare : Cat → Nat
  | .elem _ => 1
  | .elems _ => 1
  | .list _ => 1
  | _ => 0

/-- The nodes that may still be added without a token. -/
def gain : Cat → Nat
  | .more => 1
  | .lookup => 1
  | _ => 0

theorem tree_count (c : Clause) (x : XNode) : nodeCount (c.tree x) ≤ nodeCount x + 3 := by
  cases c <;> simp [Clause.tree, nodeCount] <;> omega

theorem reads_count {c : Cat} {ts : List Tok} {x : XNode} (h : Reads True c ts x) :
    nodeCount x + gain c ≤ 5 * ts.length + spare c := by
  induction h
  case typeOp h ih => have := typeOp_count h; simp [nodeCount, spare, gain] at *; omega
  case arrow h _ ih ih' => simp [nodeCount, spare, gain] at *; omega
  case arrowVar h _ ih ih' => simp [nodeCount, spare, gain, tip] at *; omega
  case clause c _ _ x _ ih => have := tree_count c x; simp [nodeCount, spare, gain] at *; omega
  case axis h _ ih => have := nodeTest_count h; simp [nodeCount, spare, gain] at *; omega
  case atStep h _ ih => have := nodeTest_count h; simp [nodeCount, spare, gain] at *; omega
  case child h _ _ ih => have := nodeTest_count h; simp [nodeCount, spare, gain] at *; omega
  case varRef h => have := nameD_length h; simp [nodeCount, spare, gain, tip] at *; omega
  case reference h => have := nameD_length h; simp [nodeCount, spare, gain, tip] at *; omega
  case function0 h _ ih => have := as_count h; simp [nodeCount, spare, gain] at *; omega
  case function hp _ h _ ih => have := params_count hp; have := as_count h; simp [nodeCount, spare, gain] at *; omega
  case moreElems x _ _ y _ _ ih ih' => have := followedBy_count x y; simp [nodeCount, spare, gain] at *; omega
  all_goals (simp [nodeCount, spare, gain, tip, dslash] at *; try omega)

theorem spells_length {ts us : List Tok} (h : SpellsA ts us) : ts.length ≤ us.length := by
  induction h <;> simp only [List.length_cons, List.length_nil] <;> omega

theorem symbols_length : ∀ p ∈ symbols, 1 ≤ p.1.length := by decide

theorem decimal_length {d : Str} (h : DecimalL d) : 1 ≤ d.length := by
  cases h <;> simp <;> omega

theorem number_length {m : Str} (h : (m ≠ [] ∧ AllDigits m) ∨ DecimalL m) : 1 ≤ m.length := by
  rcases h with ⟨h, _⟩ | h
  · exact List.length_pos_iff.mpr h
  · exact decimal_length h

theorem lexeme_length {w : Str} {t : Tok} (h : LexemeA True w t) : 1 ≤ w.length := by
  cases h with
  | lexeme h =>
    cases h with
    | symbol h => exact symbols_length _ h
    | word => simp
    | string => simp [quoted]
    | uri => simp [S]
    | integer h => exact List.length_pos_iff.mpr h
    | decimal h => exact decimal_length h
    | double h => have := number_length h; simp; omega
  | uri => simp [S]
  | exponent _ h => have := number_length h; simp; omega
  | exponents _ h => have := decimal_length h; simp; omega

theorem text_length {us : List Tok} {s : Str} (h : TextA True us s) : us.length ≤ s.length := by
  induction h with
  | nil => simp
  | cons _ h _ ih => have := lexeme_length h; simp; omega

end XSizes

/-- **C115**: compiling an expression does not blow up: the tree that is evaluated has at most five nodes for each character of the text. -/
theorem C115_no_larger (s : Str) (x : XNode) (h0 : '\x00' ∉ s) (h : compileXPath s = .ok x) : nodeCount x ≤ 5 * s.length := by
  obtain ⟨us, ts, h1, h2, h3⟩ := C58_only_expressions_partial s x h0 h
  have := XSizes.reads_count h3
  have := XSizes.spells_length h2
  have := XSizes.text_length h1
  simp only [XSizes.gain, XSizes.spare] at *
  omega

/-- What is compiled, and the number of nodes. -/
private def nodesFor (s : Str) : Option Nat := match compileXPath s with | .ok x => some (nodeCount x) | .error _ => none

/-- Expressions with many nodes for their length. -/
example : nodesFor (S "//") = some 4 ∧ nodesFor (S "//a//b//c") = some 14 ∧ nodesFor (S "?a?a?a?a?a") = some 14 ∧
    nodesFor (S "for $i in 1 to 3 return function($x) { $x + $i }($i)[. > 2]") = some 24 := by decide +kernel

end Amxml
