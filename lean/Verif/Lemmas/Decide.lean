import Verif.Model.Eval

/-!
# Deciding the result of a concrete query

For the examples and counterexamples only: a computable test that is sound for equality of results.
-/

namespace Amxml

/-- Sound test for equality of items that are nodes, strings, integers or booleans. -/
def XItem.same : XItem → XItem → Bool
  | .node a, .node b => a == b
  | .string a, .string b => a == b
  | .integer a, .integer b => a == b
  | .boolean a, .boolean b => a == b
  | _, _ => false

theorem XItem.same_sound {a b : XItem} (h : a.same b = true) : a = b := by
  cases a <;> cases b <;> simp_all [XItem.same]

/-- The same for sequences. -/
def sameSeq : XSeq → XSeq → Bool
  | [], [] => true
  | a :: s, b :: t => a.same b && sameSeq s t
  | _, _ => false

theorem sameSeq_sound {s t : XSeq} (h : sameSeq s t = true) : s = t := by
  induction s generalizing t with
  | nil => cases t with
    | nil => rfl
    | cons _ _ => cases h
  | cons a s ih => cases t with
    | nil => cases h
    | cons b t =>
      simp only [sameSeq, Bool.and_eq_true] at h
      rw [XItem.same_sound h.1, ih h.2]

/-- The result is the sequence. -/
def gives (r : Except XErr XSeq) (s : XSeq) : Bool :=
  match r with
  | .ok v => sameSeq v s
  | .error _ => false

/-- The result is the error. -/
def failsWith (r : Except XErr XSeq) (e : XErr) : Bool :=
  match r with
  | .ok _ => false
  | .error e' => e' == e

theorem of_gives {r : Except XErr XSeq} {s : XSeq} (h : gives r s = true) : r = .ok s := by
  cases r with
  | ok v => rw [sameSeq_sound h]
  | error _ => cases h

theorem of_failsWith {r : Except XErr XSeq} {e : XErr} (h : failsWith r e = true) : r = .error e := by
  cases r with
  | ok v => cases h
  | error e' => rw [show e' = e from eq_of_beq h]

/-- Proves that a concrete query gives a concrete result, by computation in the kernel. -/
macro "run_query" : tactic =>
  `(tactic| first
    | (apply of_gives; decide +kernel)
    | (apply of_failsWith; decide +kernel))

/-- Sound test for equality of syntax trees. -/
def XNode.same : XNode → XNode → Bool
  | .nil, .nil => true
  | .node t n l r, .node t' n' l' r' => t == t' && n == n' && l.same l' && r.same r'
  | _, _ => false

theorem XNode.same_sound {a b : XNode} (h : a.same b = true) : a = b := by
  induction a generalizing b with
  | nil => cases b with
    | nil => rfl
    | node _ _ _ _ => cases h
  | node t n l r ihl ihr => cases b with
    | nil => cases h
    | node t' n' l' r' =>
      simp only [XNode.same, Bool.and_eq_true, beq_iff_eq] at h
      obtain ⟨⟨⟨rfl, rfl⟩, h1⟩, h2⟩ := h
      rw [ihl h1, ihr h2]

/-- The result is the syntax tree. -/
def compiles (r : Except XErr XNode) (x : XNode) : Bool :=
  match r with
  | .ok y => y.same x
  | .error _ => false

theorem of_compiles {r : Except XErr XNode} {x : XNode} (h : compiles r x = true) : r = .ok x := by
  cases r with
  | ok v => rw [XNode.same_sound h]
  | error _ => cases h

/-- Proves that a concrete query has a concrete syntax tree, by computation in the kernel. -/
macro "run_compile" : tactic => `(tactic| (apply of_compiles; decide +kernel))

end Amxml
