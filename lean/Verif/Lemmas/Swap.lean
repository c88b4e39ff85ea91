import Verif.Lemmas.Laws
import Verif.Props.XCompare

/-!
# Operators with their operands exchanged
-/

namespace Amxml
open Spec
open Float.Model (UnpackedFloat)

namespace F64
open Float.Model

theorem add_comm' (a b : F64) : a + b = b + a := by
  show Float.Model.pack (UnpackedFloat.add Format.binary64 a.unpack b.unpack) =
    Float.Model.pack (UnpackedFloat.add Format.binary64 b.unpack a.unpack)
  congr 1
  generalize a.unpack = u
  generalize b.unpack = v
  cases u <;> cases v <;> try rfl
  · rename_i s t; cases s <;> cases t <;> rfl
  · rename_i s t; cases s <;> cases t <;> rfl
  · rename_i s₁ m₁ e₁ _ s₂ m₂ e₂ _
    simp only [UnpackedFloat.add, Int.min_comm e₁ e₂, Int.add_comm (s₁.apply _)]

theorem mul_comm' (a b : F64) : a * b = b * a := by
  show Float.Model.pack (UnpackedFloat.mul Format.binary64 a.unpack b.unpack) =
    Float.Model.pack (UnpackedFloat.mul Format.binary64 b.unpack a.unpack)
  congr 1
  generalize a.unpack = u
  generalize b.unpack = v
  have hs : ∀ s t : UnpackedFloat.Sign, s * t = t * s := by intro s t; cases s <;> cases t <;> rfl
  cases u <;> cases v <;> try rfl
  all_goals simp only [UnpackedFloat.mul, hs]
  · rename_i s₁ m₁ e₁ _ s₂ m₂ e₂ _
    rw [hs, Nat.mul_comm m₁, Int.add_comm e₁]

end F64

namespace Swap

theorem numOp_swap {f g : Int → Int → Except XErr Int} {p : F64 → F64 → F64} (hf : ∀ a b, f a b = g b a)
    (hp : ∀ a b, p a b = p b a) (x y : XItem) : numOp f p x y = numOp g p y x := by
  cases x <;> cases y <;> simp only [numOp] <;> first | rw [hf] | rw [hp]

theorem opNumeric_swap {f g : XItem → XItem → Except XErr XItem} (hf : ∀ x y, f x y = g y x) (A B : XSeq) :
    opNumeric f A B = opNumeric g B A := by
  unfold opNumeric
  have e : ∀ A : XSeq, (∃ x, XSeq.item1 A = .ok x) ∨ XSeq.item1 A = .error .typeError := by
    intro A
    unfold XSeq.item1
    split
    · exact .inl ⟨_, rfl⟩
    · exact .inr rfl
  rcases e A with ⟨x, hx⟩ | hx <;> rcases e B with ⟨y, hy⟩ | hy <;> rw [hx, hy] <;> simp only [Except.bind, hf]

theorem numCmp_swap {f g : Int → Int → Bool} {p r : F64 → F64 → Bool} (hf : ∀ a b, f a b = g b a) (hp : ∀ a b, p a b = r b a)
    (x y : XItem) : numCmp f p x y = numCmp g r y x := by
  cases x <;> cases y <;> simp only [numCmp] <;> first | rw [hf] | rw [hp]

theorem value_swap (h : Heap) {num num' : XItem → XItem → Except XErr Bool} {str str' : Int → Bool} {bool bool' : Bool → Bool → Bool}
    (hn : ∀ x y, num x y = num' y x) (hs : ∀ n : Int, str n = str' (-n)) (hb : ∀ a b, bool a b = bool' b a) (A B : XSeq) :
    valueComparison h (opNumCmp num) str (opBool bool) A B = valueComparison h (opNumCmp num') str' (opBool bool') B A := by
  unfold valueComparison
  by_cases h1 : A.isEmpty = true ∨ B.isEmpty = true
  · rw [if_pos h1, if_pos h1.symm]
  have h1' : ¬ (B.isEmpty = true ∨ A.isEmpty = true) := fun k => h1 k.symm
  rw [if_neg h1, if_neg h1']
  by_cases h2 : A.length ≠ 1 ∨ B.length ≠ 1
  · rw [if_pos h2, if_pos h2.symm]
  have h2' : ¬ (B.length ≠ 1 ∨ A.length ≠ 1) := fun k => h2 k.symm
  rw [if_neg h2, if_neg h2']
  have hA : ∃ a, A = [a] := List.length_eq_one_iff.1 (by omega)
  have hB : ∃ b, B = [b] := List.length_eq_one_iff.1 (by omega)
  obtain ⟨a, rfl⟩ := hA
  obtain ⟨b, rfl⟩ := hB
  simp only [XSeq.atomize, List.map]
  generalize a.atomize h = x
  generalize b.atomize h = y
  have e1 : opNumCmp num [x] [y] = opNumCmp num' [y] [x] := by
    simp only [opNumCmp, XSeq.item1, Except.bind, hn]
  have e3 : opBool bool [x] [y] = opBool bool' [y] [x] := by
    cases x <;> cases y <;> simp only [opBool, XSeq.boolean1, Except.bind, Except.map, hb]
  rw [e1, e3]
  cases opNumCmp num' [y] [x] with
  | ok r => rfl
  | error e =>
    cases x <;> cases y <;> try rfl
    rename_i s t
    simp only [fnCompare, XSeq.string1, Except.bind, List.isEmpty_cons, or_self, if_false, Bool.false_eq_true]
    simp only [XSeq.integer1, Except.map, hs]
    have e : -(if strLt s t = true then (-1 : Int) else if s = t then 0 else 1) =
        if strLt t s = true then (-1 : Int) else if t = s then 0 else 1 := by
      by_cases c1 : strLt s t = true
      · by_cases c2 : strLt t s = true
        · exact absurd ((strLt_iff _ _).1 c2) (strBefore_asymm _ _ ((strLt_iff _ _).1 c1))
        · rw [if_pos c1, if_neg c2]
          by_cases c3 : t = s
          · subst c3; exact absurd c1 c2
          · rw [if_neg c3]; rfl
      · rw [if_neg c1]
        by_cases c3 : s = t
        · subst c3; rw [if_neg c1]; simp
        · rw [if_neg c3]
          have : strLt t s = true := by
            rcases strBefore_total s t with k | k | k
            · exact absurd ((strLt_iff _ _).2 k) c1
            · exact absurd k c3
            · exact (strLt_iff _ _).2 k
          rw [if_pos this]
    rw [e]

theorem node_swap (h : Heap) {p q : Int → Int → Bool} (hp : ∀ a b, p a b = q b a) (A B : XSeq) :
    opNodeCompare h p A B = opNodeCompare h q B A := by
  unfold opNodeCompare
  have e : ∀ A : XSeq, (∃ x, XSeq.node1 A = .ok x) ∨ XSeq.node1 A = .error .typeError := by
    intro A
    unfold XSeq.node1
    split
    · exact .inl ⟨_, rfl⟩
    · exact .inr rfl
  rcases e A with ⟨x, hx⟩ | hx <;> rcases e B with ⟨y, hy⟩ | hy <;> rw [hx, hy] <;> simp only [Except.bind, Except.map, hp]

/-- The operator on exchanged operands. -/
theorem op_swap (h : Heap) {t t' : XNodeType} (ht : (t, t') ∈ swaps) :
    ∃ f g, binaryOp h t = some f ∧ binaryOp h t' = some g ∧ ∀ A B, f A B = g B A := by
  have eqv : ∀ A B, valueEq h A B = valueEq h B A := value_swap h
    (numCmp_swap (fun a b => by rw [Bool.eq_iff_iff, beq_iff_eq, beq_iff_eq]; exact _root_.eq_comm) F64.eq_comm)
    (fun n => by rw [Bool.eq_iff_iff]; simp) (fun a b => by cases a <;> cases b <;> rfl)
  have ltv : ∀ A B, valueLt h A B = valueGt h B A := value_swap h
    (numCmp_swap (fun a b => rfl) fun a b => rfl)
    (fun n => by rw [Bool.eq_iff_iff]; simp) (fun a b => by cases a <;> cases b <;> rfl)
  simp only [swaps, List.mem_cons, Prod.mk.injEq, List.not_mem_nil, or_false] at ht
  rcases ht with ⟨rfl, rfl⟩ | ⟨rfl, rfl⟩ | ⟨rfl, rfl⟩ | ⟨rfl, rfl⟩ | ⟨rfl, rfl⟩ | ⟨rfl, rfl⟩ | ⟨rfl, rfl⟩ | ⟨rfl, rfl⟩ |
    ⟨rfl, rfl⟩ | ⟨rfl, rfl⟩ | ⟨rfl, rfl⟩ | ⟨rfl, rfl⟩
  · exact ⟨_, _, rfl, rfl, C37_converse h .eq⟩
  · exact ⟨_, _, rfl, rfl, C37_converse h .ne⟩
  · exact ⟨_, _, rfl, rfl, C37_converse h .lt⟩
  · exact ⟨_, _, rfl, rfl, C37_converse h .le⟩
  · exact ⟨_, _, rfl, rfl, eqv⟩
  · exact ⟨_, _, rfl, rfl, fun A B => by rw [valueNe, valueNe, eqv]⟩
  · exact ⟨_, _, rfl, rfl, ltv⟩
  · exact ⟨_, _, rfl, rfl, fun A B => by rw [valueLe, valueGe, ltv]⟩
  · exact ⟨_, _, rfl, rfl, opNumeric_swap (numOp_swap (fun a b => by rw [Int.add_comm]) F64.add_comm')⟩
  · exact ⟨_, _, rfl, rfl, opNumeric_swap (numOp_swap (fun a b => by rw [Int.mul_comm]) F64.mul_comm')⟩
  · exact ⟨_, _, rfl, rfl, node_swap h fun a b => by rw [Bool.eq_iff_iff, beq_iff_eq, beq_iff_eq]; exact _root_.eq_comm⟩
  · exact ⟨_, _, rfl, rfl, node_swap h fun a b => rfl⟩

end Swap
end Amxml
