import Verif.Lemmas.XCompare

/-!
# Comparisons and effective boolean value (C37, C38, C39, C40)
-/

namespace Amxml
open Spec

/-- The general comparison (`=`, `!=`, `<`, `<=`, `>`, `>=`) of the evaluator for each operator. -/
def generalCmp (h : Heap) : Cmp → XSeq → XSeq → Except XErr XSeq
  | .eq => generalEq h | .ne => generalNe h | .lt => generalLt h
  | .le => generalLe h | .gt => generalGt h | .ge => generalGe h

/-- The value comparison (`eq`, `ne`, `lt`, `le`, `gt`, `ge`) of the evaluator for each operator. -/
def valueCmp (h : Heap) : Cmp → XSeq → XSeq → Except XErr XSeq
  | .eq => valueEq h | .ne => valueNe h | .lt => valueLt h
  | .le => valueLe h | .gt => valueGt h | .ge => valueGe h

/-- The test that one turn of the loops of a general comparison makes. -/
def pairTest : Cmp → XItem → XItem → Bool
  | .eq => pairHolds numEq (fun n => n == 0) boolEq
  | .ne => pairHolds (negCmp numEq) (fun n => n != 0) (negCmp boolEq)
  | .lt => pairHolds numLt (fun n => decide (n < 0)) boolLt
  | .le => pairHolds (negCmp numGt) (fun n => decide (n ≤ 0)) (negCmp boolGt)
  | .gt => pairHolds numGt (fun n => decide (0 < n)) boolGt
  | .ge => pairHolds (negCmp numLt) (fun n => decide (0 ≤ n)) (negCmp boolLt)

theorem generalCmp_eq (h : Heap) (op : Cmp) (A B : XSeq) : generalCmp h op A B =
    .ok [.boolean ((A.map (XItem.atomize h)).any fun x => (B.map (XItem.atomize h)).any fun y => pairTest op x y)] := by
  cases op <;> rfl

/-- The NaN pairs for which `<=` and `>=` of the code are true. -/
def NaNCase : Cmp → XItem → XItem → Prop
  | .le, x, y | .ge, x, y => NaNPair x y
  | _, _, _ => False

theorem not_gt_iff (a b : F64) : F64.lt b a = false ↔
    ((F64.lt a b = true ∨ F64.eq a b = true) ∨ (F64.isNan a = true ∨ F64.isNan b = true)) := by
  constructor
  · intro h
    by_cases ha : F64.isNan a = true
    · exact .inr (.inl ha)
    by_cases hb : F64.isNan b = true
    · exact .inr (.inr hb)
    rcases F64.trichotomy a b (by simpa using ha) (by simpa using hb) with k | k | k
    · exact .inl (.inl k)
    · exact .inl (.inr k)
    · rw [h] at k; simp at k
  · rintro ((h | h) | h | h)
    · exact F64.lt_asymm _ _ h
    · rw [Bool.eq_false_iff]; intro k
      have := F64.lt_not_eq _ _ k
      rw [F64.eq_comm, h] at this; simp at this
    · exact F64.lt_nan_right _ _ h
    · exact F64.lt_nan_left _ _ h

theorem not_lt_iff (a b : F64) : F64.lt a b = false ↔
    ((F64.lt b a = true ∨ F64.eq a b = true) ∨ (F64.isNan a = true ∨ F64.isNan b = true)) := by
  rw [not_gt_iff b a, F64.eq_comm b a, or_comm (a := F64.isNan b = true)]

theorem pairTest_iff (op : Cmp) (x y : XItem) : pairTest op x y = true ↔ Holds op x y ∨ NaNCase op x y := by
  have e1 : ∀ n, atof (F64.intStr n ++ S ".0") = intToDec n := fun _ => rfl
  cases x <;> cases y <;> cases op <;>
    simp [pairTest, pairHolds, Holds, NaNCase, NaNPair, asDouble, numEq, numLt, numGt, numCmp, negCmp, xitemCompare,
      boolEq, boolLt, boolGt, boolCmp, Except.map, Cmp.rel, strOrd_lt, strOrd_eq, strOrd_gt, e1, not_gt_iff, not_lt_iff]
  case string.string.le a b =>
    have h1 := strOrd_lt a b; have h2 := strOrd_eq a b
    rw [← h1]; constructor
    · intro g
      rcases Int.lt_or_eq_of_le g with k | k
      · exact .inl k
      · exact .inr (h2.mp k)
    · rintro (g | g)
      · exact Int.le_of_lt g
      · exact Int.le_of_eq (h2.mpr g)
  case string.string.ge a b =>
    have h1 := strOrd_gt a b; have h2 := strOrd_eq a b
    rw [← h1]; constructor
    · intro g
      rcases Int.lt_or_eq_of_le g with k | k
      · exact .inl k
      · exact .inr (h2.mp k.symm)
    · rintro (g | g)
      · exact Int.le_of_lt g
      · exact Int.le_of_eq (h2.mpr g).symm
  case integer.integer.le a b => omega
  case integer.integer.ge a b => omega
  case boolean.boolean.le a b => cases a <;> cases b <;> simp
  case boolean.boolean.gt a b => cases a <;> cases b <;> simp
  case boolean.boolean.ge a b => cases a <;> cases b <;> simp
  all_goals
    rw [F64.eq_comm, or_comm (a := F64.isNan _ = true)]

/-- **C37.** A general comparison `A op B` is never an error: its value is a single boolean, and it is true exactly if some
item of `A` and some item of `B`, atomised, are related by `op` (for `<=` and `>=`, also if one of two numbers is NaN: see
`C38_violated`). -/
theorem C37_existential (h : Heap) (op : Cmp) (A B : XSeq) :
    ∃ b, generalCmp h op A B = .ok [.boolean b] ∧
      (b = true ↔ ∃ x ∈ A, ∃ y ∈ B, Holds op (x.atomize h) (y.atomize h) ∨ NaNCase op (x.atomize h) (y.atomize h)) := by
  refine ⟨_, generalCmp_eq h op A B, ?_⟩
  simp only [List.any_map, List.any_eq_true, Function.comp, pairTest_iff]

/-- **C37**, empty operands: the comparison is false. -/
theorem C37_empty (h : Heap) (op : Cmp) (A B : XSeq) (he : A = [] ∨ B = []) :
    generalCmp h op A B = .ok [.boolean false] := by
  rw [generalCmp_eq]; rcases he with rfl | rfl <;> simp

theorem rel_swap {α : Type} (lt eq : α → α → Prop) (hs : ∀ a b, eq a b ↔ eq b a) (op : Cmp) (a b : α) :
    op.rel lt eq a b ↔ op.swap.rel lt eq b a := by
  cases op <;> simp only [Cmp.rel, Cmp.swap, hs a b]

theorem holds_swap (op : Cmp) (x y : XItem) : Holds op x y ↔ Holds op.swap y x := by
  have gen : (∃ a b, asDouble x = some a ∧ asDouble y = some b ∧
        op.rel (fun a b => F64.lt a b = true) (fun a b => F64.eq a b = true) a b) ↔
      (∃ a b, asDouble y = some a ∧ asDouble x = some b ∧
        op.swap.rel (fun a b => F64.lt a b = true) (fun a b => F64.eq a b = true) a b) := by
    have hs : ∀ a b : F64, F64.eq a b = true ↔ F64.eq b a = true := fun a b => by rw [F64.eq_comm]
    constructor
    · rintro ⟨a, b, h1, h2, h3⟩; exact ⟨b, a, h2, h1, (rel_swap _ _ hs op a b).mp h3⟩
    · rintro ⟨a, b, h1, h2, h3⟩; exact ⟨b, a, h2, h1, (rel_swap _ _ hs op b a).mpr h3⟩
  cases x <;> cases y
  case integer.integer a b => exact rel_swap _ _ (fun _ _ => eq_comm) op a b
  case string.string a b => exact rel_swap _ _ (fun _ _ => eq_comm) op a b
  case boolean.boolean a b => exact rel_swap _ _ (fun _ _ => eq_comm) op a b
  all_goals exact gen

theorem nanPair_swap (x y : XItem) : NaNPair x y ↔ NaNPair y x := by
  unfold NaNPair
  constructor <;> rintro ⟨h, a, b, h1, h2, h3⟩ <;>
    exact ⟨fun p q hh => h q p ⟨hh.2, hh.1⟩, b, a, h2, h1, h3.symm⟩

theorem nanCase_swap (op : Cmp) (x y : XItem) : NaNCase op x y ↔ NaNCase op.swap y x := by
  cases op <;> simp only [NaNCase, Cmp.swap] <;> exact nanPair_swap x y

/-- **C37**, symmetry: exchanging the operands of `=` and `!=` changes nothing, and `<` / `>`, `<=` / `>=` are each other's
converse. -/
theorem C37_converse (h : Heap) (op : Cmp) (A B : XSeq) : generalCmp h op A B = generalCmp h op.swap B A := by
  obtain ⟨b, h1, h2⟩ := C37_existential h op A B
  obtain ⟨c, g1, g2⟩ := C37_existential h op.swap B A
  rw [h1, g1]
  have : b = true ↔ c = true := by
    rw [h2, g2]
    constructor
    · rintro ⟨x, hx, y, hy, k⟩
      exact ⟨y, hy, x, hx, by rwa [holds_swap, nanCase_swap] at k⟩
    · rintro ⟨y, hy, x, hx, k⟩
      exact ⟨x, hx, y, hy, by rwa [holds_swap op, nanCase_swap op]⟩
  rw [Bool.eq_iff_iff.mpr this]

/-- A number that is NaN. -/
def IsNaN (x : XItem) : Prop := ∃ d, asDouble x = some d ∧ F64.isNan d = true

theorem holds_nan (op : Cmp) (hop : op = .lt ∨ op = .le ∨ op = .gt ∨ op = .ge) (x y : XItem)
    (hn : IsNaN x ∨ IsNaN y) (hi : ∀ a b, ¬ (x = .integer a ∧ y = .integer b)) : ¬ Holds op x y := by
  intro hh
  have key : ∀ a b : F64, (F64.isNan a = true ∨ F64.isNan b = true) →
      ¬ op.rel (fun a b => F64.lt a b = true) (fun a b => F64.eq a b = true) a b := by
    intro a b hab
    rcases hab with k | k <;> rcases hop with rfl | rfl | rfl | rfl <;>
      simp [Cmp.rel, F64.lt_nan_left, F64.lt_nan_right, F64.eq_nan_left, F64.eq_nan_right, k]
  have gen : (∃ a b, asDouble x = some a ∧ asDouble y = some b ∧
      op.rel (fun a b => F64.lt a b = true) (fun a b => F64.eq a b = true) a b) → False := by
    rintro ⟨a, b, ha, hb, hr⟩
    refine key a b ?_ hr
    rcases hn with ⟨d, hd, hd2⟩ | ⟨d, hd, hd2⟩
    · rw [ha] at hd; cases hd; exact .inl hd2
    · rw [hb] at hd; cases hd; exact .inr hd2
  unfold Holds at hh
  split at hh
  · exact hi _ _ ⟨rfl, rfl⟩
  · rcases hn with ⟨d, hd, _⟩ | ⟨d, hd, _⟩ <;> simp [asDouble] at hd
  · rcases hn with ⟨d, hd, _⟩ | ⟨d, hd, _⟩ <;> simp [asDouble] at hd
  · exact gen hh

/-- **C38** (partial: `<` and `>`). A `<` or `>` comparison of two single items, one of them NaN, is false.
Missing: `<=` and `>=`, for which the claim is wrong (`C38_violated`). -/
theorem C38_lt_gt_partial (h : Heap) (op : Cmp) (hop : op = .lt ∨ op = .gt) (x y : XItem)
    (hn : IsNaN (x.atomize h) ∨ IsNaN (y.atomize h))
    (hi : ∀ a b, ¬ (x.atomize h = .integer a ∧ y.atomize h = .integer b)) :
    generalCmp h op [x] [y] = .ok [.boolean false] := by
  obtain ⟨b, h1, h2⟩ := C37_existential h op [x] [y]
  rw [h1]
  have : b = false := by
    rw [Bool.eq_false_iff]; intro hb
    obtain ⟨x', hx, y', hy, k⟩ := h2.mp hb
    simp only [List.mem_singleton] at hx hy
    subst hx; subst hy
    rcases k with k | k
    · exact holds_nan op (by rcases hop with rfl | rfl <;> simp) _ _ hn hi k
    · rcases hop with rfl | rfl <;> exact k
  rw [this]

/-- **C38** (partial: operands that are not NaN). If no atomised operand is NaN, every general comparison, `<=` and `>=`
included, is true exactly if some pair of items is related. -/
theorem C38_no_nan_partial (h : Heap) (op : Cmp) (A B : XSeq)
    (hA : ∀ x ∈ A, ¬ IsNaN (x.atomize h)) (hB : ∀ y ∈ B, ¬ IsNaN (y.atomize h)) :
    ∃ b, generalCmp h op A B = .ok [.boolean b] ∧
      (b = true ↔ ∃ x ∈ A, ∃ y ∈ B, Holds op (x.atomize h) (y.atomize h)) := by
  obtain ⟨b, h1, h2⟩ := C37_existential h op A B
  refine ⟨b, h1, h2.trans ?_⟩
  constructor
  · rintro ⟨x, hx, y, hy, k | k⟩
    · exact ⟨x, hx, y, hy, k⟩
    · exfalso
      have : NaNPair (x.atomize h) (y.atomize h) := by cases op <;> simp only [NaNCase] at k <;> exact k
      obtain ⟨_, a, b, ha, hb, hn | hn⟩ := this
      · exact hA x hx ⟨a, ha, hn⟩
      · exact hB y hy ⟨b, hb, hn⟩
  · rintro ⟨x, hx, y, hy, k⟩; exact ⟨x, hx, y, hy, .inl k⟩

/-- **C38 is violated by the code** for `<=` and `>=`: `number('x') <= 1` and `number('x') >= 1` are true. -/
theorem C38_violated (h : Heap) :
    generalCmp h .le [.double F64.nan] [.integer 1] = .ok [.boolean true] ∧
    generalCmp h .ge [.double F64.nan] [.integer 1] = .ok [.boolean true] ∧
    valueCmp h .le [.double F64.nan] [.integer 1] = .ok [.boolean true] := by
  refine ⟨?_, ?_, ?_⟩ <;> rfl

/-- The hypotheses of `C38_lt_gt_partial` are met by `number('x') < 1`. -/
example (h : Heap) : generalCmp h .lt [.double F64.nan] [.integer 1] = .ok [.boolean false] :=
  C38_lt_gt_partial h .lt (.inl rfl) _ _ (.inl ⟨F64.nan, rfl, by decide +kernel⟩) (by intro a b hh; cases hh.1)

/-- A general comparison that is true through the second items: `(1, 5) = (3, 5)`. -/
example (h : Heap) : generalCmp h .eq [.integer 1, .integer 5] [.integer 3, .integer 5] = .ok [.boolean true] := rfl

/-! ## Value comparisons (C39) -/

theorem numCmp_error (f : Int → Int → Bool) (g : F64 → F64 → Bool) (x y : XItem)
    (hn : ¬ ((asDouble x).isSome ∧ (asDouble y).isSome)) : numCmp f g x y = .error .typeError := by
  cases x <;> cases y <;> simp [asDouble] at hn <;> rfl

theorem not_comparable (h : Heap) (f : Int → Int → Bool) (g : F64 → F64 → Bool) (s : Int → Bool)
    (k : Bool → Bool → Bool) (x y : XItem) (hc : ¬ Comparable (x.atomize h) (y.atomize h)) :
    valueComparison h (opNumCmp (numCmp f g)) s (opBool k) [x] [y] = .error .typeError := by
  have hn : numCmp f g (x.atomize h) (y.atomize h) = .error .typeError := numCmp_error f g _ _ fun hh => hc (.inl hh)
  generalize hx : x.atomize h = a at *
  generalize hy : y.atomize h = b at *
  have hs : fnCompare [a] [b] = .error .typeError := by
    cases a <;> cases b <;> first | rfl | (exfalso; exact hc (.inr (.inl ⟨_, _, rfl, rfl⟩)))
  have hb : opBool k [a] [b] = .error .typeError := by
    cases a <;> cases b <;> first | rfl | (exfalso; exact hc (.inr (.inr ⟨_, _, rfl, rfl⟩)))
  simp [valueComparison, XSeq.atomize, hx, hy, opNumCmp, XSeq.item1, Except.bind, Except.map, hn, hs, hb]

/-- **C39**, single items. Two comparable items give the boolean that says whether they are related (for `le` and `ge`,
true as well if one of two numbers is NaN); two items that are not comparable give a type error. -/
theorem C39_singletons (h : Heap) (op : Cmp) (x y : XItem) :
    (Comparable (x.atomize h) (y.atomize h) →
      ∃ b, valueCmp h op [x] [y] = .ok [.boolean b] ∧
        (b = true ↔ Holds op (x.atomize h) (y.atomize h) ∨ NaNCase op (x.atomize h) (y.atomize h))) ∧
    (¬ Comparable (x.atomize h) (y.atomize h) → valueCmp h op [x] [y] = .error .typeError) := by
  constructor
  · intro hc
    refine ⟨pairTest op (x.atomize h) (y.atomize h), ?_, pairTest_iff op _ _⟩
    generalize hx : x.atomize h = a at *
    generalize hy : y.atomize h = b at *
    cases a <;> cases b <;> simp [Comparable, asDouble] at hc <;> cases op <;>
      simp [valueCmp, valueEq, valueNe, valueLt, valueLe, valueGt, valueGe, valueComparison, XSeq.atomize, hx, hy, opNumCmp,
        XSeq.item1, Except.bind, Except.map, numEq, numLt, numGt, numCmp, pairTest, pairHolds, negCmp, xitemCompare, boolEq,
        boolLt, boolGt, boolCmp, fnNot, XSeq.ebv, xbool, fnCompare, XSeq.string1, XSeq.integer1, opBool, XSeq.boolean1] <;>
      first | omega | (rename_i s t; cases s <;> cases t <;> rfl) | skip
    all_goals
      rename_i s t
      generalize (if strLt s t = true then (-1 : Int) else if s = t then 0 else 1) = n
      rw [Bool.eq_iff_iff]; simp
  · intro hc
    cases op <;> simp only [valueCmp, valueNe, valueLe, valueGe, valueEq, valueLt, valueGt, numEq, numLt, numGt] <;>
      rw [not_comparable h _ _ _ _ x y hc] <;> rfl

/-- **C39**, longer operands: if neither operand is empty and one has more than one item, the comparison is a type
error. -/
theorem C39_not_singleton (h : Heap) (op : Cmp) (A B : XSeq) (hA : A ≠ []) (hB : B ≠ [])
    (hl : A.length ≠ 1 ∨ B.length ≠ 1) : valueCmp h op A B = .error .typeError := by
  have key : ∀ n s b, valueComparison h n s b A B = .error .typeError := by
    intro n s b
    unfold valueComparison
    rw [if_neg (by simp [hA, hB]), if_pos hl]
  cases op <;> simp only [valueCmp, valueNe, valueLe, valueGe, valueEq, valueLt, valueGt, key] <;> rfl

/-- **C39** (partial: `eq`, `lt`, `gt`). An empty operand gives the empty sequence. Missing: `ne`, `le` and `ge`, for which the
claim is wrong (`C39_violated`). -/
theorem C39_empty_partial (h : Heap) (op : Cmp) (hop : op = .eq ∨ op = .lt ∨ op = .gt) (A B : XSeq)
    (he : A = [] ∨ B = []) : valueCmp h op A B = .ok [] := by
  have key : ∀ n s b, valueComparison h n s b A B = .ok [] := by
    intro n s b
    unfold valueComparison
    rw [if_pos (by simpa using he)]
  rcases hop with rfl | rfl | rfl <;> exact key _ _ _

/-- **C39 is violated by the code** for `ne`, `le` and `ge`: with an empty operand they return true, not the empty
sequence. -/
theorem C39_violated (h : Heap) (op : Cmp) (hop : op = .ne ∨ op = .le ∨ op = .ge) (A B : XSeq)
    (he : A = [] ∨ B = []) : valueCmp h op A B = .ok [.boolean true] := by
  have key : ∀ n s b, valueComparison h n s b A B = .ok [] := by
    intro n s b
    unfold valueComparison
    rw [if_pos (by simpa using he)]
  rcases hop with rfl | rfl | rfl <;> simp only [valueCmp, valueNe, valueLe, valueGe, valueEq, valueLt, valueGt, key] <;> rfl

/-- `'abc' lt 'abd'`, and `1 eq 'a'`. -/
example (h : Heap) : valueCmp h .lt [.string (S "abc")] [.string (S "abd")] = .ok [.boolean true] ∧
    valueCmp h .eq [.integer 1] [.string (S "a")] = .error .typeError := ⟨rfl, rfl⟩

/-! ## Effective boolean value (C40) -/

theorem falseFloat_iff (d : F64) : (!F64.eq d F64.zero && !d.isNan) = false ↔ FalseFloat d := by
  have hz : F64.key F64.zero = some (0, 0, 0) := by decide +kernel
  have h1 : F64.eq d F64.zero = true ↔ ∃ s, d.unpack = .zero s := by
    rw [F64.eq_iff, hz]
    unfold F64.key
    generalize d.unpack = u
    match u with
    | .notANumber => simp [F64.ukey]
    | .infinity s => cases s <;> simp [F64.ukey]
    | .zero s => simp [F64.ukey]
    | .finite s m e _ => cases s <;> simp [F64.ukey]
  have h2 : d.isNan = true ↔ d.unpack = .notANumber := by
    rw [F64.isNan_iff]; unfold F64.key
    generalize d.unpack = u
    match u with
    | .notANumber => simp [F64.ukey]
    | .infinity s => cases s <;> simp [F64.ukey]
    | .zero s => simp [F64.ukey]
    | .finite s m e _ => cases s <;> simp [F64.ukey]
  unfold FalseFloat
  rw [← h1, ← h2]
  cases F64.eq d F64.zero <;> cases d.isNan <;> simp

theorem ebv_of_spec {s : XSeq} {b : Bool} (e : Ebv s b) : XSeq.ebv s = .ok b := by
  cases e with
  | empty => rfl
  | node i r => rfl
  | boolean b => rfl
  | emptyString => rfl
  | string c s => rfl
  | zeroInteger => rfl
  | integer n hn => simp [XSeq.ebv, hn]
  | falseDecimal d hd => simp only [XSeq.ebv]; rw [(falseFloat_iff d).mpr hd]
  | falseDouble d hd => simp only [XSeq.ebv]; rw [(falseFloat_iff d).mpr hd]
  | decimal d hd =>
    simp only [XSeq.ebv]
    cases hb : (!F64.eq d F64.zero && !d.isNan) with
    | true => rfl
    | false => exact absurd ((falseFloat_iff d).mp hb) hd
  | double d hd =>
    simp only [XSeq.ebv]
    cases hb : (!F64.eq d F64.zero && !d.isNan) with
    | true => rfl
    | false => exact absurd ((falseFloat_iff d).mp hb) hd

theorem spec_of_ebv (s : XSeq) : (∃ b, Ebv s b) ∨ XSeq.ebv s = .error .typeError := by
  match s with
  | [] => exact .inl ⟨_, .empty⟩
  | .node i :: r => exact .inl ⟨_, .node i r⟩
  | [.boolean b] => exact .inl ⟨_, .boolean b⟩
  | [.string []] => exact .inl ⟨_, .emptyString⟩
  | [.string (c :: s)] => exact .inl ⟨_, .string c s⟩
  | [.integer n] =>
    by_cases hn : n = 0
    · subst hn; exact .inl ⟨_, .zeroInteger⟩
    · exact .inl ⟨_, .integer n hn⟩
  | [.decimal d] =>
    cases hb : (!F64.eq d F64.zero && !d.isNan) with
    | false => exact .inl ⟨_, .falseDecimal d ((falseFloat_iff d).mp hb)⟩
    | true => exact .inl ⟨_, .decimal d fun hf => by rw [(falseFloat_iff d).mpr hf] at hb; simp at hb⟩
  | [.double d] =>
    cases hb : (!F64.eq d F64.zero && !d.isNan) with
    | false => exact .inl ⟨_, .falseDouble d ((falseFloat_iff d).mp hb)⟩
    | true => exact .inl ⟨_, .double d fun hf => by rw [(falseFloat_iff d).mpr hf] at hb; simp at hb⟩
  | [.fn _] | [.map _] | [.array _] => exact .inr rfl
  | .fn _ :: _ :: _ | .map _ :: _ :: _ | .array _ :: _ :: _ | .string _ :: _ :: _ | .integer _ :: _ :: _ |
    .decimal _ :: _ :: _ | .double _ :: _ :: _ | .boolean _ :: _ :: _ => exact .inr rfl

/-- **C40.** The effective boolean value computed by the code is the one of the specification, and a sequence without one is a
type error. -/
theorem C40_ebv (s : XSeq) (b : Bool) :
    (XSeq.ebv s = .ok b ↔ Ebv s b) ∧ ((¬ ∃ c, Ebv s c) → XSeq.ebv s = .error .typeError) := by
  refine ⟨⟨fun hh => ?_, ebv_of_spec⟩, fun hn => ?_⟩
  · rcases spec_of_ebv s with ⟨c, hc⟩ | he
    · rw [ebv_of_spec hc] at hh; cases hh; exact hc
    · rw [he] at hh; cases hh
  · rcases spec_of_ebv s with hc | he
    · exact absurd hc hn
    · exact he

/-- A sequence of two atomic values has no effective boolean value. -/
example : XSeq.ebv [.integer 1, .integer 2] = .error .typeError :=
  (C40_ebv _ true).2 (by rintro ⟨c, hc⟩; cases hc)

end Amxml
