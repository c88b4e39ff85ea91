import Verif.Spec.XOper
import Verif.Lemmas.Func
import Verif.Props.XCompare
import Verif.Props.XNumeric
import Verif.Props.XMap
import Verif.Props.XNodes

/-!
# The operators as the evaluator applies them

The theorems on the functions behind the operators (C33, C34, C37-C40, C44-C46, C48, C53), for the expressions that use them.
-/

namespace Amxml
open Spec

/-! ## From the evaluator to the function of the operator -/

theorem binary_step {h : Heap} {t : XNodeType} {f : XSeq → XSeq → Except XErr XSeq} (hf : binaryOp h t = some f)
    (call : XNode → List XSeq → XSeq → E XSeq) (ev : Evaluator) (c : XSeq) (n : Str) (a b : XNode) :
    evalStep h call ev c (.node t n a b) = (do
      let l ← ev c a
      let r ← ev c b
      liftE (f l r) : E XSeq) := by
  cases t <;> simp only [binaryOp, Option.some.injEq, reduceCtorEq] at hf <;> subst hf <;> rfl

theorem binary_value {h : Heap} {t : XNodeType} {f : XSeq → XSeq → Except XErr XSeq} (hf : binaryOp h t = some f) {A B : XSeq} {c env n a b}
    (ha : Value h c a env A) (hb : Value h c b env B) :
    evaluate h c (.node t n a b) env = (f A B).map fun v => (v, env) := by
  rw [evaluate_eq, binary_step hf, E.bind_run, ha]
  simp only
  rw [E.bind_run, hb]
  simp only
  cases f A B <;> rfl

theorem opGives_iff {h : Heap} {t : XNodeType} {f : XSeq → XSeq → Except XErr XSeq} (hf : binaryOp h t = some f) {A B v : XSeq} :
    OpGives h t A B v ↔ f A B = .ok v := by
  constructor
  · intro H
    have hv := varEnv_values h [] [A, B] [] (by simp)
    match hv with
    | .cons ha (.cons hb .nil) =>
      have := H [] _ [] _ _ ha hb
      rw [Value, binary_value hf ha hb] at this
      cases hfa : f A B with
      | error e => rw [hfa] at this; cases this
      | ok w => rw [hfa] at this; simp [Except.map] at this; rw [this]
  · intro H c env n a b ha hb
    rw [Value, binary_value hf ha hb, H]; rfl

theorem opFails_iff {h : Heap} {t : XNodeType} {f : XSeq → XSeq → Except XErr XSeq} (hf : binaryOp h t = some f) {A B : XSeq} {e : XErr} :
    OpFails h t A B e ↔ f A B = .error e ∧ e ≠ .outOfFuel := by
  constructor
  · intro H
    have hv := varEnv_values h [] [A, B] [] (by simp)
    match hv with
    | .cons ha (.cons hb .nil) =>
      have := H [] _ [] _ _ ha hb
      rw [Fails, binary_value hf ha hb] at this
      cases hfa : f A B with
      | error e => rw [hfa] at this; simp [Except.map] at this; exact ⟨by rw [this.1], this.2⟩
      | ok w => rw [hfa] at this; cases this.1
  · intro H c env n a b ha hb
    rw [Fails, binary_value hf ha hb, H.1]; exact ⟨rfl, H.2⟩

theorem general_op (h : Heap) (op : Cmp) : binaryOp h op.general = some (generalCmp h op) := by cases op <;> rfl
theorem value_op (h : Heap) (op : Cmp) : binaryOp h op.value = some (valueCmp h op) := by cases op <;> rfl

/-! ## Comparisons -/

/-- **C37** for the expression `A op B`. -/
theorem C37_expression (h : Heap) (op : Cmp) (A B : XSeq) :
    (∃ b, OpGives h op.general A B [.boolean b] ∧
      (b = true ↔ ∃ x ∈ A, ∃ y ∈ B, Holds op (x.atomize h) (y.atomize h) ∨ NaNCase op (x.atomize h) (y.atomize h))) ∧
    (A = [] ∨ B = [] → OpGives h op.general A B [.boolean false]) ∧
    (∀ v, OpGives h op.general A B v ↔ OpGives h op.swap.general B A v) := by
  refine ⟨?_, ?_, ?_⟩
  · obtain ⟨b, hb, hi⟩ := C37_existential h op A B
    exact ⟨b, (opGives_iff (general_op h op)).2 hb, hi⟩
  · intro he
    exact (opGives_iff (general_op h op)).2 (C37_empty h op A B he)
  · intro v
    rw [opGives_iff (general_op h op), opGives_iff (general_op h op.swap), C37_converse]

/-- **C38** (partial: see `C38_violated`) for the expression `A op B`. -/
theorem C38_expression_partial (h : Heap) (op : Cmp) :
    (∀ x y, op = .lt ∨ op = .gt → IsNaN (x.atomize h) ∨ IsNaN (y.atomize h) →
      (∀ a b, ¬ (x.atomize h = .integer a ∧ y.atomize h = .integer b)) → OpGives h op.general [x] [y] [.boolean false]) ∧
    (∀ A B : XSeq, (∀ x ∈ A, ¬ IsNaN (x.atomize h)) → (∀ y ∈ B, ¬ IsNaN (y.atomize h)) →
      ∃ b, OpGives h op.general A B [.boolean b] ∧ (b = true ↔ ∃ x ∈ A, ∃ y ∈ B, Holds op (x.atomize h) (y.atomize h))) := by
  refine ⟨fun x y hop hn hi => (opGives_iff (general_op h op)).2 (C38_lt_gt_partial h op hop x y hn hi), fun A B hA hB => ?_⟩
  obtain ⟨b, hb, hi⟩ := C38_no_nan_partial h op A B hA hB
  exact ⟨b, (opGives_iff (general_op h op)).2 hb, hi⟩

/-- **C39** for the expression `A op B`: single items that can be compared give a boolean, others a type error. -/
theorem C39_expression (h : Heap) (op : Cmp) (x y : XItem) :
    (Comparable (x.atomize h) (y.atomize h) →
      ∃ b, OpGives h op.value [x] [y] [.boolean b] ∧
        (b = true ↔ Holds op (x.atomize h) (y.atomize h) ∨ NaNCase op (x.atomize h) (y.atomize h))) ∧
    (¬ Comparable (x.atomize h) (y.atomize h) → OpFails h op.value [x] [y] .typeError) ∧
    (∀ A B : XSeq, A ≠ [] → B ≠ [] → A.length ≠ 1 ∨ B.length ≠ 1 → OpFails h op.value A B .typeError) := by
  obtain ⟨h1, h2⟩ := C39_singletons h op x y
  refine ⟨fun hc => ?_, fun hc => (opFails_iff (value_op h op)).2 ⟨h2 hc, by simp⟩,
    fun A B hA hB hl => (opFails_iff (value_op h op)).2 ⟨C39_not_singleton h op A B hA hB hl, by simp⟩⟩
  obtain ⟨b, hb, hi⟩ := h1 hc
  exact ⟨b, (opGives_iff (value_op h op)).2 hb, hi⟩

/-- **C39** (partial: `eq`, `lt`, `gt`) for an empty operand, and the violation for the other three. -/
theorem C39_expression_empty_partial (h : Heap) (op : Cmp) (A B : XSeq) (he : A = [] ∨ B = []) :
    (op = .eq ∨ op = .lt ∨ op = .gt → OpGives h op.value A B []) ∧
    (op = .ne ∨ op = .le ∨ op = .ge → OpGives h op.value A B [.boolean true]) :=
  ⟨fun hop => (opGives_iff (value_op h op)).2 (C39_empty_partial h op hop A B he),
   fun hop => (opGives_iff (value_op h op)).2 (C39_violated h op hop A B he)⟩

/-- **C40** where expressions use the effective boolean value: `fn:boolean`, `fn:not`, and `if`. -/
theorem C40_expression (h : Heap) (s : XSeq) :
    (∀ b, Ebv s b → CallGives h (S "fn:boolean") [s] [.boolean b] ∧ CallGives h (S "fn:not") [s] [.boolean !b] ∧
      ∀ c env n m x t e, Value h c x env s → evaluate h c (.node .ifExpr n x (.node .ifThenElse m t e)) env =
        evaluate h c (if b then t else e) env) ∧
    ((¬ ∃ b, Ebv s b) → CallFails h (S "fn:boolean") [s] .typeError ∧ CallFails h (S "fn:not") [s] .typeError ∧
      ∀ c env n m x t e, Value h c x env s → Fails h c (.node .ifExpr n x (.node .ifThenElse m t e)) env .typeError) := by
  constructor
  · intro b hb
    have he := ((C40_ebv s b).1).2 hb
    refine ⟨calls_of 1 _ (hg := ?_), calls_of 1 _ (hg := ?_), ?_⟩
    · show (XSeq.ebv s).map xbool = _; rw [he]; rfl
    · show (XSeq.ebv s).map _ = _; rw [he]; rfl
    · intro c env n m x t e hx
      rw [evaluate_eq]
      show (do let v ← evaluate h c x
               let b ← liftE (XSeq.ebv v)
               if b then evaluate h c t else evaluate h c e : E XSeq) env = _
      rw [E.bind_run, hx]
      simp only
      rw [E.bind_run, he]
      cases b <;> rfl
  · intro hn
    have he := (C40_ebv s true).2 hn
    refine ⟨fails_of 1 _ (hg := ?_), fails_of 1 _ (hg := ?_), ?_⟩
    · show (XSeq.ebv s).map xbool = _; rw [he]; rfl
    · show (XSeq.ebv s).map _ = _; rw [he]; rfl
    · intro c env n m x t e hx
      refine ⟨?_, by simp⟩
      rw [evaluate_eq]
      show (do let v ← evaluate h c x
               let b ← liftE (XSeq.ebv v)
               if b then evaluate h c t else evaluate h c e : E XSeq) env = _
      rw [E.bind_run, hx]
      simp only
      rw [E.bind_run, he]
      rfl

/-! ## Numbers -/

/-- **C44** for the expression `a to b`. -/
theorem C44_expression (h : Heap) (a b : Int) : ∃ l : List Int,
    OpGives h .operatorTo [.integer a] [.integer b] (l.map .integer) ∧
    (∀ n, n ∈ l ↔ a ≤ n ∧ n ≤ b) ∧ l.Pairwise (· < ·) ∧ (l.length : Int) = max 0 (b - a + 1) := by
  obtain ⟨l, h1, h2, h3, h4⟩ := C44_range a b
  exact ⟨l, (opGives_iff (f := opTo) rfl).2 h1, h2, h3, h4⟩

/-- **C45** for the expressions `a idiv b` and `a mod b`, `a div 0`. -/
theorem C45_expression (h : Heap) (a b : Int) (ha : isI64 a) (hb : isI64 b) :
    (b ≠ 0 → ¬ (a = i64Min ∧ b = -1) → ∃ q r, OpGives h .operatorIDiv [.integer a] [.integer b] [.integer q] ∧
      OpGives h .operatorMod [.integer a] [.integer b] [.integer r] ∧ q * b + r = a ∧ |r| < |b| ∧
      (0 < a → 0 ≤ r) ∧ (a < 0 → r ≤ 0)) ∧
    (b = 0 → OpFails h .operatorIDiv [.integer a] [.integer b] .dynamicError ∧
      OpFails h .operatorMod [.integer a] [.integer b] .dynamicError ∧
      OpFails h .operatorDiv [.integer a] [.integer b] .dynamicError) ∧
    (a = i64Min ∧ b = -1 → OpFails h .operatorIDiv [.integer a] [.integer b] .panic ∧
      OpFails h .operatorMod [.integer a] [.integer b] .panic) := by
  refine ⟨fun h0 hov => ?_, ?_, ?_⟩
  · obtain ⟨q, r, h1, h2, -, -, h3, h4, h5, h6⟩ := C45_idiv_mod a b ha hb h0 hov
    refine ⟨q, r, (opGives_iff (f := opNumeric numIDiv) rfl).2 h1, (opGives_iff (f := opNumeric numMod) rfl).2 h2, h3, ?_, h5, h6⟩
    rw [Int.abs_eq_natAbs, Int.abs_eq_natAbs]; omega
  · rintro rfl
    obtain ⟨h1, h2, h3⟩ := C45_zero a
    exact ⟨(opFails_iff (f := opNumeric numIDiv) rfl).2 ⟨h1, by simp⟩, (opFails_iff (f := opNumeric numMod) rfl).2 ⟨h2, by simp⟩,
      (opFails_iff (f := opNumeric numDiv) rfl).2 ⟨h3, by simp⟩⟩
  · rintro ⟨rfl, rfl⟩
    exact ⟨(opFails_iff (f := opNumeric numIDiv) rfl).2 ⟨C45_overflow_panics.1, by simp⟩,
      (opFails_iff (f := opNumeric numMod) rfl).2 ⟨C45_overflow_panics.2, by simp⟩⟩

/-- The operators with type promotion, as expressions. -/
def Spec.PromOp.type : PromOp → XNodeType
  | .add => .operatorAdd | .sub => .operatorSubtract | .mul => .operatorMultiply | .mod => .operatorMod

theorem promOp_op (h : Heap) (op : PromOp) : binaryOp h op.type = some (opNumeric (promOp op)) := by cases op <;> rfl

theorem opNumeric_ok {f : XItem → XItem → Except XErr XItem} {A B v : XSeq} (hv : opNumeric f A B = .ok v) :
    ∃ x y r, A = [x] ∧ B = [y] ∧ v = [r] ∧ f x y = .ok r := by
  match A, B, hv with
  | [], _, hv => cases hv
  | _ :: _ :: _, _, hv => cases hv
  | [_], [], hv => cases hv
  | [_], _ :: _ :: _, hv => cases hv
  | [x], [y], hv =>
    have hv' : (f x y).map (fun r => [r]) = .ok v := hv
    cases hr : f x y with
    | error e => rw [hr] at hv'; cases hv'
    | ok r => rw [hr] at hv'; simp [Except.map] at hv'; exact ⟨x, y, r, rfl, rfl, hv'.symm, hr⟩

theorem opNumeric_one (f : XItem → XItem → Except XErr XItem) (x y : XItem) : opNumeric f [x] [y] = (f x y).map fun r => [r] := rfl

/-- **C46** for the arithmetic expressions: operands and result are single numbers, and the type of the result is the wider of the two
(`div` makes a decimal of two integers). -/
theorem C46_expression (h : Heap) (A B v : XSeq) :
    (∀ op : PromOp, OpGives h op.type A B v → ∃ x y r m n, A = [x] ∧ B = [y] ∧ v = [r] ∧ width x = some m ∧ width y = some n ∧
      width r = some (max m n)) ∧
    (OpGives h .operatorDiv A B v → ∃ x y r m n, A = [x] ∧ B = [y] ∧ v = [r] ∧ width x = some m ∧ width y = some n ∧
      width r = some (max 1 (max m n))) := by
  constructor
  · intro op hop
    obtain ⟨x, y, r, rfl, rfl, rfl, hr⟩ := opNumeric_ok ((opGives_iff (promOp_op h op)).1 hop)
    obtain ⟨m, n, h1, h2, h3⟩ := (C46_type x y).1 op r hr
    exact ⟨x, y, r, m, n, rfl, rfl, rfl, h1, h2, h3⟩
  · intro hop
    obtain ⟨x, y, r, rfl, rfl, rfl, hr⟩ := opNumeric_ok ((opGives_iff (f := opNumeric numDiv) rfl).1 hop)
    obtain ⟨m, n, h1, h2, h3⟩ := (C46_type x y).2 r hr
    exact ⟨x, y, r, m, n, rfl, rfl, rfl, h1, h2, h3⟩

/-- **C46**, errors: an operand that is not a number is a type error for `+`, `-`, `*` (partial: for `idiv` and `div` the code differs,
`C46_violated`); an operand that is not a single item is a type error for all. -/
theorem C46_expression_errors_partial (h : Heap) :
    (∀ op x y, op ∈ [XNodeType.operatorAdd, .operatorSubtract, .operatorMultiply] → width x = none ∨ width y = none →
      OpFails h op [x] [y] .typeError) ∧
    (∀ op A B, op ∈ [XNodeType.operatorAdd, .operatorSubtract, .operatorMultiply, .operatorDiv, .operatorIDiv, .operatorMod] →
      A.length ≠ 1 ∨ B.length ≠ 1 → OpFails h op A B .typeError) := by
  constructor
  · intro op x y hop hw
    have hn := C46_not_numeric_partial x y hw
    simp only [List.mem_cons, List.mem_nil_iff, or_false] at hop
    rcases hop with rfl | rfl | rfl
    · exact (opFails_iff (f := opNumeric numAdd) rfl).2 ⟨by rw [opNumeric_one, hn.1]; rfl, by simp⟩
    · exact (opFails_iff (f := opNumeric numSub) rfl).2 ⟨by rw [opNumeric_one, hn.2.1]; rfl, by simp⟩
    · exact (opFails_iff (f := opNumeric numMul) rfl).2 ⟨by rw [opNumeric_one, hn.2.2.1]; rfl, by simp⟩
  · intro op A B hop hl
    have key : ∀ f, opNumeric f A B = .error .typeError := by
      intro f
      unfold opNumeric XSeq.item1
      match A, B, hl with
      | [], _, _ => rfl
      | _ :: _ :: _, _, _ => rfl
      | [_], [], _ => rfl
      | [_], _ :: _ :: _, _ => rfl
      | [_], [_], hl => simp at hl
    simp only [List.mem_cons, List.mem_nil_iff, or_false] at hop
    rcases hop with rfl | rfl | rfl | rfl | rfl | rfl
    · exact (opFails_iff (f := opNumeric numAdd) rfl).2 ⟨key _, by simp⟩
    · exact (opFails_iff (f := opNumeric numSub) rfl).2 ⟨key _, by simp⟩
    · exact (opFails_iff (f := opNumeric numMul) rfl).2 ⟨key _, by simp⟩
    · exact (opFails_iff (f := opNumeric numDiv) rfl).2 ⟨key _, by simp⟩
    · exact (opFails_iff (f := opNumeric numIDiv) rfl).2 ⟨key _, by simp⟩
    · exact (opFails_iff (f := opNumeric numMod) rfl).2 ⟨key _, by simp⟩

/-- **C46**, integers: `+`, `-`, `*` and the unary operators are exact as long as the result is a 64-bit integer, and panic otherwise. -/
theorem C46_expression_integers (h : Heap) (a b : Int) :
    (isI64 (a + b) → OpGives h .operatorAdd [.integer a] [.integer b] [.integer (a + b)]) ∧
    (isI64 (a - b) → OpGives h .operatorSubtract [.integer a] [.integer b] [.integer (a - b)]) ∧
    (isI64 (a * b) → OpGives h .operatorMultiply [.integer a] [.integer b] [.integer (a * b)]) ∧
    (isI64 (-a) → UnaryGives h .operatorUnaryMinus [.integer a] [.integer (-a)]) ∧
    UnaryGives h .operatorUnaryPlus [.integer a] [.integer a] ∧
    (¬ isI64 (a + b) → OpFails h .operatorAdd [.integer a] [.integer b] .panic) ∧
    (¬ isI64 (a - b) → OpFails h .operatorSubtract [.integer a] [.integer b] .panic) ∧
    (¬ isI64 (a * b) → OpFails h .operatorMultiply [.integer a] [.integer b] .panic) := by
  obtain ⟨h1, h2, h3, h4⟩ := C46_integer_exact a b
  have err : ∀ n, ¬ isI64 n → checkI64 n = .error .panic := fun n hn => if_neg hn
  refine ⟨fun hi => ?_, fun hi => ?_, fun hi => ?_, fun hi => ?_, ?_, fun hi => ?_, fun hi => ?_, fun hi => ?_⟩
  · exact (opGives_iff (f := opNumeric numAdd) rfl).2 (by rw [opNumeric_one, h1 hi]; rfl)
  · exact (opGives_iff (f := opNumeric numSub) rfl).2 (by rw [opNumeric_one, h2 hi]; rfl)
  · exact (opGives_iff (f := opNumeric numMul) rfl).2 (by rw [opNumeric_one, h3 hi]; rfl)
  · intro c env n l x hx
    rw [Value, evaluate_eq]
    show (do let r ← evaluate h c x
             liftE (opUnary numUMinus r) : E XSeq) env = _
    rw [E.bind_run, hx]
    show liftE (opUnary numUMinus [.integer a]) env = _
    have : opUnary numUMinus [.integer a] = .ok [.integer (-a)] := by
      show (numUMinus (.integer a)).map _ = _
      show ((checkI64 (-a)).map XItem.integer).map _ = _
      rw [checkI64, if_pos hi]; rfl
    rw [this]; rfl
  · intro c env n l x hx
    rw [Value, evaluate_eq]
    show (do let r ← evaluate h c x
             liftE (opUnary numUPlus r) : E XSeq) env = _
    rw [E.bind_run, hx]; rfl
  · exact (opFails_iff (f := opNumeric numAdd) rfl).2 ⟨by rw [opNumeric_one]; show ((checkI64 (a + b)).map XItem.integer).map _ = _; rw [err _ hi]; rfl, by simp⟩
  · exact (opFails_iff (f := opNumeric numSub) rfl).2 ⟨by rw [opNumeric_one]; show ((checkI64 (a - b)).map XItem.integer).map _ = _; rw [err _ hi]; rfl, by simp⟩
  · exact (opFails_iff (f := opNumeric numMul) rfl).2 ⟨by rw [opNumeric_one]; show ((checkI64 (a * b)).map XItem.integer).map _ = _; rw [err _ hi]; rfl, by simp⟩

/-! ## Nodes -/

/-- **C33** for the expression `A | B`. -/
theorem C33_expression (h : Heap) (hr : Reach h) (r : NodeId) (F : Forest NodeId) (hd : DocTree h r F) (a b : XSeq)
    (ha : NodesOf (docIds h (.cons r F .nil)) a) (hb : NodesOf (docIds h (.cons r F .nil)) b) :
    (∃ l : List NodeId, OpGives h .operatorUnion a b (l.map .node) ∧ l.Sublist (docIds h (.cons r F .nil)) ∧
      (∀ i, i ∈ l ↔ XItem.node i ∈ a ∨ XItem.node i ∈ b)) ∧
    (∀ v, OpGives h .operatorUnion a b v ↔ OpGives h .operatorUnion b a v) ∧
    (∀ c, NodesOf (docIds h (.cons r F .nil)) c → ∀ ab bc, OpGives h .operatorUnion a b ab → OpGives h .operatorUnion b c bc →
      ∀ v, OpGives h .operatorUnion ab c v ↔ OpGives h .operatorUnion a bc v) ∧
    (∀ v, OpGives h .operatorUnion a b v → OpGives h .operatorUnion v v v) := by
  have tr : ∀ {A B v : XSeq}, OpGives h .operatorUnion A B v ↔ opUnion h A B = .ok v := opGives_iff rfl
  refine ⟨?_, ?_, ?_, ?_⟩
  · obtain ⟨l, h1, h2, h3⟩ := C33_union h hr r F hd a b ha hb
    exact ⟨l, tr.2 h1, h2, h3⟩
  · intro v; rw [tr, tr, (C33_laws h hr r F hd a b a ha hb ha).1]
  · intro c hc ab bc h1 h2 v
    obtain ⟨ab', bc', e1, e2, e3⟩ := (C33_laws h hr r F hd a b c ha hb hc).2.1
    rw [tr] at h1 h2
    rw [h1] at e1; rw [h2] at e2; cases e1; cases e2
    rw [tr, tr, e3]
  · intro v hv
    exact tr.2 ((C33_laws h hr r F hd a b a ha hb ha).2.2.2 v (tr.1 hv))

/-- **C34** for the expressions `A intersect B` and `A except B`. -/
theorem C34_expression (h : Heap) (a b : XSeq) (D : List NodeId) (ha : NodesOf D a) (hb : NodesOf D b) :
    ∃ x y, OpGives h .operatorIntersect a b x ∧ OpGives h .operatorExcept a b y ∧ x.Sublist a ∧ y.Sublist a ∧
      (∀ i, XItem.node i ∈ x ↔ XItem.node i ∈ a ∧ XItem.node i ∈ b) ∧
      (∀ i, XItem.node i ∈ y ↔ XItem.node i ∈ a ∧ ¬ XItem.node i ∈ b) ∧ (x ++ y).Perm a := by
  obtain ⟨x, y, h1, h2, h3⟩ := C34_partition a b D ha hb
  exact ⟨x, y, (opGives_iff (f := opIntersect) rfl).2 h1, (opGives_iff (f := opExcept) rfl).2 h2, h3⟩

/-- **C53** for the expressions `a is b`, `a << b`, `a >> b`. -/
theorem C53_expression (h : Heap) (hr : Reach h) (r : NodeId) (F : Forest NodeId) (hd : DocTree h r F) (i j : NodeId)
    (hi : i ∈ docIds h (.cons r F .nil)) (hj : j ∈ docIds h (.cons r F .nil)) :
    OpGives h .operatorIsSameNode [.node i] [.node j] [.boolean (decide (i = j))] ∧
    (∃ b, OpGives h .operatorNodeBefore [.node i] [.node j] [.boolean b] ∧ (b = true ↔ [i, j].Sublist (docIds h (.cons r F .nil)))) ∧
    (∃ b, OpGives h .operatorNodeAfter [.node i] [.node j] [.boolean b] ∧ (b = true ↔ [j, i].Sublist (docIds h (.cons r F .nil)))) ∧
    (∀ A B : XSeq, (∀ k, A ≠ [.node k]) ∨ (∀ k, B ≠ [.node k]) → ∀ op ∈ [XNodeType.operatorIsSameNode, .operatorNodeBefore, .operatorNodeAfter],
      OpFails h op A B .typeError) := by
  obtain ⟨h1, h2, h3, a, b, c, e1, e2, e3, -⟩ := C53_node_comparison h hr r F hd i j hi hj
  have h2' := (C53_node_comparison h hr r F hd j i hj hi).2.1
  refine ⟨(opGives_iff (f := opIs h) rfl).2 h1, ⟨b, (opGives_iff (f := opBefore h) rfl).2 e2, ?_⟩,
    ⟨c, (opGives_iff (f := opAfter h) rfl).2 e3, ?_⟩, ?_⟩
  · rw [← h2, e2]; simp [xbool]
  · rw [← h2', ← h3, e3]; simp [xbool]
  · intro A B hAB op hop
    have key : ∀ ok, opNodeCompare h ok A B = .error .typeError := by
      intro ok
      have hn1 : ∀ A : XSeq, (∀ k, A ≠ [.node k]) → XSeq.node1 A = .error .typeError := by
        intro A hA
        unfold XSeq.node1
        split
        · exact absurd rfl (hA _)
        · rfl
      have hn2 : ∀ A : XSeq, (∃ k, A = [.node k]) ∨ XSeq.node1 A = .error .typeError := by
        intro A
        by_cases hA : ∃ k, A = [.node k]
        · exact .inl hA
        · exact .inr (hn1 A fun k hk => hA ⟨k, hk⟩)
      unfold opNodeCompare
      rcases hn2 A with ⟨k, rfl⟩ | hA'
      · rcases hAB with hA | hB
        · exact absurd rfl (hA k)
        · rw [hn1 B hB]; rfl
      · rw [hA']; rfl
    simp only [List.mem_cons, List.mem_nil_iff, or_false] at hop
    rcases hop with rfl | rfl | rfl
    · exact (opFails_iff (f := opIs h) rfl).2 ⟨key _, by simp⟩
    · exact (opFails_iff (f := opBefore h) rfl).2 ⟨key _, by simp⟩
    · exact (opFails_iff (f := opAfter h) rfl).2 ⟨key _, by simp⟩

/-! ## Casts -/

theorem castable_run {h : Heap} {c : XSeq} {env : Env} {x : XNode} {s : XSeq} (T : Str) (hx : Value h c x env s) :
    Value h c (typed .operatorCastableAs x T) env [.boolean (XSeq.castableAs h s T)] := by
  rw [Value, evaluate_eq]
  show (do let v ← evaluate h c x
           pure (xbool (XSeq.castableAs h v T)) : E XSeq) env = _
  rw [E.bind_run, hx]; rfl

theorem cast_run {h : Heap} {c : XSeq} {env : Env} {x : XNode} {s : XSeq} (T : Str) (hx : Value h c x env s) :
    evaluate h c (typed .operatorCastAs x T) env = (XSeq.castAs h s T).map fun v => (v, env) := by
  rw [evaluate_eq]
  show (do let v ← evaluate h c x
           liftE (XSeq.castAs h v T) : E XSeq) env = _
  rw [E.bind_run, hx]
  cases hc : XSeq.castAs h s T with
  | error e => simp only [hc]; rfl
  | ok v => simp only [hc]; rfl

theorem castAs_error {h : Heap} {s : XSeq} {T : Str} {e : XErr} (he : XSeq.castAs h s T = .error e) : e = .typeError := by
  unfold XSeq.castAs at he
  split at he
  · split at he
    · cases he
    · cases he; rfl
  · split at he
    · cases he
    · cases he; rfl
  · cases he; rfl

/-- **C48** (partial: operands other than nodes with an XML declaration at or below them) for the expressions `x castable as T` and
`x cast as T`: the first is true exactly if the second has a value; if not, the second is a type error. -/
theorem C48_expression_partial (h : Heap) (s : XSeq) (T : Str)
    (hs : ∀ i, XItem.node i ∈ s → ∀ j, AtOrBelow h i j → (h.node j).ntype ≠ .xmlDecl) (c : XSeq) (env : Env) (x : XNode)
    (hx : Value h c x env s) :
    (Value h c (typed .operatorCastableAs x T) env [.boolean true] ∧ ∃ v, Value h c (typed .operatorCastAs x T) env v) ∨
    (Value h c (typed .operatorCastableAs x T) env [.boolean false] ∧ Fails h c (typed .operatorCastAs x T) env .typeError) := by
  have h1 := castable_run T hx
  have h2 := cast_run T hx
  have h3 := C48_castable_partial h s T hs
  cases hc : XSeq.castAs h s T with
  | ok v =>
    rw [h3.2 ⟨v, hc⟩] at h1
    rw [hc] at h2
    exact .inl ⟨h1, v, h2⟩
  | error e =>
    have hn : XSeq.castableAs h s T = false := by
      rw [Bool.eq_false_iff]; intro ht
      obtain ⟨v, hv⟩ := h3.1 ht
      rw [hc] at hv; cases hv
    rw [hn] at h1
    rw [hc] at h2
    refine .inr ⟨h1, ?_, by simp⟩
    rw [h2, castAs_error hc]; rfl

/-- **C48**, the type of the value of `x cast as T`. -/
theorem C48_expression_type (h : Heap) (s : XSeq) (T : Str) (c : XSeq) (env : Env) (x : XNode) (hx : Value h c x env s) (v : XSeq)
    (hv : Value h c (typed .operatorCastAs x T) env v) :
    (s = [] ∧ v = [] ∧ T.getLast? = some '?') ∨ (∃ a b, s = [a] ∧ v = [b] ∧ (XSeq.trimQ T, b.xsType) ∈ castTypes) := by
  rw [Value, cast_run T hx] at hv
  cases hc : XSeq.castAs h s T with
  | error e => rw [hc] at hv; cases hv
  | ok w =>
    rw [hc] at hv
    simp [Except.map] at hv
    subst hv
    exact C48_cast_type h s T w hc

end Amxml
