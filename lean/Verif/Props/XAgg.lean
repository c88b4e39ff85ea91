import Verif.Lemmas.Decide
import Verif.Props.XCast
import Verif.Props.XNumFunc

/-!
# Aggregates (C67) and `fn:index-of` (C66)
-/

namespace Amxml
open Spec

/-! ## Specification -/

/-- What an item contributes to a sum: a number itself, anything else its `fn:number`. -/
def Spec.Term (h : Heap) (x y : XItem) : Prop :=
  (width x ≠ none ∧ y = x) ∨ (width x = none ∧ CallGives h (S "fn:number") [[x]] [y])

/-- `c` is `a + x₁ + … + xₙ`, added from left to right with the operator `+`. -/
inductive Spec.Summed (h : Heap) : XItem → XSeq → XItem → Prop where
  | nil (a : XItem) : Summed h a [] a
  | cons {a b c x y : XItem} {s : XSeq} : Term h x y → OpGives h .operatorAdd [a] [y] [b] → Summed h b s c → Summed h a (x :: s) c

/-- Items that are ordered among each other: all integers, all strings, all booleans, or all numbers that are doubles or decimals other than
NaN, or numbers (integers among them) with an exact `f64`. -/
def Spec.Ordered (h : Heap) (s : XSeq) : Prop :=
  (∀ x ∈ s, ∃ n, x.atomize h = .integer n) ∨ (∀ x ∈ s, ∃ t, x.atomize h = .string t) ∨ (∀ x ∈ s, ∃ b, x.atomize h = .boolean b) ∨
  (∀ x ∈ s, ∃ d, (x.atomize h = .double d ∨ x.atomize h = .decimal d) ∧ F64.isNan d = false) ∨
  (∀ x ∈ s, ∃ q, NumVal (x.atomize h) q)

/-! ## Calls of the functions of the table -/

theorem gives_iff {h : Heap} {f : Str} {vs : List XSeq} (n : Nat) (g : PureFn) (hn : vs.length = n := by rfl)
    (hc : findCtxFn f n = none := by decide +kernel) (hp : findPureFn f n = some g := by rfl) {v : XSeq} :
    CallGives h f vs v ↔ g h vs = .ok v := by
  constructor
  · intro H
    have hv := varEnv_values h [] vs [] (by simp)
    subst hn
    have := H [] _ _ hv
    rw [Value, call_run hc hp hv] at this
    cases hg : g h vs with
    | ok w => rw [hg] at this; simp [Except.map] at this; rw [this]
    | error e => rw [hg] at this; cases this
  · intro hg; exact calls_of n g hn hc hp hg

theorem fails_iff {h : Heap} {f : Str} {vs : List XSeq} (n : Nat) (g : PureFn) (hn : vs.length = n := by rfl)
    (hc : findCtxFn f n = none := by decide +kernel) (hp : findPureFn f n = some g := by rfl) {e : XErr} :
    CallFails h f vs e ↔ g h vs = .error e ∧ e ≠ .outOfFuel := by
  constructor
  · intro H
    have hv := varEnv_values h [] vs [] (by simp)
    subst hn
    have := H [] _ _ hv
    rw [Fails, call_run hc hp hv] at this
    cases hg : g h vs with
    | ok w => rw [hg] at this; cases this.1
    | error e' => rw [hg] at this; simp [Except.map] at this; exact ⟨by rw [this.1], this.2⟩
  · rintro ⟨hg, he⟩; exact fails_of n g hn hc hp hg he

/-! ## `fn:sum`, `fn:avg` -/

theorem number_one {h : Heap} {x y : XItem} : CallGives h (S "fn:number") [[x]] [y] ↔ (x.rawDouble h).map XItem.double = .ok y := by
  have hn : fnNumber h [x] = (x.rawDouble h).map fun d => [.double d] := rfl
  constructor
  · intro hc
    cases hr : x.rawDouble h with
    | ok d =>
      have : CallGives h (S "fn:number") [[x]] [.double d] := calls_of 1 _ (hg := by
        show fnNumber h [x] = _; rw [hn, hr]; rfl)
      have := hc.unique this
      simp at this
      subst this; rfl
    | error e =>
      have he : e = .typeError := by cases x <;> simp [XItem.rawDouble] at hr <;> exact hr.symm
      subst he
      have : CallFails h (S "fn:number") [[x]] .typeError := fails_of 1 _ (hg := by
        show fnNumber h [x] = _; rw [hn, hr]; rfl)
      exact absurd this hc.not_fails
  · intro he
    refine calls_of 1 _ (hg := ?_)
    show fnNumber h [x] = _
    rw [hn]
    cases hr : x.rawDouble h with
    | ok d => rw [hr] at he; cases he; rfl
    | error e => rw [hr] at he; cases he

theorem numeric_iff (x : XItem) : x.isNumeric = true ↔ width x ≠ none := by cases x <;> simp [XItem.isNumeric, width]

theorem add_iff {h : Heap} {a y b : XItem} : OpGives h .operatorAdd [a] [y] [b] ↔ numAdd a y = .ok b := by
  rw [opGives_iff (f := opNumeric numAdd) rfl, opNumeric_one]
  cases numAdd a y <;> simp [Except.map]

theorem castDouble (h : Heap) (x : XItem) : x.castAs h (S "double") = XItem.castErr ((x.rawDouble h).map .double) := by
  unfold XItem.castAs
  rw [if_neg (by decide), if_pos (by decide)]

theorem sumLoop_iff {h : Heap} (s : XSeq) : ∀ a c, sumLoop h a s = .ok c ↔ Summed h a s c := by
  induction s with
  | nil =>
    intro a c
    constructor
    · intro he; cases he; exact .nil a
    · intro hs; cases hs; rfl
  | cons x s ih =>
    intro a c
    rw [sumLoop]
    by_cases hx : x.isNumeric = true
    · rw [if_pos hx]
      constructor
      · intro he
        cases hb : numAdd a x with
        | error e => rw [hb] at he; cases he
        | ok b =>
          rw [hb] at he
          exact .cons (.inl ⟨(numeric_iff x).1 hx, rfl⟩) (add_iff.2 hb) ((ih b c).1 he)
      · intro hs
        cases hs with
        | @cons _ b _ _ y _ ht hadd hr =>
          rcases ht with ⟨-, rfl⟩ | ⟨hw, -⟩
          · rw [add_iff.1 hadd]; exact (ih b c).2 hr
          · exact absurd hw ((numeric_iff x).1 hx)
    · rw [if_neg hx, castDouble]
      have hw : width x = none := by
        by_contra hw; exact hx ((numeric_iff x).2 hw)
      constructor
      · intro he
        cases hd : x.rawDouble h with
        | error e => rw [hd] at he; cases he
        | ok d =>
          rw [hd] at he
          have he' : ((numAdd a (.double d)).bind fun v' => sumLoop h v' s) = .ok c := he
          cases hb : numAdd a (.double d) with
          | error e => rw [hb] at he'; cases he'
          | ok b =>
            rw [hb] at he'
            exact .cons (.inr ⟨hw, number_one.2 (by rw [hd]; rfl)⟩) (add_iff.2 hb) ((ih b c).1 he')
      · intro hs
        cases hs with
        | @cons _ b _ _ y _ ht hadd hr =>
          rcases ht with ⟨hw', -⟩ | ⟨-, hn⟩
          · exact absurd hw hw'
          · rw [number_one] at hn
            rw [hn]
            show ((numAdd a y).bind fun v' => sumLoop h v' s) = .ok c
            rw [add_iff.1 hadd]
            exact (ih b c).2 hr

theorem sumLoop_error {h : Heap} (s : XSeq) : ∀ a e, sumLoop h a s = .error e → e = .typeError ∨ e = .panic := by
  induction s with
  | nil => intro a e he; cases he
  | cons x s ih =>
    intro a e he
    have addE : ∀ y e, numAdd a y = .error e → e = .typeError ∨ e = .panic := by
      intro y e hy
      cases a <;> cases y <;> simp [numAdd, numOp, Except.map] at hy <;> first
        | exact .inl hy.symm
        | skip
      rename_i m n
      by_cases hi : isI64 (m + n)
      · rw [checkI64, if_pos hi] at hy; cases hy
      · rw [checkI64, if_neg hi] at hy; cases hy; exact .inr rfl
    rw [sumLoop] at he
    by_cases hx : x.isNumeric = true
    · rw [if_pos hx] at he
      cases hb : numAdd a x with
      | error e' => rw [hb] at he; cases he; exact addE _ _ hb
      | ok b => rw [hb] at he; exact ih b e he
    · rw [if_neg hx, castDouble] at he
      cases hd : x.rawDouble h with
      | error e' => rw [hd] at he; cases he; exact .inl rfl
      | ok d =>
        rw [hd] at he
        have he' : ((numAdd a (.double d)).bind fun v' => sumLoop h v' s) = .error e := he
        cases hb : numAdd a (.double d) with
        | error e' => rw [hb] at he'; cases he'; exact addE _ _ hb
        | ok b => rw [hb] at he'; exact ih b e he'

/-- **C67**, `fn:sum`: of no items it is 0, or the second argument if there is one; of some items it is `0 + x₁ + … + xₙ`, added from
left to right as the operator `+` does, where items that are no numbers count as their `fn:number`; if the additions fail, it is an error. -/
theorem C67_sum (h : Heap) (s z : XSeq) :
    CallGives h (S "fn:sum") [[]] [.integer 0] ∧ CallGives h (S "fn:sum") [[], z] z ∧
    (s ≠ [] → (∀ c, Summed h (.integer 0) s c ↔ CallGives h (S "fn:sum") [s] [c]) ∧
      (∀ c, Summed h (.integer 0) s c → CallGives h (S "fn:sum") [s, z] [c]) ∧
      ((¬ ∃ c, Summed h (.integer 0) s c) → ∃ e, (e = .typeError ∨ e = .panic) ∧ CallFails h (S "fn:sum") [s] e)) := by
  refine ⟨calls_of 1 _ (hg := rfl), calls_of 2 _ (hg := rfl), fun hs => ?_⟩
  have hne : s.isEmpty = false := by cases s with
    | nil => exact absurd rfl hs
    | cons _ _ => rfl
  have run : ∀ r, fnSum h (s :: r) = (sumLoop h (.integer 0) s).map fun v => [v] := by
    intro r
    unfold fnSum
    show (if s.isEmpty = true then _ else _) = _
    rw [hne]; rfl
  have one : ∀ c, Summed h (.integer 0) s c → CallGives h (S "fn:sum") [s] [c] := by
    intro c hc
    refine calls_of 1 _ (hg := ?_)
    show fnSum h [s] = _
    rw [run, (sumLoop_iff s _ c).2 hc]; rfl
  refine ⟨fun c => ⟨one c, fun hc => ?_⟩, fun c hc => ?_, fun hc => ?_⟩
  · cases hr : sumLoop h (.integer 0) s with
    | ok d =>
      have hd := (sumLoop_iff s _ d).1 hr
      have := hc.unique (one d hd)
      simp at this
      subst this; exact hd
    | error e =>
      have he := sumLoop_error s _ e hr
      have : CallFails h (S "fn:sum") [s] e := by
        rcases he with rfl | rfl
        · exact fails_of 1 _ (hg := by show fnSum h [s] = _; rw [run, hr]; rfl)
        · exact fails_of 1 _ (hg := by show fnSum h [s] = _; rw [run, hr]; rfl)
      exact absurd this hc.not_fails
  · refine calls_of 2 _ (hg := ?_)
    show fnSum h [s, z] = _
    rw [run, (sumLoop_iff s _ c).2 hc]; rfl
  · cases hr : sumLoop h (.integer 0) s with
    | ok d => exact absurd ⟨d, (sumLoop_iff s _ d).1 hr⟩ hc
    | error e =>
      have he := sumLoop_error s _ e hr
      refine ⟨e, he, ?_⟩
      rcases he with rfl | rfl
      · exact fails_of 1 _ (hg := by show fnSum h [s] = _; rw [run, hr]; rfl)
      · exact fails_of 1 _ (hg := by show fnSum h [s] = _; rw [run, hr]; rfl)

theorem summed_integers (h : Heap) (l : List Int) : ∀ a : Int, (∀ p, p <+: l → isI64 (a + p.sum)) →
    Summed h (.integer a) (l.map .integer) (.integer (a + l.sum)) := by
  induction l with
  | nil => intro a _; simpa using Summed.nil (.integer a)
  | cons n l ih =>
    intro a hp
    refine .cons (.inl ⟨by simp [width], rfl⟩) (b := .integer (a + n)) ?_ ?_
    · have := hp [n] (by simp)
      exact (C46_expression_integers h a n).1 (by simpa using this)
    · rw [List.sum_cons, ← add_assoc]
      refine ih (a + n) fun p hpl => ?_
      have := hp (n :: p) ((List.prefix_cons_inj n).2 hpl)
      rwa [List.sum_cons, ← add_assoc] at this

/-- **C67**: the sum of integers is their exact sum as long as no partial sum leaves the 64-bit integers. -/
theorem C67_sum_integers (h : Heap) (l : List Int) (hl : l ≠ []) (hp : ∀ p, p <+: l → isI64 p.sum) :
    CallGives h (S "fn:sum") [l.map .integer] [.integer l.sum] := by
  have := summed_integers h l 0 (fun p hpl => by simpa using hp p hpl)
  rw [zero_add] at this
  exact (((C67_sum h (l.map .integer) []).2.2 (by simpa using hl)).1 _).1 this

theorem summed_exact (h : Heap) {s : XSeq} {qs : List ℚ} (hs : List.Forall₂ NumVal s qs) : ∀ (a : XItem) (p : ℚ), NumVal a p →
    (∀ r, r <+: qs → |p + r.sum| ≤ 2 ^ 53 ∧ F64.Rep (p + r.sum)) → ∃ c, Summed h a s c ∧ NumVal c (p + qs.sum) := by
  induction hs with
  | nil => intro a p ha _; exact ⟨a, .nil a, by simpa using ha⟩
  | @cons x q s qs hx _ ih =>
    intro a p ha hr
    have hpq := hr [q] (by simp)
    simp only [List.sum_cons, List.sum_nil, add_zero] at hpq
    have hw : width x ≠ none := by cases x <;> simp_all [NumVal, width]
    have hb : ∃ b, NumVal b (p + q) ∧ OpGives h .operatorAdd [a] [x] [b] := by
      by_cases hax : (∀ n, a ≠ .integer n) ∨ ∀ n, x ≠ .integer n
      · exact (C46_exact h a x p q ha hx hax).1 hpq.2
      · simp only [not_or, not_forall, not_not] at hax
        obtain ⟨⟨m, rfl⟩, n, rfl⟩ := hax
        obtain ⟨h1, rfl⟩ := ha
        obtain ⟨h2, rfl⟩ := hx
        have hab : |m + n| ≤ 2 ^ 53 := by
          have := hpq.1
          rw [← Int.cast_add, ← Int.cast_abs] at this
          exact_mod_cast this
        have hna : (m + n).natAbs ≤ 2 ^ 53 := by
          rw [Int.abs_eq_natAbs] at hab; omega
        refine ⟨.integer (m + n), ⟨hna, by push_cast; rfl⟩, (C46_expression_integers h m n).1 ?_⟩
        unfold isI64 i64Min i64Max
        omega
    obtain ⟨b, hb1, hb2⟩ := hb
    obtain ⟨c, hc1, hc2⟩ := ih b (p + q) hb1 (fun r hr' => by
      have := hr (q :: r) ((List.prefix_cons_inj q).2 hr')
      rwa [List.sum_cons, ← add_assoc] at this)
    exact ⟨c, .cons (.inl ⟨hw, rfl⟩) hb2 hc1, by rwa [List.sum_cons, ← add_assoc]⟩

/-- **C67**: the sum of numbers of any types is their exact sum if the partial sums are numbers that `f64` can hold. -/
theorem C67_sum_exact (h : Heap) (s : XSeq) (qs : List ℚ) (hs : List.Forall₂ NumVal s qs) (hne : s ≠ [])
    (hr : ∀ r, r <+: qs → |r.sum| ≤ 2 ^ 53 ∧ F64.Rep r.sum) :
    ∃ c, CallGives h (S "fn:sum") [s] [c] ∧ NumVal c qs.sum := by
  obtain ⟨c, h1, h2⟩ := summed_exact h hs (.integer 0) 0 ⟨by simp, by simp⟩ (fun r hr' => by simpa using hr r hr')
  exact ⟨c, (((C67_sum h s []).2.2 hne).1 c).1 h1, by simpa using h2⟩

/-- **C67**, `fn:avg`: of no items it is empty, otherwise the sum divided by the number of items as `div` does. -/
theorem C67_avg (h : Heap) (s : XSeq) :
    CallGives h (S "fn:avg") [[]] [] ∧
    (∀ c v, s ≠ [] → CallGives h (S "fn:sum") [s] [c] → OpGives h .operatorDiv [c] [.integer s.length] v → CallGives h (S "fn:avg") [s] v) ∧
    (∀ e, s ≠ [] → CallFails h (S "fn:sum") [s] e → CallFails h (S "fn:avg") [s] e) := by
  refine ⟨calls_of 1 _ (hg := rfl), ?_, ?_⟩
  · intro c v hs hc hv
    have hne : s.isEmpty = false := by cases s with
      | nil => exact absurd rfl hs
      | cons _ _ => rfl
    have hsum : fnSum h [s] = .ok [c] := (gives_iff 1 _).1 hc
    refine calls_of 1 _ (hg := ?_)
    show fnAvg h s = _
    unfold fnAvg
    rw [hne, hsum]
    show (numDiv c (.integer s.length)).map (fun r => [r]) = _
    exact (opGives_iff (f := opNumeric numDiv) rfl).1 hv
  · intro e hs hc
    have hne : s.isEmpty = false := by cases s with
      | nil => exact absurd rfl hs
      | cons _ _ => rfl
    obtain ⟨he, hf⟩ := (fails_iff 1 _).1 hc
    refine fails_of 1 _ (hg := ?_) (he := hf)
    show fnAvg h s = _
    unfold fnAvg
    rw [hne]
    have he' : fnSum h [s] = .error e := he
    rw [he']; rfl

/-! ## `fn:max`, `fn:min` -/

theorem strBefore_trans {a b c : Str} (h1 : StrBefore a b) (h2 : StrBefore b c) : StrBefore a c := by
  rw [← strLt_iff] at *
  induction a generalizing b c with
  | nil =>
    cases b with
    | nil => exact h2
    | cons y t => cases c with
      | nil => cases h2
      | cons z u => rfl
  | cons x s ih =>
    cases b with
    | nil => cases h1
    | cons y t =>
      cases c with
      | nil => cases h2
      | cons z u =>
        simp only [strLt, Bool.or_eq_true, decide_eq_true_eq, Bool.and_eq_true, beq_iff_eq] at *
        rcases h1 with h1 | ⟨rfl, h1⟩ <;> rcases h2 with h2 | ⟨rfl, h2⟩
        · exact .inl (by omega)
        · exact .inl h1
        · exact .inl h2
        · exact .inr ⟨rfl, ih h1 h2⟩

theorem numVal_lt {x y : XItem} {p q : ℚ} (hx : NumVal x p) (hy : NumVal y q) : Holds .lt x y ↔ p < q := by
  rcases operand_val hx with ⟨a, rfl, ha⟩ | ⟨a, rfl, ha⟩ | ⟨a, rfl, ha⟩ <;>
    rcases operand_val hy with ⟨b, rfl, hb⟩ | ⟨b, rfl, hb⟩ | ⟨b, rfl, hb⟩
  · show a < b ↔ p < q
    rw [hx.2, hy.2]; exact_mod_cast Iff.rfl
  all_goals
    constructor
    · rintro ⟨c, d, hc, hd, hl⟩
      cases hc; cases hd
      exact (F64.lt_val ha hb).1 hl
    · intro hpq
      exact ⟨_, _, rfl, rfl, (F64.lt_val ha hb).2 hpq⟩

/-- The order that `fn:max` (`op = .lt`) and `fn:min` (`op = .gt`) use is transitive on ordered items. -/
theorem holds_trans {h : Heap} {s : XSeq} (ho : Ordered h s) (op : Cmp) (hop : op = .lt ∨ op = .gt) {x y z : XItem} (hx : x ∈ s) (hy : y ∈ s)
    (hz : z ∈ s) (h1 : Holds op (x.atomize h) (y.atomize h)) (h2 : Holds op (y.atomize h) (z.atomize h)) :
    Holds op (x.atomize h) (z.atomize h) := by
  have swap : ∀ a b, Holds .gt a b ↔ Holds .lt b a := fun a b => holds_swap .gt a b
  have key : ∀ x ∈ s, ∀ y ∈ s, ∀ z ∈ s, Holds .lt (x.atomize h) (y.atomize h) → Holds .lt (y.atomize h) (z.atomize h) →
      Holds .lt (x.atomize h) (z.atomize h) := by
    intro x hx y hy z hz h1 h2
    rcases ho with ho | ho | ho | ho | ho
    · obtain ⟨a, ha⟩ := ho x hx; obtain ⟨b, hb⟩ := ho y hy; obtain ⟨c, hc⟩ := ho z hz
      rw [ha, hb] at h1; rw [hb, hc] at h2; rw [ha, hc]
      exact lt_trans (a := a) (b := b) (c := c) h1 h2
    · obtain ⟨a, ha⟩ := ho x hx; obtain ⟨b, hb⟩ := ho y hy; obtain ⟨c, hc⟩ := ho z hz
      rw [ha, hb] at h1; rw [hb, hc] at h2; rw [ha, hc]
      exact strBefore_trans (a := a) (b := b) (c := c) h1 h2
    · obtain ⟨a, ha⟩ := ho x hx; obtain ⟨b, hb⟩ := ho y hy; obtain ⟨c, hc⟩ := ho z hz
      rw [ha, hb] at h1; rw [hb, hc] at h2; rw [ha, hc]
      exact ⟨h1.1, h2.2⟩
    · obtain ⟨a, ha, -⟩ := ho x hx; obtain ⟨b, hb, -⟩ := ho y hy; obtain ⟨c, hc, -⟩ := ho z hz
      rcases ha with ha | ha <;> rcases hb with hb | hb <;> rcases hc with hc | hc <;> rw [ha, hb] at h1 <;> rw [hb, hc] at h2 <;>
        rw [ha, hc] <;> obtain ⟨_, _, e1, e2, l1⟩ := h1 <;> obtain ⟨_, _, e3, e4, l2⟩ := h2 <;> cases e1 <;> cases e2 <;> cases e3 <;>
        cases e4 <;> exact ⟨a, c, rfl, rfl, F64.lt_trans a b c l1 l2⟩
    · obtain ⟨a, ha⟩ := ho x hx; obtain ⟨b, hb⟩ := ho y hy; obtain ⟨c, hc⟩ := ho z hz
      rw [numVal_lt ha hb] at h1
      rw [numVal_lt hb hc] at h2
      rw [numVal_lt ha hc]
      exact lt_trans h1 h2
  rcases hop with rfl | rfl
  · exact key x hx y hy z hz h1 h2
  · rw [swap] at *
    exact key z hz y hy x hx h2 h1

theorem holds_irrefl (op : Cmp) (hop : op = .lt ∨ op = .gt) (x : XItem) : ¬ Holds op x x := by
  have key : ¬ Holds .lt x x := by
    intro hh
    cases x with
    | integer n => exact absurd hh (lt_irrefl n)
    | string t => exact strBefore_irrefl t hh
    | boolean b => obtain ⟨h1, h2⟩ := hh; rw [h1] at h2; cases h2
    | decimal d =>
      obtain ⟨_, _, e1, e2, l⟩ := hh
      cases e1; cases e2
      have l' : F64.lt d d = true := l
      rw [F64.lt_irrefl d] at l'; cases l'
    | double d =>
      obtain ⟨_, _, e1, e2, l⟩ := hh
      cases e1; cases e2
      have l' : F64.lt d d = true := l
      rw [F64.lt_irrefl d] at l'; cases l'
    | _ => obtain ⟨_, _, e1, _⟩ := hh; cases e1
  rcases hop with rfl | rfl
  · exact key
  · rw [holds_swap]; exact key

theorem ordered_comparable {h : Heap} {s : XSeq} (ho : Ordered h s) {x y : XItem} (hx : x ∈ s) (hy : y ∈ s) :
    Comparable (x.atomize h) (y.atomize h) := by
  have num : ∀ x : XItem, (∃ q, NumVal x q) → (asDouble x).isSome := by
    rintro x ⟨q, hq⟩
    rcases operand_val hq with ⟨a, rfl, -⟩ | ⟨a, rfl, -⟩ | ⟨a, rfl, -⟩ <;> rfl
  rcases ho with ho | ho | ho | ho | ho
  · obtain ⟨a, ha⟩ := ho x hx; obtain ⟨b, hb⟩ := ho y hy
    rw [ha, hb]; exact .inl ⟨rfl, rfl⟩
  · obtain ⟨a, ha⟩ := ho x hx; obtain ⟨b, hb⟩ := ho y hy
    rw [ha, hb]; exact .inr (.inl ⟨a, b, rfl, rfl⟩)
  · obtain ⟨a, ha⟩ := ho x hx; obtain ⟨b, hb⟩ := ho y hy
    rw [ha, hb]; exact .inr (.inr ⟨a, b, rfl, rfl⟩)
  · obtain ⟨a, ha, -⟩ := ho x hx; obtain ⟨b, hb, -⟩ := ho y hy
    rcases ha with ha | ha <;> rcases hb with hb | hb <;> rw [ha, hb] <;> exact .inl ⟨rfl, rfl⟩
  · exact .inl ⟨num _ (ho x hx), num _ (ho y hy)⟩

theorem extreme_step {h : Heap} {op : Cmp} (hop : op = .lt ∨ op = .gt) {m x : XItem} (hc : Comparable (m.atomize h) (x.atomize h)) :
    ∃ b : Bool, ((valueCmp h op [m] [x]).bind XSeq.ebv) = .ok b ∧ (b = true ↔ Holds op (m.atomize h) (x.atomize h)) := by
  obtain ⟨b, hb, hi⟩ := (C39_singletons h op m x).1 hc
  refine ⟨b, by rw [hb]; rfl, ?_⟩
  rw [hi]
  have : ¬ NaNCase op (m.atomize h) (x.atomize h) := by rcases hop with rfl | rfl <;> simp [NaNCase]
  exact ⟨fun hh => hh.resolve_right this, .inl⟩

theorem extremeLoop_spec {h : Heap} {s : XSeq} (ho : Ordered h s) {op : Cmp} (hop : op = .lt ∨ op = .gt) (r : XSeq) : ∀ m, m ∈ s → (∀ y ∈ r, y ∈ s) →
    ∃ m', extremeLoop (valueCmp h op) m r = .ok m' ∧ m' ∈ s ∧ (m' = m ∨ (m' ∈ r ∧ Holds op (m.atomize h) (m'.atomize h))) ∧
      ∀ y ∈ r, ¬ Holds op (m'.atomize h) (y.atomize h) := by
  induction r with
  | nil => intro m hm _; exact ⟨m, rfl, hm, .inl rfl, by simp⟩
  | cons x r ih =>
    intro m hm hr
    have hx : x ∈ s := hr x (by simp)
    obtain ⟨b, hb, hi⟩ := extreme_step hop (ordered_comparable ho hm hx)
    rw [extremeLoop, hb]
    cases b with
    | true =>
      obtain ⟨m', e1, e2, e3, e4⟩ := ih x hx fun y hy => hr y (by simp [hy])
      have hmx := hi.1 rfl
      refine ⟨m', e1, e2, .inr ?_, ?_⟩
      · rcases e3 with rfl | ⟨hm', e3⟩
        · exact ⟨by simp, hmx⟩
        · exact ⟨by simp [hm'], holds_trans ho op hop hm hx e2 hmx e3⟩
      · intro y hy
        rcases List.mem_cons.1 hy with rfl | hy
        · rcases e3 with rfl | ⟨hm', e3⟩
          · exact holds_irrefl op hop _
          · intro hh; exact holds_irrefl op hop _ (holds_trans ho op hop hx e2 hx e3 hh)
        · exact e4 y hy
    | false =>
      obtain ⟨m', e1, e2, e3, e4⟩ := ih m hm fun y hy => hr y (by simp [hy])
      have hmx : ¬ Holds op (m.atomize h) (x.atomize h) := fun hh => by have := hi.2 hh; cases this
      refine ⟨m', e1, e2, ?_, ?_⟩
      · rcases e3 with rfl | ⟨hm', e3⟩
        · exact .inl rfl
        · exact .inr ⟨by simp [hm'], e3⟩
      · intro y hy
        rcases List.mem_cons.1 hy with rfl | hy
        · rcases e3 with rfl | ⟨hm', e3⟩
          · exact hmx
          · intro hh; exact hmx (holds_trans ho op hop hm e2 hx e3 hh)
        · exact e4 y hy

theorem extreme_fn (h : Heap) (x : XItem) (s : XSeq) :
    fnMax h (x :: s) = (extremeLoop (valueCmp h .lt) x (x :: s)).map (fun m => [m]) ∧
    fnMin h (x :: s) = (extremeLoop (valueCmp h .gt) x (x :: s)).map (fun m => [m]) := ⟨rfl, rfl⟩

/-- **C67**, `fn:max` and `fn:min` (partial: items without NaN and, if integers are mixed with other numbers, of at most 53 bits): an item of the
sequence that no other item is larger (smaller) than; of no items, empty. -/
theorem C67_extremes_partial (h : Heap) (s : XSeq) (ho : Ordered h s) :
    (s = [] → CallGives h (S "fn:max") [s] [] ∧ CallGives h (S "fn:min") [s] []) ∧
    (s ≠ [] → ∃ a ∈ s, ∃ b ∈ s, CallGives h (S "fn:max") [s] [a] ∧ CallGives h (S "fn:min") [s] [b] ∧
      ∀ y ∈ s, ¬ Holds .lt (a.atomize h) (y.atomize h) ∧ ¬ Holds .lt (y.atomize h) (b.atomize h)) := by
  constructor
  · rintro rfl
    exact ⟨calls_of 1 _ (hg := rfl), calls_of 1 _ (hg := rfl)⟩
  · intro hs
    cases s with
    | nil => exact absurd rfl hs
    | cons x s =>
      obtain ⟨a, a1, a2, -, a4⟩ := extremeLoop_spec ho (.inl rfl) (x :: s) x (by simp) (fun y hy => hy)
      obtain ⟨b, b1, b2, -, b4⟩ := extremeLoop_spec ho (.inr rfl) (x :: s) x (by simp) (fun y hy => hy)
      refine ⟨a, a2, b, b2, calls_of 1 _ (hg := ?_), calls_of 1 _ (hg := ?_), fun y hy => ⟨a4 y hy, ?_⟩⟩
      · show fnMax h (x :: s) = _
        rw [(extreme_fn h x s).1, a1]; rfl
      · show fnMin h (x :: s) = _
        rw [(extreme_fn h x s).2, b1]; rfl
      · intro hh; exact b4 y hy ((holds_swap .gt _ _).2 hh)

/-- **C67**: an item that cannot be compared with those before it is a type error. -/
theorem C67_extremes_error (h : Heap) (pre post : XSeq) (x : XItem) (hp : pre ≠ []) (ho : Ordered h pre)
    (hx : ∀ y ∈ pre, ¬ Comparable (y.atomize h) (x.atomize h)) :
    CallFails h (S "fn:max") [pre ++ x :: post] .typeError ∧ CallFails h (S "fn:min") [pre ++ x :: post] .typeError := by
  have loop : ∀ op, op = .lt ∨ op = .gt → ∀ (r : XSeq) (m : XItem), m ∈ pre → (∀ y ∈ r, y ∈ pre) →
      extremeLoop (valueCmp h op) m (r ++ x :: post) = .error .typeError := by
    intro op hop r
    induction r with
    | nil =>
      intro m hm _
      rw [List.nil_append, extremeLoop, (C39_singletons h op m x).2 (hx m hm)]; rfl
    | cons y r ih =>
      intro m hm hr
      obtain ⟨b, hb, -⟩ := extreme_step hop (ordered_comparable ho hm (hr y (by simp)))
      rw [List.cons_append, extremeLoop, hb]
      cases b with
      | true => exact ih y (hr y (by simp)) fun z hz => hr z (by simp [hz])
      | false => exact ih m hm fun z hz => hr z (by simp [hz])
  cases pre with
  | nil => exact absurd rfl hp
  | cons y pre =>
    refine ⟨fails_of 1 _ (hg := ?_), fails_of 1 _ (hg := ?_)⟩
    · show fnMax h (y :: (pre ++ x :: post)) = _
      rw [(extreme_fn h y _).1]
      have := loop .lt (.inl rfl) (y :: pre) y (by simp) (fun z hz => hz)
      rw [List.cons_append] at this
      rw [this]; rfl
    · show fnMin h (y :: (pre ++ x :: post)) = _
      rw [(extreme_fn h y _).2]
      have := loop .gt (.inr rfl) (y :: pre) y (by simp) (fun z hz => hz)
      rw [List.cons_append] at this
      rw [this]; rfl

/-- **C67** is false of the code: with NaN the maximum depends on the order of the items; the maximum of nodes is a node, not its value, and
compared as text (`10` is less than `9`); strings are added. -/
theorem C67_violated :
    evalXPath .empty 20 0 (S "string(max((number('x'), 1)))") = .ok [.string (S "NaN")] ∧
    evalXPath .empty 20 0 (S "string(max((1, number('x'))))") = .ok [.string (S "1")] ∧
    evalXPath editSample 20 0 (S "max(/a/@*)") = .ok [.node 3] ∧
    evalXPath .empty 20 0 (S "string(sum(('1', '2')))") = .ok [.string (S "3")] := by
  refine ⟨?_, ?_, ?_, ?_⟩ <;> run_query

/-! ## `fn:index-of` -/

theorem indexOfLoop_spec {h : Heap} {x : XItem} (f : XItem → Bool) (s : XSeq) : ∀ i,
    (∀ y ∈ s, valueCmp h .eq [y] [x] = .ok [.boolean (f y)]) → indexOfLoop h [x] i s = .ok (positionsFrom f (i + 1) s) := by
  induction s with
  | nil => intro i _; rfl
  | cons y s ih =>
    intro i hs
    rw [indexOfLoop, show valueEq h [y] [x] = valueCmp h .eq [y] [x] from rfl, hs y (by simp)]
    show (indexOfLoop h [x] (i + 1) s).map _ = _
    rw [ih (i + 1) fun z hz => hs z (by simp [hz])]
    rfl

/-- **C66**, `fn:index-of` (partial: see `C66_violated`): if all items can be compared with the one searched for, the positions, counted from 1 and increasing, of those equal to it. -/
theorem C66_index_of_partial (h : Heap) (s : XSeq) (x : XItem) (hc : ∀ y ∈ s, Comparable (y.atomize h) (x.atomize h)) :
    ∃ f : XItem → Bool, (∀ y ∈ s, f y = true ↔ Holds .eq (y.atomize h) (x.atomize h)) ∧
      CallGives h (S "fn:index-of") [s, [x]] (positionsFrom f 1 s) := by
  have : ∀ y, ∃ b : Bool, y ∈ s → valueCmp h .eq [y] [x] = .ok [.boolean b] ∧ (b = true ↔ Holds .eq (y.atomize h) (x.atomize h)) := by
    intro y
    by_cases hy : y ∈ s
    · obtain ⟨b, hb, hi⟩ := (C39_singletons h .eq y x).1 (hc y hy)
      exact ⟨b, fun _ => ⟨hb, by simpa [NaNCase] using hi⟩⟩
    · exact ⟨true, fun h => absurd h hy⟩
  choose f hf using this
  refine ⟨f, fun y hy => (hf y hy).2, calls_of 2 _ (hg := ?_)⟩
  exact indexOfLoop_spec f s 0 fun y hy => (hf y hy).1

/-- **C66** is false of the code for items that cannot be compared, which should count as different: they are a type error. -/
theorem C66_violated (h : Heap) (s : XSeq) (x : XItem) (y : XItem) (hy : y ∈ s) (hc : ¬ Comparable (y.atomize h) (x.atomize h)) :
    CallFails h (S "fn:index-of") [s, [x]] .typeError := by
  refine fails_of 2 _ (hg := ?_)
  show indexOfLoop h [x] 0 s = _
  have : ∀ s : XSeq, y ∈ s → ∀ i, indexOfLoop h [x] i s = .error .typeError := by
    intro s
    induction s with
    | nil => intro hy; cases hy
    | cons z s ih =>
      intro hy i
      rw [indexOfLoop, show valueEq h [z] [x] = valueCmp h .eq [z] [x] from rfl]
      by_cases hz : Comparable (z.atomize h) (x.atomize h)
      · obtain ⟨b, hb, -⟩ := (C39_singletons h .eq z x).1 hz
        rw [hb]
        show (indexOfLoop h [x] (i + 1) s).map _ = _
        rcases List.mem_cons.1 hy with rfl | hy
        · exact absurd hz hc
        · rw [ih hy]; rfl
      · rw [(C39_singletons h .eq z x).2 hz]; rfl
  exact this s hy 0

/-! ## The hypotheses are met -/

example : evalXPath .empty 20 0 (S "(sum((1, 2, 3)), max(('a', 'c', 'b')), min((3, 1, 2)), sum(()), count(avg(())))") =
    .ok [.integer 6, .string (S "c"), .integer 1, .integer 0, .integer 0] := by run_query
example : evalXPath .empty 20 0 (S "string(avg((1, 2.5, 4)))") = .ok [.string (S "2.5")] := by run_query
example : evalXPath .empty 20 0 (S "index-of((5, 6, 5), 5)") = .ok [.integer 1, .integer 3] := by run_query
example (h : Heap) : CallGives h (S "fn:sum") [[.integer 1, .integer 2]] [.integer 3] :=
  C67_sum_integers h [1, 2] (by simp) (by
    intro p hp
    have : p ∈ [1, 2].inits := (List.mem_inits p [1, 2]).2 hp
    simp only [List.inits, List.map_cons, List.map_nil, List.mem_cons, List.not_mem_nil, or_false] at this
    rcases this with rfl | rfl | rfl <;> decide)
/-- Numbers of different types, the sum `1 + 0.5`. -/
example (h : Heap) : ∃ c, CallGives h (S "fn:sum") [[.integer 1, .double F64.half]] [c] ∧ NumVal c (3 / 2) := by
  have hh : F64.Rep (3 / 2 : ℚ) := by
    have := F64.rep_int_half (n := 1) (by decide)
    norm_num at this ⊢
    exact this
  have := C67_sum_exact h [.integer 1, .double F64.half] [1, 1 / 2] (.cons ⟨by decide, by simp⟩ (.cons F64.val_half .nil)) (by simp) (by
    intro p hp
    have : p ∈ [1, (1 / 2 : ℚ)].inits := (List.mem_inits p _).2 hp
    simp only [List.inits, List.map_cons, List.map_nil, List.mem_cons, List.not_mem_nil, or_false] at this
    rcases this with rfl | rfl | rfl
    · exact ⟨by norm_num, by simpa using F64.rep_int (n := 0) (by decide)⟩
    · exact ⟨by norm_num, by simpa using F64.rep_int (n := 1) (by decide)⟩
    · exact ⟨by norm_num, by norm_num; exact hh⟩)
  norm_num at this
  exact this
example (h : Heap) : Ordered h [.string (S "a"), .string (S "b")] := .inr (.inl (by simp [XItem.atomize]))
example (h : Heap) : ¬ Comparable (XItem.atomize h (.string (S "a"))) (XItem.atomize h (.integer 1)) := by simp [XItem.atomize, Comparable, asDouble]

end Amxml
