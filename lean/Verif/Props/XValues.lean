import Verif.Props.XRound
import Verif.Spec.Values

/-!
# C101: numbers are compared by value
-/

namespace Amxml
open Spec
open Float.Model (UnpackedFloat)

theorem float_is (f : F64) : ∃ v, FloatIs f v := by
  cases hu : f.unpack with
  | notANumber => exact ⟨.nan, hu⟩
  | infinity s => cases s; exacts [⟨.minusInfinity, hu⟩, ⟨.infinity, hu⟩]
  | zero s => exact ⟨.real 0, by show F64.uval f.unpack = _; rw [hu]; rfl⟩
  | finite s m e hm =>
    cases s
    · exact ⟨.real _, by show F64.uval f.unpack = _; rw [hu]; rfl⟩
    · exact ⟨.real _, by show F64.uval f.unpack = _; rw [hu]; rfl⟩

theorem val_unpack {f : F64} {q : ℚ} (h : F64.val f = some q) : f.unpack ≠ .notANumber ∧ ∀ s, f.unpack ≠ .infinity s := by
  rcases F64.val_cases h with ⟨s, e, _⟩ | ⟨m, x, hm, _, e, _⟩ | ⟨m, x, hm, _, e, _⟩ <;> rw [e] <;> simp

theorem float_is_unique {f : F64} {v w : Number} (hv : FloatIs f v) (hw : FloatIs f w) : v = w := by
  cases v <;> cases w <;> simp only [FloatIs] at hv hw <;>
    first
    | rfl
    | (rw [hv] at hw; cases hw; done)
    | (rw [hv] at hw; cases hw; rfl)
    | exact absurd hv (val_unpack hw).1
    | exact absurd hw (val_unpack hv).1
    | exact absurd hv ((val_unpack hw).2 _)
    | exact absurd hw ((val_unpack hv).2 _)

theorem finite_shape {f : F64} {q : ℚ} (h : FloatIs f (.real q)) :
    ∃ u, f.unpack = u ∧ ((∃ s, u = .zero s) ∨ ∃ s m e hm, u = .finite s m e hm) := by
  rcases F64.val_cases h with ⟨s, e, _⟩ | ⟨m, x, hm, _, e, _⟩ | ⟨m, x, hm, _, e, _⟩
  · exact ⟨_, e, .inl ⟨s, rfl⟩⟩
  · exact ⟨_, e, .inr ⟨_, m, x, hm, rfl⟩⟩
  · exact ⟨_, e, .inr ⟨_, m, x, hm, rfl⟩⟩

theorem float_compare {f g : F64} {v w : Number} (hv : FloatIs f v) (hw : FloatIs g w) :
    (F64.lt f g = true ↔ v.Less w) ∧ (F64.eq f g = true ↔ v.Equal w) := by
  have e : ∀ x, F64.lt f g = x ↔ UnpackedFloat.lt f.unpack g.unpack = x := fun _ => Iff.rfl
  have e' : ∀ x, F64.eq f g = x ↔ UnpackedFloat.beq f.unpack g.unpack = x := fun _ => Iff.rfl
  cases v <;> cases w
  case real.real p q => exact ⟨F64.lt_val hv hw, F64.eq_val hv hw⟩
  all_goals rw [e, e']
  case nan.real q => obtain ⟨u, hu, hw⟩ := finite_shape hw; rw [hu, show f.unpack = _ from hv]; rcases hw with ⟨s, rfl⟩ | ⟨s, m, x, hm, rfl⟩ <;> simp [Number.Less, Number.Equal, UnpackedFloat.lt, UnpackedFloat.beq, UnpackedFloat.compare]
  case minusInfinity.real q => obtain ⟨u, hu, hw⟩ := finite_shape hw; rw [hu, show f.unpack = _ from hv]; rcases hw with ⟨s, rfl⟩ | ⟨s, m, x, hm, rfl⟩ <;> simp [Number.Less, Number.Equal, UnpackedFloat.lt, UnpackedFloat.beq, UnpackedFloat.compare]
  case infinity.real q => obtain ⟨u, hu, hw⟩ := finite_shape hw; rw [hu, show f.unpack = _ from hv]; rcases hw with ⟨s, rfl⟩ | ⟨s, m, x, hm, rfl⟩ <;> simp [Number.Less, Number.Equal, UnpackedFloat.lt, UnpackedFloat.beq, UnpackedFloat.compare]
  case real.nan q => obtain ⟨u, hu, hv⟩ := finite_shape hv; rw [hu, show g.unpack = _ from hw]; rcases hv with ⟨s, rfl⟩ | ⟨s, m, x, hm, rfl⟩ <;> simp [Number.Less, Number.Equal, UnpackedFloat.lt, UnpackedFloat.beq, UnpackedFloat.compare]
  case real.minusInfinity q => obtain ⟨u, hu, hv⟩ := finite_shape hv; rw [hu, show g.unpack = _ from hw]; rcases hv with ⟨s, rfl⟩ | ⟨s, m, x, hm, rfl⟩ <;> simp [Number.Less, Number.Equal, UnpackedFloat.lt, UnpackedFloat.beq, UnpackedFloat.compare]
  case real.infinity q => obtain ⟨u, hu, hv⟩ := finite_shape hv; rw [hu, show g.unpack = _ from hw]; rcases hv with ⟨s, rfl⟩ | ⟨s, m, x, hm, rfl⟩ <;> simp [Number.Less, Number.Equal, UnpackedFloat.lt, UnpackedFloat.beq, UnpackedFloat.compare]
  all_goals
    rw [show f.unpack = _ from hv, show g.unpack = _ from hw]
    simp [Number.Less, Number.Equal, UnpackedFloat.lt, UnpackedFloat.beq, UnpackedFloat.compare]
  all_goals rfl

theorem nan_iff {f : F64} {v : Number} (hv : FloatIs f v) : F64.isNan f = true ↔ v = .nan := by
  have e : F64.isNan f = f.unpack.isNaN := rfl
  cases v with
  | nan => rw [e, show f.unpack = _ from hv]; simp [UnpackedFloat.isNaN]
  | minusInfinity => rw [e, show f.unpack = _ from hv]; simp [UnpackedFloat.isNaN]
  | infinity => rw [e, show f.unpack = _ from hv]; simp [UnpackedFloat.isNaN]
  | real q =>
    obtain ⟨u, hu, hv⟩ := finite_shape hv
    rw [e, hu]
    rcases hv with ⟨s, rfl⟩ | ⟨s, m, x, hm, rfl⟩ <;> simp [UnpackedFloat.isNaN]

theorem rounded_is {x : ℚ} {f g : F64} {v : Number} (hf : F64.Rounded x f) (hg : F64.Rounded x g) (hv : FloatIs f v) : FloatIs g v := by
  by_cases h : |x| < F64.limit
  · obtain ⟨y, hy, -⟩ := hf.1 h
    obtain rfl := float_is_unique hv (w := .real y) hy
    exact (hf.unique hg).symm.trans hy
  · rcases le_or_gt 0 x with h0 | h0
    · rw [abs_of_nonneg h0] at h
      obtain rfl := float_is_unique hv (w := .infinity) (hf.2.1 (not_lt.1 h))
      exact hg.2.1 (not_lt.1 h)
    · rw [abs_of_neg h0] at h
      obtain rfl := float_is_unique hv (w := .minusInfinity) (hf.2.2 (by linarith [not_lt.1 h]))
      exact hg.2.2 (by linarith [not_lt.1 h])

theorem counts_double {x : XItem} {v : Number} (h : CountsAs x v) : ∃ d, asDouble x = some d ∧ FloatIs d v := by
  cases x with
  | integer n =>
    obtain ⟨a, h1, h2⟩ := h
    exact ⟨_, rfl, rounded_is h1 (rounded_intToDec n) h2⟩
  | decimal d => exact ⟨d, rfl, h⟩
  | double d => exact ⟨d, rfl, h⟩
  | _ => exact h.elim

/-- **C101.** Every number counts as exactly one value; an integer up to `2 ^ 53` in size as itself. -/
theorem C101_value (x : XItem) :
    ((asDouble x).isSome = true → ∃ v, CountsAs x v ∧ ∀ w, CountsAs x w → w = v) ∧
    (∀ n : Int, x = .integer n → n.natAbs ≤ 2 ^ 53 → CountsAs x (.real n)) := by
  refine ⟨fun hx => ?_, ?_⟩
  · cases x with
    | integer n =>
      obtain ⟨v, hv⟩ := float_is (F64.ofInt n)
      refine ⟨v, ⟨_, F64.rounded_ofInt n, hv⟩, ?_⟩
      rintro w ⟨a, h1, h2⟩
      exact float_is_unique (rounded_is h1 (F64.rounded_ofInt n) h2) hv
    | decimal d =>
      obtain ⟨v, hv⟩ := float_is d
      exact ⟨v, hv, fun w hw => float_is_unique hw hv⟩
    | double d =>
      obtain ⟨v, hv⟩ := float_is d
      exact ⟨v, hv, fun w hw => float_is_unique hw hv⟩
    | _ => simp [asDouble] at hx
  · rintro n rfl hn
    exact ⟨_, F64.rounded_ofInt n, F64.val_ofInt hn⟩

theorem rel_congr {α β : Type} {lt eq : α → α → Prop} {lt' eq' : β → β → Prop} (op : Cmp) {a b : α} {a' b' : β}
    (h1 : lt a b ↔ lt' a' b') (h2 : eq a b ↔ eq' a' b') (h3 : lt b a ↔ lt' b' a') : op.rel lt eq a b ↔ op.rel lt' eq' a' b' := by
  cases op <;> simp only [Cmp.rel, h1, h2, h3]

theorem holds_values (op : Cmp) {x y : XItem} {a b : Number} (hx : CountsAs x a) (hy : CountsAs y b) (hxy : NotInteger x ∨ NotInteger y) :
    Holds op x y ↔ op.rel Number.Less Number.Equal a b := by
  have main : (∃ d e, asDouble x = some d ∧ asDouble y = some e ∧ op.rel (fun a b => F64.lt a b = true) (fun a b => F64.eq a b = true) d e) ↔
      op.rel Number.Less Number.Equal a b := by
    obtain ⟨d, hd, fd⟩ := counts_double hx
    obtain ⟨e, he, fe⟩ := counts_double hy
    have := rel_congr (lt := fun a b => F64.lt a b = true) (eq := fun a b => F64.eq a b = true) op
      (float_compare fd fe).1 (float_compare fd fe).2 (float_compare fe fd).1
    rw [← this]
    constructor
    · rintro ⟨d', e', h1, h2, h3⟩
      rw [hd] at h1; rw [he] at h2
      cases h1; cases h2
      exact h3
    · intro h3
      exact ⟨d, e, hd, he, h3⟩
  rw [← main]
  cases x <;> cases y <;> first | exact hx.elim | exact hy.elim | exact Iff.rfl | skip
  exact hxy.elim (fun h => absurd rfl (h _)) (fun h => absurd rfl (h _))

theorem nanPair_values {x y : XItem} {a b : Number} (hx : CountsAs x a) (hy : CountsAs y b) (h : NaNPair x y) : a = .nan ∨ b = .nan := by
  obtain ⟨d, hd, fd⟩ := counts_double hx
  obtain ⟨e, he, fe⟩ := counts_double hy
  obtain ⟨_, d', e', h1, h2, h3⟩ := h
  rw [hd] at h1; rw [he] at h2
  cases h1; cases h2
  exact h3.imp (nan_iff fd).1 (nan_iff fe).1

theorem counts_atomize (h : Heap) {x : XItem} {v : Number} (hx : CountsAs x v) : x.atomize h = x := by
  cases x <;> first | rfl | exact hx.elim

theorem counts_comparable {x y : XItem} {a b : Number} (hx : CountsAs x a) (hy : CountsAs y b) : Comparable x y := by
  obtain ⟨d, hd, -⟩ := counts_double hx
  obtain ⟨e, he, -⟩ := counts_double hy
  exact .inl ⟨by rw [hd]; rfl, by rw [he]; rfl⟩

/-- **C101.** `x op y` and the value comparison, for two numbers of which one at least is a decimal or a double: the numbers are compared
by value. (For `<=` and `>=` NaN is left out: see `C38_violated`.) -/
theorem C101_compare (h : Heap) (op : Cmp) (x y : XItem) (a b : Number) (hx : CountsAs x a) (hy : CountsAs y b)
    (hxy : NotInteger x ∨ NotInteger y) (hn : (a ≠ .nan ∧ b ≠ .nan) ∨ (op ≠ .le ∧ op ≠ .ge)) :
    ∃ t : Bool, (t = true ↔ op.rel Number.Less Number.Equal a b) ∧
      OpGives h op.general [x] [y] [.boolean t] ∧ OpGives h op.value [x] [y] [.boolean t] := by
  have ex := counts_atomize h hx
  have ey := counts_atomize h hy
  have key : (Holds op x y ∨ NaNCase op x y) ↔ op.rel Number.Less Number.Equal a b := by
    rw [holds_values op hx hy hxy]
    refine or_iff_left ?_
    intro hc
    rcases hn with hn | hn
    · have : NaNPair x y := by cases op <;> simp only [NaNCase] at hc <;> exact hc
      rcases nanPair_values hx hy this with h | h
      · exact hn.1 h
      · exact hn.2 h
    · cases op <;> simp_all [NaNCase]
  obtain ⟨t, h1, h2⟩ := (C37_expression h op [x] [y]).1
  obtain ⟨u, h3, h4⟩ := (C39_expression h op x y).1 (by rw [ex, ey]; exact counts_comparable hx hy)
  simp only [List.mem_singleton, exists_eq_left, ex, ey, key] at h2 h4
  obtain rfl : t = u := by rw [Bool.eq_iff_iff, h2, h4]
  exact ⟨t, h2, h1, h3⟩

/-- **C101.** Two integers are compared exactly, whatever their size. -/
theorem C101_integers (h : Heap) (op : Cmp) (m n : Int) :
    ∃ t : Bool, (t = true ↔ op.rel (· < ·) (· = ·) m n) ∧
      OpGives h op.general [.integer m] [.integer n] [.boolean t] ∧ OpGives h op.value [.integer m] [.integer n] [.boolean t] := by
  have key : (Holds op (.integer m) (.integer n) ∨ NaNCase op (.integer m) (.integer n)) ↔ op.rel (· < ·) (· = ·) m n := by
    refine or_iff_left ?_
    intro hc
    have : NaNPair (.integer m) (.integer n) := by cases op <;> simp only [NaNCase] at hc <;> exact hc
    exact this.1 m n ⟨rfl, rfl⟩
  obtain ⟨t, h1, h2⟩ := (C37_expression h op [.integer m] [.integer n]).1
  obtain ⟨u, h3, h4⟩ := (C39_expression h op (.integer m) (.integer n)).1 (.inl ⟨rfl, rfl⟩)
  have e : ∀ k : Int, (XItem.integer k).atomize h = .integer k := fun _ => rfl
  simp only [List.mem_singleton, exists_eq_left, e, key] at h2 h4
  obtain rfl : t = u := by rw [Bool.eq_iff_iff, h2, h4]
  exact ⟨t, h2, h1, h3⟩

/-- **C101.** The order that this gives: of two values other than NaN, exactly one of `<`, `=` and `>` holds; `<` and `=` are transitive;
`<=` and `>=` are `<` or `=` and `>` or `=`, `!=` is the opposite of `=`. -/
theorem C101_order (a b c : Number) :
    (a ≠ .nan → b ≠ .nan → (a.Less b ∧ ¬ a.Equal b ∧ ¬ b.Less a) ∨ (¬ a.Less b ∧ a.Equal b ∧ ¬ b.Less a) ∨
      (¬ a.Less b ∧ ¬ a.Equal b ∧ b.Less a)) ∧
    (a.Less b → b.Less c → a.Less c) ∧ (a.Equal b → b.Equal c → a.Equal c) ∧ (a.Equal b → b.Equal a) ∧
    (¬ Number.nan.Less a ∧ ¬ a.Less .nan ∧ ¬ a.Equal .nan) := by
  refine ⟨?_, ?_, ?_, ?_, ?_⟩
  · cases a <;> cases b <;> simp [Number.Less, Number.Equal]
    rename_i p q
    rcases lt_trichotomy p q with h | h | h
    · exact .inl ⟨h, h.ne, h.le⟩
    · exact .inr (.inl ⟨h.ge, h, h.le⟩)
    · exact .inr (.inr ⟨h.le, h.ne', h⟩)
  · cases a <;> cases b <;> cases c <;> simp [Number.Less]
    exact lt_trans
  · cases a <;> cases b <;> cases c <;> simp [Number.Equal]
    exact Eq.trans
  · cases a <;> cases b <;> simp [Number.Equal]
    exact Eq.symm
  · cases a <;> simp [Number.Less, Number.Equal]

/-- `1 < 1.5`: an integer and a decimal. -/
example (h : Heap) : OpGives h .operatorGeneralLT [.integer 1] [.decimal (F64.ofInt 3 / F64.ofInt 2)] [.boolean true] := by
  have h2 : F64.val (F64.ofInt 3 / F64.ofInt 2) = some (3 / 2) := by
    have := F64.val_div (F64.val_ofInt (n := 3) (by decide)) (F64.val_ofInt (n := 2) (by decide)) (by norm_num)
      ⟨Float.Model.ofScientific 15 (-1), by decide +kernel⟩
    simpa using this
  obtain ⟨t, h1, h3, -⟩ := C101_compare h .lt (.integer 1) (.decimal (F64.ofInt 3 / F64.ofInt 2)) (.real 1) (.real (3 / 2))
    (by simpa using (C101_value (.integer 1)).2 1 rfl (by decide)) h2 (.inr (by intro n hh; cases hh)) (.inl ⟨by simp, by simp⟩)
  obtain rfl : t = true := h1.2 (by show (1 : ℚ) < 3 / 2; norm_num)
  exact h3

end Amxml
