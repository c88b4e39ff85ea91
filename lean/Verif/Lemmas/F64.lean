import Verif.Model.F64

/-!
# Order laws of `f64`

Every float that is not NaN has a key, a triple of integers; `<` and `==` are the lexicographic order and the equality
of keys, and NaN is incomparable.
-/

namespace Amxml.F64

open Float.Model (UnpackedFloat)

/-- The key of a float: class (−∞, negative, zero, positive, ∞), signed exponent, signed mantissa; `none` for NaN. -/
def ukey : UnpackedFloat → Option (Int × Int × Int)
  | .notANumber => none
  | .infinity .negative => some (-2, 0, 0)
  | .infinity .positive => some (2, 0, 0)
  | .zero _ => some (0, 0, 0)
  | .finite .negative m e _ => some (-1, -e, -(m : Int))
  | .finite .positive m e _ => some (1, e, (m : Int))

/-- Lexicographic order of keys. -/
def KeyLt (a b : Int × Int × Int) : Prop :=
  a.1 < b.1 ∨ (a.1 = b.1 ∧ (a.2.1 < b.2.1 ∨ (a.2.1 = b.2.1 ∧ a.2.2 < b.2.2)))

/-- The key of an `f64`. -/
def key (f : F64) : Option (Int × Int × Int) := ukey f.unpack

theorem ucompare_key (a b : UnpackedFloat) :
    match ukey a, ukey b with
    | some x, some y => (a.compare b = some .lt ↔ KeyLt x y) ∧ (a.compare b = some .eq ↔ x = y) ∧
        (a.compare b = some .gt ↔ KeyLt y x)
    | _, _ => a.compare b = none := by
  have key2 : ∀ (e₁ e₂ : Int) (m₁ m₂ : Nat),
      ((compare e₁ e₂).then (compare m₁ m₂) = .lt ↔ e₁ < e₂ ∨ (e₁ = e₂ ∧ m₁ < m₂)) ∧
      ((compare e₁ e₂).then (compare m₁ m₂) = .eq ↔ e₁ = e₂ ∧ m₁ = m₂) ∧
      ((compare e₁ e₂).then (compare m₁ m₂) = .gt ↔ e₂ < e₁ ∨ (e₂ = e₁ ∧ m₂ < m₁)) := by
    intro e₁ e₂ m₁ m₂
    have n1 : ¬ (e₁ < e₂ ∧ e₂ < e₁) := by omega
    rcases Int.lt_trichotomy e₁ e₂ with h | h | h
    · have h2 : compare e₁ e₂ = .lt := Int.compare_eq_lt.mpr h
      rw [h2]; simp only [Ordering.then]
      refine ⟨?_, ?_, ?_⟩ <;> simp <;> omega
    · have h2 : compare e₁ e₂ = .eq := Int.compare_eq_eq.mpr h
      rw [h2]; simp only [Ordering.then, Nat.compare_eq_lt, Nat.compare_eq_eq, Nat.compare_eq_gt]
      omega
    · have h2 : compare e₁ e₂ = .gt := Int.compare_eq_gt.mpr h
      rw [h2]; simp only [Ordering.then]
      refine ⟨?_, ?_, ?_⟩ <;> simp <;> omega
  match a, b with
  | .notANumber, _ => simp [ukey, UnpackedFloat.compare]
  | .infinity s, .notANumber => cases s <;> simp [ukey, UnpackedFloat.compare]
  | .zero s, .notANumber => simp [ukey, UnpackedFloat.compare]
  | .finite s _ _ _, .notANumber => cases s <;> simp [ukey, UnpackedFloat.compare]
  | .infinity s, .infinity t => cases s <;> cases t <;> simp [ukey, UnpackedFloat.compare, KeyLt] <;> decide
  | .infinity s, .zero t => cases s <;> simp [ukey, UnpackedFloat.compare, KeyLt]
  | .infinity s, .finite t _ _ _ => cases s <;> cases t <;> simp [ukey, UnpackedFloat.compare, KeyLt]
  | .zero s, .infinity t => cases t <;> simp [ukey, UnpackedFloat.compare, KeyLt]
  | .zero s, .zero t => simp [ukey, UnpackedFloat.compare, KeyLt]
  | .zero s, .finite t _ _ _ => cases t <;> simp [ukey, UnpackedFloat.compare, KeyLt]
  | .finite s _ _ _, .infinity t => cases s <;> cases t <;> simp [ukey, UnpackedFloat.compare, KeyLt]
  | .finite s _ _ _, .zero t => cases s <;> simp [ukey, UnpackedFloat.compare, KeyLt]
  | .finite s m₁ e₁ _, .finite t m₂ e₂ _ =>
    have k := key2 e₁ e₂ m₁ m₂
    match s, t with
    | .positive, .positive =>
      simp only [ukey, UnpackedFloat.compare, KeyLt, Option.some.injEq, k.1, k.2.1, k.2.2, Prod.mk.injEq,
        true_and, Int.lt_irrefl, false_or]
      omega
    | .positive, .negative => simp [ukey, UnpackedFloat.compare, KeyLt]
    | .negative, .positive => simp [ukey, UnpackedFloat.compare, KeyLt]
    | .negative, .negative =>
      simp only [ukey, UnpackedFloat.compare, KeyLt, Option.some.injEq, Ordering.swap_eq_lt, Ordering.swap_eq_eq,
        Ordering.swap_eq_gt, k.1, k.2.1, k.2.2, Prod.mk.injEq,
        true_and, Int.lt_irrefl, false_or]
      omega

theorem isNan_iff (a : F64) : isNan a = true ↔ key a = none := by
  unfold isNan key Float.Model.isNaN
  generalize a.unpack = u
  match u with
  | .notANumber => simp [ukey, UnpackedFloat.isNaN]
  | .infinity s => cases s <;> simp [ukey, UnpackedFloat.isNaN]
  | .zero s => simp [ukey, UnpackedFloat.isNaN]
  | .finite s _ _ _ => cases s <;> simp [ukey, UnpackedFloat.isNaN]

theorem lt_iff (a b : F64) : lt a b = true ↔ ∃ x y, key a = some x ∧ key b = some y ∧ KeyLt x y := by
  have k := ucompare_key a.unpack b.unpack
  unfold lt Float.Model.lt UnpackedFloat.lt key
  split at k <;> rename_i hx hy
  · rw [hx, hy]; simp [k.1]
  · rw [k]; simp only [reduceCtorEq, beq_iff_eq, false_iff, not_exists]
    rintro x y ⟨h1, h2, _⟩; exact hy x y h1 h2

theorem eq_iff (a b : F64) : eq a b = true ↔ ∃ x, key a = some x ∧ key b = some x := by
  have k := ucompare_key a.unpack b.unpack
  unfold eq Float.Model.beq UnpackedFloat.beq key
  split at k <;> rename_i hx hy
  · rw [hx, hy]; simp only [beq_iff_eq, k.2.1, Option.some.injEq]
    constructor
    · rintro rfl; exact ⟨_, rfl, rfl⟩
    · rintro ⟨z, rfl, rfl⟩; rfl
  · rw [k]; simp only [reduceCtorEq, beq_iff_eq, false_iff, not_exists]
    rintro x ⟨h1, h2⟩; exact hy x x h1 h2

theorem eq_comm (a b : F64) : eq a b = eq b a := by
  rw [Bool.eq_iff_iff, eq_iff, eq_iff]; constructor <;> rintro ⟨x, h1, h2⟩ <;> exact ⟨x, h2, h1⟩

theorem lt_nan_left (a b : F64) (h : isNan a = true) : lt a b = false := by
  rw [Bool.eq_false_iff]; intro k; rw [isNan_iff] at h; rw [lt_iff] at k; obtain ⟨x, y, h1, _⟩ := k; simp [h] at h1

theorem lt_nan_right (a b : F64) (h : isNan b = true) : lt a b = false := by
  rw [Bool.eq_false_iff]; intro k; rw [isNan_iff] at h; rw [lt_iff] at k; obtain ⟨x, y, _, h1, _⟩ := k; simp [h] at h1

theorem eq_nan_left (a b : F64) (h : isNan a = true) : eq a b = false := by
  rw [Bool.eq_false_iff]; intro k; rw [isNan_iff] at h; rw [eq_iff] at k; obtain ⟨x, h1, _⟩ := k; simp [h] at h1

theorem eq_nan_right (a b : F64) (h : isNan b = true) : eq a b = false := by rw [eq_comm, eq_nan_left _ _ h]

theorem eq_refl (a : F64) (h : isNan a = false) : eq a a = true := by
  rw [eq_iff]
  cases hk : key a with
  | none => rw [(isNan_iff a).mpr hk] at h; simp at h
  | some x => exact ⟨x, rfl, rfl⟩

theorem lt_irrefl (a : F64) : lt a a = false := by
  rw [Bool.eq_false_iff]; intro k; rw [lt_iff] at k
  obtain ⟨x, y, h1, h2, h3⟩ := k
  rw [h1] at h2; cases h2; unfold KeyLt at h3; omega

theorem lt_asymm (a b : F64) (h : lt a b = true) : lt b a = false := by
  rw [Bool.eq_false_iff]; intro k; rw [lt_iff] at k h
  obtain ⟨x, y, h1, h2, h3⟩ := k
  obtain ⟨x', y', h1', h2', h3'⟩ := h
  rw [h1] at h2'; rw [h2] at h1'; cases h1'; cases h2'; unfold KeyLt at h3 h3'; omega

theorem lt_trans (a b c : F64) (h : lt a b = true) (g : lt b c = true) : lt a c = true := by
  rw [lt_iff] at *
  obtain ⟨x, y, h1, h2, h3⟩ := h
  obtain ⟨x', y', h1', h2', h3'⟩ := g
  rw [h2] at h1'; cases h1'
  exact ⟨x, y', h1, h2', by unfold KeyLt at *; omega⟩

theorem eq_trans (a b c : F64) (h : eq a b = true) (g : eq b c = true) : eq a c = true := by
  rw [eq_iff] at *
  obtain ⟨x, h1, h2⟩ := h
  obtain ⟨x', h1', h2'⟩ := g
  rw [h2] at h1'; cases h1'
  exact ⟨x, h1, h2'⟩

theorem lt_not_eq (a b : F64) (h : lt a b = true) : eq a b = false := by
  rw [Bool.eq_false_iff]; intro k; rw [eq_iff] at k; rw [lt_iff] at h
  obtain ⟨x, h1, h2⟩ := k
  obtain ⟨x', y', h1', h2', h3'⟩ := h
  rw [h1] at h1'; rw [h2] at h2'; cases h1'; cases h2'; unfold KeyLt at h3'; omega

theorem trichotomy (a b : F64) (ha : isNan a = false) (hb : isNan b = false) :
    lt a b = true ∨ eq a b = true ∨ lt b a = true := by
  rw [lt_iff, lt_iff, eq_iff]
  cases hx : key a with
  | none => rw [(isNan_iff a).mpr hx] at ha; simp at ha
  | some x =>
    cases hy : key b with
    | none => rw [(isNan_iff b).mpr hy] at hb; simp at hb
    | some y =>
      obtain ⟨x1, x2, x3⟩ := x
      obtain ⟨y1, y2, y3⟩ := y
      by_cases h1 : KeyLt (x1, x2, x3) (y1, y2, y3)
      · exact .inl ⟨_, _, rfl, rfl, h1⟩
      · by_cases h2 : KeyLt (y1, y2, y3) (x1, x2, x3)
        · exact .inr (.inr ⟨_, _, rfl, rfl, h2⟩)
        · refine .inr (.inl ⟨(x1, x2, x3), rfl, ?_⟩)
          unfold KeyLt at h1 h2
          simp only [Option.some.injEq, Prod.mk.injEq]
          simp only at h1 h2
          omega

end Amxml.F64
