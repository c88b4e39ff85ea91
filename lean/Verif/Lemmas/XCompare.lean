import Verif.Spec.XCompare
import Verif.Model.XSeq
import Verif.Lemmas.F64

/-! # Lemmas on comparisons -/

namespace Amxml
open Spec

theorem strLt_iff (a b : Str) : strLt a b = true ↔ StrBefore a b := by
  induction a generalizing b with
  | nil =>
    cases b with
    | nil =>
      simp only [strLt, StrBefore]
      constructor
      · intro h; cases h
      · rintro (⟨c, t, h⟩ | ⟨p, x, y, s, t, h, _⟩) <;> simp at h
    | cons c t => simp only [strLt, true_iff]; exact .inl ⟨c, t, rfl⟩
  | cons x s ih =>
    cases b with
    | nil =>
      simp only [strLt, StrBefore]
      constructor
      · intro h; cases h
      · rintro (⟨c, t, h⟩ | ⟨p, x, y, s, t, _, h, _⟩) <;> simp at h
    | cons y t =>
      simp only [strLt, Bool.or_eq_true, decide_eq_true_eq, Bool.and_eq_true, beq_iff_eq, ih]
      constructor
      · rintro (h | ⟨rfl, h⟩)
        · exact .inr ⟨[], x, y, s, t, rfl, rfl, h⟩
        · rcases h with ⟨c, u, rfl⟩ | ⟨p, x', y', s', t', rfl, rfl, h⟩
          · exact .inl ⟨c, u, rfl⟩
          · exact .inr ⟨x :: p, x', y', s', t', rfl, rfl, h⟩
      · rintro (⟨c, u, h⟩ | ⟨p, x', y', s', t', h1, h2, h⟩)
        · simp only [List.cons_append, List.cons.injEq] at h
          obtain ⟨rfl, rfl⟩ := h
          exact .inr ⟨rfl, .inl ⟨c, u, rfl⟩⟩
        · cases p with
          | nil =>
            simp only [List.nil_append, List.cons.injEq] at h1 h2
            obtain ⟨rfl, rfl⟩ := h1; obtain ⟨rfl, rfl⟩ := h2
            exact .inl h
          | cons z p =>
            simp only [List.cons_append, List.cons.injEq] at h1 h2
            obtain ⟨rfl, rfl⟩ := h1; obtain ⟨rfl, rfl⟩ := h2
            exact .inr ⟨rfl, .inr ⟨p, x', y', s', t', rfl, rfl, h⟩⟩

theorem strBefore_irrefl (a : Str) : ¬ StrBefore a a := by
  rw [← strLt_iff]
  induction a with
  | nil => simp [strLt]
  | cons x s ih => simpa [strLt] using ih

theorem strBefore_total (a b : Str) : StrBefore a b ∨ a = b ∨ StrBefore b a := by
  simp only [← strLt_iff]
  induction a generalizing b with
  | nil => cases b <;> simp [strLt]
  | cons x s ih =>
    cases b with
    | nil => simp [strLt]
    | cons y t =>
      simp only [strLt, Bool.or_eq_true, decide_eq_true_eq, Bool.and_eq_true, beq_iff_eq, List.cons.injEq]
      rcases Nat.lt_trichotomy x.toNat y.toNat with h | h | h
      · exact .inl (.inl h)
      · have hxy : x = y := by
          apply Char.ext; apply UInt32.toNat_inj.mp; exact h
        subst hxy
        rcases ih t with g | g | g
        · exact .inl (.inr ⟨rfl, g⟩)
        · exact .inr (.inl ⟨rfl, g⟩)
        · exact .inr (.inr (.inr ⟨rfl, g⟩))
      · exact .inr (.inr (.inl h))

theorem strBefore_asymm (a b : Str) : StrBefore a b → ¬ StrBefore b a := by
  simp only [← strLt_iff]
  induction a generalizing b with
  | nil => cases b <;> simp [strLt]
  | cons x s ih =>
    cases b with
    | nil => simp [strLt]
    | cons y t =>
      simp only [strLt, Bool.or_eq_true, decide_eq_true_eq, Bool.and_eq_true, beq_iff_eq]
      rintro (h | ⟨rfl, h⟩) (g | ⟨g, g'⟩)
      · omega
      · subst g; omega
      · omega
      · exact ih _ h g'

/-- The integer that `fn_compare` / `xitem_compare` return for strings, against the order. -/
theorem strOrd_lt (a b : Str) : (if strLt a b = true then (-1 : Int) else if a = b then 0 else 1) < 0 ↔ StrBefore a b := by
  rw [← strLt_iff]; split
  · simp_all
  · split <;> simp_all

theorem strOrd_eq (a b : Str) : (if strLt a b = true then (-1 : Int) else if a = b then 0 else 1) = 0 ↔ a = b := by
  split
  · rename_i h; rw [strLt_iff] at h
    constructor
    · intro g; omega
    · rintro rfl; exact absurd h (strBefore_irrefl a)
  · split <;> simp_all

theorem strOrd_gt (a b : Str) : 0 < (if strLt a b = true then (-1 : Int) else if a = b then 0 else 1) ↔ StrBefore b a := by
  split
  · rename_i h; rw [strLt_iff] at h
    constructor
    · intro g; omega
    · intro g; exact absurd g (strBefore_asymm _ _ h)
  · rename_i h; rw [strLt_iff] at h
    split
    · subst_vars; simp [strBefore_irrefl]
    · rename_i g
      have := strBefore_total a b
      simp only [Int.zero_lt_one, true_iff]
      rcases this with k | k | k
      · exact absurd k h
      · exact absurd k g
      · exact k

end Amxml
