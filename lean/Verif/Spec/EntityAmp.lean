import Verif.Spec.Entity

/-!
# Which references to `&` are read as what they are
-/

namespace Amxml.Spec

/-- The text after an ampersand makes the two together look like a reference: it begins with `#`, or with the name of a predefined entity and `;`. -/
def LooksLikeReference (s : Str) : Prop := ['#'] <+: s ∨ ∃ e : Ent, (e.name ++ [';']) <+: s

instance (s : Str) : Decidable (LooksLikeReference s) :=
  decidable_of_iff (['#'] <+: s ∨ ∃ e ∈ [Ent.lt, .gt, .amp, .quot, .apos], (e.name ++ [';']) <+: s)
    ⟨fun h => h.imp_right fun ⟨e, _, h⟩ => ⟨e, h⟩, fun h => h.imp_right fun ⟨e, h⟩ => ⟨e, by cases e <;> simp, h⟩⟩

instance (p : Piece) : Decidable p.isNumAmp := by cases p <;> unfold Piece.isNumAmp <;> infer_instance

/-- No numeric reference to `&` stands before text that would make it look like the beginning of another reference. -/
def Unambiguous : List Piece → Prop
  | [] => True
  | p :: ps => (p.isNumAmp → ¬ LooksLikeReference (meaningAll ps)) ∧ Unambiguous ps

instance instDecidableUnambiguous : (ps : List Piece) → Decidable (Unambiguous ps)
  | [] => .isTrue trivial
  | p :: ps => have := instDecidableUnambiguous ps; by unfold Unambiguous; infer_instance

end Amxml.Spec
