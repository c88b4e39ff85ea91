import Verif.Lemmas.Entity
import Verif.Spec.EntityAmp

/-!
# References to `&` that are not taken for the beginning of another reference
-/

namespace Amxml
open Spec
namespace EntityAmp

/-- A part of a text during one of the two passes over the numeric references: an ampersand that stands for itself, text in which no reference of the
pass begins, or a reference with its body. -/
inductive Blk where
  | amp
  | inert (w : Str)
  | ref (body : Str)

/-- How it is written. -/
def Blk.render (ps : Str) : Blk → Str
  | .amp => ['&']
  | .inert w => w
  | .ref b => '&' :: ps ++ b ++ [';']

/-- What the pass makes of it. -/
def Blk.final (radix : Nat) : Blk → Str
  | .amp => ['&']
  | .inert w => w
  | .ref b => [refChar radix b]

/-- One character. -/
def single (c : Char) : Blk := if c = '&' then .amp else .inert [c]

/-- The parts are as they should be, and what follows an ampersand does not begin with `#`. -/
def Safe (ps : Str) (radix : Nat) : List Blk → Prop
  | [] => True
  | .amp :: l => (l.flatMap (Blk.final radix)).head? ≠ some '#' ∧ Safe ps radix l
  | .inert w :: l => w ≠ [] ∧ (∀ t, splitOnce ('&' :: ps) (w ++ t) = (splitOnce ('&' :: ps) t).map fun r => (w ++ r.1, r.2)) ∧ Safe ps radix l
  | .ref b :: l => (∀ c ∈ b, c ≠ ';') ∧ (refChar radix b = '&' → (l.flatMap (Blk.final radix)).head? ≠ some '#') ∧ Safe ps radix l

theorem head_render {ps : Str} {radix : Nat} : ∀ {l : List Blk}, Safe ps radix l → ∀ t : Str,
    (l = [] → t.head? ≠ some '#') → (l.flatMap (Blk.final radix)).head? ≠ some '#' → (l.flatMap (Blk.render ps) ++ t).head? ≠ some '#'
  | [], _, t, ht, _ => by simpa using ht rfl
  | .amp :: l, _, t, _, _ => by simp [Blk.render]
  | .ref b :: l, _, t, _, _ => by simp [Blk.render]
  | .inert w :: l, h, t, _, hf => by
    obtain ⟨c, w, rfl⟩ := List.exists_cons_of_ne_nil h.1
    simpa [Blk.render, Blk.final] using hf

theorem splitOnce_amp {ps t : Str} (h : t.head? ≠ some '#') :
    splitOnce ('&' :: '#' :: ps) ('&' :: t) = (splitOnce ('&' :: '#' :: ps) t).map fun r => ('&' :: r.1, r.2) := by
  refine splitOnce_miss '&' ('#' :: ps) [] t (by simp) ?_
  cases t with
  | nil => rfl
  | cons c t => exact stripPrefix_ne fun e => h (by simp [e])

/-- Parts without references are passed over. -/
theorem skip {ps : Str} {radix : Nat} (t : Str) (ht : t.head? ≠ some '#') : ∀ {l : List Blk}, Safe ('#' :: ps) radix l → (∀ b, .ref b ∉ l) →
    splitOnce ('&' :: '#' :: ps) (l.flatMap (Blk.render ('#' :: ps)) ++ t) =
      (splitOnce ('&' :: '#' :: ps) t).map fun r => (l.flatMap (Blk.render ('#' :: ps)) ++ r.1, r.2)
  | [], _, _ => by simp
  | .ref b :: l, _, hb => absurd (by simp) (hb b)
  | .amp :: l, h, hb => by
    have ih := skip t ht h.2 fun b hm => hb b (by simp [hm])
    simp only [List.flatMap_cons, Blk.render, List.cons_append, List.nil_append]
    rw [splitOnce_amp (head_render h.2 t (fun _ => ht) h.1), ih, Option.map_map]
    rfl
  | .inert w :: l, h, hb => by
    have ih := skip t ht h.2.2 fun b hm => hb b (by simp [hm])
    simp only [List.flatMap_cons, Blk.render, List.append_assoc]
    rw [h.2.1, ih, Option.map_map]
    rfl

theorem final_single (radix : Nat) (c : Char) : (single c).final radix = [c] := by
  unfold single; split
  · rename_i h; rw [h]; rfl
  · rfl

theorem safe_single {ps : Str} {radix : Nat} {c : Char} {l : List Blk} (h : Safe ps radix l)
    (hc : c = '&' → (l.flatMap (Blk.final radix)).head? ≠ some '#') : Safe ps radix (single c :: l) := by
  unfold single; split
  · rename_i e; exact ⟨hc e, h⟩
  · rename_i e; exact ⟨by simp, fun t => splitOnce_plain '&' ps [c] t (by simpa using e), h⟩

theorem final_resolve (radix : Nat) (b : Str) (a l : List Blk) :
    (a ++ single (refChar radix b) :: l).flatMap (Blk.final radix) = (a ++ .ref b :: l).flatMap (Blk.final radix) := by
  rw [List.flatMap_append, List.flatMap_append, List.flatMap_cons, List.flatMap_cons, final_single]
  rfl

theorem safe_resolve {ps : Str} {radix : Nat} {b : Str} {l : List Blk} : ∀ {a : List Blk}, Safe ps radix (a ++ .ref b :: l) →
    Safe ps radix (a ++ single (refChar radix b) :: l)
  | [], h => safe_single h.2.2 h.2.1
  | .amp :: a, h => by
    refine ⟨?_, safe_resolve h.2⟩
    show ((a ++ single (refChar radix b) :: l).flatMap (Blk.final radix)).head? ≠ some '#'
    rw [final_resolve]; exact h.1
  | .inert w :: a, h => ⟨h.1, h.2.1, safe_resolve h.2.2⟩
  | .ref b' :: a, h => by
    refine ⟨h.1, fun e => ?_, safe_resolve h.2.2⟩
    show ((a ++ single (refChar radix b) :: l).flatMap (Blk.final radix)).head? ≠ some '#'
    rw [final_resolve]; exact h.2.1 e

/-- Parts without references, before a reference, are passed over. -/
theorem skip_ref {ps : Str} {radix : Nat} {b : Str} {l : List Blk} (t : Str) : ∀ {a : List Blk},
    Safe ('#' :: ps) radix (a ++ .ref b :: l) → (∀ b, .ref b ∉ a) →
    splitOnce ('&' :: '#' :: ps) (a.flatMap (Blk.render ('#' :: ps)) ++ ('&' :: t)) =
      (splitOnce ('&' :: '#' :: ps) ('&' :: t)).map fun r => (a.flatMap (Blk.render ('#' :: ps)) ++ r.1, r.2)
  | [], _, _ => by simp
  | .ref b :: a, _, hb => absurd (by simp) (hb b)
  | .amp :: a, h, hb => by
    have ih := skip_ref t h.2 fun b hm => hb b (by simp [hm])
    simp only [List.flatMap_cons, Blk.render, List.cons_append, List.nil_append]
    rw [splitOnce_amp ?_, ih, Option.map_map]
    · rfl
    · cases a with
      | nil => simp
      | cons x a =>
        cases x with
        | amp => simp [Blk.render]
        | ref b => exact absurd (by simp) (hb b)
        | inert w =>
          obtain ⟨c, w, rfl⟩ := List.exists_cons_of_ne_nil h.2.1
          have := h.1
          simpa [Blk.render, Blk.final] using this
  | .inert w :: a, h, hb => by
    have ih := skip_ref t h.2.2 fun b hm => hb b (by simp [hm])
    simp only [List.flatMap_cons, Blk.render, List.append_assoc]
    rw [h.2.1, ih, Option.map_map]
    rfl

theorem first_ref : ∀ l : List Blk, (∀ b, .ref b ∉ l) ∨ ∃ a b m, l = a ++ .ref b :: m ∧ ∀ b, .ref b ∉ a
  | [] => .inl (by simp)
  | .ref b :: l => .inr ⟨[], b, l, rfl, by simp⟩
  | .amp :: l => by
    rcases first_ref l with h | ⟨a, b, m, rfl, h⟩
    · exact .inl (by simpa using h)
    · exact .inr ⟨.amp :: a, b, m, rfl, by simpa using h⟩
  | .inert w :: l => by
    rcases first_ref l with h | ⟨a, b, m, rfl, h⟩
    · exact .inl (by simpa using h)
    · exact .inr ⟨.inert w :: a, b, m, rfl, by simpa using h⟩

theorem render_single (ps : Str) (c : Char) : (single c).render ps = [c] := by
  unfold single; split
  · rename_i h; rw [h]; rfl
  · rfl

theorem final_of_none {ps : Str} {radix : Nat} : ∀ {l : List Blk}, (∀ b, .ref b ∉ l) →
    l.flatMap (Blk.render ps) = l.flatMap (Blk.final radix)
  | [], _ => rfl
  | .ref b :: l, h => absurd (by simp) (h b)
  | .amp :: l, h => by
    rw [List.flatMap_cons, List.flatMap_cons, final_of_none fun b hm => h b (by simp [hm])]; rfl
  | .inert w :: l, h => by
    rw [List.flatMap_cons, List.flatMap_cons, final_of_none fun b hm => h b (by simp [hm])]; rfl

/-- The pass replaces every reference by its character. -/
theorem pass {ps : Str} {radix : Nat} (l : List Blk) (h : Safe ('#' :: ps) radix l) :
    decodeAll ('&' :: '#' :: ps) radix (l.flatMap (Blk.render ('#' :: ps))) = l.flatMap (Blk.final radix) := by
  generalize hn : (l.flatMap (Blk.render ('#' :: ps))).length = n
  induction n using Nat.strongRecOn generalizing l with
  | ind n ih =>
    rcases first_ref l with hf | ⟨a, b, m, rfl, ha⟩
    · rw [decodeAll_eq]
      have := skip (t := []) (by simp) h hf
      rw [List.append_nil] at this
      have hs : decodeStep ('&' :: '#' :: ps) radix (l.flatMap (Blk.render ('#' :: ps))) = none := by
        unfold decodeStep
        rw [this]
        rfl
      rw [hs]
      exact final_of_none hf
    · have hb : ∀ c ∈ b, c ≠ ';' := by
        clear ih hn ha
        induction a with
        | nil => exact h.1
        | cons x a iha =>
          cases x with
          | amp => exact iha h.2
          | inert w => exact iha h.2.2
          | ref b => exact iha h.2.2
      have e : (a ++ Blk.ref b :: m).flatMap (Blk.render ('#' :: ps)) =
          a.flatMap (Blk.render ('#' :: ps)) ++ ('&' :: ('#' :: ps ++ b ++ ';' :: m.flatMap (Blk.render ('#' :: ps)))) := by
        rw [List.flatMap_append, List.flatMap_cons]
        simp [Blk.render]
      have e' : (a ++ single (refChar radix b) :: m).flatMap (Blk.render ('#' :: ps)) =
          a.flatMap (Blk.render ('#' :: ps)) ++ refChar radix b :: m.flatMap (Blk.render ('#' :: ps)) := by
        rw [List.flatMap_append, List.flatMap_cons, render_single]
        rfl
      have hs : decodeStep ('&' :: '#' :: ps) radix ((a ++ Blk.ref b :: m).flatMap (Blk.render ('#' :: ps))) =
          some ((a ++ single (refChar radix b) :: m).flatMap (Blk.render ('#' :: ps))) := by
        rw [e, e']
        unfold decodeStep
        rw [skip_ref _ h ha]
        have h1 : splitOnce ('&' :: '#' :: ps) ('&' :: ('#' :: ps ++ b ++ ';' :: m.flatMap (Blk.render ('#' :: ps)))) =
            some ([], b ++ ';' :: m.flatMap (Blk.render ('#' :: ps))) := by
          have := stripPrefix_append ('&' :: '#' :: ps) (b ++ ';' :: m.flatMap (Blk.render ('#' :: ps)))
          simp only [List.cons_append, List.append_assoc] at this ⊢
          simp [splitOnce, this]
        rw [h1]
        simp only [Option.map_some, splitOnce_semi b _ hb, List.append_nil]
      rw [decodeAll_eq, hs]
      simp only
      have hl := decodeStep_length hs
      rw [ih _ (by rw [← hn]; simp at hl ⊢; omega) _ (safe_resolve h) rfl, final_resolve]

/-- The character a reference stands for, or the literal character. -/
theorem head_meaning {ps : List Piece} {hx dc : Bool} {es : List Ent} (h : ∀ p ∈ ps, p.WF) :
    ∀ w : Str, '&' ∉ w → w <+: ps.flatMap (partialRender hx dc es) → w <+: meaningAll ps := by
  induction ps with
  | nil => intro w _ hw; simpa [meaningAll] using hw
  | cons p ps ih =>
    intro w ha hw
    cases w with
    | nil => exact List.nil_prefix
    | cons c w =>
      have hc : c ≠ '&' := fun e => ha (by simp [e])
      have key : partialRender hx dc es p = [p.meaning] ∨ ∃ r, partialRender hx dc es p = '&' :: r := by
        cases p with
        | lit c => exact .inl rfl
        | dec ds => cases dc; exact .inr ⟨_, rfl⟩; exact .inl rfl
        | hex ds => cases hx; exact .inr ⟨_, rfl⟩; exact .inl rfl
        | ent e =>
          by_cases he : e ∈ es
          · exact .inl (by simp [partialRender, he, Piece.meaning])
          · exact .inr ⟨e.name ++ [';'], by simp [partialRender, he, Piece.render]⟩
      rw [List.flatMap_cons] at hw
      rcases key with k | ⟨r, k⟩
      · rw [k] at hw
        simp only [List.cons_append, List.nil_append, List.cons_prefix_cons] at hw
        have := ih (fun p hp => h p (by simp [hp])) w (fun hm => ha (by simp [hm])) hw.2
        show c :: w <+: p.meaning :: meaningAll ps
        rw [hw.1, List.cons_prefix_cons]
        exact ⟨rfl, this⟩
      · rw [k] at hw
        simp only [List.cons_append, List.cons_prefix_cons] at hw
        exact absurd hw.1 hc

theorem no_hash {ps : List Piece} {hx dc : Bool} {es : List Ent} (h : ∀ p ∈ ps, p.WF) (hn : ¬ LooksLikeReference (meaningAll ps)) :
    (ps.flatMap (partialRender hx dc es)).head? ≠ some '#' := by
  intro hh
  refine hn (.inl (head_meaning (hx := hx) (dc := dc) (es := es) h ['#'] (by decide) ?_))
  cases hl : ps.flatMap (partialRender hx dc es) with
  | nil => rw [hl] at hh; cases hh
  | cons c l => rw [hl] at hh; simp only [List.head?_cons, Option.some.injEq] at hh; rw [hh]; exact ⟨l, rfl⟩

/-- The parts of a text in the pass over hexadecimal references. -/
def hexBlk : Piece → Blk
  | .lit c => .inert [c]
  | .dec ds => .inert (Piece.render (.dec ds))
  | .hex ds => .ref (ds.map fun d => hexDigit d.1 d.2)
  | .ent e => .inert (Piece.render (.ent e))

/-- The parts of a text in the pass over decimal references. -/
def decBlk : Piece → Blk
  | .lit c => .inert [c]
  | .dec ds => .ref (ds.map decDigit)
  | .hex ds => single (charOf (value 16 (ds.map (·.1.1))))
  | .ent e => .inert (Piece.render (.ent e))

theorem hexRef {ds : List (Fin 16 × Bool)} (hw : ds ≠ []) : refChar 16 (ds.map fun d => hexDigit d.1 d.2) = charOf (value 16 (ds.map (·.1.1))) :=
  refChar_eq 16 (by omega) (fun d : Fin 16 × Bool => hexDigit d.1 d.2) (fun d => d.1.1)
    (fun a => toDigit_hexDigit a.1 a.2) (fun a => (hexDigit_facts a.1 a.2).2.2) ds hw

theorem decRef {ds : List (Fin 10)} (hw : ds ≠ []) : refChar 10 (ds.map decDigit) = charOf (value 10 (ds.map (·.1))) :=
  refChar_eq 10 (by omega) decDigit (fun d => d.1) toDigit_decDigit (fun a => (decDigit_facts a).2.2.2) ds hw

theorem hexBlk_render (p : Piece) : (hexBlk p).render ['#', 'x'] = p.render := by
  cases p <;> simp [hexBlk, Blk.render, Piece.render]

theorem hexBlk_final {p : Piece} (h : p.WF) : (hexBlk p).final 16 = partialRender true false [] p := by
  cases p with
  | hex ds => simp [hexBlk, Blk.final, partialRender, hexRef h]
  | _ => simp [hexBlk, Blk.final, partialRender]

theorem decBlk_render (p : Piece) : (decBlk p).render ['#'] = partialRender true false [] p := by
  cases p with
  | hex ds => simp [decBlk, render_single, partialRender]
  | _ => simp [decBlk, Blk.render, Piece.render, partialRender]

theorem decBlk_final {p : Piece} (h : p.WF) : (decBlk p).final 10 = partialRender true true [] p := by
  cases p with
  | hex ds => simp [decBlk, final_single, partialRender]
  | dec ds => simp [decBlk, Blk.final, partialRender, decRef h]
  | _ => simp [decBlk, Blk.final, partialRender]

theorem flat_congr {α β : Type} {f g : α → List β} {l : List α} (h : ∀ a ∈ l, f a = g a) : l.flatMap f = l.flatMap g := by
  induction l with
  | nil => rfl
  | cons a l ih => rw [List.flatMap_cons, List.flatMap_cons, h a (by simp), ih fun a hm => h a (by simp [hm])]

theorem hex_finals {ps : List Piece} (h : ∀ p ∈ ps, p.WF) :
    (ps.map hexBlk).flatMap (Blk.final 16) = ps.flatMap (partialRender true false []) := by
  rw [List.flatMap_map]
  exact flat_congr fun p hp => hexBlk_final (h p hp)

theorem dec_finals {ps : List Piece} (h : ∀ p ∈ ps, p.WF) :
    (ps.map decBlk).flatMap (Blk.final 10) = ps.flatMap (partialRender true true []) := by
  rw [List.flatMap_map]
  exact flat_congr fun p hp => decBlk_final (h p hp)

theorem hex_safe {ps : List Piece} (h : ∀ p ∈ ps, p.WF) (hu : Unambiguous ps) : Safe ['#', 'x'] 16 (ps.map hexBlk) := by
  induction ps with
  | nil => trivial
  | cons p ps ih =>
    have hr := fun q hq => h q (List.mem_cons_of_mem p hq)
    have hi := ih hr hu.2
    have hw := h p (by simp)
    have hf := hex_finals hr
    cases p with
    | lit c => exact ⟨by simp, fun t => splitOnce_plain _ _ _ _ (by simpa [Piece.WF] using hw), hi⟩
    | dec ds =>
      obtain ⟨d, ds, rfl⟩ := List.exists_cons_of_ne_nil hw
      refine ⟨by simp [Piece.render], fun t => ?_, hi⟩
      refine splitOnce_miss '&' ['#', 'x'] ('#' :: ((d :: ds).map decDigit ++ [';'])) t ?_ ?_
      · intro c hc
        simp only [List.mem_cons, List.mem_append, List.mem_map, List.not_mem_nil, or_false] at hc
        rcases hc with rfl | ⟨a, _, rfl⟩ | rfl
        · decide
        · exact (decDigit_facts a).2.1
        · decide
      · simp only [List.map_cons, List.cons_append, stripPrefix, if_true]
        rw [if_neg (Ne.symm (decDigit_facts d).2.2.1)]
    | hex ds =>
      refine ⟨?_, fun e => ?_, hi⟩
      · intro c hc
        simp only [List.mem_map] at hc
        obtain ⟨a, _, rfl⟩ := hc
        exact (hexDigit_facts a.1 a.2).1
      · rw [hexRef hw] at e
        rw [hf]
        exact no_hash hr (hu.1 e)
    | ent e =>
      refine ⟨by simp [Piece.render], fun t => ?_, hi⟩
      cases e <;> exact splitOnce_miss '&' ['#', 'x'] _ t (by decide) (by simp [stripPrefix, Ent.name])

theorem dec_safe {ps : List Piece} (h : ∀ p ∈ ps, p.WF) (hu : Unambiguous ps) : Safe ['#'] 10 (ps.map decBlk) := by
  induction ps with
  | nil => trivial
  | cons p ps ih =>
    have hr := fun q hq => h q (List.mem_cons_of_mem p hq)
    have hi := ih hr hu.2
    have hw := h p (by simp)
    have hf := dec_finals hr
    cases p with
    | lit c => exact ⟨by simp, fun t => splitOnce_plain _ _ _ _ (by simpa [Piece.WF] using hw), hi⟩
    | hex ds =>
      refine safe_single hi fun e => ?_
      rw [hf]
      exact no_hash hr (hu.1 e)
    | dec ds =>
      refine ⟨?_, fun e => ?_, hi⟩
      · intro c hc
        simp only [List.mem_map] at hc
        obtain ⟨a, _, rfl⟩ := hc
        exact (decDigit_facts a).1
      · rw [decRef hw] at e
        rw [hf]
        exact no_hash hr (hu.1 e)
    | ent e =>
      refine ⟨by simp [Piece.render], fun t => ?_, hi⟩
      cases e <;> exact splitOnce_miss '&' ['#'] _ t (by decide) (by simp [stripPrefix, Ent.name])

theorem ent_pass (e₀ : Ent) (es : List Ent) (hamp : Ent.amp ∉ es) (hne : e₀ ∉ es) {ps : List Piece} (h : ∀ p ∈ ps, p.WF) (hu : Unambiguous ps) :
    replaceAll ('&' :: (e₀.name ++ [';'])) [e₀.char] (ps.flatMap (partialRender true true es)) =
      ps.flatMap (partialRender true true (e₀ :: es)) := by
  unfold replaceAll
  induction ps with
  | nil => simp [replaceAux]
  | cons p ps ih =>
    have hr := fun q hq => h q (List.mem_cons_of_mem p hq)
    have hw := h p (by simp)
    rw [List.flatMap_cons, List.flatMap_cons, ← ih hr hu.2]
    have lone : ∀ c : Char, (c = '&' → ¬ LooksLikeReference (meaningAll ps)) →
        replaceAux ('&' :: (e₀.name ++ [';'])) [e₀.char] 0 ([c] ++ ps.flatMap (partialRender true true es)) =
          [c] ++ replaceAux ('&' :: (e₀.name ++ [';'])) [e₀.char] 0 (ps.flatMap (partialRender true true es)) := by
      intro c hc
      by_cases e : c = '&'
      · subst e
        refine replaceAux_miss '&' (e₀.name ++ [';']) _ [] _ (by simp) ?_
        cases hs : stripPrefix (e₀.name ++ [';']) ([] ++ ps.flatMap (partialRender true true es)) with
        | none => rfl
        | some r =>
          have := stripPrefix_eq_some.1 hs
          refine absurd (.inr ⟨e₀, head_meaning (hx := true) (dc := true) (es := es) hr _ (by cases e₀ <;> decide) ⟨r, ?_⟩⟩) (hc rfl)
          rw [← this]; rfl
      · exact replaceAux_plain '&' _ _ [c] _ (by simpa using e)
    cases p with
    | lit c => exact lone c fun e => absurd e (by simpa [Piece.WF] using hw)
    | hex ds => exact lone _ fun e => hu.1 e
    | dec ds => exact lone _ fun e => hu.1 e
    | ent e =>
      by_cases he : e ∈ es
      · simp only [partialRender, he, if_true, List.mem_cons, or_true]
        have hea : e ≠ .amp := fun h => hamp (h ▸ he)
        refine replaceAux_plain '&' _ _ [_] _ ?_
        cases e <;> simp_all [Ent.char]
      · by_cases hee : e = e₀
        · subst hee
          simp only [partialRender, he, if_false, List.mem_cons, true_or, if_true]
          exact replaceAux_hit '&' _ _ _
        · simp only [partialRender, he, if_false, List.mem_cons, hee, or_self]
          cases e <;> cases e₀ <;> first
            | exact absurd rfl hee
            | exact replaceAux_miss '&' _ _ _ _ (by decide) (by simp [stripPrefix, Ent.name])

/-- Decoding, where no numeric reference to `&` comes before text that would make another reference of it. -/
theorem decode (ps : List Piece) (h : ∀ p ∈ ps, p.WF) (hu : Unambiguous ps) : decodeEntity (renderAll ps) = meaningAll ps := by
  have h1 : decodeAll (S "&#x") 16 (ps.flatMap Piece.render) = ps.flatMap (partialRender true false []) := by
    have := pass (ps := ['x']) (ps.map hexBlk) (hex_safe h hu)
    rw [hex_finals h, List.flatMap_map] at this
    rw [← this]
    exact congrArg _ (flat_congr fun p _ => (hexBlk_render p).symm)
  have h2 : decodeAll (S "&#") 10 (ps.flatMap (partialRender true false [])) = ps.flatMap (partialRender true true []) := by
    have := pass (ps := []) (ps.map decBlk) (dec_safe h hu)
    rw [dec_finals h, List.flatMap_map] at this
    rw [← this]
    exact congrArg _ (flat_congr fun p _ => (decBlk_render p).symm)
  rw [decodeEntity_eq, renderAll, h1, h2]
  rw [show S "&gt;" = '&' :: (Ent.gt.name ++ [';']) from rfl, show S ">" = [Ent.gt.char] from rfl,
    ent_pass .gt [] (by simp) (by simp) h hu,
    show S "&lt;" = '&' :: (Ent.lt.name ++ [';']) from rfl, show S "<" = [Ent.lt.char] from rfl,
    ent_pass .lt _ (by simp) (by simp) h hu,
    show S "&quot;" = '&' :: (Ent.quot.name ++ [';']) from rfl, show S "\"" = [Ent.quot.char] from rfl,
    ent_pass .quot _ (by simp) (by simp) h hu,
    show S "&apos;" = '&' :: (Ent.apos.name ++ [';']) from rfl, show S "'" = [Ent.apos.char] from rfl,
    ent_pass .apos _ (by simp) (by simp) h hu,
    show S "&amp;" = '&' :: (Ent.amp.name ++ [';']) from rfl, show S "&" = [Ent.amp.char] from rfl,
    ent_pass .amp _ (by simp) (by simp) h hu]
  unfold meaningAll
  rw [List.map_eq_flatMap]
  congr 1
  funext p
  cases p with
  | ent e => cases e <;> simp [partialRender, Piece.meaning]
  | _ => simp [partialRender, Piece.meaning]

end EntityAmp
end Amxml
