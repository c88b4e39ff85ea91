import Verif.Model.Entity
import Verif.Spec.Entity

namespace Amxml
open Spec

theorem stripPrefix_append (p t : Str) : stripPrefix p (p ++ t) = some t := by
  induction p with
  | nil => simp [stripPrefix]
  | cons c cs ih => simp [stripPrefix, ih]

theorem stripPrefix_eq_some {p s r : Str} : stripPrefix p s = some r ↔ s = p ++ r := by
  constructor
  · induction p generalizing s with
    | nil => simp [stripPrefix]
    | cons c cs ih =>
      cases s with
      | nil => simp [stripPrefix]
      | cons d ds =>
        simp only [stripPrefix]
        split
        · rename_i h; subst h; intro h; simp [ih h]
        · simp
  · rintro rfl; exact stripPrefix_append p r

theorem stripPrefix_ne {p c : Char} {ps cs : Str} (h : c ≠ p) : stripPrefix (p :: ps) (c :: cs) = none := by
  simp [stripPrefix, Ne.symm h]

/-! ### replaceAll -/

theorem replaceAux_skip (pat rep w t : Str) : replaceAux pat rep w.length (w ++ t) = replaceAux pat rep 0 t := by
  induction w with
  | nil => simp
  | cons c cs ih => simp [replaceAux, ih]

theorem replaceAux_hit (p : Char) (ps rep t : Str) :
    replaceAux (p :: ps) rep 0 (p :: ps ++ t) = rep ++ replaceAux (p :: ps) rep 0 t := by
  have h := stripPrefix_append (p :: ps) t
  simp only [List.cons_append] at h ⊢
  simp [replaceAux, h, replaceAux_skip]

theorem replaceAux_plain (p : Char) (ps rep w t : Str) (h : ∀ c ∈ w, c ≠ p) :
    replaceAux (p :: ps) rep 0 (w ++ t) = w ++ replaceAux (p :: ps) rep 0 t := by
  induction w with
  | nil => simp
  | cons c cs ih =>
    simp only [List.mem_cons, forall_eq_or_imp] at h
    simp [replaceAux, stripPrefix_ne h.1, ih h.2]

theorem replaceAux_miss (p : Char) (ps rep w t : Str) (h : ∀ c ∈ w, c ≠ p)
    (hm : stripPrefix ps (w ++ t) = none) :
    replaceAux (p :: ps) rep 0 (p :: w ++ t) = p :: w ++ replaceAux (p :: ps) rep 0 t := by
  simp only [List.cons_append, replaceAux, stripPrefix, hm, if_true]
  rw [replaceAux_plain p ps rep w t h]

/-- Replacement acts block by block if it does so on each block. -/
theorem replaceAll_flatMap {α : Type} (pat rep : Str) (e e' : α → Str) (l : List α)
    (h : ∀ a ∈ l, ∀ t, replaceAux pat rep 0 (e a ++ t) = e' a ++ replaceAux pat rep 0 t) :
    replaceAll pat rep (l.flatMap e) = l.flatMap e' := by
  unfold replaceAll
  induction l with
  | nil => simp [replaceAux]
  | cons a l ih =>
    simp only [List.flatMap_cons]
    rw [h a (by simp), ih (fun a ha => h a (by simp [ha]))]

/-! ### the encoder -/

/-- What one character is written as. -/
def esc (c : Char) : Str :=
  if c = '&' then S "&amp;" else if c = '>' then S "&gt;" else if c = '<' then S "&lt;"
  else if c = '"' then S "&quot;" else if c = '\'' then S "&apos;" else [c]

theorem replaceAll_single (p : Char) (rep s : Str) :
    replaceAll [p] rep s = s.flatMap fun c => if c = p then rep else [c] := by
  have := replaceAll_flatMap [p] rep (fun c => [c]) (fun c => if c = p then rep else [c]) s (by
    intro a _ t
    by_cases h : a = p
    · subst h; simpa using replaceAux_hit a [] rep t
    · simpa [h] using replaceAux_plain p [] rep [a] t (by simpa using h))
  simpa using this

theorem encodeEntity_eq (s : Str) : encodeEntity s = s.flatMap esc := by
  have e1 : S "&" = ['&'] := rfl
  have e2 : S ">" = ['>'] := rfl
  have e3 : S "<" = ['<'] := rfl
  have e4 : S "\"" = ['"'] := rfl
  have e5 : S "'" = ['\''] := rfl
  simp only [encodeEntity, encodeSpecs, List.foldl, e1, e2, e3, e4, e5, replaceAll_single, List.flatMap_assoc]
  congr 1
  funext c
  unfold esc
  by_cases h1 : c = '&'
  · subst h1; rfl
  by_cases h2 : c = '>'
  · subst h2; rfl
  by_cases h3 : c = '<'
  · subst h3; rfl
  by_cases h4 : c = '"'
  · subst h4; rfl
  by_cases h5 : c = '\''
  · subst h5; rfl
  simp [h1, h2, h3, h4, h5]

theorem escapeChar_eq (c : Char) : Spec.escapeChar c = esc c := by
  unfold Spec.escapeChar esc
  by_cases h1 : c = '&'
  · subst h1; rfl
  by_cases h2 : c = '>'
  · subst h2; rfl
  by_cases h3 : c = '<'
  · subst h3; rfl
  by_cases h4 : c = '"'
  · subst h4; rfl
  by_cases h5 : c = '\''
  · subst h5; rfl
  have : [Spec.Ent.lt, .gt, .amp, .quot, .apos].find? (fun e => e.char = c) = none := by
    simp [Spec.Ent.char, Ne.symm h1, Ne.symm h2, Ne.symm h3, Ne.symm h4, Ne.symm h5]
  rw [this]
  simp [h1, h2, h3, h4, h5]

theorem escape_eq (s : Str) : Spec.escape s = encodeEntity s := by
  rw [encodeEntity_eq, Spec.escape, funext escapeChar_eq]

/-! ### the numeric passes -/

theorem splitOnce_plain (p : Char) (ps w t : Str) (h : ∀ c ∈ w, c ≠ p) :
    splitOnce (p :: ps) (w ++ t) = (splitOnce (p :: ps) t).map fun r => (w ++ r.1, r.2) := by
  induction w with
  | nil => simp
  | cons c cs ih =>
    simp only [List.mem_cons, forall_eq_or_imp] at h
    simp [splitOnce, stripPrefix_ne h.1, ih h.2, Option.map_map, Function.comp_def]

theorem splitOnce_eq {pat s : Str} {r : Str × Str} (h : splitOnce pat s = some r) : s = r.1 ++ pat ++ r.2 := by
  induction s generalizing r with
  | nil => simp [splitOnce] at h
  | cons c cs ih =>
    simp only [splitOnce] at h
    split at h
    · rename_i rest hr
      simp at h; subst h; simpa using stripPrefix_eq_some.1 hr
    · simp only [Option.map_eq_some_iff] at h
      obtain ⟨a, ha, rfl⟩ := h
      simpa using ih ha

theorem decodeStep_length {pat : Str} {radix : Nat} {b b' : Str} (h : decodeStep pat radix b = some b') :
    b'.length + pat.length ≤ b.length := by
  unfold decodeStep at h
  split at h
  · simp at h
  · rename_i head v1 h1
    split at h
    · simp at h
    · rename_i ent tail h2
      have h1 := congrArg List.length (splitOnce_eq h1)
      have h2 := congrArg List.length (splitOnce_eq h2)
      have h3 : (S ";").length = 1 := rfl
      simp at h h1 h2; subst h; simp; omega

/-- The loop of `decode_entity` has ended when the fuel (the length of the buffer) is used up. -/
theorem decodeLoop_fixpoint {p : Char} {ps : Str} {radix fuel : Nat} {b : Str} (h : b.length ≤ fuel) :
    decodeStep (p :: ps) radix (decodeLoop (p :: ps) radix fuel b) = none := by
  induction fuel generalizing b with
  | zero =>
    have : b = [] := by simpa using h
    subst this; simp [decodeLoop, decodeStep, splitOnce]
  | succ n ih =>
    simp only [decodeLoop]
    split
    · assumption
    · rename_i b' hb
      have := decodeStep_length hb
      simp at this
      exact ih (by omega)

theorem decodeLoop_fuel {p : Char} {ps : Str} {radix n m : Nat} {b : Str} (hn : b.length ≤ n) (hm : b.length ≤ m) :
    decodeLoop (p :: ps) radix n b = decodeLoop (p :: ps) radix m b := by
  induction n generalizing b m with
  | zero =>
    have : b = [] := by simpa using hn
    subst this
    cases m <;> simp [decodeLoop, decodeStep, splitOnce]
  | succ n ih =>
    cases m with
    | zero =>
      have : b = [] := by simpa using hm
      subst this
      simp [decodeLoop, decodeStep, splitOnce]
    | succ m =>
      simp only [decodeLoop]
      split
      · rfl
      · rename_i b' hb
        have := decodeStep_length hb
        simp at this
        exact ih (by omega) (by omega)

/-- The completed loop. -/
def decodeAll (pat : Str) (radix : Nat) (b : Str) : Str := decodeLoop pat radix b.length b

theorem decodeAll_eq {p : Char} {ps : Str} {radix : Nat} (b : Str) :
    decodeAll (p :: ps) radix b =
      match decodeStep (p :: ps) radix b with
      | none => b
      | some b' => decodeAll (p :: ps) radix b' := by
  unfold decodeAll
  rw [decodeLoop_fuel (Nat.le_refl _) (Nat.le_succ b.length)]
  simp only [decodeLoop]
  cases hb : decodeStep (p :: ps) radix b with
  | none => rfl
  | some b' =>
    have := decodeStep_length hb
    simp at this
    exact decodeLoop_fuel (by omega) (by omega)

theorem decodeEntity_eq (s : Str) : decodeEntity s =
    replaceAll (S "&amp;") (S "&") (replaceAll (S "&apos;") (S "'") (replaceAll (S "&quot;") (S "\"")
      (replaceAll (S "&lt;") (S "<") (replaceAll (S "&gt;") (S ">")
        (decodeAll (S "&#") 10 (decodeAll (S "&#x") 16 s)))))) := rfl

theorem decodeStep_prefix (p : Char) (ps w t : Str) (radix : Nat)
    (h : splitOnce (p :: ps) (w ++ t) = (splitOnce (p :: ps) t).map fun r => (w ++ r.1, r.2)) :
    decodeStep (p :: ps) radix (w ++ t) = (decodeStep (p :: ps) radix t).map (w ++ ·) := by
  unfold decodeStep
  rw [h]
  cases splitOnce (p :: ps) t with
  | none => rfl
  | some r =>
    obtain ⟨a, b⟩ := r
    simp only [Option.map_some]
    cases splitOnce (S ";") b with
    | none => rfl
    | some r => obtain ⟨a, b⟩ := r; simp

/-- A prefix in which no match can start is not touched by the loop. -/
theorem decodeAll_prefix (p : Char) (ps w : Str) (radix : Nat)
    (h : ∀ t, splitOnce (p :: ps) (w ++ t) = (splitOnce (p :: ps) t).map fun r => (w ++ r.1, r.2)) (t : Str) :
    decodeAll (p :: ps) radix (w ++ t) = w ++ decodeAll (p :: ps) radix t := by
  generalize hn : t.length = n
  induction n using Nat.strongRecOn generalizing t with
  | ind n ih =>
    rw [decodeAll_eq, decodeAll_eq (b := t), decodeStep_prefix p ps w t radix (h t)]
    cases hb : decodeStep (p :: ps) radix t with
    | none => rfl
    | some b' =>
      have := decodeStep_length hb
      simp at this
      simpa using ih b'.length (by omega) b' rfl

theorem splitOnce_semi (w t : Str) (h : ∀ c ∈ w, c ≠ ';') : splitOnce (S ";") (w ++ ';' :: t) = some (w, t) := by
  have := splitOnce_plain ';' [] w (';' :: t) h
  simp [splitOnce, stripPrefix] at this
  exact this

/-- A reference at the front is replaced by its character, provided this is not `p` (i.e. `&`). -/
theorem decodeAll_ref (p : Char) (ps body t : Str) (radix : Nat) (hb : ∀ c ∈ body, c ≠ ';')
    (hr : refChar radix body ≠ p) :
    decodeAll (p :: ps) radix (p :: ps ++ body ++ ';' :: t) = refChar radix body :: decodeAll (p :: ps) radix t := by
  rw [decodeAll_eq]
  have h1 : splitOnce (p :: ps) (p :: ps ++ body ++ ';' :: t) = some ([], body ++ ';' :: t) := by
    have := stripPrefix_append (p :: ps) (body ++ ';' :: t)
    simp only [List.cons_append, List.append_assoc] at this ⊢
    simp [splitOnce, this]
  simp only [decodeStep, h1, splitOnce_semi body t hb, List.nil_append]
  exact decodeAll_prefix p ps [refChar radix body] radix
    (fun t => splitOnce_plain p ps _ t (by simpa using hr)) t

theorem decodeAll_flatMap {α : Type} (p : Char) (ps : Str) (radix : Nat) (e e' : α → Str) (l : List α)
    (h : ∀ a ∈ l, ∀ t, decodeAll (p :: ps) radix (e a ++ t) = e' a ++ decodeAll (p :: ps) radix t) :
    decodeAll (p :: ps) radix (l.flatMap e) = l.flatMap e' := by
  induction l with
  | nil => simp [decodeAll, decodeLoop]
  | cons a l ih =>
    simp only [List.flatMap_cons]
    rw [h a (by simp), ih (fun a ha => h a (by simp [ha]))]

theorem splitOnce_miss (p : Char) (ps w t : Str) (h : ∀ c ∈ w, c ≠ p) (hm : stripPrefix ps (w ++ t) = none) :
    splitOnce (p :: ps) (p :: w ++ t) = (splitOnce (p :: ps) t).map fun r => (p :: w ++ r.1, r.2) := by
  have hm' : stripPrefix (p :: ps) (p :: (w ++ t)) = none := by simp [stripPrefix, hm]
  simp only [List.cons_append, splitOnce, hm', splitOnce_plain p ps w t h, Option.map_map]
  rfl

/-! ### digits -/

theorem toDigit_decDigit (d : Fin 10) : toDigit 10 (decDigit d) = some d.1 := by
  revert d; decide

theorem toDigit_hexDigit (d : Fin 16) (u : Bool) : toDigit 16 (hexDigit d u) = some d.1 := by
  revert d u; decide

theorem decDigit_facts (d : Fin 10) : decDigit d ≠ ';' ∧ decDigit d ≠ '&' ∧ decDigit d ≠ 'x' ∧ decDigit d ≠ '+' := by
  revert d; decide

theorem hexDigit_facts (d : Fin 16) (u : Bool) : hexDigit d u ≠ ';' ∧ hexDigit d u ≠ '&' ∧ hexDigit d u ≠ '+' := by
  revert d u; decide

theorem foldl_ge (base acc : Nat) (hb : 1 ≤ base) (ds : List Nat) :
    acc ≤ ds.foldl (fun acc d => acc * base + d) acc := by
  induction ds generalizing acc with
  | nil => simp
  | cons d ds ih =>
    refine Nat.le_trans ?_ (ih _)
    exact Nat.le_trans (Nat.le_mul_of_pos_right acc hb) (Nat.le_add_right _ _)

theorem parseDigits_eq {α : Type} (radix : Nat) (hr : 1 ≤ radix) (ch : α → Char) (val : α → Nat)
    (h : ∀ a, toDigit radix (ch a) = some (val a)) (ds : List α) (acc : Nat) (hacc : acc < 2 ^ 32) :
    parseDigits radix acc (ds.map ch) =
      if (ds.map val).foldl (fun acc d => acc * radix + d) acc < 2 ^ 32
      then some ((ds.map val).foldl (fun acc d => acc * radix + d) acc) else none := by
  induction ds generalizing acc with
  | nil => simp [parseDigits, hacc]
  | cons d ds ih =>
    simp only [List.map_cons, parseDigits, h, List.foldl_cons]
    split
    · rename_i hlt; exact ih _ hlt
    · rename_i hlt
      have := foldl_ge radix (acc * radix + val d) hr (ds.map val)
      rw [if_neg (by omega)]

theorem refChar_eq {α : Type} (radix : Nat) (hr : 1 ≤ radix) (ch : α → Char) (val : α → Nat)
    (h : ∀ a, toDigit radix (ch a) = some (val a)) (hp : ∀ a, ch a ≠ '+') (ds : List α) (hne : ds ≠ []) :
    refChar radix (ds.map ch) = charOf (value radix (ds.map val)) := by
  have key : u32FromStrRadix radix (ds.map ch) = parseDigits radix 0 (ds.map ch) := by
    cases ds with
    | nil => exact absurd rfl hne
    | cons d ds =>
      simp only [List.map_cons]
      unfold u32FromStrRadix
      split
      · simp_all
      · simp_all
      · rename_i heq; simp at heq; exact absurd heq.1 (hp d)
      · rfl
  unfold refChar
  rw [key, parseDigits_eq radix hr ch val h ds 0 (by omega)]
  unfold value charOf charFromU32
  generalize (ds.map val).foldl (fun acc d => acc * radix + d) 0 = n
  by_cases hn : n < 2 ^ 32
  · simp only [hn, if_true, Option.getD_some]
    by_cases h1 : n < 0xD800
    · simp [h1]
    · by_cases h2 : 0xE000 ≤ n ∧ n ≤ 0x10FFFF
      · rw [if_pos (by omega), if_pos (by omega)]; rfl
      · rw [if_neg (by omega), if_neg (by omega)]; rfl
  · rw [if_neg hn, if_neg (c := n < 55296 ∨ 57344 ≤ n ∧ n ≤ 1114111) (by omega)]
    rfl

/-! ### the passes on pieces -/

/-- Pieces after the numeric passes have replaced hexadecimal (`hx`) and decimal (`dc`) references and the entity
passes the entities in `es`. -/
def partialRender (hx dc : Bool) (es : List Ent) : Piece → Str
  | .lit c => [c]
  | .dec ds => if dc then [charOf (value 10 (ds.map (·.1)))] else Piece.render (.dec ds)
  | .hex ds => if hx then [charOf (value 16 (ds.map (·.1.1)))] else Piece.render (.hex ds)
  | .ent e => if e ∈ es then [e.char] else Piece.render (.ent e)

theorem hexPass (ps : List Piece) (h : ∀ p ∈ ps, p.WF ∧ ¬ p.isNumAmp) :
    decodeAll (S "&#x") 16 (ps.flatMap Piece.render) = ps.flatMap (partialRender true false []) := by
  apply decodeAll_flatMap '&' ['#', 'x'] 16
  intro p hp t
  obtain ⟨hw, hn⟩ := h p hp
  cases p with
  | lit c =>
    exact decodeAll_prefix '&' ['#', 'x'] [c] 16 (fun t => splitOnce_plain _ _ _ _ (by simpa [Piece.WF] using hw)) t
  | dec ds =>
    obtain ⟨d, ds, rfl⟩ := List.exists_cons_of_ne_nil hw
    refine decodeAll_prefix '&' ['#', 'x'] _ 16 (fun t => ?_) t
    refine splitOnce_miss '&' ['#', 'x'] ('#' :: ((d :: ds).map decDigit ++ [';'])) t ?_ ?_
    · intro c hc
      simp only [List.mem_cons, List.mem_append, List.mem_map, List.not_mem_nil, or_false] at hc
      rcases hc with rfl | ⟨a, _, rfl⟩ | rfl
      · decide
      · exact (decDigit_facts a).2.1
      · decide
    · simp only [List.map_cons, List.cons_append, stripPrefix, if_true]
      rw [if_neg (Ne.symm (decDigit_facts d).2.2.1)]
  | hex ds =>
    have hr := refChar_eq 16 (by omega) (fun d : Fin 16 × Bool => hexDigit d.1 d.2) (fun d => d.1.1)
      (fun a => toDigit_hexDigit a.1 a.2) (fun a => (hexDigit_facts a.1 a.2).2.2) ds hw
    have hamp : refChar 16 (ds.map fun d => hexDigit d.1 d.2) ≠ '&' := by rw [hr]; exact hn
    have := decodeAll_ref '&' ['#', 'x'] (ds.map fun d => hexDigit d.1 d.2) t 16 (by
      intro c hc
      simp only [List.mem_map] at hc
      obtain ⟨a, _, rfl⟩ := hc
      exact (hexDigit_facts a.1 a.2).1) hamp
    simpa [partialRender, Piece.render, hr] using this
  | ent e =>
    refine decodeAll_prefix '&' ['#', 'x'] _ 16 (fun t => ?_) t
    cases e <;> exact splitOnce_miss '&' ['#', 'x'] _ t (by decide) (by simp [stripPrefix, Ent.name])

theorem decPass (ps : List Piece) (h : ∀ p ∈ ps, p.WF ∧ ¬ p.isNumAmp) :
    decodeAll (S "&#") 10 (ps.flatMap (partialRender true false [])) = ps.flatMap (partialRender true true []) := by
  apply decodeAll_flatMap '&' ['#'] 10
  intro p hp t
  obtain ⟨hw, hn⟩ := h p hp
  cases p with
  | lit c =>
    exact decodeAll_prefix '&' ['#'] [c] 10 (fun t => splitOnce_plain _ _ _ _ (by simpa [Piece.WF] using hw)) t
  | hex ds =>
    exact decodeAll_prefix '&' ['#'] [charOf (value 16 (ds.map (·.1.1)))] 10
      (fun t => splitOnce_plain _ _ _ _ (by simpa [Piece.isNumAmp] using hn)) t
  | dec ds =>
    have hr := refChar_eq 10 (by omega) decDigit (fun d => d.1) toDigit_decDigit
      (fun a => (decDigit_facts a).2.2.2) ds hw
    have hamp : refChar 10 (ds.map decDigit) ≠ '&' := by rw [hr]; exact hn
    have := decodeAll_ref '&' ['#'] (ds.map decDigit) t 10 (by
      intro c hc
      simp only [List.mem_map] at hc
      obtain ⟨a, _, rfl⟩ := hc
      exact (decDigit_facts a).1) hamp
    simpa [partialRender, Piece.render, hr] using this
  | ent e =>
    refine decodeAll_prefix '&' ['#'] _ 10 (fun t => ?_) t
    cases e <;> exact splitOnce_miss '&' ['#'] _ t (by decide) (by simp [stripPrefix, Ent.name])

theorem entPass (e₀ : Ent) (es : List Ent) (ps : List Piece) (h : ∀ p ∈ ps, p.WF ∧ ¬ p.isNumAmp)
    (hamp : Ent.amp ∉ es) (hne : e₀ ∉ es) :
    replaceAll ('&' :: (e₀.name ++ [';'])) [e₀.char] (ps.flatMap (partialRender true true es)) =
      ps.flatMap (partialRender true true (e₀ :: es)) := by
  apply replaceAll_flatMap
  intro p hp t
  obtain ⟨hw, hn⟩ := h p hp
  cases p with
  | lit c => exact replaceAux_plain '&' _ _ [c] t (by simpa [Piece.WF] using hw)
  | hex ds => exact replaceAux_plain '&' _ _ [_] t (by simpa [Piece.isNumAmp] using hn)
  | dec ds => exact replaceAux_plain '&' _ _ [_] t (by simpa [Piece.isNumAmp] using hn)
  | ent e =>
    by_cases he : e ∈ es
    · simp only [partialRender, he, if_true, List.mem_cons, or_true]
      have hea : e ≠ .amp := fun h => hamp (h ▸ he)
      refine replaceAux_plain '&' _ _ [_] t ?_
      cases e <;> simp_all [Ent.char]
    · by_cases hee : e = e₀
      · subst hee
        simp only [partialRender, he, if_false, List.mem_cons, true_or, if_true]
        exact replaceAux_hit '&' _ _ t
      · simp only [partialRender, he, if_false, List.mem_cons, hee, or_self]
        cases e <;> cases e₀ <;> first
          | exact absurd rfl hee
          | exact replaceAux_miss '&' _ _ _ t (by decide) (by simp [stripPrefix, Ent.name])

theorem decodeEntity_pieces (ps : List Piece) (h : ∀ p ∈ ps, p.WF ∧ ¬ p.isNumAmp) :
    decodeEntity (renderAll ps) = meaningAll ps := by
  rw [decodeEntity_eq, renderAll, hexPass ps h, decPass ps h]
  rw [show S "&gt;" = '&' :: (Ent.gt.name ++ [';']) from rfl, show S ">" = [Ent.gt.char] from rfl,
    entPass .gt [] ps h (by simp) (by simp),
    show S "&lt;" = '&' :: (Ent.lt.name ++ [';']) from rfl, show S "<" = [Ent.lt.char] from rfl,
    entPass .lt _ ps h (by simp) (by simp),
    show S "&quot;" = '&' :: (Ent.quot.name ++ [';']) from rfl, show S "\"" = [Ent.quot.char] from rfl,
    entPass .quot _ ps h (by simp) (by simp),
    show S "&apos;" = '&' :: (Ent.apos.name ++ [';']) from rfl, show S "'" = [Ent.apos.char] from rfl,
    entPass .apos _ ps h (by simp) (by simp),
    show S "&amp;" = '&' :: (Ent.amp.name ++ [';']) from rfl, show S "&" = [Ent.amp.char] from rfl,
    entPass .amp _ ps h (by simp) (by simp)]
  unfold meaningAll
  rw [List.map_eq_flatMap]
  congr 1
  funext p
  cases p with
  | ent e => cases e <;> simp [partialRender, Piece.meaning]
  | _ => simp [partialRender, Piece.meaning]

/-- The pieces the encoder writes. -/
def escPiece (c : Char) : Piece :=
  if c = '&' then .ent .amp else if c = '>' then .ent .gt else if c = '<' then .ent .lt
  else if c = '"' then .ent .quot else if c = '\'' then .ent .apos else .lit c

theorem esc_eq_render (c : Char) : esc c = (escPiece c).render := by
  unfold esc escPiece
  repeat' split
  all_goals rfl

theorem escPiece_meaning (c : Char) : (escPiece c).meaning = c := by
  unfold escPiece
  repeat' split
  all_goals first | (subst_vars; rfl) | rfl

theorem escPiece_wf (c : Char) : (escPiece c).WF ∧ ¬ (escPiece c).isNumAmp := by
  unfold escPiece
  repeat' split
  all_goals simp_all [Piece.WF, Piece.isNumAmp]

theorem encode_pieces (s : Str) : encodeEntity s = renderAll (s.map escPiece) := by
  rw [encodeEntity_eq, renderAll, List.flatMap_map]
  congr 1
  funext c
  exact esc_eq_render c

theorem decode_encode' (s : Str) : decodeEntity (encodeEntity s) = s := by
  rw [encode_pieces, decodeEntity_pieces _ (by
    intro p hp
    simp only [List.mem_map] at hp
    obtain ⟨c, _, rfl⟩ := hp
    exact escPiece_wf c)]
  simp [meaningAll, List.map_map, Function.comp_def, escPiece_meaning]

end Amxml
