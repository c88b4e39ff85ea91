import Verif.Spec.Bare
import Verif.Lemmas.Entity
import Verif.Lemmas.Sax
import Verif.Props.Entity

/-!
# C109: texts that are no references, and ill-formed references
-/

namespace Amxml
open Spec

namespace Bare

/-- `f` leaves a text as it is if it has not the property, and makes it shorter if it has. -/
def Shrinks (f : Str → Str) (P : Str → Prop) : Prop := ∀ s, (f s = s ∧ ¬ P s) ∨ ((f s).length < s.length ∧ P s)

theorem Shrinks.le {f : Str → Str} {P : Str → Prop} (h : Shrinks f P) (s : Str) : (f s).length ≤ s.length := by
  rcases h s with ⟨e, _⟩ | ⟨e, _⟩
  · rw [e]; exact Nat.le_refl _
  · exact Nat.le_of_lt e

theorem Shrinks.comp {f g : Str → Str} {P Q : Str → Prop} (hf : Shrinks f P) (hg : Shrinks g Q) : Shrinks (fun s => g (f s)) fun s => P s ∨ Q s := by
  intro s
  rcases hf s with ⟨e, hp⟩ | ⟨e, hp⟩
  · rcases hg s with ⟨e', hq⟩ | ⟨e', hq⟩
    · exact .inl ⟨by simp only [e, e'], by rintro (k | k); exact hp k; exact hq k⟩
    · exact .inr ⟨by simp only [e]; exact e', .inr hq⟩
  · exact .inr ⟨Nat.lt_of_le_of_lt (hg.le _) e, .inl hp⟩

theorem Shrinks.same {f : Str → Str} {P : Str → Prop} (h : Shrinks f P) (s : Str) : f s = s ↔ ¬ P s := by
  rcases h s with ⟨e, hp⟩ | ⟨e, hp⟩
  · exact ⟨fun _ => hp, fun _ => e⟩
  · exact ⟨fun k => by rw [k] at e; exact absurd e (Nat.lt_irrefl _), fun k => absurd hp k⟩

theorem replace_shrinks (p : Char) (ps rep : Str) (h : rep.length < ps.length + 1) :
    Shrinks (replaceAll (p :: ps) rep) fun s => ∃ a b, s = a ++ (p :: ps) ++ b := by
  intro s
  generalize hn : s.length = n
  induction n using Nat.strongRecOn generalizing s with
  | ind n ih =>
    cases s with
    | nil => exact .inl ⟨rfl, fun ⟨a, b, e⟩ => by have := congrArg List.length e; simp at this⟩
    | cons c cs =>
      cases hs : stripPrefix (p :: ps) (c :: cs) with
      | some r =>
        have e := stripPrefix_eq_some.1 hs
        refine .inr ⟨?_, [], r, by simpa using e⟩
        rw [e] at hn ⊢
        unfold replaceAll
        rw [replaceAux_hit]
        have hle : (replaceAll (p :: ps) rep r).length ≤ r.length := by
          rcases ih r.length (by simp at hn; omega) r rfl with ⟨k, _⟩ | ⟨k, _⟩
          · rw [k]; exact Nat.le_refl _
          · exact Nat.le_of_lt k
        unfold replaceAll at hle
        simp at hn ⊢
        omega
      | none =>
        have e : replaceAll (p :: ps) rep (c :: cs) = c :: replaceAll (p :: ps) rep cs := by
          unfold replaceAll
          rw [replaceAux, hs]
        rcases ih cs.length (by simp at hn; omega) cs rfl with ⟨k, hp⟩ | ⟨k, hp⟩
        · refine .inl ⟨by rw [e, k], ?_⟩
          rintro ⟨a, b, e'⟩
          cases a with
          | nil =>
            rw [e', List.nil_append, stripPrefix_append] at hs
            cases hs
          | cons d a =>
            simp only [List.cons_append, List.cons.injEq] at e'
            exact hp ⟨a, b, e'.2⟩
        · obtain ⟨a, b, e'⟩ := hp
          refine .inr ⟨?_, c :: a, b, by rw [e']; rfl⟩
          rw [e]
          simp at hn ⊢
          omega

theorem splitOnce_none {pat s : Str} (h : splitOnce pat s = none) (hp : pat ≠ []) (a b : Str) : s ≠ a ++ pat ++ b := by
  induction s generalizing a with
  | nil =>
    intro e
    simp only [List.nil_eq_append_iff] at e
    exact hp (List.append_eq_nil_iff.1 e.1).2
  | cons c cs ih =>
    rw [splitOnce] at h
    split at h
    · cases h
    · rename_i hs
      intro e
      cases a with
      | nil =>
        rw [e, List.nil_append, stripPrefix_append] at hs
        cases hs
      | cons d a =>
        simp only [List.cons_append, List.cons.injEq] at e
        exact ih (by simpa using h) a e.2

theorem splitOnce_first {pat s : Str} {r : Str × Str} (h : splitOnce pat s = some r) {a b : Str} (e : s = a ++ pat ++ b) : b <:+ r.2 := by
  induction s generalizing a r with
  | nil => cases h
  | cons c cs ih =>
    rw [splitOnce] at h
    split at h
    · rename_i rest hs
      cases h
      have hr := stripPrefix_eq_some.1 hs
      have h1 : rest <:+ c :: cs := ⟨pat, hr.symm⟩
      have h2 : b <:+ c :: cs := ⟨a ++ pat, e.symm⟩
      refine List.suffix_of_suffix_length_le h2 h1 ?_
      have e1 := congrArg List.length hr
      have e2 := congrArg List.length e
      simp at e1 e2 ⊢
      omega
    · rename_i hs
      cases a with
      | nil =>
        rw [e, List.nil_append, stripPrefix_append] at hs
        cases hs
      | cons d a =>
        simp only [List.cons_append, List.cons.injEq] at e
        rw [Option.map_eq_some_iff] at h
        obtain ⟨r', hr', rfl⟩ := h
        exact ih (r := r') hr' e.2

theorem decode_shrinks (p : Char) (ps : Str) (radix : Nat) :
    Shrinks (decodeAll (p :: ps) radix) fun s => ∃ a b c, s = a ++ (p :: ps) ++ b ++ S ";" ++ c := by
  intro s
  generalize hn : s.length = n
  induction n using Nat.strongRecOn generalizing s with
  | ind n ih =>
    rw [decodeAll_eq]
    cases hd : decodeStep (p :: ps) radix s with
    | some s' =>
      have hl := decodeStep_length hd
      refine .inr ⟨?_, ?_⟩
      · have : (decodeAll (p :: ps) radix s').length ≤ s'.length := by
          simp at hl
          rcases ih s'.length (by omega) s' rfl with ⟨k, _⟩ | ⟨k, _⟩
          · rw [k]; exact Nat.le_refl _
          · exact Nat.le_of_lt k
        simp at hl ⊢
        omega
      · unfold decodeStep at hd
        split at hd
        · cases hd
        · rename_i head v1 h1
          split at hd
          · cases hd
          · rename_i ent tail h2
            exact ⟨head, ent, tail, by rw [splitOnce_eq h1, splitOnce_eq h2]; simp⟩
    | none =>
      refine .inl ⟨rfl, ?_⟩
      rintro ⟨a, b, c, e⟩
      rw [List.append_assoc, List.append_assoc] at e
      unfold decodeStep at hd
      split at hd
      · rename_i h1
        exact splitOnce_none h1 (by simp) a _ e
      · rename_i head v1 h1
        split at hd
        · rename_i h2
          obtain ⟨z, hz⟩ := splitOnce_first h1 e
          exact splitOnce_none h2 (by decide) (z ++ b) c (by rw [show v1 = _ from hz.symm]; simp)
        · cases hd

theorem decodes : Shrinks decodeEntity HasReference := by
  have h := (((((decode_shrinks '&' ['#', 'x'] 16).comp (decode_shrinks '&' ['#'] 10)).comp
    (replace_shrinks '&' (S "gt;") (S ">") (by decide))).comp (replace_shrinks '&' (S "lt;") (S "<") (by decide))).comp
    (replace_shrinks '&' (S "quot;") (S "\"") (by decide))).comp (replace_shrinks '&' (S "apos;") (S "'") (by decide)) |>.comp
    (replace_shrinks '&' (S "amp;") (S "&") (by decide))
  intro s
  have hs := h s
  have e : (∃ a b c, s = a ++ ('&' :: ['#', 'x']) ++ b ++ S ";" ++ c) → ∃ a b c, s = a ++ ('&' :: ['#']) ++ b ++ S ";" ++ c := by
    rintro ⟨a, b, c, e⟩
    exact ⟨a, 'x' :: b, c, by rw [e]; simp⟩
  have hr : ((((((∃ a b c, s = a ++ ('&' :: ['#', 'x']) ++ b ++ S ";" ++ c) ∨ (∃ a b c, s = a ++ ('&' :: ['#']) ++ b ++ S ";" ++ c)) ∨
      (∃ a b, s = a ++ ('&' :: S "gt;") ++ b)) ∨ (∃ a b, s = a ++ ('&' :: S "lt;") ++ b)) ∨ (∃ a b, s = a ++ ('&' :: S "quot;") ++ b)) ∨
      (∃ a b, s = a ++ ('&' :: S "apos;") ++ b)) ∨ (∃ a b, s = a ++ ('&' :: S "amp;") ++ b) ↔ HasReference s := by
    have ent : ∀ (x : Ent), (∃ a b, s = a ++ ('&' :: (x.name ++ S ";")) ++ b) ↔ ∃ a c, s = a ++ "&".toList ++ x.name ++ ";".toList ++ c := by
      intro x
      refine exists_congr fun a => exists_congr fun b => ?_
      rw [show a ++ ('&' :: (x.name ++ S ";")) ++ b = a ++ "&".toList ++ x.name ++ ";".toList ++ b by simp [S]]
    constructor
    · rintro ((((((k | k) | k) | k) | k) | k) | k)
      · exact .inl (e k)
      · exact .inl k
      · exact .inr ⟨.gt, (ent .gt).1 k⟩
      · exact .inr ⟨.lt, (ent .lt).1 k⟩
      · exact .inr ⟨.quot, (ent .quot).1 k⟩
      · exact .inr ⟨.apos, (ent .apos).1 k⟩
      · exact .inr ⟨.amp, (ent .amp).1 k⟩
    · rintro (k | ⟨x, k⟩)
      · exact .inl (.inl (.inl (.inl (.inl (.inr k)))))
      · cases x
        · exact .inl (.inl (.inl (.inr ((ent .lt).2 k))))
        · exact .inl (.inl (.inl (.inl (.inr ((ent .gt).2 k)))))
        · exact .inr ((ent .amp).2 k)
        · exact .inl (.inl (.inr ((ent .quot).2 k)))
        · exact .inl (.inr ((ent .apos).2 k))
  simp only [hr] at hs
  rw [decodeEntity_eq]
  exact hs

/-! ## Ill-formed references -/

theorem dec_of_toDigit {c : Char} {d : Nat} (h : toDigit 10 c = some d) : ∃ x : Fin 10, c = decDigit x ∧ d = x.1 := by
  unfold toDigit at h
  simp only at h
  split at h
  · rename_i v hv
    split at h
    · rename_i hlt
      cases h
      split at hv
      · rename_i hc
        cases hv
        have h1 : 48 ≤ c.toNat := hc.1
        have h2 : c.toNat ≤ 57 := hc.2
        refine ⟨⟨c.toNat - 48, by omega⟩, ?_, rfl⟩
        show c = Char.ofNat (48 + (c.toNat - 48))
        rw [show 48 + (c.toNat - 48) = c.toNat by omega, Char.ofNat_toNat]
      · split at hv
        · cases hv; omega
        · split at hv
          · cases hv; omega
          · cases hv
    · cases h
  · cases h

theorem hex_of_toDigit {c : Char} {d : Nat} (h : toDigit 16 c = some d) : ∃ x : Fin 16 × Bool, c = hexDigit x.1 x.2 ∧ d = x.1.1 := by
  unfold toDigit at h
  simp only at h
  split at h
  · rename_i v hv
    split at h
    · rename_i hlt
      cases h
      split at hv
      · rename_i hc
        cases hv
        have h1 : 48 ≤ c.toNat := hc.1
        have h2 : c.toNat ≤ 57 := hc.2
        have h3 : '0'.toNat = 48 := rfl
        refine ⟨(⟨c.toNat - 48, by omega⟩, true), ?_, rfl⟩
        unfold hexDigit
        rw [if_pos (by show c.toNat - 48 < 10; omega)]
        show c = Char.ofNat (48 + (c.toNat - 48))
        rw [show 48 + (c.toNat - 48) = c.toNat by omega, Char.ofNat_toNat]
      · split at hv
        · rename_i hc
          cases hv
          have h1 : 97 ≤ c.toNat := hc.1
          have h3 : 'a'.toNat = 97 := rfl
          refine ⟨(⟨c.toNat - 97 + 10, by omega⟩, false), ?_, rfl⟩
          unfold hexDigit
          rw [if_neg (by show ¬ c.toNat - 97 + 10 < 10; omega), if_neg (by simp)]
          show c = Char.ofNat (87 + (c.toNat - 97 + 10))
          rw [show 87 + (c.toNat - 97 + 10) = c.toNat by omega, Char.ofNat_toNat]
        · split at hv
          · rename_i hc
            cases hv
            have h1 : 65 ≤ c.toNat := hc.1
            have h3 : 'A'.toNat = 65 := rfl
            refine ⟨(⟨c.toNat - 65 + 10, by omega⟩, true), ?_, rfl⟩
            unfold hexDigit
            rw [if_neg (by show ¬ c.toNat - 65 + 10 < 10; omega), if_pos (by simp)]
            show c = Char.ofNat (55 + (c.toNat - 65 + 10))
            rw [show 55 + (c.toNat - 65 + 10) = c.toNat by omega, Char.ofNat_toNat]
          · cases hv
    · cases h
  · cases h

theorem digits_of_parse {α : Type} {radix : Nat} {ch : α → Char} (h : ∀ c d, toDigit radix c = some d → ∃ a, c = ch a) :
    ∀ (s : Str) (acc n : Nat), parseDigits radix acc s = some n → ∃ ds : List α, s = ds.map ch
  | [], _, _, _ => ⟨[], rfl⟩
  | c :: cs, acc, n, hp => by
    rw [parseDigits] at hp
    split at hp
    · cases hp
    · rename_i d hd
      split at hp
      · obtain ⟨a, ha⟩ := h c d hd
        obtain ⟨ds, hds⟩ := digits_of_parse h cs _ n hp
        exact ⟨a :: ds, by rw [ha, hds]; rfl⟩
      · cases hp

/-- With a plus sign in front. -/
theorem refChar_plus {radix : Nat} {s : Str} (hs : s ≠ []) (hp : s.head? ≠ some '+') : refChar radix ('+' :: s) = refChar radix s := by
  unfold refChar
  cases s with
  | nil => exact absurd rfl hs
  | cons c cs =>
    have : u32FromStrRadix radix (c :: cs) = parseDigits radix 0 (c :: cs) := by
      unfold u32FromStrRadix
      split
      · rename_i e; cases e
      · rename_i e; cases e; exact absurd rfl hp
      · rename_i e; cases e; exact absurd rfl hp
      · rfl
    rw [this]
    rfl

theorem body_char {α : Type} (radix : Nat) (hr : 1 ≤ radix) (ch : α → Char) (val : α → Nat) (h : ∀ a, toDigit radix (ch a) = some (val a))
    (hp : ∀ a, ch a ≠ '+') (hd : ∀ c d, toDigit radix c = some d → ∃ a, c = ch a) (body : Str) :
    (∃ ds : List α, ds ≠ [] ∧ (body = ds.map ch ∨ body = '+' :: ds.map ch) ∧ refChar radix body = charOf (value radix (ds.map val))) ∨
    ((∀ ds : List α, ds ≠ [] → body ≠ ds.map ch ∧ body ≠ '+' :: ds.map ch) ∧ refChar radix body = '\u3013') := by
  by_cases hx : ∃ ds : List α, ds ≠ [] ∧ (body = ds.map ch ∨ body = '+' :: ds.map ch)
  · obtain ⟨ds, hne, e | e⟩ := hx
    · exact .inl ⟨ds, hne, .inl e, by rw [e]; exact refChar_eq radix hr ch val h hp ds hne⟩
    · refine .inl ⟨ds, hne, .inr e, ?_⟩
      rw [e, refChar_plus (by simpa using hne) ?_, refChar_eq radix hr ch val h hp ds hne]
      cases ds with
      | nil => exact absurd rfl hne
      | cons a ds => simpa using hp a
  · have hx' : ∀ ds : List α, ds ≠ [] → body ≠ ds.map ch ∧ body ≠ '+' :: ds.map ch := fun ds hne =>
      ⟨fun e => hx ⟨ds, hne, .inl e⟩, fun e => hx ⟨ds, hne, .inr e⟩⟩
    refine .inr ⟨hx', ?_⟩
    have : u32FromStrRadix radix body = none := by
      unfold u32FromStrRadix
      split
      · rfl
      · rfl
      · rename_i cs hcs
        cases hq : parseDigits radix 0 cs with
        | none => rfl
        | some n =>
          obtain ⟨ds, e⟩ := digits_of_parse hd _ _ _ hq
          cases ds with
          | nil => exact absurd e hcs
          | cons a ds => exact absurd (by rw [e]) (hx' (a :: ds) (by simp)).2
      · rename_i hb _ _
        cases hq : parseDigits radix 0 body with
        | none => rfl
        | some n =>
          obtain ⟨ds, e⟩ := digits_of_parse hd _ _ _ hq
          cases ds with
          | nil => exact absurd e hb
          | cons a ds => exact absurd e (hx' (a :: ds) (by simp)).1
    unfold refChar
    rw [this]
    rfl

theorem dec_char (ds : List (Fin 10)) (hne : ds ≠ []) {body : Str} (e : body = ds.map decDigit ∨ body = '+' :: ds.map decDigit) :
    refChar 10 body = charOf (value 10 (ds.map (·.1))) := by
  have h := refChar_eq 10 (by decide) decDigit (·.1) toDigit_decDigit (fun a => (decDigit_facts a).2.2.2) ds hne
  rcases e with e | e
  · rw [e, h]
  · rw [e, refChar_plus (by simpa using hne) ?_, h]
    cases ds with
    | nil => exact absurd rfl hne
    | cons a ds => simpa using (decDigit_facts a).2.2.2

theorem hex_char (ds : List (Fin 16 × Bool)) (hne : ds ≠ []) {body : Str}
    (e : body = ds.map (fun d => hexDigit d.1 d.2) ∨ body = '+' :: ds.map (fun d => hexDigit d.1 d.2)) :
    refChar 16 body = charOf (value 16 (ds.map (·.1.1))) := by
  have h := refChar_eq 16 (by decide) (fun d : Fin 16 × Bool => hexDigit d.1 d.2) (·.1.1) (fun a => toDigit_hexDigit a.1 a.2)
    (fun a => (hexDigit_facts a.1 a.2).2.2) ds hne
  rcases e with e | e
  · rw [e, h]
  · rw [e, refChar_plus (by simpa using hne) ?_, h]
    cases ds with
    | nil => exact absurd rfl hne
    | cons a ds => simpa using (hexDigit_facts a.1 a.2).2.2

/-- The character is the one the specification gives. -/
theorem standsFor (hex : Bool) (body : Str) {c : Char} (hc : StandsFor hex body c) : refChar (if hex then 16 else 10) body = c := by
  cases hex with
  | false =>
    rcases hc with ⟨n, ⟨ds, hne, e, rfl⟩, rfl⟩ | ⟨hno, rfl⟩
    · exact dec_char ds hne e
    · rcases body_char 10 (by decide) decDigit (·.1) toDigit_decDigit (fun a => (decDigit_facts a).2.2.2)
        (fun c d h => by obtain ⟨x, hx, _⟩ := dec_of_toDigit h; exact ⟨x, hx⟩) body with ⟨ds, h1, h2, _⟩ | ⟨_, h2⟩
      · exact absurd ⟨ds, h1, h2, rfl⟩ (hno _)
      · exact h2
  | true =>
    rcases hc with ⟨n, ⟨ds, hne, e, rfl⟩, rfl⟩ | ⟨hno, rfl⟩
    · exact hex_char ds hne e
    · rcases body_char 16 (by decide) (fun d : Fin 16 × Bool => hexDigit d.1 d.2) (·.1.1) (fun a => toDigit_hexDigit a.1 a.2)
        (fun a => (hexDigit_facts a.1 a.2).2.2)
        (fun c d h => by obtain ⟨x, hx, _⟩ := hex_of_toDigit h; exact ⟨x, hx⟩) body with ⟨ds, h1, h2, _⟩ | ⟨_, h2⟩
      · exact absurd ⟨ds, h1, h2, rfl⟩ (hno _)
      · exact h2

theorem decodeAll_plain {ps : Str} {radix : Nat} {s : Str} (h : '&' ∉ s) : decodeAll ('&' :: ps) radix s = s := by
  rcases decode_shrinks '&' ps radix s with ⟨e, _⟩ | ⟨_, a, b, c, e⟩
  · exact e
  · exact absurd (by rw [e]; simp) h

theorem replace_free {ps rep : Str} (hl : rep.length < ps.length + 1) {s : Str} (h : '&' ∉ s) : replaceAll ('&' :: ps) rep s = s := by
  rcases replace_shrinks '&' ps rep hl s with ⟨e, _⟩ | ⟨_, a, b, e⟩
  · exact e
  · exact absurd (by rw [e]; simp) h

theorem one_reference (hex : Bool) {pre body post : Str} (h1 : '&' ∉ pre) (h2 : '&' ∉ body) (h3 : '&' ∉ post) (hs : ';' ∉ body)
    (hx : hex = false → body.head? ≠ some 'x') {c : Char} (hc : refChar (if hex then 16 else 10) body = c) (ha : c ≠ '&') :
    decodeEntity (pre ++ refMark hex ++ body ++ ";".toList ++ post) = pre ++ c :: post := by
  have plain : '&' ∉ pre ++ c :: post := by simp [h1, h3, Ne.symm ha]
  have pref : ∀ ps radix t, decodeAll ('&' :: ps) radix (pre ++ t) = pre ++ decodeAll ('&' :: ps) radix t := fun ps radix t =>
    decodeAll_prefix '&' ps pre radix (fun t => splitOnce_plain '&' ps pre t fun c hc e => h1 (e ▸ hc)) t
  have hb : ∀ c ∈ body, c ≠ ';' := fun c hc e => hs (e ▸ hc)
  have fin : ∀ s, '&' ∉ s → replaceAll (S "&amp;") (S "&") (replaceAll (S "&apos;") (S "'") (replaceAll (S "&quot;") (S "\"")
      (replaceAll (S "&lt;") (S "<") (replaceAll (S "&gt;") (S ">") s)))) = s := by
    intro s hs
    rw [show S "&gt;" = '&' :: S "gt;" from rfl, show S "&lt;" = '&' :: S "lt;" from rfl, show S "&quot;" = '&' :: S "quot;" from rfl,
      show S "&apos;" = '&' :: S "apos;" from rfl, show S "&amp;" = '&' :: S "amp;" from rfl]
    rw [replace_free (by decide) hs, replace_free (by decide) hs, replace_free (by decide) hs, replace_free (by decide) hs, replace_free (by decide) hs]
  rw [decodeEntity_eq]
  cases hex with
  | true =>
    have e : decodeAll (S "&#x") 16 (pre ++ refMark true ++ body ++ ";".toList ++ post) = pre ++ c :: post := by
      have := decodeAll_ref '&' ['#', 'x'] body post 16 hb (by rw [show refChar 16 body = c from hc]; exact ha)
      rw [show refChar 16 body = c from hc, decodeAll_plain h3] at this
      rw [show pre ++ refMark true ++ body ++ ";".toList ++ post = pre ++ ('&' :: ['#', 'x'] ++ body ++ ';' :: post) by simp [refMark]]
      rw [show S "&#x" = '&' :: ['#', 'x'] from rfl, pref, this]
    rw [e, show S "&#" = '&' :: ['#'] from rfl, decodeAll_plain plain]
    exact fin _ plain
  | false =>
    have e0 : decodeAll (S "&#x") 16 (pre ++ refMark false ++ body ++ ";".toList ++ post) = pre ++ refMark false ++ body ++ ";".toList ++ post := by
      rcases decode_shrinks '&' ['#', 'x'] 16 (pre ++ refMark false ++ body ++ ";".toList ++ post) with ⟨e, _⟩ | ⟨_, a, b, d, e⟩
      · exact e
      · exfalso
        have e' : pre ++ '&' :: ('#' :: (body ++ ';' :: post)) = a ++ '&' :: ('#' :: 'x' :: (b ++ ';' :: d)) := by
          have : pre ++ refMark false ++ body ++ ";".toList ++ post = pre ++ '&' :: ('#' :: (body ++ ';' :: post)) := by simp [refMark]
          rw [← this, e]
          simp [S]
        by_cases hpa : '&' ∈ a
        · obtain ⟨a1, a2, rfl⟩ := List.append_of_mem hpa
          have hcount := congrArg (List.count '&') e'
          have z : ∀ {l : Str}, '&' ∉ l → List.count '&' l = 0 := fun h => List.count_eq_zero.2 h
          simp [List.count_append, z h1, z h2, z h3] at hcount
          omega
        · have := congrArg (List.takeWhile (· ≠ '&')) e'
          have ne : ∀ {l : Str}, '&' ∉ l → ∀ c ∈ l, decide (c ≠ '&') = true := fun h c hc => decide_eq_true fun e => h (e ▸ hc)
          rw [List.takeWhile_append_of_pos (ne h1), List.takeWhile_append_of_pos (ne hpa)] at this
          simp at this
          subst this
          simp at e'
          cases body with
          | nil => simp at e'
          | cons d body =>
            simp at e'
            exact hx rfl (by simp [e'.1])
    have e : decodeAll (S "&#") 10 (pre ++ refMark false ++ body ++ ";".toList ++ post) = pre ++ c :: post := by
      have := decodeAll_ref '&' ['#'] body post 10 hb (by rw [show refChar 10 body = c from hc]; exact ha)
      rw [show refChar 10 body = c from hc, decodeAll_plain h3] at this
      rw [show pre ++ refMark false ++ body ++ ";".toList ++ post = pre ++ ('&' :: ['#'] ++ body ++ ';' :: post) by simp [refMark]]
      rw [show S "&#" = '&' :: ['#'] from rfl, pref, this]
    rw [e0, e]
    exact fin _ plain

end Bare

/-- **C109**: text is left as it is if and only if it contains no `&#` with a semicolon behind it and none of the predefined entities. -/
theorem C109_unchanged (s : Str) : decodeEntity s = s ↔ ¬ HasReference s := Bare.decodes.same s

/-- **C109**: the same for character data in a document. -/
theorem C109_text (s : Str) (hne : s ≠ []) (hlt : '<' ∉ s) (h0 : '\x00' ∉ s) (hr : ¬ HasReference s) (t : Str) (ht : t = [] ∨ ∃ r, t = '<' :: r) :
    rawToken ⟨s ++ t, []⟩ = some (.ok (.charData s), ⟨t, []⟩) := by
  rw [rawToken_text _ t hne hlt h0 ht, (C109_unchanged s).2 hr]

/-- **C109**: and for attribute values. -/
theorem C109_attribute (n : Str) (hn : IsName n) (as : List AttrSrc) (hwf : ∀ a ∈ as, a.WF ∧ ¬ HasReference a.raw) (ws : Str) (hws : IsSpaces ws)
    (t : Str) : rawToken ⟨'<' :: (n ++ as.flatMap (fun a => a.render) ++ ws ++ '>' :: t), []⟩ =
      some (.ok (.startElement n (as.map fun a => (a.name, a.raw))), ⟨t, []⟩) := by
  have := rawToken_startTag n hn as (fun a ha => (hwf a ha).1) ws hws false t
  rw [List.map_congr_left (g := fun a => (a.name, a.raw)) fun a ha => by rw [(C109_unchanged a.raw).2 (hwf a ha).2]] at this
  exact this

/-- **C109**: a numeric reference in text without other ampersands is replaced by the character with that number, whatever stands between `&#` and the
semicolon: by U+3013 if that is no number. -/
theorem C109_numeric (hex : Bool) {pre body post : Str} (h1 : '&' ∉ pre) (h2 : '&' ∉ body) (h3 : '&' ∉ post) (hs : ';' ∉ body)
    (hx : hex = false → body.head? ≠ some 'x') {c : Char} (hc : StandsFor hex body c) (ha : c ≠ '&') :
    decodeEntity (pre ++ refMark hex ++ body ++ ";".toList ++ post) = pre ++ c :: post :=
  Bare.one_reference hex h1 h2 h3 hs hx (Bare.standsFor hex body hc) ha

/-- Ampersands that begin no reference. -/
example : ¬ HasReference "a && b; &x; &#65 &lt".toList := (C109_unchanged _).1 (by decide +kernel)

/-- A plus sign is let through. -/
example : decodeEntity "x&#+65;y".toList = "xAy".toList :=
  C109_numeric false (pre := "x".toList) (body := "+65".toList) (post := "y".toList) (by decide) (by decide) (by decide) (by decide) (by decide) (c := 'A')
    (.inl ⟨65, ⟨[6, 5], by decide, .inr rfl, by decide⟩, by decide⟩) (by decide)

/-- Something that is no number. -/
example : decodeEntity "&#6-5;".toList = "\u3013".toList := by decide +kernel

end Amxml
