import Verif.Props.XNodeFn
import Verif.Spec.Case

/-!
# C99: upper and lower case; and what was left of the function library (parts of C40, C70, C78)
-/

namespace Amxml
open Spec

/-! ## Case -/

/-- A function on characters agrees with a change of alphabet on ASCII. -/
theorem recased_of (f : Char → Char) (a b : Str)
    (hf : ∀ n : Fin 128, (match a.idxOf? (Char.ofNat n.1) with | some k => b[k]? == some (f (Char.ofNat n.1)) | none => f (Char.ofNat n.1) == Char.ofNat n.1) = true)
    (c : Char) (hc : c.toNat < 128) : Recased a b c (f c) := by
  have := hf ⟨c.toNat, hc⟩
  simp only [Char.ofNat_toNat] at this
  cases hk : a.idxOf? c with
  | some k =>
    rw [hk] at this
    have hb : b[k]? = some (f c) := by simpa using this
    refine .inl ⟨k, ?_, hb⟩
    rw [List.idxOf?_eq_some_iff] at hk
    obtain ⟨hl, he, -⟩ := hk
    rw [List.getElem?_eq_getElem hl]
    simpa using he
  | none =>
    rw [hk] at this
    refine .inr ⟨?_, by simpa using this⟩
    simpa using hk

theorem ascii_forall₂_map {P : Char → Char → Prop} {f : Char → Char} : ∀ {s : Str}, (∀ c ∈ s, P c (f c)) → List.Forall₂ P s (s.map f)
  | [], _ => .nil
  | c :: s, hs => .cons (hs c (by simp)) (ascii_forall₂_map fun c hc => hs c (by simp [hc]))

theorem allAscii_of {s : Str} (hs : Ascii s) : allAscii s = true := by
  unfold allAscii
  rw [List.all_eq_true]
  intro c hc
  exact decide_eq_true (hs c hc)

/-- **C99**: on ASCII texts `upper-case` puts each small letter into the capital and leaves all else, `lower-case` the other way round. -/
theorem C99_case (h : Heap) (s : Str) (hs : Ascii s) :
    (∃ t, CallGives h (S "fn:upper-case") [[.string s]] [.string t] ∧ List.Forall₂ (Recased smalls capitals) s t) ∧
    (∃ t, CallGives h (S "fn:lower-case") [[.string s]] [.string t] ∧ List.Forall₂ (Recased capitals smalls) s t) := by
  refine ⟨⟨s.map asciiUpper, calls_of 1 _ (hg := ?_), ascii_forall₂_map fun c hc => recased_of _ _ _ (by decide +kernel) c (hs c hc)⟩,
    ⟨s.map F64.asciiLower, calls_of 1 _ (hg := ?_), ascii_forall₂_map fun c hc => recased_of _ _ _ (by decide +kernel) c (hs c hc)⟩⟩
  · show Except.ok [XItem.string (toUppercase s)] = _
    rw [toUppercase, if_pos (allAscii_of hs)]
  · show Except.ok [XItem.string (toLowercase s)] = _
    rw [toLowercase, if_pos (allAscii_of hs)]

/-- Each character has one counterpart. -/
theorem recased_unique {c d e : Char} : (Recased smalls capitals c d → Recased smalls capitals c e → d = e) ∧
    (Recased capitals smalls c d → Recased capitals smalls c e → d = e) := by
  have key : ∀ a b : Str, a.Nodup → Recased a b c d → Recased a b c e → d = e := by
    rintro a b hn (⟨n, h1, h2⟩ | ⟨h1, h2⟩) (⟨m, h3, h4⟩ | ⟨h3, h4⟩)
    · obtain ⟨hl, e1⟩ := List.getElem?_eq_some_iff.1 h1
      obtain ⟨hl', e2⟩ := List.getElem?_eq_some_iff.1 h3
      have : n = m := (List.Nodup.getElem_inj_iff hn).1 (e1.trans e2.symm)
      subst this
      rw [h2] at h4
      exact Option.some.inj h4
    · exact absurd (List.mem_of_getElem? h1) h3
    · exact absurd (List.mem_of_getElem? h3) h1
    · rw [h2, h4]
  exact ⟨key _ _ (by decide +kernel), key _ _ (by decide +kernel)⟩

/-- **C99**, other arguments: no text is the empty text, and what is not one string is a type error. -/
theorem C99_other (h : Heap) (f : Str) (hf : f = S "fn:upper-case" ∨ f = S "fn:lower-case") :
    CallGives h f [[]] [.string []] ∧ ∀ a : XSeq, a ≠ [] → (∀ s, a ≠ [.string s]) → CallFails h f [a] .typeError := by
  have str : ∀ A : XSeq, (∀ s, A ≠ [.string s]) → XSeq.string1 A = .error .typeError := by
    intro A hA
    unfold XSeq.string1
    split
    · exact absurd rfl (hA _)
    · rfl
  rcases hf with rfl | rfl
  · refine ⟨calls_of 1 _ (hg := rfl), fun a ha hs => fails_of 1 _ (hg := ?_)⟩
    show fnUpperCase a = _
    unfold fnUpperCase
    rw [if_neg (by simpa using ha), str a hs]; rfl
  · refine ⟨calls_of 1 _ (hg := rfl), fun a ha hs => fails_of 1 _ (hg := ?_)⟩
    show fnLowerCase a = _
    unfold fnLowerCase
    rw [if_neg (by simpa using ha), str a hs]; rfl

/-- The hypotheses are met. -/
example : Ascii (S "Az[`{1") ∧ CallGives editSample (S "fn:upper-case") [[.string (S "Az[`{1")]] [.string (S "AZ[`{1")] := by
  refine ⟨by unfold Ascii; decide, ?_⟩
  obtain ⟨t, ht, hf⟩ := (C99_case editSample (S "Az[`{1") (by unfold Ascii; decide)).1
  have : t = S "AZ[`{1" := by
    cases hf with | cons a hf => cases hf with | cons b hf => cases hf with | cons c hf => cases hf with | cons d hf => cases hf with | cons e hf =>
      cases hf with | cons f hf => cases hf with | nil =>
      rw [recased_unique.1 a (.inr ⟨by decide, rfl⟩), recased_unique.1 b (show Recased smalls capitals 'z' 'Z' from .inl ⟨25, by decide, by decide⟩), recased_unique.1 c (.inr ⟨by decide, rfl⟩),
        recased_unique.1 d (.inr ⟨by decide, rfl⟩), recased_unique.1 e (.inr ⟨by decide, rfl⟩), recased_unique.1 f (.inr ⟨by decide, rfl⟩)]
      rfl
  exact this ▸ ht

/-! ## The constants -/

/-- **C40**: `true()` and `false()`. -/
theorem C40_constants (h : Heap) : CallGives h (S "fn:true") [] [.boolean true] ∧ CallGives h (S "fn:false") [] [.boolean false] :=
  ⟨calls_of 0 _ (hg := rfl), calls_of 0 _ (hg := rfl)⟩

/-! ## fn:nilled -/

/-- **C70**: `nilled` of an element tells whether `attribute_value("xsi:nil")` is `true`; of another node, and of nothing, it is empty; anything
else is a type error. -/
theorem C70_nilled (h : Heap) :
    (∀ i, (h.node i).ntype = .element →
      CallGives h (S "fn:nilled") [[.node i]] [.boolean (decide (h.attributeValue i (S "xsi:nil") = some (S "true")))]) ∧
    (∀ i, (h.node i).ntype ≠ .element → CallGives h (S "fn:nilled") [[.node i]] []) ∧
    CallGives h (S "fn:nilled") [[]] [] ∧
    (∀ s, s ≠ [] → (∀ i, s ≠ [.node i]) → CallFails h (S "fn:nilled") [s] .typeError) := by
  refine ⟨fun i hi => calls_of 1 _ (hg := ?_), fun i hi => calls_of 1 _ (hg := ?_), calls_of 1 _ (hg := rfl), fun s h0 hs => fails_of 1 _ (hg := ?_)⟩
  · show fnNilled h [.node i] = _
    unfold fnNilled
    simp only [XSeq.node1, hi, List.isEmpty_cons, Bool.false_eq_true, if_false]
    cases h.attributeValue i (S "xsi:nil") with
    | none => rfl
    | some v =>
      show Except.ok (xbool (v == S "true")) = _
      by_cases hv : v = S "true" <;> simp [hv, xbool]
  · show fnNilled h [.node i] = _
    unfold fnNilled
    simp only [XSeq.node1, List.isEmpty_cons, Bool.false_eq_true, if_false]
  · show fnNilled h s = _
    unfold fnNilled
    rw [if_neg (by simpa using h0)]
    have : XSeq.node1 s = .error .typeError := by
      unfold XSeq.node1
      split
      · exact absurd rfl (hs _)
      · rfl
    rw [this]

/-! ## fn:number of several items -/

/-- **C78 is violated by the code**: `number` of two or more items is 0, not a type error. -/
theorem C78_number_many (h : Heap) (s : XSeq) (hs : 2 ≤ s.length) : CallGives h (S "fn:number") [s] [.double F64.zero] := by
  match s, hs with
  | x :: y :: s, _ => exact calls_of 1 _ (hg := rfl)

end Amxml
