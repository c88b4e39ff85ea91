import Verif.Props.Markup
import Verif.Spec.Names

/-!
# C100: the names that the parser reads are those of XML 1.0
-/

namespace Amxml
open Spec

/-! ## Lists of intervals -/

/-- Membership in one of the intervals, as a test. -/
def withinB (l : List (Nat × Nat)) (n : Nat) : Bool := l.any fun r => decide (r.1 ≤ n) && decide (n ≤ r.2)

theorem withinB_iff (l : List (Nat × Nat)) (n : Nat) : withinB l n = true ↔ InRanges n l := by
  simp [withinB, InRanges]

/-- Put an interval in its place among sorted ones. -/
def put (r : Nat × Nat) : List (Nat × Nat) → List (Nat × Nat)
  | [] => [r]
  | q :: l => match Nat.ble r.1 q.1 with
    | true => r :: q :: l
    | false => q :: put r l

theorem withinB_put (r : Nat × Nat) (l : List (Nat × Nat)) (n : Nat) : withinB (put r l) n = withinB (r :: l) n := by
  induction l with
  | nil => rfl
  | cons q l ih =>
    rw [put]
    cases Nat.ble r.1 q.1 with
    | true => rfl
    | false =>
      show (_ || withinB (put r l) n) = (_ || (_ || _))
      rw [ih]
      exact Bool.or_left_comm ..

/-- Sort intervals. -/
def sorted : List (Nat × Nat) → List (Nat × Nat)
  | [] => []
  | r :: l => put r (sorted l)

theorem withinB_sorted (l : List (Nat × Nat)) (n : Nat) : withinB (sorted l) n = withinB l n := by
  induction l with
  | nil => rfl
  | cons r l ih =>
    rw [sorted, withinB_put]
    show (_ || withinB (sorted l) n) = (_ || withinB l n)
    rw [ih]

/-- Join intervals that touch, `r` being the one that is built. -/
def joined (r : Nat × Nat) : List (Nat × Nat) → List (Nat × Nat)
  | [] => [r]
  | q :: l => match Nat.ble r.1 q.1, Nat.ble q.1 (r.2 + 1), Nat.ble r.2 q.2 with
    | true, true, true => joined (r.1, q.2) l
    | true, true, false => joined r l
    | _, _, _ => r :: joined q l

theorem ble_iff (a b : Nat) : Nat.ble a b = true ↔ a ≤ b := by rw [Nat.ble_eq]

theorem withinB_joined (r : Nat × Nat) (l : List (Nat × Nat)) (n : Nat) : withinB (joined r l) n = withinB (r :: l) n := by
  induction l generalizing r with
  | nil => rfl
  | cons q l ih =>
    have e : ∀ a b : Nat × Nat, ∀ k, withinB (a :: b :: k) n =
        ((decide (a.1 ≤ n) && decide (n ≤ a.2)) || ((decide (b.1 ≤ n) && decide (n ≤ b.2)) || withinB k n)) := fun _ _ _ => rfl
    have e' : ∀ a : Nat × Nat, ∀ k, withinB (a :: k) n = ((decide (a.1 ≤ n) && decide (n ≤ a.2)) || withinB k n) := fun _ _ => rfl
    rw [joined]
    rcases h1 : Nat.ble r.1 q.1 <;> rcases h2 : Nat.ble q.1 (r.2 + 1) <;> rcases h3 : Nat.ble r.2 q.2 <;>
      first
        | (show withinB (joined _ l) n = _
           rw [ih, e', e, ← Bool.or_assoc]
           congr 1
           have f1 := ble_iff r.1 q.1
           have f2 := ble_iff q.1 (r.2 + 1)
           have f3 := ble_iff r.2 q.2
           rw [h1] at f1
           rw [h2] at f2
           rw [h3] at f3
           simp only [true_iff, Bool.false_eq_true, false_iff] at f1 f2 f3
           rw [Bool.eq_iff_iff]
           simp only [Bool.or_eq_true, Bool.and_eq_true, decide_eq_true_iff]
           omega)
        | (show (_ || withinB (joined q l) n) = _
           rw [ih]
           rfl)

/-- The normal form of a list of intervals. -/
def normal (l : List (Nat × Nat)) : List (Nat × Nat) :=
  match sorted l with
  | [] => []
  | r :: k => joined r k

theorem withinB_normal (l : List (Nat × Nat)) (n : Nat) : withinB (normal l) n = withinB l n := by
  rw [← withinB_sorted l, normal]
  cases sorted l with
  | nil => rfl
  | cons r k => exact withinB_joined ..

/-- Two lists of intervals with the same normal form have the same members. -/
theorem within_congr {l m : List (Nat × Nat)} (h : normal l = normal m) (n : Nat) : withinB l n = withinB m n := by
  rw [← withinB_normal, h, withinB_normal]

/-! ## The characters -/

theorem ranges_within (c : Char) (l : List (Nat × Nat)) : charIsInRanges c l = withinB l c.toNat := rfl

theorem withinB_append (l m : List (Nat × Nat)) (n : Nat) : withinB (l ++ m) n = (withinB l n || withinB m n) := by
  simp [withinB, List.any_append]

theorem char_point (c d : Char) : (c == d) = withinB [(d.toNat, d.toNat)] c.toNat := by
  rw [Bool.eq_iff_iff, withinB_iff]
  simp only [beq_iff_eq, InRanges, List.mem_singleton, exists_eq_left]
  constructor
  · rintro rfl; exact ⟨Nat.le_refl _, Nat.le_refl _⟩
  · rintro ⟨h1, h2⟩
    exact Char.toNat_inj.1 (Nat.le_antisymm h2 h1)

theorem first_iff (c : Char) : isNameFirstChar c = true ↔ InRanges c.toNat nameStart := by
  unfold isNameFirstChar isLetter
  rw [ranges_within, char_point, char_point, ← withinB_append, ← withinB_append, ← withinB_iff]
  rw [within_congr (m := nameStart) (by decide +kernel)]

theorem char_iff (c : Char) : isNameChar c = true ↔ InRanges c.toNat nameStart ∨ InRanges c.toNat nameOther := by
  unfold isNameChar isLetter isDigit isCombiningChar isExtender
  simp only [ranges_within, char_point, ← withinB_append]
  rw [within_congr (m := nameStart ++ nameOther) (by decide +kernel), withinB_append, Bool.or_eq_true, withinB_iff, withinB_iff]

theorem isName_iff (s : Str) : IsName s ↔ XmlName s := by
  unfold IsName XmlName
  simp only [first_iff, char_iff]

theorem isSpaces_iff (s : Str) : IsSpaces s ↔ s = [] ∨ XmlSpace s := by
  have key : ∀ c, isSpace c = true ↔ c.toNat = 0x20 ∨ c.toNat = 0x9 ∨ c.toNat = 0xD ∨ c.toNat = 0xA := by
    intro c
    unfold isSpace
    simp only [Bool.or_eq_true, beq_iff_eq, ← Char.toNat_inj]
    constructor
    · rintro (((h | h) | h) | h)
      · exact .inl h
      · exact .inr (.inl h)
      · exact .inr (.inr (.inl h))
      · exact .inr (.inr (.inr h))
    · rintro (h | h | h | h)
      · exact .inl (.inl (.inl h))
      · exact .inl (.inl (.inr h))
      · exact .inl (.inr h)
      · exact .inr h
  unfold IsSpaces XmlSpace
  simp only [key]
  constructor
  · intro h
    by_cases e : s = []
    · exact .inl e
    · exact .inr ⟨e, h⟩
  · rintro (rfl | h)
    · simp
    · exact h.2

/-- **C100.** The names of the source grammar (Spec/Xml.lean, Spec/Markup.lean), with which properties C03, C09, C95 and C96 are
stated, are the names of XML 1.0. -/
theorem C100_names (s : Str) : IsName s ↔ XmlName s := isName_iff s

/-- **C100.** White space is that of XML 1.0. -/
theorem C100_spaces (s : Str) : IsSpaces s ↔ s = [] ∨ XmlSpace s := isSpaces_iff s

/-- **C100.** What is read as a name is the longest name that the text begins with, and nothing if it begins with none. -/
theorem C100_longest (n t : Str) :
    NameThen n t ↔ (n = [] ∨ XmlName n) ∧ ∀ p, p <+: n ++ t → XmlName p → p <+: n := by
  constructor
  · rintro (⟨hn, ht⟩ | ⟨rfl, ht⟩)
    · refine ⟨.inr ((isName_iff n).1 hn), ?_⟩
      intro p hp hx
      rcases List.prefix_or_prefix_of_prefix hp (List.prefix_append n t) with h | h
      · exact h
      · obtain ⟨m, rfl⟩ := h
        rw [List.prefix_append_right_inj] at hp
        cases m with
        | nil => simp
        | cons c m =>
          obtain ⟨k, rfl⟩ := hp
          have := ht c (by simp)
          obtain ⟨d, ds, e, _, hds⟩ := (isName_iff _).2 hx
          obtain ⟨d', ds', rfl, _, _⟩ := hn
          simp only [List.cons_append, List.cons.injEq] at e
          rw [hds c (by rw [← e.2]; simp)] at this
          simp at this
    · refine ⟨.inl rfl, ?_⟩
      intro p hp hx
      obtain ⟨d, ds, rfl, hd, _⟩ := (isName_iff _).2 hx
      obtain ⟨k, e⟩ := hp
      simp only [List.nil_append] at e
      rw [ht d (by rw [← e]; rfl)] at hd
      simp at hd
  · rintro ⟨hn, hl⟩
    rcases hn with rfl | hn
    · right
      refine ⟨rfl, ?_⟩
      intro c hc
      cases t with
      | nil => simp at hc
      | cons d t =>
        obtain rfl : d = c := by simpa using hc
        by_contra hf
        have := hl [d] ⟨t, rfl⟩ ((isName_iff _).1 ⟨d, [], rfl, by simpa using hf, by simp⟩)
        simp at this
    · left
      refine ⟨(isName_iff n).2 hn, ?_⟩
      intro c hc
      cases t with
      | nil => simp at hc
      | cons d t =>
        obtain rfl : d = c := by simpa using hc
        by_contra hf
        obtain ⟨x, xs, e, hx, hxs⟩ := (isName_iff n).2 hn
        have := hl (n ++ [d]) ⟨t, by simp⟩ ((isName_iff _).1 ⟨x, xs ++ [d], by rw [e]; rfl, hx, by
          intro y hy
          rcases List.mem_append.1 hy with hy | hy
          · exact hxs y hy
          · obtain rfl : y = d := by simpa using hy
            simpa using hf⟩)
        have := this.length_le
        rw [List.length_append] at this
        exact absurd this (by simp)

theorem inTag_names {b : Str} {as : List (Str × Str)} (h : InTag b as) : ∀ a ∈ as, XmlName a.1 := by
  induction h with
  | nil => simp
  | space _ _ ih => exact ih
  | junk _ _ _ _ _ ih => exact ih
  | last hn => simpa using (isName_iff _).1 hn
  | attr hn _ _ _ _ _ _ _ ih => simpa using ⟨(isName_iff _).1 hn, fun a b => ih (a, b)⟩

theorem construct_names {w : Str} {ts : List Token} {t : Str} (h : Construct w ts t) : ∀ x ∈ ts, NamedRight x := by
  cases h with
  | text => simp [NamedRight]
  | comment => simp [NamedRight]
  | cdata => simp [NamedRight]
  | directive => simp [NamedRight]
  | pi h => simpa [NamedRight] using ((C100_longest _ _).1 h).1
  | endTag h => simpa [NamedRight] using ((C100_longest _ _).1 h).1
  | startTag h hi =>
    simp only [List.mem_singleton, forall_eq]
    exact ⟨((C100_longest _ _).1 h).1, inTag_names hi⟩
  | emptyTag h hi =>
    intro x hx
    rcases List.mem_cons.1 hx with rfl | hx
    · exact ⟨((C100_longest _ _).1 h).1, inTag_names hi⟩
    · split at hx
      · simp at hx
      · obtain rfl : x = _ := by simpa using hx
        exact ((C100_longest _ _).1 h).1

theorem written_names {s r : Str} {ts : List Token} (h : Written s ts r) : ∀ x ∈ ts, NamedRight x := by
  induction h with
  | refl => simp
  | more h _ ih =>
    intro x hx
    rcases List.mem_append.1 hx with hx | hx
    · exact construct_names h x hx
    · exact ih x hx

/-- **C100.** Whatever the text: the names of the elements, attributes and processing instructions that are reported are
names of XML 1.0 (or, of an element or a processing instruction, missing). -/
theorem C100_reported (xml : Str) (h0 : '\x00' ∉ xml) (ts : List Token) (h : Stream (Dec.new xml) ts) : ∀ x ∈ ts, NamedRight x :=
  written_names ((C95_tokens xml h0 ts).1 h)

theorem forest_append {F G : Forest Content} {P : Content → Prop} (h : ∀ c ∈ F.toList, P c) (h' : ∀ c ∈ G.toList, P c) :
    ∀ c ∈ (F ++ G).toList, P c := by
  intro c hc
  rw [Forest.toList_append] at hc
  rcases List.mem_append.1 hc with hc | hc
  · exact h c hc
  · exact h' c hc

/-- The names in a node. -/
def NodeNamed (c : Content) : Prop := (c.name = [] ∨ XmlName c.name) ∧ ∀ a ∈ c.attrs, XmlName a.1

theorem leaf_named {t : Token} {c : Content} (h : leafOf t = some c) (ht : NamedRight t) : NodeNamed c := by
  cases t with
  | charData s => cases h; exact ⟨.inl rfl, by simp⟩
  | comment s => cases h; exact ⟨.inl rfl, by simp⟩
  | procInst t s =>
    simp only [leafOf, Option.some.injEq] at h
    subst h
    split
    · rename_i e
      exact ⟨by rw [← e]; exact ht, by simp⟩
    · exact ⟨ht, by simp⟩
  | _ => cases h

theorem trees_named {ts : List Token} {G : Forest Content} (h : Trees ts G) (ht : ∀ x ∈ ts, NamedRight x) : ∀ c ∈ G.toList, NodeNamed c := by
  induction h with
  | nil => simp [Forest.toList]
  | leaf hl _ ih =>
    intro c hc
    simp only [Forest.toList, List.nil_append, List.mem_cons] at hc
    rcases hc with rfl | hc
    · exact leaf_named hl (ht _ (by simp))
    · exact ih (fun x hx => ht x (by simp [hx])) c hc
  | directive _ ih => exact ih fun x hx => ht x (by simp [hx])
  | element _ _ ih1 ih2 =>
    intro c hc
    simp only [Forest.toList, List.mem_cons, List.mem_append] at hc
    rcases hc with rfl | hc | hc
    · exact ht _ (List.mem_append.2 (.inl (List.mem_cons.2 (.inl rfl))))
    · exact ih1 (fun x hx => ht x (by simp [hx])) c hc
    · exact ih2 (fun x hx => ht x (by simp [hx])) c hc

theorem openTrees_named {ts : List Token} {G : Forest Content} (h : OpenTrees ts G) (ht : ∀ x ∈ ts, NamedRight x) : ∀ c ∈ G.toList, NodeNamed c := by
  induction h with
  | closed h => exact trees_named h ht
  | opened h _ ih =>
    refine forest_append (trees_named h fun x hx => ht x (by simp [hx])) ?_
    intro c hc
    simp only [Forest.toList, List.mem_cons, List.mem_append, List.not_mem_nil, or_false] at hc
    rcases hc with rfl | hc
    · exact ht _ (List.mem_append.2 (.inr (List.mem_cons.2 (.inl rfl))))
    · exact ih (fun x hx => ht x (by simp [hx])) c hc

theorem textTrees_named {ts : List Token} {G : Forest Content} (h : TextTrees ts G) (ht : ∀ x ∈ ts, NamedRight x) : ∀ c ∈ G.toList, NodeNamed c := by
  induction h with
  | all h => exact openTrees_named h ht
  | stray h _ ih =>
    exact forest_append (trees_named h fun x hx => ht x (by simp [hx])) (ih fun x hx => ht x (by simp [hx]))

/-- **C100.** In every document that `new_document` returns, the names of elements, attributes and processing instructions are names
of XML 1.0 (or, of an element or a processing instruction, missing). -/
theorem C100_tree (h : Heap) (hw : HeapWF h) (xml : Str) (h0 : '\x00' ∉ xml) (h' : Heap) (r : NodeId)
    (hd : newDocument h xml = some (.ok (h', r))) :
    ∃ F, ParsedDoc h' r F ∧ ∀ i ∈ F.toList, ((contentOf h' i).name = [] ∨ XmlName (contentOf h' i).name) ∧
      ∀ a ∈ (contentOf h' i).attrs, XmlName a.1 := by
  obtain ⟨ts, G, F, h1, h2, h3, h4⟩ := C96_tree h hw xml h0 h' r hd
  refine ⟨F, h3, ?_⟩
  intro i hi
  refine textTrees_named h2 (written_names h1) (contentOf h' i) ?_
  rw [← h4, Forest.toList_map]
  exact List.mem_map.2 ⟨i, hi, rfl⟩

/-- **C100.** Every name of XML 1.0 can be used: `<n>` and `</n>` are the tags of an element with that name. -/
theorem C100_usable (n : Str) (hn : XmlName n) (t : Str) :
    rawToken ⟨'<' :: (n ++ '>' :: t), []⟩ = some (.ok (.startElement n []), ⟨t, []⟩) ∧
    rawToken ⟨'<' :: '/' :: (n ++ '>' :: t), []⟩ = some (.ok (.endElement n), ⟨t, []⟩) := by
  have hn := (isName_iff n).2 hn
  have h1 := rawToken_startTag n hn [] (by simp) [] (by unfold IsSpaces; simp) false t
  have h2 := rawToken_endTag n hn [] (by unfold IsSpaces; simp) t
  exact ⟨by simpa [tagEnd, S] using h1, by simpa [S] using h2⟩

/-- **C100.** Of the ASCII characters, letters, digits, `.`, `-`, `_` and `:` are characters of names, the others are not; names do not
begin with a digit, `.` or `-`. -/
theorem C100_ascii (c : Char) (hc : c.toNat < 0x80) (s : Str) (h : XmlName s) :
    (c ∈ s → ¬ AsciiOther c) ∧ (s.head? = some c → Latin c ∨ c = '_' ∨ c = ':') := by
  have key : ∀ n : Fin 128, (withinB nameStart n = true → Latin (Char.ofNat n) ∨ Char.ofNat n = '_' ∨ Char.ofNat n = ':') ∧
      (withinB nameOther n = true → ('0'.toNat ≤ (Char.ofNat n).toNat ∧ (Char.ofNat n).toNat ≤ '9'.toNat) ∨
        Char.ofNat n = '.' ∨ Char.ofNat n = '-') := by
    unfold Latin
    decide +kernel
  have hk := key ⟨c.toNat, hc⟩
  simp only [Char.ofNat_toNat, withinB_iff] at hk
  obtain ⟨d, ds, rfl, hd, hds⟩ := h
  have first : InRanges c.toNat nameStart → ¬ AsciiOther c := by
    intro h ⟨_, h1, _, h3⟩
    rcases hk.1 h with h | rfl | rfl
    · exact h1 h
    · simp at h3
    · simp at h3
  constructor
  · intro hm
    rcases List.mem_cons.1 hm with rfl | hm
    · exact first hd
    · rcases hds c hm with h | h
      · exact first h
      · rintro ⟨_, _, h2, h3⟩
        rcases hk.2 h with h | rfl | rfl
        · exact h2 h
        · simp at h3
        · simp at h3
  · intro e
    simp only [List.head?_cons, Option.some.injEq] at e
    subst e
    exact hk.1 hd

/-- Names. -/
example : XmlName (S "a-1.b") ∧ XmlName (S "_x:Y") ∧ XmlName (S "été") ∧ XmlName (S "名前") := by
  simp only [← isName_iff]
  refine ⟨⟨'a', S "-1.b", rfl, ?_, ?_⟩, ⟨'_', S "x:Y", rfl, ?_, ?_⟩, ⟨'é', S "té", rfl, ?_, ?_⟩, ⟨'名', S "前", rfl, ?_, ?_⟩⟩ <;>
    decide +kernel

/-- No names. -/
example : ¬ XmlName (S "1a") ∧ ¬ XmlName (S "a b") ∧ ¬ XmlName (S "-") ∧ ¬ XmlName [] := by
  refine ⟨?_, ?_, ?_, ?_⟩
  · intro h
    have := (C100_ascii '1' (by decide) _ h).2 rfl
    revert this
    unfold Latin
    decide
  · intro h
    have := (C100_ascii ' ' (by decide) _ h).1 (by decide)
    exact this (by unfold AsciiOther Latin; decide)
  · intro h
    have := (C100_ascii '-' (by decide) _ h).2 rfl
    revert this
    unfold Latin
    decide
  · rintro ⟨c, cs, h, _⟩
    cases h

end Amxml
