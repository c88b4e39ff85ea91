import Verif.Lemmas.Serial
import Verif.Props.Build

/-!
# C03, C04, C28: serialisation
-/

namespace Amxml
open Spec

/-! ## C03 -/

/-- `to_string()` of a document ends, and more fuel does not change the result. -/
theorem toString_defined {h : Heap} {r : NodeId} {F : Forest NodeId} (hd : DocTree h r F)
    (ht : (h.node r).ntype = .documentRoot) : ∃ s n, ∀ m ≥ n, h.toString m r = some s :=
  ⟨_, F.toList.length + 1, fun m hm => toString_total hd ht m hm⟩

/-- **C03.** Let the heap hold a document with root `r` and node forest `F` whose contents are writable and in normal
form. Then `to_string()` returns a string, and `new_document` of this string returns a document with the same tree of
contents (types, names, values, attributes in order, children in order). -/
theorem C03_parse_of_serialise (h : Heap) (hw : HeapWF h) (r : NodeId) (F : Forest NodeId) (hd : DocTree h r F)
    (ht : (h.node r).ntype = .documentRoot) (hwr : WritableForest (F.map (contentOf h)))
    (hn : NormalForest (F.map (contentOf h))) :
    ∃ s, (∃ n, ∀ m ≥ n, h.toString m r = some s) ∧
      ∃ h' r' F', newDocument h s = some (.ok (h', r')) ∧ ParsedDoc h' r' F' ∧
        F'.map (contentOf h') = F.map (contentOf h) := by
  refine ⟨_, ⟨_, fun m hm => toString_total hd ht m hm⟩, ?_⟩
  obtain ⟨h', F', e, hp, hc, _⟩ := newDocument_strOf h hw _ hwr
  rw [joinTexts_of_normal hn hwr] at hc
  exact ⟨h', h.size, F', e, hp, hc⟩

/-! ## what the parser delivers -/

/-- Contents of nodes made by the parser. -/
def Spec.Content.Parsed (c : Content) : Prop :=
  match c.ntype with
  | .element => (IsName c.name ∨ c.name = []) ∧ c.value = [] ∧ ∀ a ∈ c.attrs, IsName a.1
  | .text => c.name = [] ∧ c.attrs = []
  | .comment => c.name = [] ∧ c.attrs = [] ∧ NoSub (S "-->") c.value
  | .xmlDecl => c.name = S "xml" ∧ c.attrs = [] ∧ NoSub (S "?>") c.value ∧
      ∀ x, c.value.head? = some x → isSpace x = false
  | .instruction => (IsName c.name ∨ c.name = []) ∧ c.name ≠ S "xml" ∧ c.attrs = [] ∧
      NoSub (S "?>") c.value ∧ ∀ x, c.value.head? = some x → isSpace x = false
  | _ => False

theorem getName_isName (r : Str) : IsName (getName r).1 ∨ (getName r).1 = [] := by
  rcases getName_spec r with ⟨h, _⟩ | ⟨h, _⟩
  · exact .inl h
  · exact .inr h

theorem getUntil_noSub {delim r v t : Str} (hd : delim ≠ []) (h : getUntil delim r = (.ok v, t)) :
    r = v ++ delim ++ t ∧ NoSub delim v := by
  induction r generalizing v with
  | nil => simp [getUntil] at h
  | cons c cs ih =>
    simp only [getUntil] at h
    split at h
    · rename_i rest hl
      simp at h; obtain ⟨rfl, rfl⟩ := h
      refine ⟨by simpa using stripPrefix_eq_some.1 hl, ?_⟩
      intro pre post e
      simp at e; exact hd e.2.1
    · rename_i hl
      split at h
      · simp at h
      · rcases hg : getUntil delim cs with ⟨e | v', t'⟩
        · rw [hg] at h; simp [Except.map] at h
        · rw [hg] at h
          simp [Except.map] at h
          obtain ⟨rfl, rfl⟩ := h
          obtain ⟨e, hn⟩ := ih hg
          refine ⟨by simp [e], ?_⟩
          intro pre post e'
          cases pre with
          | nil =>
            have : stripPrefix delim (c :: cs) = some (post ++ delim ++ t') := by
              rw [stripPrefix_eq_some, e]
              simp only [List.nil_append] at e'
              have : c :: (v' ++ delim ++ t') = (c :: v') ++ delim ++ t' := by simp
              rw [this, e']; simp
            unfold lookAheadKeyword at hl
            rw [hl] at this; simp at this
          | cons x pre => simp at e'; exact hn pre post (by simp [e'.2])

theorem readAttr_isName {r t : Str} {a : Str × Str} (h : readAttr r = .ok (some a, t)) : IsName a.1 := by
  unfold readAttr at h
  simp only at h
  have := getName_isName (skipSpaces r)
  split at h
  · rename_i hne
    repeat' split at h
    all_goals simp at h
    rw [← h.1]
    exact this.resolve_right hne
  · simp at h

theorem startTagLoop_names (name : Str) (n : Nat) (attr : List (Str × Str)) (r : Str) (tok : Token) (d' : Dec)
    (hattr : ∀ a ∈ attr, IsName a.1) (h : startTagLoop name n attr r = some (.ok tok, d')) :
    ∃ as, tok = .startElement name as ∧ ∀ a ∈ as, IsName a.1 := by
  induction n generalizing attr r with
  | zero => simp [startTagLoop] at h
  | succ n ih =>
    simp only [startTagLoop] at h
    rcases hra : readAttr r with ⟨e, r'⟩ | ⟨a, r'⟩
    · rw [hra] at h; simp at h
    · rw [hra] at h
      simp only at h
      have hattr' : ∀ x ∈ attr ++ a.toList, IsName x.1 := by
        intro x hx
        simp at hx
        rcases hx with hx | hx
        · exact hattr x hx
        · subst hx; exact readAttr_isName hra
      split at h
      · simp at h; exact ⟨_, h.1.symm, hattr'⟩
      · split at h
        · split at h
          · simp at h; exact ⟨_, h.1.symm, hattr'⟩
          · simp at h
        · exact ih _ _ hattr' h

theorem rawToken_parsed {d d' : Dec} {tok : Token} (h0 : EOFC ∉ d.rest) (ht : rawToken d = some (.ok tok, d'))
    {c : Content} (hc : tokContent tok = some c) : c.Parsed := by
  unfold rawToken rawTokenF at ht
  split at ht
  · simp at ht; rw [← ht.1] at hc; simp [tokContent] at hc
  · cases hr : d.rest with
    | nil => rw [hr] at ht; simp at ht; rw [← ht.1] at hc; simp [tokContent] at hc
    | cons x r =>
      rw [hr] at ht h0
      simp only at ht
      split at ht
      · simp at ht; rw [← ht.1] at hc; simp [tokContent] at hc
      · split at ht
        · unfold rawMarkup at ht
          cases r with
          | nil => simp at ht
          | cons ch r1 =>
            simp only at ht
            have h01 : EOFC ∉ r1 := by intro hm; apply h0; simp [hm]
            split at ht
            · simp at ht
            · split at ht
              · simp [rawEndTag] at ht
                split at ht
                · simp at ht
                · simp at ht; rw [← ht.1] at hc; simp [tokContent] at hc
              · split at ht
                · simp [rawPI] at ht
                  split at ht
                  · simp at ht
                  · rename_i inst hi
                    simp at ht; rw [← ht.1] at hc
                    simp only [tokContent, Option.some.injEq] at hc
                    obtain ⟨e, hns⟩ := getUntil_noSub (by simp [S]) (show getUntil (S "?>") (skipSpaces (getName r1).2) =
                      (.ok inst, _) from Prod.ext hi rfl)
                    have h02 : EOFC ∉ (getName r1).2 := fun hm => h01 ((getName_suffix r1).mem hm)
                    obtain ⟨_, _, _, hsp⟩ := skipSpaces_split h02
                    have hsp' : ∀ x, inst.head? = some x → isSpace x = false := by
                      intro x hx
                      apply hsp
                      rw [e]
                      cases inst with
                      | nil => simp at hx
                      | cons y ys => simpa using hx
                    split at hc
                    · subst hc; exact ⟨rfl, rfl, hns, hsp'⟩
                    · rename_i hnx; subst hc; exact ⟨getName_isName r1, hnx, rfl, hns, hsp'⟩
                · split at ht
                  · simp only [Option.some.injEq] at ht
                    unfold rawBang at ht
                    simp only at ht
                    split at ht
                    · split at ht
                      · split at ht
                        · simp at ht
                        · rename_i cm hi
                          simp at ht; rw [← ht.1] at hc
                          simp [tokContent] at hc; subst hc
                          exact ⟨rfl, rfl, (getUntil_noSub (by simp [S])
                            (show getUntil (S "-->") (getchar (getchar r1).2).2 = (.ok cm, _) from Prod.ext hi rfl)).2⟩
                      · simp at ht
                    · split at ht
                      · split at ht
                        · split at ht
                          · simp at ht
                          · simp at ht; rw [← ht.1] at hc
                            simp [tokContent] at hc; subst hc
                            exact ⟨rfl, rfl⟩
                        · simp at ht
                      · split at ht
                        · simp at ht
                        · simp at ht; rw [← ht.1] at hc; simp [tokContent] at hc
                  · obtain ⟨as, rfl, has⟩ := startTagLoop_names _ _ _ _ _ _ (by simp) ht
                    simp [tokContent] at hc; subst hc
                    exact ⟨getName_isName _, rfl, has⟩
        · simp [rawText] at ht
          rw [← ht.1] at hc
          simp [tokContent] at hc; subst hc
          exact ⟨rfl, rfl⟩

theorem Spec.Delivers.parsed {d d' : Dec} {ts : List Token} (h : Delivers d ts d') (h0 : EOFC ∉ d.rest) :
    ∀ t ∈ ts, ∀ c, tokContent t = some c → c.Parsed := by
  induction h with
  | refl => simp
  | step h1 _ _ ih =>
    intro t ht c hc
    simp at ht
    rcases ht with rfl | ht
    · exact rawToken_parsed h0 h1 hc
    · exact ih (fun hm => h0 ((rawToken_suffix _ _ h1).mem hm)) t ht c hc

/-- The contents of a parsed document, if its text has no U+0000. -/
theorem newDocument_contents {h h' : Heap} (hw : HeapWF h) {xml : Str} (h0 : '\x00' ∉ xml) {r : NodeId}
    (hd : newDocument h xml = some (.ok (h', r))) :
    ∃ F, ParsedDoc h' r F ∧ (∀ i ∈ F.toList, (contentOf h' i).Parsed) ∧ HeapWF h' := by
  have h0' : EOFC ∉ (Dec.new xml).rest := by
    intro hm; simp [Dec.new] at hm; exact h0 hm.1
  obtain ⟨F, cur, hi⟩ := newDocument_parsed hw hd (P := Content.Parsed)
    (fun ts ⟨d, hdel, _⟩ t ht c hc => hdel.parsed h0' t ht c hc)
  exact ⟨F, hi.doc, hi.sat, hi.wf⟩

/-! ## C04 -/

/-- Read-back content: no U+0000, no carriage return, no element without a name. -/
structure Readable (c : Content) : Prop where
  value : CleanStr c.value
  attrs : ∀ a ∈ c.attrs, CleanStr a.2
  name : c.ntype = .element → c.name ≠ []

theorem writable_of_parsed {h : Heap} {r : NodeId} {F : Forest NodeId} (hd : ParsedDoc h r F)
    (hp : ∀ i ∈ F.toList, (contentOf h i).Parsed) (hr : ∀ i ∈ F.toList, Readable (contentOf h i)) :
    WritableForest (F.map (contentOf h)) := by
  have hleaf : ∀ i ∈ F.toList, (h.node i).ntype ≠ .element → (h.node i).children = [] :=
    fun i hi hne => ((hd.typed i hi).leaf hne).1
  have hl := hd.linked.2.2.2.1
  clear hd
  generalize some r = p at hl
  induction F generalizing p with
  | nil => trivial
  | cons a k r ih1 ih2 =>
    simp only [Forest.toList, List.mem_cons, List.mem_append] at hp hr hleaf
    obtain ⟨_, _, h3, h4, h5⟩ := hl
    refine ⟨?_, ?_, ih1 (fun i hi => hp i (by simp [hi])) (fun i hi => hr i (by simp [hi]))
      (fun i hi => hleaf i (by simp [hi])) _ h4, ih2 (fun i hi => hp i (by simp [hi])) (fun i hi => hr i (by simp [hi]))
      (fun i hi => hleaf i (by simp [hi])) _ h5⟩
    · have h1 := hp a (by simp)
      have h2 := hr a (by simp)
      generalize contentOf h a = c at h1 h2
      unfold Content.Parsed at h1
      unfold Content.Writable
      split at h1 <;> rename_i ht <;> (try simp only [ht])
      · exact ⟨h1.1.resolve_right (h2.name ht), h1.2.1, fun x hx => ⟨h1.2.2 x hx, h2.attrs x hx⟩⟩
      · exact ⟨h1.1, h1.2, h2.value⟩
      · exact ⟨h1.1, h1.2.1, h2.value, h1.2.2⟩
      · exact ⟨h1.1, h1.2.1, h2.value, h1.2.2.1, h1.2.2.2⟩
      · exact ⟨h1.1, h1.2.1, h1.2.2.1, h2.value, h1.2.2.2.1, h1.2.2.2.2⟩
      · exact absurd h1 id
    · intro hne
      have := hleaf a (by simp) hne
      rw [h3] at this
      rw [Forest.roots_eq_nil.1 this]; rfl

theorem strOf_consText (u : Str) (G : Forest Content) : strOf (consText u G) = encodeEntity u ++ strOf G := by
  unfold consText
  split
  · rename_i e; subst e
    have : encodeEntity [] = [] := by decide
    simp [this]
  · simp [strOf]

theorem joinTexts_eq_nil {G : Forest Content} {u : Str} (h : joinTexts u G = .nil) :
    u = [] ∧ ∀ c ∈ G.roots, c.ntype = .text ∧ c.value = [] := by
  induction G generalizing u with
  | nil =>
    simp only [joinTexts, consText] at h
    split at h
    · rename_i e; exact ⟨e, by simp [Forest.roots]⟩
    · simp at h
  | cons c k r _ ih =>
    simp only [joinTexts] at h
    split at h
    · rename_i ht
      obtain ⟨h1, h2⟩ := ih h
      simp at h1
      refine ⟨h1.1, ?_⟩
      intro d hd
      simp [Forest.roots] at hd
      rcases hd with rfl | hd
      · exact ⟨ht, h1.2⟩
      · exact h2 d hd
    · unfold consText at h; split at h <;> simp at h

theorem strOf_joinTexts {G : Forest Content} (hG : NoEmptyText G) (hw : WritableForest G) (u : Str) :
    strOf (joinTexts u G) = encodeEntity u ++ strOf G := by
  induction G generalizing u with
  | nil => simp only [joinTexts, strOf_consText]
  | cons c k r ih1 ih2 =>
    obtain ⟨w1, w2, w3, w4⟩ := hw
    have hk : NoEmptyText k := fun x hx => hG x (by simp [Forest.toList, hx])
    have hr : NoEmptyText r := fun x hx => hG x (by simp [Forest.toList, hx])
    have hnil : encodeEntity [] = [] := by decide
    simp only [joinTexts]
    split
    · rename_i ht
      rw [ih2 hr w4, encode_append]
      simp [strOf, ht]
    · rw [strOf_consText]
      have hlen : (joinTexts [] k).roots.length = 0 ↔ k.roots.length = 0 := by
        constructor
        · intro h
          have := (joinTexts_eq_nil (Forest.roots_eq_nil.1 (List.length_eq_zero_iff.1 h))).2
          cases k with
          | nil => rfl
          | cons d k' r' =>
            have h1 := this d (by simp [Forest.roots])
            exact absurd h1.2 (hk d (by simp [Forest.toList]) h1.1)
        · intro h
          rw [Forest.roots_eq_nil.1 (List.length_eq_zero_iff.1 h)]; rfl
      have i1 := ih1 hk w3 []
      have i2 := ih2 hr w4 []
      rw [hnil, List.nil_append] at i1 i2
      simp only [strOf, i1, i2, hlen]

/-- **C04.** Let `s` be a text without U+0000 that `new_document` accepts, and let the resulting document contain no
U+0000, no carriage return, no empty text node and no element without a name. Then `to_string()` gives a text which
`new_document` accepts again, and `to_string()` of the result is the same text. -/
theorem C04_serialise_fixed_point_partial (h : Heap) (hw : HeapWF h) (s : Str) (h0 : '\x00' ∉ s) (h1 : Heap) (r1 : NodeId)
    (hd : newDocument h s = some (.ok (h1, r1)))
    (hr : ∀ F, ParsedDoc h1 r1 F → ∀ i ∈ F.toList, Readable (contentOf h1 i) ∧
      ((h1.node i).ntype = .text → (h1.node i).value ≠ [])) :
    ∃ s1 h2 r2, (∃ n, ∀ m ≥ n, h1.toString m r1 = some s1) ∧ newDocument h1 s1 = some (.ok (h2, r2)) ∧
      (∃ n, ∀ m ≥ n, h2.toString m r2 = some s1) := by
  obtain ⟨F, hp, hc, hw1⟩ := newDocument_contents hw h0 hd
  have hwr := writable_of_parsed hp hc (fun i hi => (hr F hp i hi).1)
  have hne : NoEmptyText (F.map (contentOf h1)) := by
    intro c hm ht
    rw [Forest.toList_map, List.mem_map] at hm
    obtain ⟨i, hi, rfl⟩ := hm
    exact (hr F hp i hi).2 ht
  obtain ⟨h2, F2, e, hp2, hc2, _⟩ := newDocument_strOf h1 hw1 _ hwr
  refine ⟨_, h2, h1.size, ⟨_, fun m hm => toString_total hp.toDocTree hp.root_type m hm⟩, e, F2.toList.length + 1, ?_⟩
  intro m hm
  rw [toString_total hp2.toDocTree hp2.root_type m hm, hc2, strOf_joinTexts hne hwr]
  have hnil : encodeEntity [] = [] := by decide
  rw [hnil, List.nil_append]

theorem joinTexts_normal (G : Forest Content) (hw : WritableForest G) (u : Str) : NormalForest (joinTexts u G) := by
  have hcons : ∀ (u : Str) (G : Forest Content), NormalForest G → (∀ d, G.roots.head? = some d → d.ntype ≠ .text) →
      NormalForest (consText u G) := by
    intro u G h1 h2
    unfold consText
    split
    · exact h1
    · rename_i hu; exact ⟨fun _ => ⟨hu, h2⟩, trivial, h1⟩
  induction G generalizing u with
  | nil => exact hcons u .nil trivial (by simp [Forest.roots])
  | cons c k r ih1 ih2 =>
    obtain ⟨w1, w2, w3, w4⟩ := hw
    simp only [joinTexts]
    split
    · exact ih2 w4 _
    · rename_i ht
      refine hcons u _ ⟨fun h => absurd h ht, ih1 w3 [], ih2 w4 []⟩ ?_
      intro d hd
      simp [Forest.roots] at hd
      exact hd ▸ ht

/-- **C04**, without the condition on empty text nodes: after one round of `to_string()` and `new_document` the tree of
contents no longer changes. -/
theorem C04_stable_after_one_round (h : Heap) (hw : HeapWF h) (s : Str) (h0 : '\x00' ∉ s) (h1 : Heap) (r1 : NodeId)
    (hd : newDocument h s = some (.ok (h1, r1)))
    (hr : ∀ F, ParsedDoc h1 r1 F → ∀ i ∈ F.toList, Readable (contentOf h1 i)) :
    ∃ s1 h2 r2 F2, (∃ n, ∀ m ≥ n, h1.toString m r1 = some s1) ∧ newDocument h1 s1 = some (.ok (h2, r2)) ∧
      ParsedDoc h2 r2 F2 ∧
      ∃ s2 h3 r3 F3, (∃ n, ∀ m ≥ n, h2.toString m r2 = some s2) ∧ newDocument h2 s2 = some (.ok (h3, r3)) ∧
        ParsedDoc h3 r3 F3 ∧ F3.map (contentOf h3) = F2.map (contentOf h2) := by
  obtain ⟨F, hp, hc, hw1⟩ := newDocument_contents hw h0 hd
  have hwr := writable_of_parsed hp hc (fun i hi => hr F hp i hi)
  obtain ⟨h2, F2, e, hp2, hc2, hw2⟩ := newDocument_strOf h1 hw1 _ hwr
  have hwr2 : WritableForest (F2.map (contentOf h2)) := by
    rw [hc2]; exact joinTexts_writable hwr [] clean_nil
  have hn2 : NormalForest (F2.map (contentOf h2)) := by
    rw [hc2]; exact joinTexts_normal _ hwr []
  obtain ⟨s2, hs2, h3, r3, F3, e3, hp3, hc3⟩ :=
    C03_parse_of_serialise h2 hw2 h1.size F2 hp2.toDocTree hp2.root_type hwr2 hn2
  exact ⟨_, h2, h1.size, F2, ⟨_, fun m hm => toString_total hp.toDocTree hp.root_type m hm⟩, e, hp2, s2, h3, r3, F3, hs2,
    e3, hp3, hc3⟩

/-- **C04**, negative part: an empty text node (from an empty CDATA section) breaks the fixed point:
`<a><![CDATA[]]></a>` is written as `<a></a>`, which is read without the text node and written as `<a/>`. -/
theorem C04_empty_cdata_counterexample :
    ∃ h1 r1 h2 r2, newDocument Heap.empty (S "<a><![CDATA[]]></a>") = some (.ok (h1, r1)) ∧
      h1.toString 4 r1 = some (S "<a></a>") ∧ newDocument h1 (S "<a></a>") = some (.ok (h2, r2)) ∧
      h2.toString 4 r2 = some (S "<a/>") := by
  have ha : IsName (S "a") := ⟨'a', [], rfl, by decide +kernel, by simp⟩
  have t1 := rawToken_startTag (S "a") ha [] (by simp) [] (by simp [IsSpaces]) false (S "<![CDATA[]]></a>")
  have t1' := rawToken_startTag (S "a") ha [] (by simp) [] (by simp [IsSpaces]) false (S "</a>")
  have t2 := C10_cdata_verbatim [] (S "</a>") (by simp) (noSub_of_check _ _ (by decide))
  have t3 := rawToken_endTag (S "a") ha [] (by simp [IsSpaces]) []
  have s1 : Stream (Dec.new (S "<a><![CDATA[]]></a>"))
      [.startElement (S "a") [], .charData [], .endElement (S "a")] := by
    rw [new_of_clean (clean_of_check (by decide))]
    exact ⟨_, .step t1 (by simp) (.step t2 (by simp) (.step t3 (by simp) (.refl _))), _, rawToken_eof⟩
  have s2 : Stream (Dec.new (S "<a></a>")) [.startElement (S "a") [], .endElement (S "a")] := by
    rw [new_of_clean (clean_of_check (by decide))]
    exact ⟨_, .step t1' (by simp) (.step t3 (by simp) (.refl _)), _, rawToken_eof⟩
  rw [newDocument_stream s1]
  exact ⟨_, _, _, _, rfl, by rfl, by rw [newDocument_stream s2]; rfl, by rfl⟩

/-! A concrete document: `<a b="1&amp;2">x<!--c--><?p q?><d/></a>` satisfies the hypotheses of C03 and C04. -/

/-- Its contents. -/
def sampleForest : Forest Content :=
  .cons ⟨.element, S "a", [], [(S "b", S "1&2")]⟩
    (.cons ⟨.text, [], S "x<y", []⟩ .nil
      (.cons ⟨.comment, [], S "c", []⟩ .nil
        (.cons ⟨.instruction, S "p", S "q", []⟩ .nil
          (.cons ⟨.element, S "d", [], []⟩ .nil .nil)))) .nil

theorem sample_writable : WritableForest sampleForest ∧ NormalForest sampleForest ∧ NoEmptyText sampleForest := by
  have n : ∀ c : Char, isNameFirstChar c = true → IsName [c] := fun c h => ⟨c, [], rfl, h, by simp⟩
  refine ⟨⟨⟨n _ (by decide +kernel), rfl, ?_⟩, by simp, ⟨⟨rfl, rfl, clean_of_check (by decide)⟩, by simp, trivial,
    ⟨⟨rfl, rfl, clean_of_check (by decide), noSub_of_check _ _ (by decide)⟩, by simp, trivial,
    ⟨⟨.inl (n _ (by decide +kernel)), by decide, rfl, clean_of_check (by decide), noSub_of_check _ _ (by decide), by
      intro x hx; simp [S] at hx; subst hx; decide⟩, by simp, trivial,
    ⟨⟨n _ (by decide +kernel), rfl, by simp⟩, by simp, trivial, trivial⟩⟩⟩⟩, trivial⟩, ?_, ?_⟩
  · intro a ha; simp at ha; subst ha; exact ⟨n _ (by decide +kernel), clean_of_check (by decide)⟩
  · simp [NormalForest, sampleForest, Forest.roots, S]
  · intro c hc; revert c; simp [sampleForest, Forest.toList, S]

/-- The hypotheses of C03 are met: a heap with the sample document. -/
example : ∃ h r F, HeapWF h ∧ DocTree h r F ∧ (h.node r).ntype = .documentRoot ∧ F.map (contentOf h) = sampleForest ∧
    WritableForest (F.map (contentOf h)) ∧ NormalForest (F.map (contentOf h)) := by
  obtain ⟨h', F, _, hp, hc, hw⟩ := newDocument_strOf Heap.empty .empty sampleForest sample_writable.1
  rw [joinTexts_of_normal sample_writable.2.1 sample_writable.1] at hc
  exact ⟨h', _, F, hw, hp.toDocTree, hp.root_type, hc, hc ▸ sample_writable.1, hc ▸ sample_writable.2.1⟩

/-! ## C28 -/

/-- The start tag up to the closing `>`: name and attributes, values escaped. -/
def Spec.tagHead (n : Str) (as : List (Str × Str)) : Str :=
  S "<" ++ n ++ as.flatMap fun a => S " " ++ a.1 ++ S "=\"" ++ encodeEntity a.2 ++ S "\""

theorem toStringF_cons {n : Nat} {h : Heap} {i : NodeId} {is : List NodeId} {a b : Nat} {s : Str}
    (hs : toStringF n h (i :: is) a b = some s) :
    ∃ x y, toStringF n h [i] a b = some x ∧ toStringF n h is a b = some y ∧ s = x ++ y := by
  cases n with
  | zero => simp [toStringF] at hs
  | succ n =>
    simp only [toStringF] at hs ⊢
    split at hs
    · rename_i x y h1 h2
      simp at hs
      refine ⟨x, y, ?_, ?_, hs.symm⟩
      · rw [h1]; cases n <;> simp [toStringF]
      · exact toStringF_mono _ _ _ _ _ h2 (n + 1) (by omega)
    · simp at hs

theorem pushStr_some (a b : Str) : pushStr (some a) (some b) = some (a ++ b) := rfl

theorem innerXml_of {n : Nat} {h : Heap} {is : List NodeId} {s acc : Str}
    (hs : toStringF n h is 0 0 = some s) :
    is.foldl (fun acc c => pushStr acc (h.toString n c)) (some acc) = some (acc ++ s) := by
  induction is generalizing s acc with
  | nil => cases n <;> simp [toStringF] at hs <;> simp [← hs]
  | cons i is ih =>
    obtain ⟨x, y, h1, h2, rfl⟩ := toStringF_cons hs
    simp only [List.foldl_cons, Heap.toString, h1, pushStr_some]
    have := ih h2 (acc := acc ++ x)
    simp only [Heap.toString] at this
    rw [this, List.append_assoc]

/-- **C28**: for any node in any heap (no well-linkedness needed): if `to_string()` returns `s`, then `inner_xml()`
returns the concatenation `inner` of the `to_string()`s of the children, and `s` is `inner` for the document root, and
start tag, `inner`, end tag for an element with children (`<…/>` without). -/
theorem C28_compositional (h : Heap) (i : NodeId) (n : Nat) (s : Str) (hs : h.toString n i = some s) :
    ((h.node i).ntype = .documentRoot → h.innerXml n i = some s) ∧
    ((h.node i).ntype = .element → (h.node i).children ≠ [] → ∃ inner, h.innerXml n i = some inner ∧
      s = tagHead (h.node i).name (contentOf h i).attrs ++ S ">" ++ inner ++ S "</" ++ (h.node i).name ++ S ">") ∧
    ((h.node i).ntype = .element → (h.node i).children = [] →
      s = tagHead (h.node i).name (contentOf h i).attrs ++ S "/>") := by
  cases n with
  | zero => simp [Heap.toString, toStringF] at hs
  | succ n =>
    have hnil : toStringF n h [] 0 0 = some [] := by cases n <;> rfl
    have ha : attrsToString h (h.node i).attributes = (contentOf h i).attrs.flatMap fun a =>
        S " " ++ a.1 ++ S "=\"" ++ encodeEntity a.2 ++ S "\"" := by
      simp [attrsToString, contentOf, List.flatMap_map]
    simp only [Heap.toString, toStringF, hnil] at hs
    refine ⟨fun ht => ?_, fun ht hc => ?_, fun ht hc => ?_⟩ <;> rw [ht] at hs <;> simp only at hs
    · split at hs
      · rename_i x y h1 h2
        simp at h2 hs; subst h2; simp at hs; subst hs
        have := innerXml_of (acc := []) (toStringF_mono _ _ _ _ _ h1 (n + 1) (by omega))
        simpa [Heap.innerXml] using this
      · simp at hs
    · have hlen : ¬ (h.node i).children.length = 0 := by simpa using hc
      rw [if_neg hlen] at hs
      split at hs
      · rename_i x y h1 h2
        simp at h2 hs; subst h2; simp at hs; subst hs
        simp only [Option.map_eq_some_iff] at h1
        obtain ⟨inner, hi, rfl⟩ := h1
        refine ⟨inner, ?_, ?_⟩
        · have := innerXml_of (acc := []) (toStringF_mono _ _ _ _ _ hi (n + 1) (by omega))
          simpa [Heap.innerXml] using this
        · rw [ha]; simp [tagHead, nlIfPositive]
      · simp at hs
    · rw [hc] at hs
      simp at hs
      rw [← hs, ha]; simp [tagHead, nlIfPositive]

/-- `inner_xml()` is the concatenation of the children's `to_string()`. -/
theorem C28_inner_xml (h : Heap) (i : NodeId) (n : Nat) (ss : List Str)
    (hs : (h.node i).children.map (h.toString n) = ss.map some) : h.innerXml n i = some ss.flatten := by
  have gen : ∀ (cs : List NodeId) (ss : List Str) (acc : Str), cs.map (h.toString n) = ss.map some →
      cs.foldl (fun acc c => pushStr acc (h.toString n c)) (some acc) = some (acc ++ ss.flatten) := by
    intro cs
    induction cs with
    | nil => intro ss acc e; cases ss <;> simp_all
    | cons c cs ih =>
      intro ss acc e
      cases ss with
      | nil => simp at e
      | cons s ss =>
        simp at e
        simp only [List.foldl_cons, e.1, pushStr_some]
        rw [ih ss _ e.2]; simp
  simpa [Heap.innerXml] using gen _ ss [] hs

/-- **C28**, locality: `to_string()` of a node depends only on the nodes of its subtree (and their attributes):
heaps that agree on these give the same text. -/
theorem C28_local (h h' : Heap) (p : Option NodeId) (i : NodeId) (k : Forest NodeId)
    (hl : Linked h p (.cons i k .nil)) (hs : ∀ j ∈ docIds h (.cons i k .nil), h'.node j = h.node j) :
    ∃ s n, ∀ m ≥ n, h.toString m i = some s ∧ h'.toString m i = some s := by
  have hl' : Linked h' p (.cons i k .nil) := linked_congr hl fun j hj => .of_eq (hs j hj)
  have hc : (Forest.cons i k .nil).map (contentOf h') = (Forest.cons i k .nil).map (contentOf h) := by
    apply Forest.map_congr
    intro j hj
    apply contentOf_congr
    · rw [hs j (mem_docIds_of_mem hj)]; simp
    · intro a ha; rw [hs a (mem_docIds_attr hj ha)]; simp
  refine ⟨_, (Forest.cons i k .nil).toList.length, fun m hm => ⟨toStringF_forest _ hl m hm, ?_⟩⟩
  have := toStringF_forest _ hl' m hm
  rw [hc] at this
  exact this

/-- The hypotheses of C28 are met by the root of the sample document: `to_string()` returns. -/
example : ∃ (h : Heap) (i : NodeId) (n : Nat) (s : Str), h.toString n i = some s ∧ (h.node i).ntype = .documentRoot ∧ (h.node i).children ≠ [] := by
  obtain ⟨h', F, _, hp, hc, hw⟩ := newDocument_strOf Heap.empty .empty sampleForest sample_writable.1
  obtain ⟨s, n, hs⟩ := toString_defined hp.toDocTree hp.root_type
  refine ⟨h', _, n, s, hs n (by omega), hp.root_type, ?_⟩
  rw [hp.linked.2.2.1]
  intro e
  rw [joinTexts_of_normal sample_writable.2.1 sample_writable.1] at hc
  have : (F.map (contentOf h')).roots = [] := by rw [Forest.roots_map, e]; rfl
  rw [hc] at this; simp [sampleForest, Forest.roots] at this

end Amxml
