import Verif.Lemmas.AddLeaf
import Verif.Props.Sax

/-!
# Properties of `new_document`: C07, C08, C13, C14
-/

namespace Amxml
open Spec

/-! ## C07 -/

theorem PathInv.init (h : Heap) (hw : HeapWF h) :
    PathInv (h.alloc (mkNode .documentRoot none [] [])) h.size [] := by
  refine ⟨?_, by simp, .root (by simp [mkNode]) (by simp [mkNode])⟩
  intro i p hi hp
  by_cases e : i = h.size
  · simp [e, mkNode] at hp
  · simp [e] at hp; have := hw.parent_lt i p hp; simp at hi ⊢; omega

/-- **C07**: if the text is tokenized to `ts`, `new_document` returns a document exactly when the tags in `ts` match,
and a name-mismatch error (no document) otherwise. -/
theorem C07_tags_match (h : Heap) (hw : HeapWF h) (xml : Str) (ts : List Token) (hs : Stream (Dec.new xml) ts) :
    (TagsMatch [] ts → ∃ h' r, newDocument h xml = some (.ok (h', r))) ∧
    (¬ TagsMatch [] ts → ∃ a b, newDocument h xml = some (.error (.nameMismatch a b))) := by
  rw [newDocument_stream hs]
  have hne : Token.eof ∉ ts := by obtain ⟨_, hd, _⟩ := hs; exact hd.not_eof
  have := buildTokens_tags ts (PathInv.init h hw) hne
  constructor
  · intro ht
    obtain ⟨r, hr⟩ := this.1 ht
    exact ⟨r.1, h.size, by simp [hr, Except.map]⟩
  · intro ht
    obtain ⟨a, b, hr⟩ := this.2 ht
    exact ⟨a, b, by simp [hr, Except.map]⟩

/-- **C07**, first direction without assuming a complete stream: a returned document means that the whole text was
tokenized and its tags match. -/
theorem C07_ok_tags_match (h : Heap) (hw : HeapWF h) (xml : Str) (h' : Heap) (r : NodeId)
    (hd : newDocument h xml = some (.ok (h', r))) : ∃ ts, Stream (Dec.new xml) ts ∧ TagsMatch [] ts := by
  obtain ⟨_, ts, _, hs, _⟩ := newDocument_ok hd
  refine ⟨ts, hs, ?_⟩
  by_contra hn
  obtain ⟨a, b, e⟩ := (C07_tags_match h hw xml ts hs).2 hn
  rw [e] at hd; simp at hd

/-- **C07**, second direction without assuming a complete stream: as soon as the delivered tokens contain a mismatch,
the result is an error, whatever follows. -/
theorem C07_mismatch_rejected (h : Heap) (hw : HeapWF h) (xml : Str) (ts : List Token) (d : Dec)
    (hd : Delivers (Dec.new xml) ts d) (hm : ¬ TagsMatch [] ts) :
    ∃ a b, newDocument h xml = some (.error (.nameMismatch a b)) := by
  obtain ⟨a, b, e⟩ := (buildTokens_tags ts (PathInv.init h hw) hd.not_eof).2 hm
  have hl := hd.measure
  have hn := new_measure xml
  refine ⟨a, b, ?_⟩
  simp only [newDocument]
  rw [buildLoop_delivers hd _ _ _ (by omega), e]
  rfl

/-- `<a><b></a></b>` is rejected, `<a>x<b/>` (with `a` left open) is accepted. -/
example : ¬ TagsMatch [] [.startElement (S "a") [], .startElement (S "b") [], .endElement (S "a")] := by
  intro h
  cases h with | start h => cases h with | start h => cases h
example : TagsMatch [] [.startElement (S "a") [], .charData (S "x"), .startElement (S "b") [], .endElement (S "b")] :=
  .start (.text (.start (.close .nil)))

/-- The tokens of `<a>x<b/>`. -/
theorem stream_unclosed : Stream (Dec.new (S "<a>x<b/>"))
    [.startElement (S "a") [], .charData (S "x"), .startElement (S "b") [], .endElement (S "b")] := by
  have ha : IsName (S "a") := ⟨'a', [], rfl, by decide +kernel, by simp⟩
  have hb : IsName (S "b") := ⟨'b', [], rfl, by decide +kernel, by simp⟩
  have t1 := rawToken_startTag (S "a") ha [] (by simp) [] (by simp [IsSpaces]) false (S "x<b/>")
  have t2 := rawToken_text (S "x") (S "<b/>") (by simp [S]) (by decide) (by decide) (.inr ⟨S "b/>", rfl⟩)
  have t3 := rawToken_startTag (S "b") hb [] (by simp) [] (by simp [IsSpaces]) true []
  have t4 := rawToken_toClose ⟨[], S "b"⟩ (by simp [S])
  have hx : decodeEntity (S "x") = S "x" := by decide
  rw [hx] at t2
  have e : Dec.new (S "<a>x<b/>") = ⟨S "<a>x<b/>", []⟩ := by decide
  rw [e]
  exact ⟨_, .step t1 (by simp) (.step t2 (by simp) (.step t3 (by simp) (.step t4 (by simp) (.refl _)))), _, rawToken_eof⟩

/-- **C07**, leniency: an element still open at the end of the input is accepted. -/
theorem C07_unclosed_accepted : ∃ h r, newDocument Heap.empty (S "<a>x<b/>") = some (.ok (h, r)) :=
  (C07_tags_match _ .empty _ _ stream_unclosed).1 (.start (.text (.start (.close .nil))))

/-! ## C08 -/

theorem rootF_eq {h : Heap} {r : NodeId} {F : Forest NodeId} (hd : DocTree h r F) (hw : HeapWF h) (fuel : Nat)
    (i : NodeId) (hi : i ∈ docIds h (.cons r F .nil)) (hf : i < fuel) : rootF h fuel i = r := by
  induction fuel generalizing i with
  | zero => omega
  | succ fuel ih =>
    simp only [rootF]
    have key : ((h.node i).parent = none ∧ i = r) ∨
        ∃ p ∈ docIds h (.cons r F .nil), (h.node i).parent = some p := by
      rcases mem_docIds.1 hi with hi | ⟨j, hj, ha⟩
      · rcases linked_parent hd.linked hi with ⟨e, hr⟩ | ⟨j, hj, e, _⟩
        · simp [Forest.roots] at hr; exact .inl ⟨e, hr⟩
        · exact .inr ⟨j, mem_docIds_of_mem hj, e⟩
      · exact .inr ⟨j, mem_docIds_of_mem hj, linked_parent_attr hd.linked hj ha⟩
    rcases key with ⟨e, hr⟩ | ⟨p, hp, e⟩
    · rw [e]; exact hr
    · have := hw.parent_lt i p e
      simp only [e]
      exact ih p hp (by omega)

/-- `root()` of any node of a document is its root. -/
theorem root_eq {h : Heap} {r : NodeId} {F : Forest NodeId} (hd : DocTree h r F) (hw : HeapWF h)
    {i : NodeId} (hi : i ∈ docIds h (.cons r F .nil)) : h.root i = r := rootF_eq hd hw _ i hi (by omega)

theorem buildTokens_old {ts : List Token} {h0 h h' : Heap} {r cur cur' : NodeId} {F : Forest NodeId}
    (hi : BuildInv (fun _ => True) h r F cur) (hge : ∀ i ∈ docIds h (.cons r F .nil), h0.size ≤ i)
    (hsz : h0.size ≤ h.size) (hs : buildTokens ts h cur = .ok (h', cur')) :
    ∀ j < h0.size, h'.node j = h.node j := by
  induction ts generalizing h cur F with
  | nil => simp [buildTokens] at hs; intro j _; rw [hs.1]
  | cons t ts ih =>
    simp only [buildTokens] at hs
    split at hs
    · simp at hs
    · rename_i h1 c1 e
      have hcl := hi.doc.bound _ (mem_docIds_of_mem hi.mem)
      have hcge := hge _ (mem_docIds_of_mem hi.mem)
      rcases stepToken_cases hcl e with ⟨c, hc, hl, rfl⟩ | ⟨rfl, _, hcur⟩
      · have hsh := tokContent_shape hc
        have hi1 := hi.addLeaf hl trivial hsh.1 hsh.2
        have hsz1 := hl.size
        intro j hj
        rw [ih hi1 ?_ (by omega) hs j hj]
        · exact hl.other j (by omega) (.inl (by omega))
        · intro i hm
          rcases mem_docIds.1 hm with hm | ⟨k, hk, ha⟩
          · rw [← addLeafForest_eq, modifyKids_toList_mem hi.mem] at hm
            rcases hm with hm | hm
            · exact hge i (mem_docIds_of_mem hm)
            · simp [Forest.toList] at hm; omega
          · rw [← addLeafForest_eq, modifyKids_toList_mem hi.mem] at hk
            rcases hk with hk | hk
            · have hsame : (h1.node k).attributes = (h.node k).attributes := by
                by_cases ek : k = cur
                · rw [ek, hl.atCur]
                · rw [hl.other k ek (.inl (hi.doc.bound _ (mem_docIds_of_mem hk)))]
              rw [hsame] at ha
              exact hge i (mem_docIds_attr hk ha)
            · simp [Forest.toList] at hk
              subst hk
              rw [hl.new] at ha
              simp only [List.mem_range'_1] at ha; omega
      · obtain ⟨F', hi'⟩ := hi.step e (fun _ _ => trivial)
        have : BuildInv (fun _ => True) h1 r F c1 := by
          refine ⟨hi.doc, ?_, ?_, hi.sat, hi.wf⟩
          · rcases hcur with rfl | hp
            · exact hi.mem
            · rcases linked_parent hi.doc.linked hi.mem with ⟨e, _⟩ | ⟨j, hj, e, _⟩
              · rw [e] at hp; simp at hp
              · rw [e] at hp; simp at hp; exact hp ▸ hj
          · exact hi'.type
        exact ih this hge hsz hs

/-- **C08**: in a document returned by `new_document` (in a heap that may hold other documents) all links are mutual,
no node is listed twice, only elements have children or attributes, the root has no parent; `root()` of every node,
attributes included, is the document root; and the other documents are untouched. -/
theorem C08_well_linked (h : Heap) (hw : HeapWF h) (xml : Str) (h' : Heap) (r : NodeId)
    (hd : newDocument h xml = some (.ok (h', r))) :
    ∃ F, ParsedDoc h' r F ∧ (h'.node r).parent = none ∧
      (∀ i ∈ docIds h' (.cons r F .nil), h'.root i = r) ∧ (∀ j < h.size, h'.node j = h.node j) ∧ HeapWF h' := by
  obtain ⟨F, cur, hi⟩ := newDocument_parsed hw hd (P := fun _ => True) (fun _ _ _ _ _ _ => trivial)
  refine ⟨F, hi.doc, hi.doc.linked.1, fun i hm => root_eq hi.doc.toDocTree hi.wf hm, ?_, hi.wf⟩
  obtain ⟨rfl, ts, cur', _, hb⟩ := newDocument_ok hd
  intro j hj
  rw [buildTokens_old (h0 := h) (BuildInv.init (fun _ => True) h hw) (by simp [docIds, mkNode]) (by simp) hb j hj]
  have : j ≠ h.size := by omega
  simp [this]

/-- The heap of the example document `<a>x<b/>` (parsed in the empty heap). -/
example : ∃ h r F, newDocument Heap.empty (S "<a>x<b/>") = some (.ok (h, r)) ∧ ParsedDoc h r F := by
  obtain ⟨h, r, e⟩ := C07_unclosed_accepted
  obtain ⟨F, hF, _⟩ := C08_well_linked _ .empty _ _ _ e
  exact ⟨h, r, F, e, hF⟩

/-! ## C13 -/

theorem buildLoop_directive {d d' : Dec} {s : Str} (ht : rawToken d = some (.ok (.directive s), d')) (fuel : Nat)
    (h : Heap) (cur : NodeId) : buildLoop (fuel + 1) d h cur = buildLoop fuel d' h cur := by
  simp [buildLoop, ht, stepToken]

/-- **C13**: let `p ++ D ++ q` be a text in which the directive `D` begins at a token boundary (the tokens `ts` are
delivered for `p`), and let `p` give the same tokens in front of `q` (which fails only if `p` ends with character data
and `q` continues it). Then `new_document` has the same outcome with and without `D`, be it a document (the very same
heap), an error, or divergence. -/
theorem C13_directive_leaves_no_trace (h : Heap) (p q : Str) (ch : Char) (b : Str) (ts : List Token)
    (hch : ch ≠ '-' ∧ ch ≠ '[') (hb : Balanced b)
    (h1 : Delivers (Dec.new (p ++ (S "<!" ++ ch :: b ++ '>' :: q))) ts ⟨S "<!" ++ ch :: b ++ '>' :: q, []⟩)
    (h2 : Delivers (Dec.new (p ++ q)) ts ⟨q, []⟩) :
    newDocument h (p ++ (S "<!" ++ ch :: b ++ '>' :: q)) = newDocument h (p ++ q) := by
  have ht := rawToken_directive ch b q hch hb
  simp only [newDocument]
  have hm1 := new_measure (p ++ (S "<!" ++ ch :: b ++ '>' :: q))
  have hm2 := new_measure (p ++ q)
  have hl1 := h1.measure
  have hl2 := h2.measure
  have hq : (⟨S "<!" ++ ch :: b ++ '>' :: q, []⟩ : Dec).measure ≥ (⟨q, []⟩ : Dec).measure + 4 := by
    simp [Dec.measure, S]; omega
  congr 1
  rw [buildLoop_delivers h1 _ _ _ (by omega), buildLoop_delivers h2 _ _ _ (by omega)]
  cases buildTokens ts (h.alloc (mkNode .documentRoot none [] [])) h.size with
  | error e => rfl
  | ok r =>
    simp only
    obtain ⟨n, hn⟩ : ∃ n, 2 * (p ++ (S "<!" ++ ch :: b ++ '>' :: q)).length + 2 - ts.length = n + 1 :=
      ⟨2 * (p ++ (S "<!" ++ ch :: b ++ '>' :: q)).length + 2 - ts.length - 1, by omega⟩
    rw [hn, buildLoop_directive ht]
    exact buildLoop_fuel _ _ _ _ _ (by omega) (by omega)

/-- `<!DOCTYPE a [<!ELEMENT a (b)>]>` in front of `<a/>`. -/
example : newDocument Heap.empty (S "<!DOCTYPE a [<!ELEMENT a (b)>]><a/>") = newDocument Heap.empty (S "<a/>") := by
  have hb : Balanced (S "OCTYPE a [<!ELEMENT a (b)>]") := by
    have hc : ∀ (u : Str) {s : Str}, '<' ∉ u → '>' ∉ u → '\x00' ∉ u → Balanced s → Balanced (u ++ s) := by
      intro u s h1 h2 h3 hs
      induction u with
      | nil => exact hs
      | cons c u ih =>
        simp only [List.mem_cons, not_or] at h1 h2 h3
        exact .char (Ne.symm h1.1) (Ne.symm h2.1) (Ne.symm h3.1) (ih h1.2 h2.2 h3.2)
    have h1 := hc (S "]") (s := []) (by decide) (by decide) (by decide) .nil
    have h2 := hc (S "!ELEMENT a (b)") (s := []) (by decide) (by decide) (by decide) .nil
    have h3 := Balanced.nest h2 h1
    exact hc (S "OCTYPE a [") (by decide) (by decide) (by decide) h3
  exact C13_directive_leaves_no_trace Heap.empty [] (S "<a/>") 'D' _ [] (by decide) hb
    (by have : Dec.new ([] ++ (S "<!" ++ 'D' :: S "OCTYPE a [<!ELEMENT a (b)>]" ++ '>' :: S "<a/>")) =
          ⟨S "<!" ++ 'D' :: S "OCTYPE a [<!ELEMENT a (b)>]" ++ '>' :: S "<a/>", []⟩ := by decide
        rw [this]; exact .refl _)
    (by have : Dec.new ([] ++ S "<a/>") = ⟨S "<a/>", []⟩ := by decide
        rw [this]; exact .refl _)

/-! ## C14 -/

theorem Spec.Delivers.suffix {d d' : Dec} {ts : List Token} (h : Delivers d ts d') : d'.rest <:+ d.rest := by
  induction h with
  | refl => exact List.suffix_refl _
  | step h1 _ _ ih => exact ih.trans (rawToken_suffix _ _ h1)

/-- **C14**: if the text has no U+0000 and `new_document` returns a document, the tokens from which it was built used
up the whole text. -/
theorem C14_nothing_dropped_partial (h : Heap) (xml : Str) (h0 : '\x00' ∉ xml) (h' : Heap) (r : NodeId)
    (hd : newDocument h xml = some (.ok (h', r))) :
    ∃ ts cur d, Delivers (Dec.new xml) ts d ∧ d.rest = [] ∧ d.toClose = [] ∧
      buildTokens ts (h.alloc (mkNode .documentRoot none [] [])) h.size = .ok (h', cur) := by
  obtain ⟨_, ts, cur, ⟨d, hdel, d', he⟩, hb⟩ := newDocument_ok hd
  have : '\x00' ∉ d.rest := by
    intro hm
    have := hdel.suffix.mem hm
    simp [Dec.new] at this
    exact h0 this
  have := C14_eof_means_end d d' this he
  exact ⟨ts, cur, d, hdel, this.1, this.2, hb⟩

/-- **C14**, negative part: with a U+0000 the rest of the text is dropped, and success is reported: the mismatched
tags after it go unnoticed. -/
theorem C14_nul_drops_rest : ∃ h r, newDocument Heap.empty (S "\x00<a></b>") = some (.ok (h, r)) := by
  have hs : Stream (Dec.new (S "\x00<a></b>")) [] :=
    ⟨_, .refl _, ⟨S "<a></b>", []⟩, by simp [rawToken, rawTokenF, Dec.new, S, EOFC]⟩
  exact (C07_tags_match _ .empty _ _ hs).1 .nil

example : '\x00' ∉ S "<a>x<b/>" ∧ ∃ h r, newDocument Heap.empty (S "<a>x<b/>") = some (.ok (h, r)) :=
  ⟨by decide, C07_unclosed_accepted⟩

end Amxml
