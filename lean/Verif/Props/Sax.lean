import Verif.Lemmas.Sax
import Verif.Spec.Tokens

/-!
# C05, C06, C09, C10, C11, C13, C14 at the level of `SaxDecoder::raw_token`
-/

namespace Amxml
open Spec

/-! ## C05: termination -/

theorem Spec.Calls.measure {d d' : Dec} {n : Nat} (h : Calls d n d') : n + d'.measure ≤ d.measure := by
  induction h with
  | refl => simp
  | step h1 h2 _ ih =>
    rcases rawToken_measure _ _ h1 with h | ⟨h, _⟩
    · simp at h; omega
    · simp at h; exact absurd h.1 h2

theorem Spec.Calls.suffix {d d' : Dec} {n : Nat} (h : Calls d n d') : d'.rest <:+ d.rest := by
  induction h with
  | refl => exact List.suffix_refl _
  | step h1 _ _ ih => exact ih.trans (rawToken_suffix _ _ h1)

/-- **C05**, bound: whatever the input, at most `2 * length` calls return something other than EOF. -/
theorem C05_bounded (xml : Str) (n : Nat) (d : Dec) (h : Calls (Dec.new xml) n d) : n ≤ 2 * xml.length := by
  have := h.measure
  have hl := List.length_filter_le (fun x => x != '\r') xml
  simp [Dec.measure, Dec.new] at this hl ⊢
  omega

theorem Spec.OpenTagBody.no_close {r : Str} (h : OpenTagBody r) :
    ∀ pre post, r = pre ++ '>' :: post → '"' ∉ post → '\'' ∉ post → False := by
  have key : ∀ {n w1 w2 v : Str} {q : Char} {t pre post : Str},
      (q = '"' ∨ q = '\'') → n ++ w1 ++ '=' :: w2 ++ q :: v ++ q :: t = pre ++ '>' :: post →
      '"' ∉ post → '\'' ∉ post → ∃ pre', t = pre' ++ '>' :: post := by
    intro n w1 w2 v q t pre post hq e hp1 hp2
    rw [show n ++ w1 ++ '=' :: w2 ++ q :: v ++ q :: t = (n ++ w1 ++ '=' :: w2 ++ q :: v ++ [q]) ++ t by simp] at e
    rcases List.append_eq_append_iff.1 e with ⟨w, e1, e2⟩ | ⟨w, e1, e2⟩
    · exact ⟨w, e2⟩
    · cases w with
      | nil => exact ⟨[], by simpa using e2.symm⟩
      | cons x w =>
        exfalso
        simp only [List.cons_append, List.cons.injEq] at e2
        obtain ⟨rfl, rfl⟩ := e2
        rcases List.eq_nil_or_concat w with rfl | ⟨w', y, rfl⟩
        · have hl := (List.append_inj' e1 rfl).2
          simp at hl; subst hl; revert hq; decide
        · have hl := (List.append_inj' (show (n ++ w1 ++ '=' :: w2 ++ q :: v) ++ [q] = (pre ++ '>' :: w') ++ [y] by
            simpa using e1) rfl).2
          simp at hl
          subst hl
          rcases hq with rfl | rfl
          · exact hp1 (by simp)
          · exact hp2 (by simp)
  induction h with
  | nil => intro pre post e; simp at e
  | @space c r hc _ ih =>
    intro pre post e h1 h2
    cases pre with
    | nil => simp at e; rw [e.1] at hc; revert hc; decide
    | cons x pre => simp at e; exact ih pre post e.2 h1 h2
  | @junk c r _ _ hc _ _ ih =>
    intro pre post e h1 h2
    cases pre with
    | nil => simp at e; exact hc e.1
    | cons x pre => simp at e; exact ih pre post e.2 h1 h2
  | @lastAttr n w1 w2 q v _ _ _ hq _ =>
    intro pre post e h1 h2
    obtain ⟨pre', e'⟩ := key (t := []) hq e h1 h2
    simp at e'
  | @attr n w1 w2 q v c r _ _ _ hq _ hc _ _ ih =>
    intro pre post e h1 h2
    obtain ⟨pre', e'⟩ := key hq e h1 h2
    cases pre' with
    | nil => simp at e'; exact hc e'.1
    | cons x pre' => simp at e'; exact ih pre' post e'.2 h1 h2

theorem suffix_append_cases {a b : Str} {s : Str} (h : s <:+ a ++ b) : (∃ a', s = a' ++ b) ∨ s <:+ b := by
  obtain ⟨p, e⟩ := h
  rcases List.append_eq_append_iff.1 e with ⟨w, _, e2⟩ | ⟨w, _, e2⟩
  · exact .inl ⟨w, e2⟩
  · exact .inr ⟨w, e2.symm⟩

theorem TailClosed.not_endsInStartTag {xml s : Str} (h : TailClosed xml) (hs : s <:+ xml) : ¬ EndsInStartTag s := by
  rintro ⟨c, n, body, rfl, _, _, _, _, hn, hb⟩
  rcases h with h | ⟨pre, post, rfl, h1, h2, h3⟩
  · exact h (hs.mem (by simp))
  · rw [show pre ++ '>' :: post = (pre ++ ['>']) ++ post by simp] at hs
    rcases suffix_append_cases hs with ⟨a, e⟩ | hs'
    · -- the tag's `>` lies inside
      have hs2 : '<' :: (n ++ body) <:+ pre ++ ('>' :: post) := by simpa using hs
      rcases suffix_append_cases hs2 with ⟨a', e'⟩ | hs3
      · cases a' with
        | nil => simp at e'
        | cons x a' =>
          simp at e'
          obtain ⟨-, e'⟩ := e'
          rcases List.append_eq_append_iff.1 e' with ⟨w, e1, e2⟩ | ⟨w, e1, e2⟩
          · exact hb.no_close w post e2 h2 h3
          · cases w with
            | nil => exact hb.no_close [] post (by simpa using e2.symm) h2 h3
            | cons y w =>
              simp at e2
              obtain ⟨rfl, rfl⟩ := e2
              have hgt : isNameChar '>' = false := not_nameChar_of (by simp)
              have hmem : '>' ∈ n := by rw [e1]; simp
              rcases hn with ⟨⟨c, cs, rfl, hc, hcs⟩, _⟩ | ⟨rfl, _⟩
              · simp only [List.mem_cons] at hmem
                rcases hmem with rfl | hm
                · simp [nameFirst_nameChar hc] at hgt
                · simp [hcs _ hm] at hgt
              · simp at hmem
      · obtain ⟨p, ep⟩ := hs3
        cases p with
        | nil => simp at ep
        | cons x p =>
          simp at ep
          exact h1 (by rw [← ep.2]; simp)
    · exact h1 (hs'.mem (by simp))

/-- **C05**, positive part: if the text has no U+0000 and its last tag is closed, every call of `raw_token()` on
it returns (and by `C05_bounded` the EOF token comes after at most `2 * length` others).

Full statement: the same for every text. It is false of the code, see `C05_unterminated_start_tag`. -/
theorem C05_returns_partial (xml : Str) (h0 : '\x00' ∉ xml) (htail : TailClosed xml) (n : Nat) (d : Dec)
    (h : Calls (Dec.new xml) n d) : ∃ res, rawToken d = some res := by
  have htail' : TailClosed (xml.filter (· != '\r')) := by
    rcases htail with h | ⟨pre, post, rfl, h1, h2, h3⟩
    · left; intro hm; exact h (List.mem_filter.1 hm).1
    · right
      refine ⟨pre.filter (· != '\r'), post.filter (· != '\r'), by simp [List.filter_append], ?_, ?_, ?_⟩ <;>
        (intro hm; have := (List.mem_filter.1 hm).1; contradiction)
  have hs := h.suffix
  have hd0 : EOFC ∉ d.rest := by
    intro hm
    exact h0 (List.mem_filter.1 (hs.mem hm)).1
  cases hr : rawToken d with
  | some res => exact ⟨res, rfl⟩
  | none =>
    exfalso
    have hall : ∀ fuel, rawTokenF fuel d = none := by
      intro fuel
      cases hf : rawTokenF fuel d with
      | none => rfl
      | some res => rw [rawToken_of_some hf] at hr; simp at hr
    exact TailClosed.not_endsInStartTag htail' hs ((rawToken_none_iff d hd0).1 hall).2

/-- **C05**, negative part, exactly: on input without U+0000 a call never returns (no number of loop rounds
suffices) precisely when no end tag is pending and the remaining input is an unterminated start tag. -/
theorem C05_diverges_iff (d : Dec) (h0 : '\x00' ∉ d.rest) :
    (∀ fuel, rawTokenF fuel d = none) ↔ d.toClose = [] ∧ EndsInStartTag d.rest :=
  rawToken_none_iff d h0

/-- Such an input: `<a`. -/
theorem C05_unterminated_start_tag : ∀ fuel, rawTokenF fuel (Dec.new (S "<a")) = none := by
  refine (C05_diverges_iff _ (by decide)).2 ⟨rfl, 'a', ['a'], [], rfl, rfl, by decide, by decide, by decide, ?_, .nil⟩
  exact .inl ⟨⟨'a', [], rfl, by decide +kernel, by simp⟩, by simp⟩

example : TailClosed (S "<a b='1>2'>x<c/></a>\n") :=
  .inr ⟨S "<a b='1>2'>x<c/></a", S "\n", rfl, by decide, by decide, by decide⟩

/-! ## C06: carriage returns -/

/-- **C06.** The decoder for a text is the decoder for the text without its carriage returns; so every observation
is the same. -/
theorem C06_cr_irrelevant (xml xml' : Str) (h : xml.filter (· ≠ '\r') = xml'.filter (· ≠ '\r')) :
    Dec.new xml = Dec.new xml' := by
  have e : ∀ s : Str, s.filter (· != '\r') = s.filter (· ≠ '\r') := by
    intro s; apply List.filter_congr; intro x _; simp [bne, BEq.beq]
  simp only [Dec.new, e, h]

theorem getUntil_mem {delim r v t : Str} (h : getUntil delim r = (.ok v, t)) : ∀ c ∈ v, c ∈ r := by
  induction r generalizing v with
  | nil => simp [getUntil] at h
  | cons c cs ih =>
    simp only [getUntil] at h
    split at h
    · simp at h; simp [h.1]
    · split at h
      · simp at h
      · rcases hg : getUntil delim cs with ⟨e | v', t'⟩
        · rw [hg] at h; simp [Except.map] at h
        · rw [hg] at h
          simp [Except.map] at h
          obtain ⟨rfl, rfl⟩ := h
          intro x hx
          simp at hx ⊢
          rcases hx with rfl | hx
          · simp
          · exact .inr (ih hg x hx)

theorem getBracket_mem {n : Nat} {r v t : Str} (h : getBracket n r = (.ok v, t)) : ∀ c ∈ v, c ∈ r := by
  induction r generalizing v n with
  | nil => simp [getBracket] at h
  | cons c cs ih =>
    have step : ∀ m, ((getBracket m cs).1.map (c :: ·), (getBracket m cs).2) = (Except.ok v, t) →
        ∀ x ∈ v, x ∈ c :: cs := by
      intro m h
      rcases hg : getBracket m cs with ⟨e | v', t'⟩
      · rw [hg] at h; simp [Except.map] at h
      · rw [hg] at h
        simp [Except.map] at h
        obtain ⟨rfl, rfl⟩ := h
        intro x hx
        simp at hx ⊢
        rcases hx with rfl | hx
        · simp
        · exact .inr (ih hg x hx)
    simp only [getBracket] at h
    split at h
    · simp at h
    · split at h
      · exact step _ h
      · split at h
        · split at h
          · simp at h; simp [← h.1]
          · exact step _ h
        · exact step _ h

theorem getName_no_cr (r : Str) : '\r' ∉ (getName r).1 := by
  have hcr : isNameChar '\r' = false := not_nameChar_of (by simp)
  rcases getName_spec r with ⟨⟨c, cs, e, hc, hcs⟩, _⟩ | ⟨e, _⟩
  · rw [e]
    intro hm
    simp only [List.mem_cons] at hm
    rcases hm with rfl | hm
    · simp [nameFirst_nameChar hc] at hcr
    · simp [hcs _ hm] at hcr
  · simp [e]

theorem readAttr_name_no_cr {r t : Str} {a : Str × Str} (h : readAttr r = .ok (some a, t)) : '\r' ∉ a.1 := by
  unfold readAttr at h
  simp only at h
  have := getName_no_cr (skipSpaces r)
  repeat' split at h
  all_goals simp at h
  rw [← h.1]; exact this

theorem startTagLoop_no_cr (name : Str) (n : Nat) (attr : List (Str × Str)) (r : Str) (tok : Token) (d' : Dec)
    (hattr : ∀ a ∈ attr, '\r' ∉ a.1) (h : startTagLoop name n attr r = some (.ok tok, d')) :
    ∃ as, tok = .startElement name as ∧ ∀ a ∈ as, '\r' ∉ a.1 := by
  induction n generalizing attr r with
  | zero => simp [startTagLoop] at h
  | succ n ih =>
    simp only [startTagLoop] at h
    rcases hra : readAttr r with ⟨e, r'⟩ | ⟨a, r'⟩
    · rw [hra] at h; simp at h
    · rw [hra] at h
      simp only at h
      have hattr' : ∀ x ∈ attr ++ a.toList, '\r' ∉ x.1 := by
        intro x hx
        simp at hx
        rcases hx with hx | hx
        · exact hattr x hx
        · subst hx; exact readAttr_name_no_cr hra
      split at h
      · simp at h; exact ⟨_, h.1.symm, hattr'⟩
      · split at h
        · split at h
          · simp at h; exact ⟨_, h.1.symm, hattr'⟩
          · simp at h
        · exact ih _ _ hattr' h

/-- The strings a token carries which are copied from the input without decoding. -/
def Token.verbatim : Token → List Str
  | .eof => []
  | .startElement n as => n :: as.map (·.1)
  | .endElement n => [n]
  | .charData _ => []
  | .procInst t i => [t, i]
  | .comment c => [c]
  | .directive d => [d]

/-- **C06**, second part: names, instructions, comments and directives never contain a carriage return, and neither
does the content of a CDATA section. -/
theorem C06_no_cr_in_tokens (xml : Str) (n : Nat) (d d' : Dec) (tok : Token) (h : Calls (Dec.new xml) n d)
    (ht : rawToken d = some (.ok tok, d')) :
    (∀ s ∈ tok.verbatim, '\r' ∉ s) ∧
    (∀ c, tok = .charData c → S "<![CDATA[" <+: d.rest → d.toClose = [] → '\r' ∉ c) := by
  have hcr : '\r' ∉ d.rest := by
    intro hm
    have := h.suffix.mem hm
    simp [Dec.new] at this
  have htc : ∀ {d d' : Dec} {n : Nat}, Calls d n d' → '\r' ∉ d.toClose → '\r' ∉ d'.toClose := by
    intro d d' n h
    induction h with
    | refl => exact id
    | @step d d1 d2 n res h1 _ _ ih =>
      intro hc
      apply ih
      unfold rawToken rawTokenF at h1
      split at h1
      · simp at h1; simp [← h1.2]
      · rename_i hnc
        simp only [ne_eq, Decidable.not_not] at hnc
        cases hr : d.rest with
        | nil => rw [hr] at h1; simp at h1; simp [← h1.2, hnc]
        | cons c r =>
          rw [hr] at h1
          simp only at h1
          split at h1
          · simp at h1; simp [← h1.2, hnc]
          · split at h1
            · unfold rawMarkup at h1
              cases r with
              | nil => simp at h1; simp [← h1.2, hnc]
              | cons ch r1 =>
                simp only at h1
                split at h1
                · simp at h1; simp [← h1.2, hnc]
                · split at h1
                  · simp at h1; have := rawEndTag_toClose d r1; rw [h1] at this; simp only at this; simp [this, hnc]
                  · split at h1
                    · simp at h1; have := rawPI_toClose d r1; rw [h1] at this; simp only at this; simp [this, hnc]
                    · split at h1
                      · simp at h1; have := rawBang_toClose d r1; rw [h1] at this; simp only at this; simp [this, hnc]
                      · have := startTagLoop_toClose _ _ _ _ _ h1
                        rcases this with h | ⟨a, _, h⟩
                        · simp at h; simp [h]
                        · simp at h; rw [h]; exact getName_no_cr _
            · simp [rawText] at h1; simp [← h1.2, hnc]
  have hclose := htc h (by simp [Dec.new])
  unfold rawToken rawTokenF at ht
  split at ht
  · rename_i hc
    simp at ht
    refine ⟨?_, fun c e _ h => absurd h hc⟩
    rw [← ht.1]; simpa [Token.verbatim] using hclose
  · cases hr : d.rest with
    | nil => rw [hr] at ht; simp at ht; simp [← ht.1, Token.verbatim]
    | cons c r =>
      rw [hr] at ht hcr
      simp only at ht
      split at ht
      · simp at ht; simp [← ht.1, Token.verbatim]
      · split at ht
        · rename_i hlt
          subst hlt
          unfold rawMarkup at ht
          cases r with
          | nil => simp at ht
          | cons ch r1 =>
            simp only at ht
            have hcr1 : '\r' ∉ r1 := by intro hm; apply hcr; simp [hm]
            split at ht
            · simp at ht
            · split at ht
              · rename_i hch
                constructor
                · simp [rawEndTag] at ht
                  split at ht
                  · simp at ht
                  · simp at ht; rw [← ht.1]; simpa [Token.verbatim] using getName_no_cr r1
                · intro c _ hp; rw [hch] at hp; simp [S] at hp
              · split at ht
                · rename_i hch
                  constructor
                  · simp [rawPI] at ht
                    split at ht
                    · simp at ht
                    · rename_i inst hi
                      simp at ht; rw [← ht.1]
                      have hm := getUntil_mem (show getUntil (S "?>") (skipSpaces (getName r1).2) = (.ok inst, _) from
                        Prod.ext hi rfl)
                      have hsub : '\r' ∉ inst := fun h => hcr1
                        (((skipSpaces_suffix _).trans (getName_suffix r1)).mem (hm _ h))
                      simpa [Token.verbatim] using ⟨getName_no_cr r1, hsub⟩
                  · intro c _ hp; rw [hch] at hp; simp [S] at hp
                · split at ht
                  · rename_i hch
                    simp only [Option.some.injEq] at ht
                    unfold rawBang at ht
                    simp only at ht
                    have hg1 : '\r' ∉ (getchar r1).2 := fun h => hcr1 ((getchar_suffix r1).mem h)
                    split at ht
                    · split at ht
                      · split at ht
                        · simp at ht
                        · rename_i cm hi
                          simp at ht; rw [← ht.1]
                          have hm := getUntil_mem (show getUntil (S "-->") (getchar (getchar r1).2).2 = (.ok cm, _) from
                            Prod.ext hi rfl)
                          have hsub : '\r' ∉ cm := fun h => hg1 ((getchar_suffix _).mem (hm _ h))
                          simpa [Token.verbatim] using hsub
                      · simp at ht
                    · split at ht
                      · split at ht
                        · rename_i r3 hla
                          split at ht
                          · simp at ht
                          · rename_i cd hi
                            simp at ht; rw [← ht.1]
                            refine ⟨by simp [Token.verbatim], ?_⟩
                            intro c e _ _
                            simp at e; subst e
                            have hm := getUntil_mem (show getUntil (S "]]>") r3 = (.ok cd, _) from Prod.ext hi rfl)
                            have hl : r3 <:+ (getchar r1).2 := ⟨_, (stripPrefix_eq_some.1 hla).symm⟩
                            exact fun h => hg1 (hl.mem (hm _ h))
                        · simp at ht
                      · split at ht
                        · simp at ht
                        · rename_i s hi
                          simp at ht; rw [← ht.1]
                          refine ⟨?_, by intro c e; simp at e⟩
                          have hm := getBracket_mem (show getBracket 1 (getchar r1).2 = (.ok s, _) from Prod.ext hi rfl)
                          have hs : '\r' ∉ s := fun h => hg1 (hm _ h)
                          have hc0 : '\r' ≠ (getchar r1).1 := by
                            cases r1 with
                            | nil => decide
                            | cons x r1 => intro e; apply hcr1; simp [getchar] at e; simp [← e]
                          simpa [Token.verbatim, S] using ⟨hc0, hs⟩
                  · rename_i h1 h2 h3 h4
                    obtain ⟨as, rfl, has⟩ := startTagLoop_no_cr _ _ _ _ _ _ (by simp) ht
                    refine ⟨?_, by intro c e; simp at e⟩
                    have := getName_no_cr (ch :: r1)
                    simp only [Token.verbatim, List.mem_cons, List.mem_map]
                    rintro s (rfl | ⟨a, ha, rfl⟩)
                    · exact this
                    · exact has a ha
        · rename_i hlt
          simp [rawText] at ht
          refine ⟨by simp [← ht.1, Token.verbatim], ?_⟩
          intro c' _ hp
          have : c = '<' := by obtain ⟨t, e⟩ := hp; simp [S] at e; exact e.1.symm
          exact absurd this hlt

/-! ## C09: self-closing tags -/

/-- **C09.** For every name, attribute list and spacing: the start tag yields the StartElement token with the decoded
attributes; written self-closing it is followed by an EndElement token of that name without consuming more input,
which is exactly what `</n>` would have given. -/
theorem C09_self_closing (n : Str) (hn : IsName n) (as : List AttrSrc) (hwf : ∀ a ∈ as, a.WF) (ws ws' : Str)
    (hws : IsSpaces ws) (hws' : IsSpaces ws') (t : Str) :
    let start := Token.startElement n (as.map fun a => (a.name, decodeEntity a.raw))
    let tag := '<' :: (n ++ as.flatMap AttrSrc.render ++ ws)
    (∃ d, rawToken ⟨tag ++ S "/>" ++ t, []⟩ = some (.ok start, d) ∧
      rawToken d = some (.ok (.endElement n), ⟨t, []⟩)) ∧
    (∃ d, rawToken ⟨tag ++ S ">" ++ (S "</" ++ n ++ ws' ++ '>' :: t), []⟩ = some (.ok start, d) ∧
      rawToken d = some (.ok (.endElement n), ⟨t, []⟩)) := by
  refine ⟨⟨⟨t, n⟩, ?_, ?_⟩, ⟨⟨S "</" ++ n ++ ws' ++ '>' :: t, []⟩, ?_, ?_⟩⟩
  · simpa [tagEnd] using rawToken_startTag n hn as hwf ws hws true t
  · simpa using rawToken_toClose ⟨t, n⟩ hn.ne_nil
  · simpa [tagEnd] using rawToken_startTag n hn as hwf ws hws false (S "</" ++ n ++ ws' ++ '>' :: t)
  · exact rawToken_endTag n hn ws' hws' t

example : (⟨S " ", S "b", [], S "\n", '\'', S "1>&lt;\""⟩ : AttrSrc).WF :=
  ⟨by decide, by simp [IsSpaces, isSpace, S], ⟨'b', [], rfl, by decide +kernel, by simp⟩, by simp [IsSpaces],
    by simp [IsSpaces, isSpace, S], by decide, by decide, by decide⟩

/-! ## C10, C11: CDATA sections, comments, processing instructions -/

theorem noSub_append {w s : Str} {z : Char} (hz : z ∉ w) (h : NoSub (w ++ [z]) s) : NoSub (w ++ [z]) (s ++ w) := by
  intro pre post e
  rw [show pre ++ (w ++ [z]) ++ post = (pre ++ w) ++ ([z] ++ post) by simp] at e
  rcases List.append_eq_append_iff.1 e with ⟨x, e1, e2⟩ | ⟨x, e1, e2⟩
  · exact hz (by rw [e2]; simp)
  · cases x with
    | nil =>
      simp at e2
      exact hz (by rw [← e2]; simp)
    | cons y x =>
      simp at e2
      obtain ⟨rfl, -⟩ := e2
      exact h pre x (by simp [e1])

/-- **C10.** A CDATA section yields one character data token with exactly its content. -/
theorem C10_cdata_verbatim (c t : Str) (h0 : '\x00' ∉ c) (h : NoSub (S "]]>") c) :
    rawToken ⟨S "<![CDATA[" ++ c ++ S "]]>" ++ t, []⟩ = some (.ok (.charData c), ⟨t, []⟩) :=
  rawToken_cdata c t h0 (noSub_append (w := S "]]") (z := '>') (by decide) h)

/-- **C11**, comments. -/
theorem C11_comment_verbatim (c t : Str) (h0 : '\x00' ∉ c) (h : NoSub (S "-->") c) :
    rawToken ⟨S "<!--" ++ c ++ S "-->" ++ t, []⟩ = some (.ok (.comment c), ⟨t, []⟩) :=
  rawToken_comment c t h0 (noSub_append (w := S "--") (z := '>') (by decide) h)

/-- **C11**, processing instructions: target and data are separated by any non-empty white space (or the data is
empty), the data does not start with white space. -/
theorem C11_pi_verbatim (n sp c t : Str) (hn : IsName n) (hsp : IsSpaces sp) (hsp' : sp ≠ [] ∨ c = [])
    (hc : ∀ x, c.head? = some x → isSpace x = false) (h0 : '\x00' ∉ c) (h : NoSub (S "?>") c) :
    rawToken ⟨S "<?" ++ n ++ sp ++ c ++ S "?>" ++ t, []⟩ = some (.ok (.procInst n c), ⟨t, []⟩) :=
  rawToken_pi n sp c t hn hsp (by rcases hsp' with h | h <;> simp [h]) hc h0
    (noSub_append (w := S "?") (z := '>') (by decide) h)

/-- Executable test for `NoSub`, used for the examples. -/
def noSubCheck (w : Str) : Str → Bool
  | [] => ! w.isPrefixOf []
  | c :: cs => ! w.isPrefixOf (c :: cs) && noSubCheck w cs

theorem noSub_of_check (w s : Str) (h : noSubCheck w s = true) : NoSub w s := by
  induction s with
  | nil =>
    intro pre post e
    simp at e
    simp [noSubCheck, e.2.1] at h
  | cons c cs ih =>
    intro pre post e
    simp only [noSubCheck, Bool.and_eq_true, Bool.not_eq_true'] at h
    cases pre with
    | nil =>
      simp only [List.nil_append] at e
      have : w.isPrefixOf (c :: cs) = true := by rw [e]; simp
      simp [this] at h
    | cons x pre =>
      simp at e
      exact ih h.2 pre post (by simp [e.2])

example : NoSub (S "]]>") (S "a<b&amp;]] >]>") ∧ '\x00' ∉ S "a<b&amp;]] >]>" :=
  ⟨noSub_of_check _ _ (by decide), by decide⟩
example : NoSub (S "-->") (S "- <x> -- &amp; -") := noSub_of_check _ _ (by decide)
example : NoSub (S "?>") (S "version=\"1.0\" ?") := noSub_of_check _ _ (by decide)

/-! ## C13: directives (token level) -/

theorem getBracket_balanced {b : Str} (h : Balanced b) (n : Nat) (hn : 0 < n) (t : Str) :
    getBracket n (b ++ t) = ((getBracket n t).1.map (b ++ ·), (getBracket n t).2) := by
  have hid : ∀ x : Except SaxErr Str, x.map (fun s => s) = x := by intro x; cases x <;> rfl
  induction h generalizing n t with
  | nil => simp [hid]
  | @char c s h1 h2 h3 _ ih =>
    have : c ≠ EOFC := h3
    simp only [List.cons_append, getBracket, this, h1, h2, if_false, ih n hn]
    cases (getBracket n t).1 <;> simp [Except.map]
  | @nest b s _ _ ih1 ih2 =>
    have e : '<' :: b ++ '>' :: s ++ t = '<' :: (b ++ '>' :: (s ++ t)) := by simp
    rw [e]
    have hlt : getBracket n ('<' :: (b ++ '>' :: (s ++ t))) =
        ((getBracket (n + 1) (b ++ '>' :: (s ++ t))).1.map ('<' :: ·), (getBracket (n + 1) (b ++ '>' :: (s ++ t))).2) := by
      simp [getBracket, EOFC]
    have hgt : getBracket (n + 1) ('>' :: (s ++ t)) =
        ((getBracket n (s ++ t)).1.map ('>' :: ·), (getBracket n (s ++ t)).2) := by
      have : ¬ n = 0 := by omega
      simp [getBracket, EOFC, this]
    rw [hlt, ih1 (n + 1) (by omega), hgt, ih2 n hn]
    cases (getBracket n t).1 <;> simp [Except.map]

theorem rawToken_directive (ch : Char) (b t : Str) (hch : ch ≠ '-' ∧ ch ≠ '[') (hb : Balanced b) :
    rawToken ⟨S "<!" ++ ch :: b ++ '>' :: t, []⟩ = some (.ok (.directive (S "<!" ++ ch :: b ++ S ">")), ⟨t, []⟩) := by
  have hg : getBracket 1 (b ++ '>' :: t) = (.ok (b ++ ['>']), t) := by
    rw [getBracket_balanced hb 1 (by omega)]
    simp [getBracket, EOFC, Except.map]
  have e : S "<!" ++ ch :: b ++ '>' :: t = '<' :: '!' :: ch :: (b ++ '>' :: t) := by simp [S]
  rw [e]
  simp only [rawToken, rawTokenF, rawMarkup, rawBang, getchar_cons, hg, hch.1, hch.2]
  simp [EOFC, S]

/-- **C13**, token level: a directive with balanced angle brackets is one `Directive` token with the text as
written; tokenizing continues right after it. -/
theorem C13_directive_token (ch : Char) (b t : Str) (hch : ch ≠ '-' ∧ ch ≠ '[') (hb : Balanced b) :
    rawToken ⟨S "<!" ++ ch :: b ++ '>' :: t, []⟩ = some (.ok (.directive (S "<!" ++ ch :: b ++ S ">")), ⟨t, []⟩) :=
  rawToken_directive ch b t hch hb

/-! ## C14: nothing is dropped (token level) -/

/-- **C14**, token level: without U+0000 in the input the EOF token means that all input has been consumed and no
end tag is pending. -/
theorem C14_eof_means_end (d d' : Dec) (h0 : '\x00' ∉ d.rest) (h : rawToken d = some (.ok .eof, d')) :
    d.rest = [] ∧ d.toClose = [] := by
  rcases rawToken_measure d _ h with hm | ⟨_, h2⟩
  · exfalso
    unfold rawToken rawTokenF at h
    split at h
    · simp at h
    · cases hr : d.rest with
      | nil => rw [hr] at h; simp at h; simp [Dec.measure, ← h, hr] at hm
      | cons c r =>
        rw [hr] at h h0
        simp only [List.mem_cons, not_or] at h0
        have : c ≠ EOFC := Ne.symm h0.1
        simp only [this, if_false] at h
        split at h
        · unfold rawMarkup at h
          cases r with
          | nil => simp at h
          | cons ch r1 =>
            simp only at h
            split at h
            · simp at h
            · split at h
              · simp [rawEndTag] at h; split at h <;> simp at h
              · split at h
                · simp [rawPI] at h; split at h <;> simp at h
                · split at h
                  · simp only [Option.some.injEq, rawBang] at h
                    repeat' split at h
                    all_goals simp at h
                  · obtain ⟨as, e, _⟩ := startTagLoop_no_cr _ _ _ _ _ _ (by simp) h
                    simp at e
        · simp [rawText] at h
  · exact h2

/-- **C14**, negative part: a U+0000 in the input makes `raw_token()` report EOF although text follows. -/
theorem C14_nul_truncates :
    ∃ d', rawToken (Dec.new (S "\x00<a/>")) = some (.ok .eof, d') ∧ d'.rest = S "<a/>" :=
  ⟨⟨S "<a/>", []⟩, by simp [rawToken, rawTokenF, Dec.new, S, EOFC], rfl⟩

end Amxml
