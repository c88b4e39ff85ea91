import Verif.Props.Build
import Verif.Spec.Markup

/-!
# The tokenizer and the grammar of Spec/Markup.lean
-/

namespace Amxml.Markup
open Spec

/-! ### start tags -/

theorem inTag_loop {b : Str} {as : List (Str × Str)} (h : InTag b as) (h0 : EOFC ∉ b) (name : Str) (sc : Bool)
    (t : Str) (acc : List (Str × Str)) : ∃ fuel, startTagLoop name fuel acc (b ++ (tagEnd sc ++ t)) =
      some (.ok (.startElement name (acc ++ as)), { rest := t, toClose := if sc then name else [] }) := by
  induction h generalizing acc with
  | nil => exact ⟨1, by rw [List.nil_append, startTag_end (readAttr_tagEnd sc t)]; simp⟩
  | @space c r as hc _ ih =>
    obtain ⟨f, hf⟩ := ih (by simp at h0; exact h0.2) acc
    refine ⟨f, ?_⟩
    have := @startTagLoop_space name [c] (r ++ (tagEnd sc ++ t)) f acc (by intro x hx; simp at hx; exact hx ▸ hc)
    rw [List.singleton_append] at this
    rw [List.cons_append, this, hf]
  | @junk c r as h1 h2 h3 h4 _ ih =>
    simp only [List.mem_cons, not_or] at h0
    obtain ⟨f, hf⟩ := ih h0.2 acc
    refine ⟨f + 1, ?_⟩
    rw [List.cons_append, startTagLoop_round (readAttr_none h1 h2 (Ne.symm h0.1)) h3 h4]
    simpa using hf
  | @last n w w' q v hn hw hw' hq hv =>
    have hv0 : EOFC ∉ v := by intro hm; apply h0; simp [hm]
    refine ⟨1, ?_⟩
    have := readAttr_attr (t := tagEnd sc ++ t) hn hw hw' hq hv hv0
    have e : n ++ w ++ '=' :: w' ++ q :: v ++ [q] ++ (tagEnd sc ++ t) =
        n ++ w ++ '=' :: w' ++ q :: v ++ q :: (tagEnd sc ++ t) := by simp
    rw [e, startTag_end this]
    simp
  | @attr n w w' q v c r as hn hw hw' hq hv hc1 hc2 _ ih =>
    have hv0 : EOFC ∉ v := by intro hm; apply h0; simp [hm]
    have hr0 : EOFC ∉ r := by intro hm; apply h0; simp [hm]
    obtain ⟨f, hf⟩ := ih hr0 (acc ++ [(n, decodeEntity v)])
    refine ⟨f + 1, ?_⟩
    have := readAttr_attr (t := c :: (r ++ (tagEnd sc ++ t))) hn hw hw' hq hv hv0
    have e : n ++ w ++ '=' :: w' ++ q :: v ++ q :: c :: r ++ (tagEnd sc ++ t) =
        n ++ w ++ '=' :: w' ++ q :: v ++ q :: c :: (r ++ (tagEnd sc ++ t)) := by simp
    rw [e, startTagLoop_round this hc1 hc2]
    simpa using hf

theorem loop_inTag (r : Str) (h0 : EOFC ∉ r) (name : Str) (fuel : Nat) (acc : List (Str × Str)) (tok : Token) (d : Dec)
    (h : startTagLoop name fuel acc r = some (.ok tok, d)) :
    ∃ b as sc, InTag b as ∧ r = b ++ (tagEnd sc ++ d.rest) ∧ tok = .startElement name (acc ++ as) ∧
      d.toClose = if sc then name else [] := by
  generalize hn : r.length = n
  induction n using Nat.strongRecOn generalizing r acc fuel with
  | ind n ih =>
    cases fuel with
    | zero => simp [startTagLoop] at h
    | succ fuel =>
    cases r with
    | nil => rw [startTagLoop_nil] at h; simp at h
    | cons c r =>
      have h0' : EOFC ∉ r := by simp at h0; exact h0.2
      have hc0 : c ≠ EOFC := by intro h; apply h0; simp [h]
      by_cases hs : isSpace c = true
      · have := @startTagLoop_space name [c] r (fuel + 1) acc (by intro x hx; simp at hx; exact hx ▸ hs)
        rw [List.singleton_append] at this
        rw [this] at h
        obtain ⟨b, as, sc, hb, e, e2, e3⟩ := ih r.length (by simp at hn; omega) r h0' _ acc h rfl
        exact ⟨c :: b, as, sc, .space hs hb, by rw [e]; rfl, e2, e3⟩
      · simp only [Bool.not_eq_true] at hs
        by_cases hf : isNameFirstChar c = true
        · rcases hra : readAttr (c :: r) with ⟨e, t⟩ | ⟨a, t⟩
          · simp [startTagLoop, hra] at h
          · obtain ⟨nm, w1, w2, q, v, hnm, hw1, hw2, hq, hv, e⟩ := readAttr_some_inv h0 hs hf hra
            have hv0 : EOFC ∉ v := by intro hm; apply h0; rw [e]; simp [hm]
            have ha := readAttr_attr (t := t) hnm hw1 hw2 hq hv hv0
            rw [← e, hra] at ha
            simp at ha
            subst ha
            cases t with
            | nil =>
              simp only [startTagLoop, hra, getchar_nil] at h
              rw [if_neg (by decide), if_neg (by decide), startTagLoop_nil] at h
              simp at h
            | cons c' t =>
              by_cases hg : c' = '>'
              · subst hg
                have := startTag_end (name := name) (fuel := fuel) (attr := acc) (sc := false) (t := t) hra
                rw [this] at h
                simp at h
                obtain ⟨rfl, rfl⟩ := h
                exact ⟨_, _, false, .last hnm hw1 hw2 hq hv, by rw [e]; simp [tagEnd, S], by simp, by simp⟩
              by_cases hsl : c' = '/'
              · subst hsl
                simp only [startTagLoop, hra, getchar_cons] at h
                rw [if_neg (by decide), if_pos trivial] at h
                split at h
                · rename_i hgt
                  have e4 := getchar_inv hgt (by decide)
                  simp at h
                  obtain ⟨rfl, rfl⟩ := h
                  refine ⟨_, _, true, .last hnm hw1 hw2 hq hv, ?_, by simp, by simp⟩
                  rw [e]
                  simp only [List.append_assoc, List.cons_append, List.nil_append, tagEnd, if_true]
                  congr 1; congr 1; congr 1; congr 1; congr 1; congr 1; congr 1
                  exact congrArg ('/' :: ·) e4
                · simp at h
              rw [startTagLoop_round hra hg hsl] at h
              have hl := congrArg List.length e
              simp at hl hn
              obtain ⟨b, as, sc, hb, e1, e2, e3⟩ := ih t.length (by omega) t
                (by intro hm; apply h0; rw [e]; simp [hm]) _ _ h rfl
              refine ⟨_, _, sc, .attr hnm hw1 hw2 hq hv hg hsl hb, ?_, by rw [e2]; simp, e3⟩
              rw [e, e1]; simp
        · simp only [Bool.not_eq_true] at hf
          have hr := readAttr_none (r := r) hs hf hc0
          by_cases hg : c = '>'
          · subst hg
            have := startTag_end (name := name) (fuel := fuel) (attr := acc) (sc := false) (t := r) hr
            rw [this] at h
            simp at h
            obtain ⟨rfl, rfl⟩ := h
            exact ⟨_, _, false, .nil, by simp [tagEnd, S], by simp, by simp⟩
          by_cases hsl : c = '/'
          · subst hsl
            simp only [startTagLoop, hr, getchar_cons] at h
            rw [if_neg (by decide), if_pos trivial] at h
            split at h
            · rename_i hgt
              have e4 := getchar_inv hgt (by decide)
              simp at h
              obtain ⟨rfl, rfl⟩ := h
              refine ⟨_, _, true, .nil, ?_, by simp, by simp⟩
              simp only [List.nil_append, tagEnd, if_true]
              exact congrArg ('/' :: ·) e4
            · simp at h
          rw [startTagLoop_round hr hg hsl] at h
          obtain ⟨b, as, sc, hb, e1, e2, e3⟩ := ih r.length (by simp at hn; omega) r h0' _ _ h rfl
          exact ⟨c :: b, as, sc, .junk hs hf hg hsl hb, by rw [e1]; rfl, by rw [e2]; simp, e3⟩

/-! ### the parts of the other constructs -/

theorem getUntil_ok {delim r v t : Str} (hd : delim ≠ []) (h : getUntil delim r = (.ok v, t)) :
    r = v ++ delim ++ t ∧ NoSub delim (v ++ delim.dropLast) := by
  induction r generalizing v with
  | nil => simp [getUntil] at h
  | cons c cs ih =>
    simp only [getUntil] at h
    cases hs : lookAheadKeyword delim (c :: cs) with
    | some rest =>
      rw [hs] at h
      simp at h
      obtain ⟨rfl, rfl⟩ := h
      refine ⟨by simpa [lookAheadKeyword] using stripPrefix_eq_some.1 hs, ?_⟩
      intro pre post e
      have := congrArg List.length e
      have hl := List.length_pos_iff.2 hd
      simp at this
      omega
    | none =>
      rw [hs] at h
      simp only at h
      split at h
      · simp at h
      · rcases hg : getUntil delim cs with ⟨e | v', t'⟩
        · rw [hg] at h; simp [Except.map] at h
        · rw [hg] at h
          simp [Except.map] at h
          obtain ⟨rfl, rfl⟩ := h
          obtain ⟨e, hv⟩ := ih hg
          refine ⟨by rw [e]; simp, ?_⟩
          intro pre post e2
          cases pre with
          | cons x pre => simp at e2; exact hv pre post (by simp [e2.2])
          | nil =>
            have hp : delim <+: c :: cs := by
              refine List.IsPrefix.trans ⟨post, by simpa using e2.symm⟩ ?_
              rw [e]
              exact (List.prefix_cons_inj _).2 (by
                rw [List.append_assoc]
                exact (List.prefix_append_right_inj _).2 ((List.dropLast_prefix _).trans (List.prefix_append _ _)))
            obtain ⟨u, hu⟩ := hp
            rw [← hu] at hs
            simp [lookAheadKeyword, stripPrefix_append] at hs

theorem noSub_left {w s u : Str} (h : NoSub w (s ++ u)) : NoSub w s := by
  intro pre post e
  exact h pre (post ++ u) (by rw [e]; simp)

/-- Text up to and including the bracket that closes `n` open ones: `n - 1` times a balanced text and `>`, and then one
more. -/
theorem getBracket_ok {n : Nat} {r v t : Str} (hn : 0 < n) (h : getBracket n r = (.ok v, t)) :
    r = v ++ t ∧ ∃ bs : List Str, bs.length = n ∧ (∀ b ∈ bs, Balanced b) ∧ v = bs.flatMap (· ++ ['>']) := by
  induction r generalizing v n with
  | nil => simp [getBracket] at h
  | cons c cs ih =>
    simp only [getBracket] at h
    split at h
    · simp at h
    rename_i h0
    split at h
    · rename_i hc
      subst hc
      rcases hg : getBracket (n + 1) cs with ⟨e | v', t'⟩
      · rw [hg] at h; simp [Except.map] at h
      · rw [hg] at h
        simp [Except.map] at h
        obtain ⟨rfl, rfl⟩ := h
        obtain ⟨e, bs, hl, hb, e2⟩ := ih (by omega) hg
        refine ⟨by rw [e]; simp, ?_⟩
        match bs, hl with
        | b1 :: b2 :: bs, hl =>
          refine ⟨('<' :: b1 ++ '>' :: b2) :: bs, by simp at hl ⊢; omega, ?_, ?_⟩
          · intro b hm
            simp only [List.mem_cons] at hm
            rcases hm with rfl | hm
            · exact .nest (hb b1 (by simp)) (hb b2 (by simp))
            · exact hb b (by simp [hm])
          · rw [e2]; simp
        | [b1], hl => simp at hl; omega
        | [], hl => simp at hl
    · rename_i hlt
      split at h
      · rename_i hc
        subst hc
        split at h
        · simp at h
          obtain ⟨rfl, rfl⟩ := h
          refine ⟨by simp, [[]], by simp; omega, by simp; exact .nil, by simp⟩
        · rcases hg : getBracket (n - 1) cs with ⟨e | v', t'⟩
          · rw [hg] at h; simp [Except.map] at h
          · rw [hg] at h
            simp [Except.map] at h
            obtain ⟨rfl, rfl⟩ := h
            obtain ⟨e, bs, hl, hb, e2⟩ := ih (by omega) hg
            refine ⟨by rw [e]; simp, [] :: bs, by simp; omega, ?_, by rw [e2]; simp⟩
            intro b hm
            simp only [List.mem_cons] at hm
            rcases hm with rfl | hm
            · exact .nil
            · exact hb b hm
      · rename_i hgt
        rcases hg : getBracket n cs with ⟨e | v', t'⟩
        · rw [hg] at h; simp [Except.map] at h
        · rw [hg] at h
          simp [Except.map] at h
          obtain ⟨rfl, rfl⟩ := h
          obtain ⟨e, bs, hl, hb, e2⟩ := ih hn hg
          refine ⟨by rw [e]; simp, ?_⟩
          match bs, hl with
          | b1 :: bs, hl =>
            refine ⟨(c :: b1) :: bs, by simpa using hl, ?_, by rw [e2]; simp⟩
            intro b hm
            simp only [List.mem_cons] at hm
            rcases hm with rfl | hm
            · exact .char hlt hgt h0 (hb b1 (by simp))
            · exact hb b (by simp [hm])
          | [], hl => simp at hl; omega

theorem getChardata_ok (r : Str) (h0 : EOFC ∉ r) : r = (getChardata r).1 ++ (getChardata r).2 ∧
    '<' ∉ (getChardata r).1 ∧ ((getChardata r).2 = [] ∨ (getChardata r).2.head? = some '<') := by
  induction r with
  | nil => simp [getChardata]
  | cons c cs ih =>
    simp only [List.mem_cons, not_or] at h0
    obtain ⟨e, h1, h2⟩ := ih h0.2
    simp only [getChardata, Ne.symm h0.1, if_false]
    split
    · rename_i hc; simp [hc]
    · rename_i hc
      exact ⟨by simp [← e], by simp [h1, Ne.symm hc], h2⟩

theorem nameThen_getName {n t : Str} (h : NameThen n t) : getName (n ++ t) = (n, t) := by
  rcases h with ⟨hn, ht⟩ | ⟨rfl, ht⟩
  · exact getName_append hn ht
  · exact getName_none ht

theorem getName_nameThen (r : Str) : NameThen (getName r).1 (getName r).2 := by
  rcases getName_spec r with ⟨a, b⟩ | ⟨a, b, c⟩
  · exact .inl ⟨a, b⟩
  · exact .inr ⟨a, by rw [b]; exact c⟩

/-- Only the first character after the name matters. -/
theorem nameThen_congr {n t t' : Str} (h : NameThen n t) (e : t'.head? = t.head?) : NameThen n t' := by
  unfold NameThen at h ⊢; rw [e]; exact h

theorem nameThen_more {n t : Str} (ht : t ≠ []) (u : Str) : NameThen n (t ++ u) ↔ NameThen n t := by
  obtain ⟨c, cs, rfl⟩ := List.exists_cons_of_ne_nil ht
  exact ⟨fun h => nameThen_congr h rfl, fun h => nameThen_congr h rfl⟩

/-! ### constructs -/

theorem eof_split {a b : Str} (h : EOFC ∉ a ++ b) : EOFC ∉ a ∧ EOFC ∉ b := by
  simp only [List.mem_append, not_or] at h; exact h

theorem startTag_run {n b : Str} {as : List (Str × Str)} {t : Str} (sc : Bool) (hn : NameThen n (b ++ tagEnd sc))
    (hb : InTag b as) (hc : ∀ c, (n ++ b ++ tagEnd sc).head? = some c → c ≠ '/' ∧ c ≠ '?' ∧ c ≠ '!')
    (h0 : EOFC ∉ n ++ b) :
    rawToken ⟨'<' :: (n ++ b ++ (tagEnd sc ++ t)), []⟩ =
      some (.ok (.startElement n as), ⟨t, if sc then n else []⟩) := by
  obtain ⟨f, hf⟩ := inTag_loop hb (eof_split h0).2 n sc t []
  have hg : getName (n ++ (b ++ (tagEnd sc ++ t))) = (n, b ++ (tagEnd sc ++ t)) := by
    refine nameThen_getName ?_
    rw [← List.append_assoc]
    exact (nameThen_more (by cases sc <;> simp [tagEnd, S]) t).2 hn
  apply rawToken_of_some (n := f)
  rw [List.append_assoc]
  have hne : n ++ b ++ tagEnd sc ≠ [] := by cases sc <;> simp [tagEnd, S]
  obtain ⟨c, cs, e⟩ := List.exists_cons_of_ne_nil hne
  have e2 : n ++ (b ++ (tagEnd sc ++ t)) = c :: (cs ++ t) := by
    have := congrArg (· ++ t) e
    simpa using this
  have hcc := hc c (by rw [e]; rfl)
  have hc0 : c ≠ EOFC := by
    rintro rfl
    have : EOFC ∈ n ++ b ++ tagEnd sc := by rw [e]; simp
    rw [List.mem_append] at this
    rcases this with h | h
    · exact h0 h
    · revert h; cases sc <;> decide
  rw [e2] at hg
  rw [e2]
  simp only [rawTokenF, rawMarkup, hc0, hcc.1, hcc.2.1, hcc.2.2, hg]
  simpa [EOFC] using hf

/-- Every construct is read as its tokens. -/
theorem construct_run {w : Str} {ts : List Token} {t : Str} (h : Construct w ts t) (h0 : EOFC ∉ w) :
    Delivers ⟨w ++ t, []⟩ ts ⟨t, []⟩ := by
  cases h with
  | text h1 h2 h3 =>
    refine .step (rawToken_text _ _ h1 h2 h0 ?_) (by simp) (.refl _)
    rcases h3 with h3 | h3
    · exact .inl h3
    · right
      cases t with
      | nil => simp at h3
      | cons c r => simp at h3; exact ⟨r, by rw [h3]⟩
  | comment h1 => exact .step (C11_comment_verbatim _ _ (by intro hm; apply h0; simp [hm, EOFC]) h1) (by simp) (.refl _)
  | cdata h1 => exact .step (C10_cdata_verbatim _ _ (by intro hm; apply h0; simp [hm, EOFC]) h1) (by simp) (.refl _)
  | @pi n sp c _ h1 h2 h3 h4 =>
    have hu := getUntil_append (S "?>") c t (by simp [S]) (by intro hm; apply h0; simp [hm])
      (noSub_append (w := S "?") (z := '>') (by decide) h4)
    have hsk : skipSpaces (sp ++ (c ++ (S "?>" ++ t))) = c ++ (S "?>" ++ t) := by
      rw [skipSpaces_append sp _ h2]
      apply skipSpaces_id
      intro x hx
      cases c with
      | nil => simp [S] at hx; subst hx; decide
      | cons a as =>
        simp at hx; subst hx
        exact ⟨h3 a (by simp), by rintro rfl; simp at h0⟩
    have hg : getName (n ++ (sp ++ (c ++ (S "?>" ++ t)))) = (n, sp ++ (c ++ (S "?>" ++ t))) := by
      refine nameThen_getName ?_
      have := (nameThen_more (n := n) (t := sp ++ c ++ S "?>") (by simp [S]) t).2 h1
      simpa using this
    refine .step (d' := ⟨t, []⟩) ?_ (by simp) (.refl _)
    simp only [List.append_assoc] at hu ⊢
    have e : S "<?" ++ (n ++ (sp ++ (c ++ (S "?>" ++ t)))) = '<' :: '?' :: (n ++ (sp ++ (c ++ (S "?>" ++ t)))) := rfl
    rw [e]
    simp only [rawToken, rawTokenF, rawMarkup, rawPI, hg, hsk, hu]
    simp [EOFC]
  | @directive c b _ h1 h2 h3 =>
    refine .step (d' := ⟨t, []⟩) ?_ (by simp) (.refl _)
    have := rawToken_directive c b t ⟨h1, h2⟩ h3
    simpa [S] using this
  | @endTag n j _ h1 h2 =>
    refine .step (d' := ⟨t, []⟩) ?_ (by simp) (.refl _)
    have hg : getName (n ++ (j ++ '>' :: t)) = (n, j ++ '>' :: t) := by
      refine nameThen_getName ?_
      have := (nameThen_more (n := n) (t := j ++ S ">") (by simp [S]) t).2 h1
      simpa [S] using this
    have hu : getUntilCh '>' (j ++ '>' :: t) = (.ok j, t) :=
      getUntilCh_append '>' j t (by decide) h2 (by intro hm; apply h0; simp [hm])
    have e : S "</" ++ n ++ j ++ S ">" ++ t = '<' :: '/' :: (n ++ (j ++ '>' :: t)) := by simp [S]
    rw [e]
    simp only [rawToken, rawTokenF, rawMarkup, rawEndTag, hg, hu]
    simp [EOFC]
  | @startTag n b as _ h1 h2 h3 =>
    have := startTag_run (t := t) false h1 h2 (by
      intro c hc
      by_cases hnb : n ++ b = []
      · rw [hnb] at hc; simp [tagEnd, S] at hc; subst hc; decide
      · obtain ⟨x, xs, e⟩ := List.exists_cons_of_ne_nil hnb
        exact h3 c (by rw [e] at hc ⊢; exact hc)) (by intro hm; apply h0; simp at hm ⊢; tauto)
    refine .step (d' := ⟨t, []⟩) ?_ (by simp) (.refl _)
    simpa [tagEnd] using this
  | @emptyTag n b as _ h1 h2 h3 h4 =>
    have := startTag_run (t := t) true h1 h2 (by
      intro c hc
      obtain ⟨x, xs, e⟩ := List.exists_cons_of_ne_nil h3
      exact h4 c (by rw [e] at hc ⊢; exact hc)) (by intro hm; apply h0; simp at hm ⊢; tauto)
    have e : '<' :: (n ++ b ++ (tagEnd true ++ t)) = '<' :: (n ++ b ++ S "/>") ++ t := by simp [tagEnd]
    rw [e] at this
    by_cases hn : n = []
    · subst hn
      exact .step this (by simp) (.refl _)
    · rw [if_neg hn]
      exact .step this (by simp) (.step (rawToken_toClose ⟨t, n⟩ hn) (by simp) (.refl _))

/-- What one call of `raw_token` has read, where no end tag was pending. -/
theorem run_construct {s : Str} {tok : Token} {d : Dec} (h0 : EOFC ∉ s)
    (h : rawToken ⟨s, []⟩ = some (.ok tok, d)) (he : tok ≠ .eof) :
    ∃ w, s = w ++ d.rest ∧
      Construct w (tok :: if d.toClose = [] then [] else [.endElement d.toClose]) d.rest := by
  unfold rawToken rawTokenF at h
  simp only [ne_eq, not_true_eq_false, if_false] at h
  cases s with
  | nil => simp at h; exact absurd h.1.symm he
  | cons c r =>
    simp only [List.mem_cons, not_or] at h0
    simp only [Ne.symm h0.1, if_false] at h
    split at h
    · rename_i hc
      subst hc
      unfold rawMarkup at h
      cases r with
      | nil => simp at h
      | cons ch r1 =>
        have hr := h0.2
        simp only [List.mem_cons, not_or] at hr
        simp only [Ne.symm hr.1, if_false] at h
        split at h
        · -- end tag
          rename_i hch
          subst hch
          simp only [Option.some.injEq, rawEndTag] at h
          rcases hu : getUntilCh '>' (getName r1).2 with ⟨e | v, t'⟩
          · rw [hu] at h; simp at h
          · rw [hu] at h
            simp at h
            obtain ⟨rfl, rfl⟩ := h
            obtain ⟨e, hv⟩ := getUntilCh_ok hu
            have en := getName_eq r1
            refine ⟨S "</" ++ (getName r1).1 ++ v ++ S ">", ?_, .endTag ?_ hv⟩
            · have : r1 = (getName r1).1 ++ (v ++ '>' :: t') := by rw [← e, en]
              simp only [List.append_assoc] at this ⊢
              exact congrArg (fun x => '<' :: '/' :: x) this
            · refine nameThen_congr (getName_nameThen r1) ?_
              rw [e]
              cases v <;> rfl
        · split at h
          · -- processing instruction
            rename_i hch
            subst hch
            simp only [Option.some.injEq, rawPI] at h
            rcases hu : getUntil (S "?>") (skipSpaces (getName r1).2) with ⟨e | v, t'⟩
            · rw [hu] at h; simp at h
            · rw [hu] at h
              simp at h
              obtain ⟨rfl, rfl⟩ := h
              obtain ⟨e, hv⟩ := getUntil_ok (by simp [S]) hu
              have en := getName_eq r1
              have h02 : EOFC ∉ (getName r1).2 := by intro hm; apply hr.2; rw [← en]; simp [hm]
              obtain ⟨w, hw, ew, hh⟩ := skipSpaces_split h02
              refine ⟨S "<?" ++ (getName r1).1 ++ w ++ v ++ S "?>", ?_, .pi ?_ hw ?_ (noSub_left hv)⟩
              · rw [e] at ew
                have : r1 = (getName r1).1 ++ (w ++ (v ++ S "?>" ++ t')) := by rw [← ew, en]
                simp only [List.append_assoc] at this ⊢
                exact congrArg (fun x => '<' :: '?' :: x) this
              · refine nameThen_congr (getName_nameThen r1) ?_
                rw [ew, e]
                cases w <;> cases v <;> rfl
              · intro x hx
                apply hh x
                rw [e]
                cases v with
                | nil => simp at hx
                | cons a v => exact hx
          · split at h
            · -- comment, CDATA, directive
              rename_i hch
              subst hch
              simp only [Option.some.injEq, rawBang] at h
              split at h
              · rename_i h1
                have e1 := getchar_inv h1 (by decide)
                split at h
                · rename_i h2
                  have e2 := getchar_inv h2 (by decide)
                  rcases hu : getUntil (S "-->") (getchar (getchar r1).2).2 with ⟨e | v, t'⟩
                  · rw [hu] at h; simp at h
                  · rw [hu] at h
                    simp at h
                    obtain ⟨rfl, rfl⟩ := h
                    obtain ⟨e, hv⟩ := getUntil_ok (by simp [S]) hu
                    refine ⟨S "<!--" ++ v ++ S "-->", ?_, .comment (noSub_left hv)⟩
                    rw [e] at e2
                    rw [e1, e2]; simp [S]
                · simp at h
              · split at h
                · rename_i h1
                  have e1 := getchar_inv h1 (by decide)
                  split at h
                  · rename_i r3 h2
                    have e2 := stripPrefix_eq_some.1 h2
                    rcases hu : getUntil (S "]]>") r3 with ⟨e | v, t'⟩
                    · rw [hu] at h; simp at h
                    · rw [hu] at h
                      simp at h
                      obtain ⟨rfl, rfl⟩ := h
                      obtain ⟨e, hv⟩ := getUntil_ok (by simp [S]) hu
                      refine ⟨S "<![CDATA[" ++ v ++ S "]]>", ?_, .cdata (noSub_left hv)⟩
                      rw [e] at e2
                      rw [e1, e2]; simp [S]
                  · simp at h
                · rename_i h1 h2
                  rcases hu : getBracket 1 (getchar r1).2 with ⟨e | v, t'⟩
                  · rw [hu] at h; simp at h
                  · rw [hu] at h
                    simp at h
                    obtain ⟨rfl, rfl⟩ := h
                    obtain ⟨e, bs, hl, hb, ev⟩ := getBracket_ok (by omega) hu
                    match bs, hl with
                    | [b], _ =>
                      simp at ev
                      have hr1 : r1 ≠ [] := by
                        rintro rfl
                        simp [getchar, getBracket] at hu
                      obtain ⟨x, xs, rfl⟩ := List.exists_cons_of_ne_nil hr1
                      simp only [getchar_cons] at h1 h2 e ⊢
                      have := Construct.directive (t := t') h1 h2 (hb b (by simp))
                      refine ⟨S "<!" ++ x :: b ++ S ">", ?_, ?_⟩
                      · rw [e, ev]; simp [S]
                      · rw [ev]; simpa [S] using this
            · -- start tag
              rename_i hc1 hc2 hc3
              have en := getName_eq (ch :: r1)
              have h02 : EOFC ∉ (getName (ch :: r1)).2 := by
                intro hm; apply h0.2; rw [← en]; simp [hm]
              obtain ⟨b, as, sc, hb, e1, e2, e3⟩ := loop_inTag _ h02 _ _ _ _ _ h
              rw [List.nil_append] at e2
              have hn := getName_nameThen (ch :: r1)
              rw [e1] at en hn
              have hhd : ∀ c, ((getName (ch :: r1)).1 ++ b).head? = some c → c ≠ '/' ∧ c ≠ '?' ∧ c ≠ '!' := by
                intro c hc
                have : (getName (ch :: r1)).1 ++ (b ++ (tagEnd sc ++ d.rest)) =
                    ((getName (ch :: r1)).1 ++ b) ++ (tagEnd sc ++ d.rest) := by simp
                rw [this] at en
                obtain ⟨y, ys, ey⟩ : ∃ y ys, (getName (ch :: r1)).1 ++ b = y :: ys := by
                  cases hh : (getName (ch :: r1)).1 ++ b with
                  | nil => rw [hh] at hc; simp at hc
                  | cons y ys => exact ⟨y, ys, rfl⟩
                rw [ey] at en hc
                simp at en hc
                rw [← hc, en.1]
                exact ⟨hc1, hc2, hc3⟩
              generalize getName (ch :: r1) = g at *
              obtain ⟨n, r2⟩ := g
              simp only at *
              subst e2
              have hn2 : NameThen n (b ++ tagEnd sc) := by
                rw [← List.append_assoc] at hn
                exact (nameThen_more (by cases sc <;> simp [tagEnd, S]) _).1 hn
              cases sc with
              | false =>
                simp at e3
                refine ⟨'<' :: (n ++ b ++ S ">"), ?_, ?_⟩
                · rw [← en]; simp [tagEnd]
                · rw [if_pos e3]; exact .startTag hn2 hb hhd
              | true =>
                simp at e3
                refine ⟨'<' :: (n ++ b ++ S "/>"), ?_, ?_⟩
                · rw [← en]; simp [tagEnd]
                · rw [e3]
                  refine .emptyTag hn2 hb ?_ hhd
                  intro hnb
                  have : n ++ (b ++ (tagEnd true ++ d.rest)) = (n ++ b) ++ (tagEnd true ++ d.rest) := by simp
                  rw [this, hnb] at en
                  simp [tagEnd, S] at en
                  exact hc1 en.1.symm
    · rename_i hc
      simp only [Option.some.injEq, rawText, Prod.mk.injEq, Except.ok.injEq] at h
      obtain ⟨rfl, rfl⟩ := h
      obtain ⟨e, h1, h2⟩ := getChardata_ok (c :: r) (by simp only [List.mem_cons, not_or]; exact h0)
      refine ⟨_, e, ?_⟩
      refine .text ?_ h1 h2
      simp [getChardata, Ne.symm h0.1, hc]

/-- Successive calls read successive constructs. -/
theorem delivers_written (k : Nat) {s : Str} {ts : List Token} {d : Dec} (hk : ts.length ≤ k) (h0 : EOFC ∉ s)
    (h : Delivers ⟨s, []⟩ ts d) (hd : d.toClose = []) : Written s ts d.rest := by
  induction k generalizing s ts with
  | zero =>
    cases ts with
    | nil => cases h; exact .refl _
    | cons => simp at hk
  | succ k ih =>
    cases h with
    | refl => exact .refl _
    | @step _ d' _ tok toks h1 h2 h3 =>
      obtain ⟨w, e, hw⟩ := run_construct h0 h1 h2
      have h0' : EOFC ∉ d'.rest := by intro hm; apply h0; rw [e]; simp [hm]
      rw [e]
      simp at hk
      obtain ⟨rest, tc⟩ := d'
      by_cases htc : tc = []
      · subst htc
        rw [if_pos rfl] at hw
        exact .more hw (ih hk h0' h3)
      · rw [if_neg htc] at hw
        cases h3 with
        | refl => exact absurd hd htc
        | @step _ d2 _ tok2 toks2 g1 g2 g3 =>
          rw [rawToken_toClose _ htc] at g1
          simp at g1
          obtain ⟨rfl, rfl⟩ := g1
          exact .more hw (ih (by simp at hk; omega) h0' g3)

theorem delivers_trans {a b c : Dec} {ts us : List Token} (h : Delivers a ts b) (h' : Delivers b us c) :
    Delivers a (ts ++ us) c := by
  induction h with
  | refl => exact h'
  | step h1 h2 _ ih => exact .step h1 h2 (ih h')

theorem written_delivers {s : Str} {ts : List Token} {r : Str} (h : Written s ts r) (h0 : EOFC ∉ s) :
    Delivers ⟨s, []⟩ ts ⟨r, []⟩ := by
  induction h with
  | refl => exact .refl _
  | more h1 _ ih => exact delivers_trans (construct_run h1 (eof_split h0).1) (ih (eof_split h0).2)

end Amxml.Markup
