import Verif.Lemmas.Markup
import Verif.Spec.Faults

/-!
# The errors of the tokenizer and Spec/Faults.lean
-/

namespace Amxml.Faults
open Spec Markup

/-! ### the scanners -/

theorem until_ch {d : Char} {r : Str} (h : d ∉ r) (h0 : EOFC ∉ r) : (getUntilCh d r).1 = .error (.eofSearching [d]) := by
  induction r with
  | nil => rfl
  | cons c cs ih =>
    simp only [List.mem_cons, not_or] at h h0
    simp only [getUntilCh, Ne.symm h0.1, Ne.symm h.1, if_false, ih h.2 h0.2]
    rfl

theorem until_ch_ok {d : Char} {r : Str} (h : d ∈ r) (h0 : EOFC ∉ r) : ∃ v, (getUntilCh d r).1 = .ok v := by
  induction r with
  | nil => cases h
  | cons c cs ih =>
    simp only [List.mem_cons, not_or] at h0
    simp only [getUntilCh, Ne.symm h0.1, if_false]
    by_cases e : c = d
    · exact ⟨[], by rw [if_pos e]⟩
    · obtain ⟨v, hv⟩ := ih ((List.mem_cons.1 h).resolve_left (Ne.symm e)) h0.2
      exact ⟨c :: v, by rw [if_neg e, hv]; rfl⟩

theorem until_ch_error {d : Char} {r : Str} {e : SaxErr} (h0 : EOFC ∉ r) (h : (getUntilCh d r).1 = .error e) :
    d ∉ r ∧ e = .eofSearching [d] := by
  have hn : d ∉ r := fun hm => by
    obtain ⟨v, hv⟩ := until_ch_ok hm h0
    rw [hv] at h; cases h
  rw [until_ch hn h0] at h
  exact ⟨hn, by cases h; rfl⟩

theorem until_error {w r : Str} {e : SaxErr} (h : (getUntil w r).1 = .error e) (h0 : EOFC ∉ r) (hw : w ≠ []) : NoSub w r ∧ e = .eofSearching w := by
  induction r with
  | nil =>
    cases h
    refine ⟨fun pre post hp => hw ?_, rfl⟩
    have := congrArg List.length hp
    simp at this
    exact List.eq_nil_of_length_eq_zero (by omega)
  | cons c cs ih =>
    simp only [List.mem_cons, not_or] at h0
    simp only [getUntil] at h
    cases hs : lookAheadKeyword w (c :: cs) with
    | some rest => rw [hs] at h; cases h
    | none =>
      rw [hs] at h
      simp only [Ne.symm h0.1, if_false] at h
      rcases hg : (getUntil w cs).1 with e' | v
      · rw [hg] at h
        cases h
        obtain ⟨h1, h2⟩ := ih hg h0.2
        refine ⟨fun pre post hp => ?_, h2⟩
        cases pre with
        | nil =>
          rw [hp] at hs
          simp [lookAheadKeyword, stripPrefix_append] at hs
        | cons x pre => exact h1 pre post (List.cons.inj hp).2
      · rw [hg] at h; cases h

theorem until_noSub {w r : Str} (h : NoSub w r) (h0 : EOFC ∉ r) (hw : w ≠ []) : (getUntil w r).1 = .error (.eofSearching w) := by
  rcases hg : getUntil w r with ⟨e | v, t⟩
  · have hg1 : (getUntil w r).1 = .error e := by rw [hg]
    rw [(until_error hg1 h0 hw).2]
  · obtain ⟨e, -⟩ := getUntil_ok hw hg
    exact absurd e (h v t)

theorem bracket_error {n : Nat} {r : Str} {e : SaxErr} (h : (getBracket n r).1 = .error e) : e = .eofBracket := by
  have map : ∀ {c : Char} {x : Except SaxErr Str}, x.map (c :: ·) = .error e → x = .error e := by
    intro c x hx; cases x with
    | error e' => cases hx; rfl
    | ok v => cases hx
  induction r generalizing n with
  | nil => cases h; rfl
  | cons c cs ih =>
    simp only [getBracket] at h
    split at h
    · cases h; rfl
    · split at h
      · exact ih (map h)
      · split at h
        · split at h
          · cases h
          · exact ih (map h)
        · exact ih (map h)

theorem bracket_none {r : Str} : (getBracket 1 r).1 = .error .eofBracket ↔ ∀ b t, Balanced b → r ≠ b ++ '>' :: t := by
  constructor
  · intro h b t hb e
    have hg : getBracket 1 (b ++ '>' :: t) = (.ok (b ++ ['>']), t) := by
      rw [getBracket_balanced hb 1 (by omega)]
      simp [getBracket, EOFC, Except.map]
    rw [e, hg] at h; cases h
  · intro h
    rcases hg : getBracket 1 r with ⟨e | v, t⟩
    · have : (getBracket 1 r).1 = .error e := by rw [hg]
      rw [bracket_error this]
    · obtain ⟨e, bs, hl, hb, ev⟩ := getBracket_ok (by omega) hg
      match bs, hl with
      | [b], _ => exact absurd (by rw [e, ev]; simp) (h b t (hb b (by simp)))

/-! ### attributes -/

/-- Reading what is after a wrong character in a start tag. -/
theorem orNoBracket_eq {t : Str} (h0 : EOFC ∉ t) (e : SaxErr) :
    (match (getUntilCh '>' (getchar t).2).1 with | .error e' => e' | .ok _ => e) = orNoBracket t e := by
  have et : (getchar t).2 = t.tail := by cases t <;> rfl
  have h0' : EOFC ∉ t.tail := fun hm => h0 (List.mem_of_mem_tail hm)
  rw [et, orNoBracket]
  by_cases hm : '>' ∈ t.tail
  · obtain ⟨v, hv⟩ := until_ch_ok hm h0'
    rw [hv, if_pos hm]
  · rw [until_ch hm h0', if_neg hm]; rfl

theorem getchar_ne {t : Str} {c : Char} (hc : c ≠ EOFC) (h : ∀ x, t.head? = some x → x ≠ c) : (getchar t).1 ≠ c := by
  cases t with
  | nil => exact Ne.symm hc
  | cons a r => exact h a rfl

theorem head_name {n s : Str} (hn : IsName n) : skipSpaces (n ++ s) = n ++ s := by
  obtain ⟨c, cs, rfl, hc, hcs⟩ := hn
  apply skipSpaces_id
  intro x hx
  simp at hx; subst hx
  exact ⟨nameChar_not_space (nameFirst_nameChar hc), nameChar_ne_eof (nameFirst_nameChar hc)⟩

theorem skip_to {w t : Str} (hw : IsSpaces w) (h0 : EOFC ∉ t) (ht : ∀ c, t.head? = some c → isSpace c = false) : skipSpaces (w ++ t) = t := by
  rw [skipSpaces_append w _ hw]
  apply skipSpaces_id
  intro x hx
  refine ⟨ht x hx, ?_⟩
  rintro rfl
  cases t with
  | nil => cases hx
  | cons a r => cases hx; simp at h0

theorem readAttr_noEq {n w t : Str} (hn : IsName n) (hw : IsSpaces w) (h0 : EOFC ∉ t) (h1 : ∀ c, (w ++ t).head? = some c → isNameChar c = false)
    (h2 : ∀ c, t.head? = some c → isSpace c = false ∧ c ≠ '=') : ∃ u, readAttr (n ++ w ++ t) = .error (orNoBracket t .noEq, u) := by
  have e3 := skip_to hw h0 fun c hc => (h2 c hc).1
  have e4 := orNoBracket_eq h0 .noEq
  unfold readAttr
  rw [List.append_assoc, head_name hn, getName_append hn h1]
  simp only [ne_eq, hn.ne_nil, not_false_iff, if_true, e3, getchar_ne (by decide) (fun c hc => (h2 c hc).2), if_false]
  rw [← e4]
  split <;> rename_i e5 <;> rw [e5] <;> exact ⟨_, rfl⟩

theorem readAttr_noQuote {n w w' t : Str} (hn : IsName n) (hw : IsSpaces w) (hw' : IsSpaces w') (h0 : EOFC ∉ t)
    (h2 : ∀ c, t.head? = some c → isSpace c = false ∧ c ≠ '"' ∧ c ≠ '\'') : ∃ u, readAttr (n ++ w ++ '=' :: w' ++ t) = .error (orNoBracket t .noQuote, u) := by
  have e : n ++ w ++ '=' :: w' ++ t = n ++ (w ++ '=' :: (w' ++ t)) := by simp
  have e3 : skipSpaces (w ++ '=' :: (w' ++ t)) = '=' :: (w' ++ t) := by
    rw [skipSpaces_append w _ hw]
    apply skipSpaces_id; intro x hx; simp at hx; subst hx; decide
  have e4 := skip_to hw' h0 fun c hc => (h2 c hc).1
  have e5 := orNoBracket_eq h0 .noQuote
  have hq : ¬((getchar t).1 = '"' ∨ (getchar t).1 = '\'') := by
    rintro (h | h)
    · exact getchar_ne (by decide) (fun c hc => (h2 c hc).2.1) h
    · exact getchar_ne (by decide) (fun c hc => (h2 c hc).2.2) h
  unfold readAttr
  rw [e, head_name hn, getName_append hn (head_append_spaces (fun c hc => space_not_nameChar (hw c hc))
    (by intro x hx; simp at hx; subst hx; exact not_nameChar_of (by simp)))]
  simp only [ne_eq, hn.ne_nil, not_false_iff, if_true, e3, getchar_cons, e4, hq, if_false]
  rw [← e5]
  split <;> rename_i e5 <;> rw [e5] <;> exact ⟨_, rfl⟩

theorem readAttr_unclosed {n w w' v : Str} {q : Char} (hn : IsName n) (hw : IsSpaces w) (hw' : IsSpaces w') (hq : q = '"' ∨ q = '\'') (hv : q ∉ v) (h0 : EOFC ∉ v) :
    ∃ u, readAttr (n ++ w ++ '=' :: w' ++ q :: v) = .error (.eofSearching [q], u) := by
  have e : n ++ w ++ '=' :: w' ++ q :: v = n ++ (w ++ '=' :: (w' ++ q :: v)) := by simp
  have hqs : isSpace q = false ∧ q ≠ EOFC := by rcases hq with rfl | rfl <;> decide
  have e3 : skipSpaces (w ++ '=' :: (w' ++ q :: v)) = '=' :: (w' ++ q :: v) := by
    rw [skipSpaces_append w _ hw]
    apply skipSpaces_id; intro x hx; simp at hx; subst hx; decide
  have e4 : skipSpaces (w' ++ q :: v) = q :: v := by
    rw [skipSpaces_append w' _ hw']
    apply skipSpaces_id; intro x hx; simp at hx; subst hx; exact hqs
  have e5 := until_ch hv h0
  unfold readAttr
  rw [e, head_name hn, getName_append hn (head_append_spaces (fun c hc => space_not_nameChar (hw c hc))
    (by intro x hx; simp at hx; subst hx; exact not_nameChar_of (by simp)))]
  simp only [ne_eq, hn.ne_nil, not_false_iff, if_true, e3, getchar_cons, e4, hq, e5]
  exact ⟨_, rfl⟩

theorem readAttr_error {c : Char} {r : Str} {e : SaxErr} {u : Str} (h0 : EOFC ∉ c :: r)
    (hs : isSpace c = false) (hf : isNameFirstChar c = true) (h : readAttr (c :: r) = .error (e, u)) : TagFault (c :: r) e := by
  have hc0 : c ≠ EOFC := by intro h; apply h0; simp [h]
  have e1 : skipSpaces (c :: r) = c :: r := skipSpaces_id (by intro x hx; simp at hx; subst hx; exact ⟨hs, hc0⟩)
  rcases getName_spec (c :: r) with ⟨hn, hrest⟩ | ⟨_, _, hbad⟩
  · have en := getName_eq (c :: r)
    generalize hg : getName (c :: r) = g at hn en hrest
    obtain ⟨n, r2⟩ := g
    simp only at hn en hrest
    have h02 : EOFC ∉ r2 := by intro hm; apply h0; rw [← en]; simp [hm]
    obtain ⟨w1, hw1, ew1, hh1⟩ := skipSpaces_split h02
    generalize skipSpaces r2 = t at ew1 hh1
    have ht0 : EOFC ∉ t := by intro hm; apply h02; rw [ew1]; simp [hm]
    subst ew1
    by_cases heq : ∃ t', t = '=' :: t'
    · obtain ⟨t', rfl⟩ := heq
      have ht0' : EOFC ∉ t' := by intro hm; apply ht0; simp [hm]
      obtain ⟨w2, hw2, ew2, hh2⟩ := skipSpaces_split ht0'
      generalize skipSpaces t' = t2 at ew2 hh2
      have ht20 : EOFC ∉ t2 := by intro hm; apply ht0'; rw [ew2]; simp [hm]
      subst ew2
      have e6 : c :: r = n ++ w1 ++ '=' :: w2 ++ t2 := by rw [← en]; simp
      by_cases hq : ∃ q v, (q = '"' ∨ q = '\'') ∧ t2 = q :: v
      · obtain ⟨q, v, hq, rfl⟩ := hq
        have hv0 : EOFC ∉ v := by intro hm; apply ht20; simp [hm]
        by_cases hv : q ∈ v
        · exfalso
          obtain ⟨v1, hv1⟩ := until_ch_ok hv hv0
          rcases hu : getUntilCh q v with ⟨x, v2⟩
          rw [hu] at hv1
          simp only at hv1
          subst hv1
          obtain ⟨rfl, hv1⟩ := getUntilCh_ok hu
          have := readAttr_attr (t := v2) hn hw1 hw2 hq hv1 (by intro hm; apply hv0; simp [hm])
          rw [e6] at h
          simp only [List.append_assoc, List.cons_append] at this h
          rw [this] at h; cases h
        · obtain ⟨u', h'⟩ := readAttr_unclosed hn hw1 hw2 hq hv hv0
          rw [e6, h'] at h; cases h
          rw [e6]
          exact .unclosed hn hw1 hw2 hq hv
      · have h2 : ∀ c, t2.head? = some c → isSpace c = false ∧ c ≠ '"' ∧ c ≠ '\'' := by
          intro x hx
          cases t2 with
          | nil => cases hx
          | cons a s =>
            cases hx
            refine ⟨hh2 _ rfl, ?_, ?_⟩
            · rintro rfl; exact hq ⟨_, _, .inl rfl, rfl⟩
            · rintro rfl; exact hq ⟨_, _, .inr rfl, rfl⟩
        obtain ⟨u', h'⟩ := readAttr_noQuote hn hw1 hw2 ht20 h2
        rw [e6, h'] at h; cases h
        rw [e6]
        exact .noQuote hn hw1 hw2 h2
    · have h2 : ∀ c, t.head? = some c → isSpace c = false ∧ c ≠ '=' := by
        intro x hx
        cases t with
        | nil => cases hx
        | cons a s =>
          cases hx
          exact ⟨hh1 _ rfl, by rintro rfl; exact heq ⟨_, rfl⟩⟩
      have e6 : c :: r = n ++ w1 ++ t := by rw [← en]; simp
      obtain ⟨u', h'⟩ := readAttr_noEq hn hw1 ht0 hrest h2
      rw [e6, h'] at h; cases h
      rw [e6]
      exact .noEq hn hw1 hrest h2
  · have := hbad c (by simp); simp [hf] at this

/-! ### start tags -/

theorem tagFault_loop {r : Str} {e : SaxErr} (h : TagFault r e) (h0 : EOFC ∉ r) (name : Str) (acc : List (Str × Str)) :
    ∃ fuel d, startTagLoop name fuel acc r = some (.error e, d) := by
  have stop : ∀ {r e u}, readAttr r = .error (e, u) → ∃ fuel d, startTagLoop name fuel acc r = some (.error e, d) :=
    fun {r e u} h => ⟨1, { rest := u, toClose := [] }, by simp [startTagLoop, h]⟩
  induction h generalizing acc with
  | @space c r e hc _ ih =>
    obtain ⟨f, d, hf⟩ := ih (by simp at h0; exact h0.2) acc fun {r e u} h => ⟨1, { rest := u, toClose := [] }, by simp [startTagLoop, h]⟩
    refine ⟨f, d, ?_⟩
    have := @startTagLoop_space name [c] r f acc (by intro x hx; simp at hx; exact hx ▸ hc)
    rw [List.singleton_append] at this
    rw [this, hf]
  | @junk c r e h1 h2 h3 h4 _ ih =>
    simp only [List.mem_cons, not_or] at h0
    obtain ⟨f, d, hf⟩ := ih h0.2 (acc ++ []) fun {r e u} h => ⟨1, { rest := u, toClose := [] }, by simp [startTagLoop, h]⟩
    exact ⟨f + 1, d, by rw [startTagLoop_round (readAttr_none h1 h2 (Ne.symm h0.1)) h3 h4]; exact hf⟩
  | @attr n w w' q v c r e hn hw hw' hq hv hc1 hc2 _ ih =>
    have hv0 : EOFC ∉ v := by intro hm; apply h0; simp [hm]
    obtain ⟨f, d, hf⟩ := ih (by intro hm; apply h0; simp [hm]) (acc ++ [(n, decodeEntity v)]) fun {r e u} h => ⟨1, { rest := u, toClose := [] }, by simp [startTagLoop, h]⟩
    exact ⟨f + 1, d, by rw [startTagLoop_round (readAttr_attr hn hw hw' hq hv hv0) hc1 hc2]; exact hf⟩
  | @slash r hr =>
    have hra := readAttr_none (c := '/') (r := r) (by decide) (not_first_of_not_nameChar (not_nameChar_of (by simp))) (by decide)
    have hg : (getchar r).1 ≠ '>' := getchar_ne (by decide) fun x hx e => hr (by rw [hx, e])
    refine ⟨1, ⟨(getchar r).2, []⟩, ?_⟩
    simp [startTagLoop, hra, getchar_cons, hg]
  | @attrSlash n w w' q v r hn hw hw' hq hv hr =>
    have hv0 : EOFC ∉ v := by intro hm; apply h0; simp [hm]
    have hra := readAttr_attr (t := '/' :: r) hn hw hw' hq hv hv0
    have hg : (getchar r).1 ≠ '>' := getchar_ne (by decide) fun x hx e => hr (by rw [hx, e])
    refine ⟨1, ⟨(getchar r).2, []⟩, ?_⟩
    simp only [startTagLoop, hra, getchar_cons]
    simp [hg]
  | noEq hn hw h1 h2 =>
    obtain ⟨u, hu⟩ := readAttr_noEq hn hw (by intro hm; apply h0; simp [hm]) h1 h2
    exact stop hu
  | noQuote hn hw hw' h2 =>
    obtain ⟨u, hu⟩ := readAttr_noQuote hn hw hw' (by intro hm; apply h0; simp [hm]) h2
    exact stop hu
  | unclosed hn hw hw' hq hv =>
    obtain ⟨u, hu⟩ := readAttr_unclosed hn hw hw' hq hv (by intro hm; apply h0; simp [hm])
    exact stop hu

theorem loop_tagFault (r : Str) (h0 : EOFC ∉ r) (name : Str) (fuel : Nat) (acc : List (Str × Str)) (e : SaxErr) (d : Dec)
    (h : startTagLoop name fuel acc r = some (.error e, d)) : TagFault r e := by
  generalize hn : r.length = n
  induction n using Nat.strongRecOn generalizing r acc fuel with
  | ind n ih =>
    cases fuel with
    | zero => simp [startTagLoop] at h
    | succ fuel =>
    cases r with
    | nil => rw [startTagLoop_nil] at h; simp at h
    | cons c r =>
      have h0' : EOFC ∉ r := by simp at h0; exact h0.2
      have hc0 : c ≠ EOFC := by intro h; apply h0; simp [h]
      have slash : ∀ {t : Str}, (getchar t).1 ≠ '>' → t.head? ≠ some '>' := by
        intro t ht e
        cases t with
        | nil => cases e
        | cons a t => cases e; exact ht rfl
      by_cases hs : isSpace c = true
      · have := @startTagLoop_space name [c] r (fuel + 1) acc (by intro x hx; simp at hx; exact hx ▸ hs)
        rw [List.singleton_append] at this
        rw [this] at h
        exact .space hs (ih r.length (by simp at hn; omega) r h0' _ acc h rfl)
      · simp only [Bool.not_eq_true] at hs
        by_cases hf : isNameFirstChar c = true
        · rcases hra : readAttr (c :: r) with ⟨e', t⟩ | ⟨a, t⟩
          · simp only [startTagLoop, hra, Option.some.injEq, Prod.mk.injEq, Except.error.injEq] at h
            obtain ⟨rfl, -⟩ := h
            exact readAttr_error h0 hs hf hra
          · obtain ⟨nm, w1, w2, q, v, hnm, hw1, hw2, hq, hv, e'⟩ := readAttr_some_inv h0 hs hf hra
            cases t with
            | nil =>
              simp only [startTagLoop, hra, getchar_nil] at h
              rw [if_neg (by decide), if_neg (by decide), startTagLoop_nil] at h
              simp at h
            | cons c' t =>
              rw [e']
              by_cases hg : c' = '>'
              · subst hg
                simp [startTagLoop, hra, getchar_cons] at h
              by_cases hsl : c' = '/'
              · subst hsl
                simp only [startTagLoop, hra, getchar_cons] at h
                rw [if_neg (by decide), if_pos trivial] at h
                split at h
                · simp at h
                · rename_i hgt
                  cases h
                  exact .attrSlash hnm hw1 hw2 hq hv (slash hgt)
              rw [startTagLoop_round hra hg hsl] at h
              have hl := congrArg List.length e'
              simp at hl hn
              exact .attr hnm hw1 hw2 hq hv hg hsl (ih t.length (by omega) t (by intro hm; apply h0; rw [e']; simp [hm]) _ _ h rfl)
        · simp only [Bool.not_eq_true] at hf
          have hr := readAttr_none (r := r) hs hf hc0
          by_cases hg : c = '>'
          · subst hg
            simp [startTagLoop, hr, getchar_cons] at h
          by_cases hsl : c = '/'
          · subst hsl
            simp only [startTagLoop, hr, getchar_cons] at h
            rw [if_neg (by decide), if_pos trivial] at h
            split at h
            · simp at h
            · rename_i hgt
              cases h
              exact .slash (slash hgt)
          rw [startTagLoop_round hr hg hsl] at h
          exact .junk hs hf hg hsl (ih r.length (by simp at hn; omega) r h0' _ _ h rfl)

/-! ### one call -/

theorem run_slash (r : Str) : rawToken ⟨'<' :: '/' :: r, []⟩ = some (rawEndTag ⟨'<' :: '/' :: r, []⟩ r) := by
  simp [rawToken, rawTokenF, rawMarkup, EOFC]

theorem run_question (r : Str) : rawToken ⟨'<' :: '?' :: r, []⟩ = some (rawPI ⟨'<' :: '?' :: r, []⟩ r) := by
  simp [rawToken, rawTokenF, rawMarkup, EOFC]

theorem run_bang (r : Str) : rawToken ⟨'<' :: '!' :: r, []⟩ = some (rawBang ⟨'<' :: '!' :: r, []⟩ r) := by
  simp [rawToken, rawTokenF, rawMarkup, EOFC]

theorem run_tag {c : Char} {r : Str} (h0 : c ≠ EOFC) (h1 : c ≠ '/') (h2 : c ≠ '?') (h3 : c ≠ '!') (fuel : Nat) :
    rawTokenF fuel ⟨'<' :: c :: r, []⟩ = startTagLoop (getName (c :: r)).1 fuel [] (getName (c :: r)).2 := by
  simp only [rawTokenF, rawMarkup, h0, h1, h2, h3]
  simp [EOFC]

theorem endTag_error {d : Dec} {r : Str} (h0 : EOFC ∉ r) (h : '>' ∉ r) : ∃ d', rawEndTag d r = (.error (.eofSearching (S ">")), d') := by
  have en := getName_eq r
  have h1 : '>' ∉ (getName r).2 := fun hm => h ((getName_suffix r).mem hm)
  have h2 : EOFC ∉ (getName r).2 := fun hm => h0 ((getName_suffix r).mem hm)
  unfold rawEndTag
  simp only [until_ch h1 h2]
  exact ⟨_, rfl⟩

theorem error_endTag {d : Dec} {r : Str} {e : SaxErr} {d' : Dec} (h0 : EOFC ∉ r) (h : rawEndTag d r = (.error e, d')) :
    '>' ∉ r ∧ e = .eofSearching (S ">") := by
  have h2 : EOFC ∉ (getName r).2 := fun hm => h0 ((getName_suffix r).mem hm)
  by_cases hm : '>' ∈ r
  · exfalso
    have en := getName_eq r
    have hm2 : '>' ∈ (getName r).2 := by
      rw [← en] at hm
      rcases List.mem_append.1 hm with hm | hm
      · exfalso
        rcases getName_spec r with ⟨⟨c, cs, e1, hc, hcs⟩, -⟩ | ⟨e1, -⟩
        · rw [e1] at hm
          have : isNameChar '>' = true := by
            rcases List.mem_cons.1 hm with hm | hm
            · rw [hm]; exact nameFirst_nameChar hc
            · exact hcs _ hm
          rw [not_nameChar_of (by simp)] at this; cases this
        · rw [e1] at hm; cases hm
      · exact hm
    obtain ⟨v, hv⟩ := until_ch_ok hm2 h2
    simp only [rawEndTag, hv] at h
    cases h
  · obtain ⟨d'', h'⟩ := endTag_error (d := d) h0 hm
    rw [h'] at h; cases h; exact ⟨hm, rfl⟩

/-- The name and the white space after it contain no question mark. -/
theorem pi_rest {r : Str} (h0 : EOFC ∉ r) : ∃ p, r = p ++ skipSpaces (getName r).2 ∧ '?' ∉ p := by
  have en := getName_eq r
  have h2 : EOFC ∉ (getName r).2 := fun hm => h0 ((getName_suffix r).mem hm)
  obtain ⟨w, hw, ew, -⟩ := skipSpaces_split h2
  refine ⟨(getName r).1 ++ w, ?_, fun hm => ?_⟩
  · rw [List.append_assoc, ← ew, en]
  · rcases List.mem_append.1 hm with hm | hm
    · rcases getName_spec r with ⟨⟨c, cs, e1, hc, hcs⟩, -⟩ | ⟨e1, -⟩
      · rw [e1] at hm
        have : isNameChar '?' = true := by
          rcases List.mem_cons.1 hm with hm | hm
          · rw [hm]; exact nameFirst_nameChar hc
          · exact hcs _ hm
        rw [not_nameChar_of (by simp)] at this; cases this
      · rw [e1] at hm; cases hm
    · exact absurd (hw _ hm) (by decide)

theorem noSub_drop {p t : Str} (hp : '?' ∉ p) : NoSub (S "?>") (p ++ t) ↔ NoSub (S "?>") t := by
  constructor
  · intro h pre post e
    exact h (p ++ pre) post (by rw [e]; simp)
  · intro h
    induction p with
    | nil => exact h
    | cons c p ih =>
      simp only [List.mem_cons, not_or] at hp
      intro pre post e
      cases pre with
      | nil => exact hp.1 (List.cons.inj e).1.symm
      | cons x pre => exact ih hp.2 pre post (List.cons.inj e).2

theorem pi_error {d : Dec} {r : Str} (h0 : EOFC ∉ r) (h : NoSub (S "?>") r) : ∃ d', rawPI d r = (.error (.eofSearching (S "?>")), d') := by
  obtain ⟨p, e, hp⟩ := pi_rest h0
  have h1 : EOFC ∉ skipSpaces (getName r).2 := fun hm => h0 (by rw [e]; simp [hm])
  have h2 := until_noSub ((noSub_drop hp).1 (e ▸ h)) h1 (by simp [S])
  unfold rawPI
  simp only [h2]
  exact ⟨_, rfl⟩

theorem error_pi {d : Dec} {r : Str} {e : SaxErr} {d' : Dec} (h0 : EOFC ∉ r) (h : rawPI d r = (.error e, d')) : NoSub (S "?>") r ∧ e = .eofSearching (S "?>") := by
  obtain ⟨p, ep, hp⟩ := pi_rest h0
  have h1 : EOFC ∉ skipSpaces (getName r).2 := fun hm => h0 (by rw [ep]; simp [hm])
  rcases hg : (getUntil (S "?>") (skipSpaces (getName r).2)).1 with e' | v
  · obtain ⟨g1, g2⟩ := until_error hg h1 (by simp [S])
    simp only [rawPI, hg] at h
    cases h
    exact ⟨by rw [ep]; exact (noSub_drop hp).2 g1, g2⟩
  · simp only [rawPI, hg] at h
    cases h

/-- A call of `raw_token` where the text begins with a fault. -/
theorem fault_run {s : Str} {e : SaxErr} (h : Fault s e) (h0 : EOFC ∉ s) : ∃ d, rawToken ⟨s, []⟩ = some (.error e, d) := by
  cases h with
  | lt => exact ⟨_, rfl⟩
  | @endTag s h1 =>
    obtain ⟨d, hd⟩ := endTag_error (d := ⟨'<' :: '/' :: s, []⟩) (fun hm => h0 (List.mem_append_right _ hm)) h1
    exact ⟨d, (run_slash s).trans (congrArg some hd)⟩
  | @pi s h1 =>
    obtain ⟨d, hd⟩ := pi_error (d := ⟨'<' :: '?' :: s, []⟩) (fun hm => h0 (List.mem_append_right _ hm)) h1
    exact ⟨d, (run_question s).trans (congrArg some hd)⟩
  | @comment s h1 =>
    have h2 := until_noSub h1 (fun hm => h0 (List.mem_append_right _ hm)) (by simp [S])
    refine ⟨_, (run_bang ('-' :: '-' :: s)).trans (congrArg some (?_ : _ = (_, ⟨(getUntil (S "-->") s).2, []⟩)))⟩
    simp only [rawBang, getchar_cons, h2]
    rfl
  | @badComment s h1 =>
    have hg : (getchar s).1 ≠ '-' := getchar_ne (by decide) fun x hx e => h1 (by rw [hx, e])
    refine ⟨_, (run_bang ('-' :: s)).trans (congrArg some (?_ : _ = (_, ⟨s, []⟩)))⟩
    simp [rawBang, getchar_cons, hg]
  | @cdata s h1 =>
    have h2 := until_noSub h1 (fun hm => h0 (List.mem_append_right _ hm)) (by simp [S])
    have h3 : lookAheadKeyword (S "CDATA[") (S "CDATA[" ++ s) = some s := by simp [lookAheadKeyword, stripPrefix_append]
    refine ⟨_, (run_bang ('[' :: (S "CDATA[" ++ s))).trans (congrArg some (?_ : _ = (_, ⟨(getUntil (S "]]>") s).2, []⟩)))⟩
    simp only [rawBang, getchar_cons, h3, h2]
    rfl
  | @badCdata s h1 =>
    have h3 : lookAheadKeyword (S "CDATA[") s = none := by
      cases hs : lookAheadKeyword (S "CDATA[") s with
      | none => rfl
      | some t => exact absurd ⟨t, (stripPrefix_eq_some.1 hs).symm⟩ h1
    refine ⟨_, (run_bang ('[' :: s)).trans (congrArg some (?_ : _ = (_, ⟨s, []⟩)))⟩
    simp [rawBang, getchar_cons, h3]
  | @directive s h1 h2 =>
    have g1 : (getchar s).1 ≠ '-' := getchar_ne (by decide) fun x hx => (h1 x hx).1
    have g2 : (getchar s).1 ≠ '[' := getchar_ne (by decide) fun x hx => (h1 x hx).2
    have et : (getchar s).2 = s.tail := by cases s <;> rfl
    have h3 := bracket_none.2 h2
    refine ⟨_, (run_bang s).trans (congrArg some (?_ : _ = (_, ⟨(getBracket 1 s.tail).2, []⟩)))⟩
    simp only [rawBang, g1, g2, et, h3, if_false]
  | @startTag n b e h1 h2 h3 =>
    have hb0 : EOFC ∉ b := by intro hm; apply h0; simp [hm]
    obtain ⟨f, d, hf⟩ := tagFault_loop h3 hb0 n []
    have hg := nameThen_getName h1
    cases hnb : n ++ b with
    | nil =>
      obtain ⟨-, rfl⟩ := List.append_eq_nil_iff.1 hnb
      rw [startTagLoop_nil] at hf; cases hf
    | cons c r =>
      have hc := h2 c (by rw [hnb]; rfl)
      have hc0 : c ≠ EOFC := by rintro rfl; apply h0; rw [hnb]; simp
      rw [hnb] at hg
      refine ⟨d, rawToken_of_some (n := f) ?_⟩
      rw [run_tag hc0 hc.1 hc.2.1 hc.2.2, hg]
      exact hf

/-- An error of `raw_token` tells the fault the text begins with. -/
theorem run_fault {s : Str} {e : SaxErr} {d : Dec} (h0 : EOFC ∉ s) (h : rawToken ⟨s, []⟩ = some (.error e, d)) : Fault s e := by
  cases s with
  | nil => rw [rawToken_eof] at h; cases h
  | cons c r =>
    by_cases hc : c = '<'
    · subst hc
      cases r with
      | nil => cases h; exact .lt
      | cons ch r =>
        have hr0 : EOFC ∉ r := by intro hm; apply h0; simp [hm]
        have hch0 : ch ≠ EOFC := by rintro rfl; apply h0; simp
        by_cases h1 : ch = '/'
        · subst h1
          rw [run_slash] at h
          obtain ⟨g1, rfl⟩ := error_endTag hr0 (Option.some.inj h)
          exact .endTag g1
        by_cases h2 : ch = '?'
        · subst h2
          rw [run_question] at h
          obtain ⟨g1, rfl⟩ := error_pi hr0 (Option.some.inj h)
          exact .pi g1
        by_cases h3 : ch = '!'
        · subst h3
          rw [run_bang] at h
          replace h := Option.some.inj h
          have et : (getchar r).2 = r.tail := by cases r <;> rfl
          unfold rawBang at h
          simp only at h
          split at h
          · rename_i g1
            have e1 := getchar_inv g1 (by decide)
            generalize (getchar r).2 = r2 at e1 h
            subst e1
            split at h
            · rename_i g2
              have e2 := getchar_inv g2 (by decide)
              generalize (getchar r2).2 = r3 at e2 h
              subst e2
              rcases hg : (getUntil (S "-->") r3).1 with e' | v
              · obtain ⟨k1, k2⟩ := until_error hg (by intro hm; apply hr0; simp [hm]) (by simp [S])
                simp only [hg] at h
                cases h; subst k2
                exact .comment k1
              · simp only [hg] at h; cases h
            · rename_i g2
              cases h
              refine .badComment fun e => g2 ?_
              cases r2 with
              | nil => cases e
              | cons a t => cases e; rfl
          · rename_i g1
            split at h
            · rename_i g2
              have e2 := getchar_inv g2 (by decide)
              generalize (getchar r).2 = r2 at e2 h
              subst e2
              split at h
              · rename_i r3 hk
                have e3 := stripPrefix_eq_some.1 hk
                subst e3
                rcases hg : (getUntil (S "]]>") r3).1 with e' | v
                · obtain ⟨k1, k2⟩ := until_error hg (by intro hm; apply hr0; simp [hm]) (by simp [S])
                  simp only [hg] at h
                  cases h; subst k2
                  exact .cdata k1
                · simp only [hg] at h; cases h
              · rename_i hk
                cases h
                refine .badCdata fun ⟨t, e⟩ => ?_
                rw [← e] at hk
                simp [lookAheadKeyword, stripPrefix_append] at hk
            · rename_i g2
              rcases hg : (getBracket 1 (getchar r).2).1 with e' | v
              · rw [hg] at h
                cases h
                rw [et] at hg
                cases bracket_error hg
                refine .directive (fun x hx => ?_) (bracket_none.1 hg)
                cases r with
                | nil => cases hx
                | cons a t => cases hx; exact ⟨g1, g2⟩
              · rw [hg] at h; cases h
        unfold rawToken at h
        rw [run_tag hch0 h1 h2 h3] at h
        have en := getName_eq (ch :: r)
        have := Fault.startTag (getName_nameThen (ch :: r)) (by rw [en]; intro x hx; cases hx; exact ⟨h1, h2, h3⟩)
          (loop_tagFault _ (fun hm => h0 (List.mem_cons_of_mem _ ((getName_suffix _).mem hm))) _ _ _ _ _ h)
        rwa [en] at this
    · have hc0 : c ≠ EOFC := by rintro rfl; apply h0; simp
      simp [rawToken, rawTokenF, hc, hc0, rawText] at h

end Amxml.Faults
