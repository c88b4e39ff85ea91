import Verif.Lemmas.Accepts
import Verif.Lemmas.Lexical

/-!
# The lexer finds only terminals, and its tokens are spelled by them
-/

namespace Amxml
namespace Lexer
open Spec Amxml.Parser

/-! ## Terminals -/

theorem mem_takeWhile {f : Char → Bool} {c : Char} {l : Str} (h : c ∈ l.takeWhile f) : f c = true := by
  induction l with
  | nil => simp at h
  | cons a l ih =>
    by_cases ha : f a = true
    · simp only [List.takeWhile_cons, ha, if_true, List.mem_cons] at h
      rcases h with rfl | h
      · exact ha
      · exact ih h
    · simp [ha] at h

theorem allDigits_takeWhile (s : Str) : AllDigits (fetchDigits s).1 := fun c hc => (isDigitX_iff c).1 (mem_takeWhile hc)

theorem fetchAfterE_only {s v r : Str} (h : fetchAfterE s = .ok (v, r)) : v = [] ∨ ExponentA True v := by
  unfold fetchAfterE at h
  split at h
  · cases h; exact .inl rfl
  · rename_i c s
    split at h
    · rename_i hc
      cases s with
      | nil => cases h
      | cons d s =>
        simp only at h
        split at h
        · rename_i hd
          cases h
          right
          by_cases he : (fetchDigits s).1 = []
          · exact .inr ⟨trivial, c, d, hc, hd, by rw [he]⟩
          · exact .inl (.signed hc hd he (allDigits_takeWhile s))
        · split at h
          · rename_i hd
            cases h
            refine .inr (.inl (.plain hc ?_ (allDigits_takeWhile _)))
            simp [fetchDigits, hd]
          · cases h
    · cases h; exact .inl rfl

theorem exponentA_letter {e : Str} (he : ExponentA True e) : 'e' ∈ e ∨ 'E' ∈ e := by
  rcases he with h | ⟨-, c, s, hc, -, rfl⟩
  · exact exp_letter h
  · rcases hc with rfl | rfl <;> simp

theorem digits_cons {c : Char} {d : Str} (hc : isDigitX c = true) (hd : AllDigits d) : AllDigits (c :: d) := by
  intro x hx
  rcases List.mem_cons.1 hx with rfl | hx
  · exact (isDigitX_iff x).1 hc
  · exact hd x hx

/-- The kind of a number. -/
theorem number_kind {v m e : Str} (hv : v = m ++ e) (he : e = [] ∨ 'e' ∈ e ∨ 'E' ∈ e) (hm : 'e' ∉ m ∧ 'E' ∉ m) :
    (if v.contains 'e' || v.contains 'E' then TType.doubleLiteral else if v.contains '.' then .decimalLiteral else .integerLiteral) =
      if e = [] then (if '.' ∈ m then .decimalLiteral else .integerLiteral) else .doubleLiteral := by
  subst hv
  rcases he with rfl | he
  · simp [hm]
  · have hne : e ≠ [] := by rintro rfl; simp at he
    rw [if_pos, if_neg hne]
    rcases he with h | h <;> simp [h]

theorem fetchNumerics_only {s : Str} {t : Tok} {r : Str} (h : fetchNumerics s = .ok (t, r))
    (hs : ∃ c s', s = c :: s' ∧ (isDigitX c = true ∨ c = '.' ∧ ∃ d s'', s' = d :: s'' ∧ isDigitX d = true)) :
    s = t.name ++ r ∧ LexemeA True t.name t := by
  unfold fetchNumerics at h
  cases hv : fetchNumericLiteral s with
  | error e => simp [hv, Except.map] at h
  | ok v =>
    obtain ⟨v, r0⟩ := v
    simp only [hv, Except.map, Except.ok.injEq, Prod.mk.injEq] at h
    obtain ⟨rfl, rfl⟩ := h
    obtain ⟨c, s', rfl, hc⟩ := hs
    obtain ⟨h1, -⟩ := fetchNumericLiteral_local hv (by intro d hd; simp at hd; subst hd; rcases hc with h | h; exact .inl h; exact .inr h.1)
    refine ⟨h1, ?_⟩
    dsimp only
    by_cases hd : isDigitX c = true
    · simp only [fetchNumericLiteral, hd, if_true] at hv
      cases hp : fetchAfterPeriod (fetchDigits s').2 with
      | error e => simp [hp, Except.bind] at hv
      | ok p =>
        obtain ⟨p1, p2⟩ := p
        simp only [hp, Except.bind] at hv
        cases he : fetchAfterE p2 with
        | error e => simp [he, Except.map] at hv
        | ok q =>
          obtain ⟨q1, q2⟩ := q
          simp only [he, Except.map, Except.ok.injEq, Prod.mk.injEq] at hv
          obtain ⟨rfl, rfl⟩ := hv
          have hq := fetchAfterE_only he
          have hds := digits_cons hd (allDigits_takeWhile s')
          generalize (fetchDigits s').1 = ds at hds
          generalize (fetchDigits s').2 = s2 at hp
          unfold fetchAfterPeriod at hp
          split at hp
          · rename_i s3
            cases hf : fetchAfterE (fetchDigits s3).2 with
            | error e => simp [hf, Except.map] at hp
            | ok f =>
              obtain ⟨f1, f2⟩ := f
              simp only [hf, Except.map, Except.ok.injEq, Prod.mk.injEq] at hp
              obtain ⟨rfl, rfl⟩ := hp
              have hf1 := fetchAfterE_only hf
              have hdec : DecimalL (c :: ds ++ '.' :: (fetchDigits s3).1) := .digits (by simp) hds (allDigits_takeWhile s3)
              generalize (fetchDigits s3).1 = fs at hdec
              have hl := decimal_letters hdec
              rw [show c :: ds ++ ('.' :: fs ++ f1) ++ q1 = (c :: ds ++ '.' :: fs) ++ (f1 ++ q1) by simp]
              rw [number_kind rfl (by
                rcases hf1 with rfl | hf1
                · rcases hq with rfl | hq
                  · exact .inl rfl
                  · exact .inr (by simpa using exponentA_letter hq)
                · exact .inr (by rcases exponentA_letter hf1 with h | h <;> simp [h])) ⟨hl.1, hl.2.1⟩]
              rcases hf1 with rfl | hf1
              · rcases hq with rfl | hq
                · simp only [List.append_nil, if_true, if_pos hl.2.2]
                  exact .lexeme (.decimal hdec)
                · rw [if_neg (by rintro h; simp at h; subst h; simpa using exponentA_letter hq)]
                  exact .exponent trivial (.inr hdec) hq
              · rw [if_neg (by rintro h; simp at h; rw [h.1] at hf1; simpa using exponentA_letter hf1)]
                rcases hq with rfl | hq
                · rw [List.append_nil]
                  exact .exponent trivial (.inr hdec) hf1
                · rw [← List.append_assoc]
                  exact .exponents trivial hdec hf1 hq
          · simp only [Except.ok.injEq, Prod.mk.injEq] at hp
            obtain ⟨rfl, rfl⟩ := hp
            have hl := digits_letters hds
            rw [List.append_nil]
            rw [number_kind rfl (by
              rcases hq with rfl | hq
              · exact .inl rfl
              · exact .inr (exponentA_letter hq)) ⟨hl.1, hl.2.1⟩]
            rcases hq with rfl | hq
            · simp only [List.append_nil, if_true, if_neg hl.2.2]
              exact .lexeme (.integer (by simp) hds)
            · rw [if_neg (by rintro rfl; simpa using exponentA_letter hq)]
              exact .exponent trivial (.inl ⟨by simp, hds⟩) hq
    · obtain ⟨rfl, d, s'', rfl, hdd⟩ := hc.resolve_left hd
      have hd' : isDigitX '.' = false := by decide
      simp only [fetchNumericLiteral, hd', if_true, fetchAfterPeriod] at hv
      cases hf : fetchAfterE (fetchDigits (d :: s'')).2 with
      | error e => simp [hf, Except.map] at hv
      | ok f =>
        obtain ⟨f1, f2⟩ := f
        simp [hf, Except.map] at hv
        obtain ⟨rfl, rfl⟩ := hv
        have hf1 := fetchAfterE_only hf
        have hdec : DecimalL ('.' :: (fetchDigits (d :: s'')).1) := .point (by simp [fetchDigits, hdd]) (allDigits_takeWhile _)
        generalize (fetchDigits (d :: s'')).1 = fs at hdec
        have hl := decimal_letters hdec
        rw [← List.cons_append]
        rw [number_kind rfl (by
          rcases hf1 with rfl | hq
          · exact .inl rfl
          · exact .inr (exponentA_letter hq)) ⟨hl.1, hl.2.1⟩]
        rcases hf1 with rfl | hq
        · simp only [List.append_nil, if_true, if_pos hl.2.2]
          exact .lexeme (.decimal hdec)
        · rw [if_neg (by rintro rfl; simpa using exponentA_letter hq)]
          exact .exponent trivial (.inr hdec) hq

theorem fetchUntil_only {q : Char} {s v r : Str} (h : fetchUntil q s = some (v, r)) : ∃ u, v = u ++ [q] ∧ q ∉ u ∧ '\x00' ∉ u := by
  induction s generalizing v r with
  | nil => cases h
  | cons c s ih =>
    by_cases h1 : c = EOFC
    · simp [fetchUntil, h1] at h
    · by_cases h2 : c = q
      · simp only [fetchUntil, h2] at h
        rw [if_neg (h2 ▸ h1), if_pos trivial] at h
        simp at h
        exact ⟨[], by rw [← h.1]; rfl, by simp, by simp⟩
      · simp only [fetchUntil, h1, h2, if_false, Option.map_eq_some_iff] at h
        obtain ⟨⟨v', r'⟩, h3, h4⟩ := h
        simp at h4
        obtain ⟨rfl, rfl⟩ := h4
        obtain ⟨u, rfl, hu, h0⟩ := ih h3
        refine ⟨c :: u, by simp, ?_, ?_⟩
        · simp [hu, Ne.symm h2]
        · simp [h0]; exact fun e => h1 (by rw [← e]; rfl)

theorem fetchString_only {q : Char} {s v r : Str} (h : fetchString q s = some (v, r)) : '\x00' ∉ v ∧ q :: s = quoted q v ++ r := by
  fun_induction fetchString q s generalizing v r with
  | case1 => cases h
  | case2 => cases h
  | case3 h1 =>
    simp at h
    obtain ⟨rfl, rfl⟩ := h
    exact ⟨by simp, by simp [quoted]⟩
  | case4 => cases h
  | case5 => cases h
  | case6 s h1 ih =>
    simp only [Option.map_eq_some_iff] at h
    obtain ⟨⟨v', r'⟩, h3, h4⟩ := h
    simp at h4
    obtain ⟨rfl, rfl⟩ := h4
    obtain ⟨h0, e⟩ := ih h3
    refine ⟨?_, ?_⟩
    · simp [h0]; exact fun e => h1 (by rw [← e]; rfl)
    · simp [quoted] at e ⊢; exact e
  | case7 d s h1 h2 =>
    simp at h
    obtain ⟨rfl, rfl⟩ := h
    exact ⟨by simp, by simp [quoted]⟩
  | case8 c d s h1 h2 ih =>
    simp only [Option.map_eq_some_iff] at h
    obtain ⟨⟨v', r'⟩, h3, h4⟩ := h
    simp at h4
    obtain ⟨rfl, rfl⟩ := h4
    obtain ⟨h0, e⟩ := ih h3
    refine ⟨?_, ?_⟩
    · simp [h0]; exact fun e => h1 (by rw [← e]; rfl)
    · simp [quoted, h2] at e ⊢; exact e

/-- What `get_tok` finds is a comment, a terminal, or the end of the text. -/
theorem getTok_only {s : Str} {t : Tok} {r : Str} (h : getTok s = .ok (t, r)) (h0 : '\x00' ∉ s) :
    (t.ty = .eof ∧ s = []) ∨ (t.ty = .nop ∧ ∃ a, CommentBody a ∧ s = comment a ++ r) ∨
      (t.ty ≠ .eof ∧ t.ty ≠ .nop ∧ ∃ w, s = w ++ r ∧ w ≠ [] ∧ LexemeA True w t) := by
  unfold getTok at h
  cases h1 : stripPrefix (S "(:") s with
  | some r1 =>
    rw [h1] at h
    simp only at h
    cases h2 : skipComment 1 r1 with
    | none => rw [h2] at h; cases h
    | some r2 =>
      rw [h2] at h
      cases h
      obtain ⟨a, s', ha, rfl, hr⟩ := skipComment_only h2
      simp [skipComment] at hr
      subst hr
      exact .inr (.inl ⟨rfl, a, ha, by rw [stripPrefix_eq_some.1 h1]; simp [comment]⟩)
  | none =>
    rw [h1] at h
    simp only at h
    cases h2 : stripPrefix (S "Q{") s with
    | some r2 =>
      rw [h2] at h
      simp only at h
      cases h3 : fetchUntil '}' s with
      | none => rw [h3] at h; cases h
      | some v =>
        obtain ⟨v, r3⟩ := v
        rw [h3] at h
        cases h
        obtain ⟨e1, hv, -⟩ := fetchUntil_local h3
        obtain ⟨u, rfl, hu, -⟩ := fetchUntil_only h3
        refine .inr (.inr ⟨by simp, by simp, u ++ ['}'], e1, by simp, ?_⟩)
        have e2 := stripPrefix_eq_some.1 h2
        rw [e1] at e2
        match u, hu, e2 with
        | [], _, e2 => simp [S] at e2
        | [a], hu, e2 => simp [S] at e2
        | a :: b :: u, hu, e2 =>
          simp [S] at e2
          obtain ⟨rfl, rfl, -⟩ := e2
          simp at hu
          exact .uri (u := u) trivial hu
    | none =>
      rw [h2] at h
      simp only at h
      cases h3 : matchKeyword keywords s with
      | some v =>
        obtain ⟨v, r3⟩ := v
        rw [h3] at h
        cases h
        obtain ⟨k, hk, rfl, e, -⟩ := matchKeyword_local keywords_solid h3
        refine .inr (.inr ⟨(keywords_ty k hk).2, (keywords_ty k hk).1, k.1, e, (keywords_solid k hk).1, .lexeme (.symbol (keywords_symbols k hk))⟩)
      | none =>
        rw [h3] at h
        simp only at h
        cases s with
        | nil =>
          simp [getTokChar] at h
          exact .inl ⟨by rw [← h.1], rfl⟩
        | cons c s =>
          have hc0 : c ≠ EOFC := fun hx => h0 (by rw [hx]; simp [EOFC])
          right; right
          by_cases c1 : isNameStart c = true
          · simp only [getTokChar, hc0, c1, if_true, if_false, Except.ok.injEq, Prod.mk.injEq] at h
            obtain ⟨rfl, rfl⟩ := h
            refine ⟨by simp, by simp, c :: s.takeWhile isNameCharX, by simp, by simp, .lexeme (.word ((isNameStart_iff c).1 c1) ?_)⟩
            intro x hx
            exact (isNameCharX_iff x).1 (mem_takeWhile hx)
          by_cases c2 : c = '"' ∨ c = '\''
          · simp only [getTokChar, hc0, c1, c2, if_true, if_false] at h
            cases hf : fetchString c s with
            | none => simp [hf] at h
            | some v =>
              obtain ⟨v, r0⟩ := v
              simp [hf] at h
              obtain ⟨rfl, rfl⟩ := h
              obtain ⟨g0, e⟩ := fetchString_only hf
              exact ⟨by simp, by simp, quoted c v, e, by simp [quoted], .lexeme (.string c2 g0)⟩
          have num : fetchNumerics (c :: s) = .ok (t, r) → (isDigitX c = true ∨ c = '.' ∧ ∃ d s'', s = d :: s'' ∧ isDigitX d = true) →
              t.ty ≠ .eof ∧ t.ty ≠ .nop ∧ ∃ w, c :: s = w ++ r ∧ w ≠ [] ∧ LexemeA True w t := by
            intro hn hc
            obtain ⟨e, hl⟩ := fetchNumerics_only hn ⟨c, s, rfl, hc⟩
            refine ⟨by rcases fetchNumerics_ty hn with h | h | h <;> simp [h], by rcases fetchNumerics_ty hn with h | h | h <;> simp [h], t.name, e, ?_, hl⟩
            obtain ⟨p, hp, hne, -⟩ := fetchNumerics_local hn ⟨c, s, rfl, hc.imp id (·.1)⟩
            rw [hp] at e
            exact fun hx => hne (by rw [hx] at e; simpa using e)
          by_cases c3 : isDigitX c = true
          · simp only [getTokChar, hc0, c1, c2, c3, if_true, if_false] at h
            exact num h (.inl c3)
          by_cases c4 : c = '.'
          · subst c4
            have dot : ∀ {s : Str}, (⟨.dot, S "."⟩ : Tok) = t → s = r → t.ty ≠ .eof ∧ t.ty ≠ .nop ∧ ∃ w, '.' :: s = w ++ r ∧ w ≠ [] ∧ LexemeA True w t := by
              rintro s rfl rfl
              exact ⟨by simp, by simp, S ".", rfl, by simp [S], .lexeme (.symbol (by decide))⟩
            cases s with
            | nil =>
              simp [getTokChar, hc0, c1, c3] at h
              exact dot h.1 h.2.symm
            | cons d s =>
              by_cases hd : isDigitX d = true
              · simp only [getTokChar, hc0, c1, c2, c3, hd, if_true, if_false] at h
                exact num h (.inr ⟨rfl, d, s, rfl, hd⟩)
              · simp [getTokChar, hc0, c1, c3, hd] at h
                exact dot h.1 h.2
          · simp [getTokChar, hc0, c1, c2, c3, c4] at h

theorem skipSpaces_blank {s : Str} (h0 : '\x00' ∉ s) : ∃ b, s = b ++ skipSpaces s ∧ ∀ s', Blank s' → Blank (b ++ s') := by
  induction s with
  | nil => exact ⟨[], rfl, fun _ h => h⟩
  | cons c s ih =>
    have hc0 : c ≠ EOFC := fun hx => h0 (by rw [hx]; simp [EOFC])
    by_cases hc : isSpaceX c = true
    · obtain ⟨b, e, hb⟩ := ih (fun hx => h0 (by simp [hx]))
      refine ⟨c :: b, ?_, fun s' h => .white c _ ((isSpaceX_iff c).1 hc) (hb s' h)⟩
      rw [skipSpaces, if_neg hc0, if_pos hc, List.cons_append, ← e]
    · exact ⟨[], by rw [skipSpaces, if_neg hc0, if_neg hc]; rfl, fun _ h => h⟩

theorem Spec.TextA.blank {lax : Prop} {us : List Tok} {s b : Str} (h : TextA lax us s) (hb : ∀ s', Blank s' → Blank (b ++ s')) : TextA lax us (b ++ s) := by
  cases h with
  | nil h => exact .nil (hb _ h)
  | cons h1 h2 h3 => rw [← List.append_assoc]; exact .cons (hb _ h1) h2 h3

/-- A text the lexer accepts is made of terminals. -/
theorem toks_only {s : Str} {us : List Tok} (h0 : '\x00' ∉ s) (h : toks s = .ok us) : TextA True us s := by
  generalize hk : s.length = k
  induction k using Nat.strongRecOn generalizing s us with
  | _ k ih =>
  rw [toks_eq] at h
  obtain ⟨b, eb, hb⟩ := skipSpaces_blank h0
  have h0' : '\x00' ∉ skipSpaces s := fun hx => h0 (by rw [eb]; simp [hx])
  have hl : (skipSpaces s).length ≤ s.length := by
    have := congrArg List.length eb
    simp at this; omega
  generalize skipSpaces s = s1 at *
  cases hg : getTok s1 with
  | error e => rw [hg] at h; cases h
  | ok r =>
    obtain ⟨t, r⟩ := r
    rw [hg] at h
    simp only [Except.bind] at h
    rw [eb]
    refine Spec.TextA.blank ?_ hb
    rcases getTok_only hg h0' with ⟨ht, rfl⟩ | ⟨ht, a, ha, rfl⟩ | ⟨h1, h2, w, rfl, hne, hw⟩
    · rw [if_pos ht] at h
      cases h
      exact .nil .nil
    · rw [if_neg (by rw [ht]; simp), if_pos ht] at h
      refine Spec.TextA.blank (ih r.length ?_ ?_ h rfl) fun s' hs' => .comment a s' ha hs'
      · simp [comment, S] at hl; omega
      · exact fun hx => h0' (by simp [hx])
    · rw [if_neg h1, if_neg h2] at h
      cases hr : toks r with
      | error e => rw [hr] at h; cases h
      | ok l =>
        rw [hr] at h
        cases h
        have hwl : 0 < w.length := List.length_pos_of_ne_nil hne
        exact .cons (b := []) .nil hw (ih r.length (by simp at hl; omega) (fun hx => h0' (by simp [hx])) hr rfl)

/-! ## Words -/

theorem twoPasses_nil (prev : TType) : twoPasses prev [] = [] := by
  simp [twoPasses, rewriteOperatorType, rewritePairWords, eliminateNops]

theorem operatorTok_cases (prev : TType) (n : Str) :
    operatorTok prev ⟨.innerName, n⟩ = ⟨.innerName, n⟩ ∨ ∃ t, (n, t) ∈ operatorWords ∧ operatorTok prev ⟨.innerName, n⟩ = ⟨t, n⟩ := by
  unfold operatorTok
  split
  · split
    · rename_i e he
      right
      have h2 := List.find?_some he
      simp only [beq_iff_eq] at h2
      exact ⟨e.2, h2 ▸ List.mem_of_find?_eq_some he, rfl⟩
    · exact .inl rfl
  · exact .inl rfl

theorem pairEntry_cases {n : Str} {b : Tok} {t : TType} (h : pairEntry ⟨.innerName, n⟩ b = some t) : b.ty = .innerName ∧ (n, b.name, t) ∈ wordPairs := by
  unfold pairEntry at h
  split at h
  · rename_i hc
    simp only [beq_self_eq_true, Bool.true_and, beq_iff_eq] at hc
    simp only [Option.map_eq_some_iff] at h
    obtain ⟨e, he, rfl⟩ := h
    have h2 := List.find?_some he
    simp only [Bool.and_eq_true, beq_iff_eq] at h2
    refine ⟨hc, ?_⟩
    rw [← h2.1, ← h2.2]
    exact pairWords_pairs e (List.mem_of_find?_eq_some he)
  · cases h

/-- Whatever the lexer makes of the words, they can be read so. -/
theorem passes_only (prev : TType) (us : List Tok) (hk : ∀ k ∈ us, k.ty ≠ .nop) : SpellsA (passes prev us) us := by
  generalize hn : us.length = n
  induction n using Nat.strongRecOn generalizing prev us with
  | _ n ih =>
  cases us with
  | nil => rw [passes_eq, twoPasses_nil]; exact .nil
  | cons a us =>
    have hk' : ∀ k ∈ us, k.ty ≠ .nop := fun k h => hk k (by simp [h])
    have ih' := fun prev => ih us.length (by simp at hn; omega) prev us hk' rfl
    by_cases ha : a.ty = .innerName
    · obtain ⟨t, w⟩ := a
      simp only at ha
      subst ha
      rcases operatorTok_cases prev w with ho | ⟨t, ht, ho⟩
      · have hhead : ∀ k ∈ us.head?, k ∈ us := fun k h => by
          cases us with
          | nil => simp at h
          | cons u us => simp at h; subst h; simp
        cases hp : us.head?.bind fun k => pairEntry ⟨.innerName, w⟩ (operatorTok .innerName k) with
        | some t =>
          cases us with
          | nil => simp at hp
          | cons u us =>
            simp at hp
            obtain ⟨h1, h2⟩ := pairEntry_cases hp
            have hu : u.ty = .innerName := by
              by_contra hne
              rw [operatorTok_other _ hne] at h1
              exact hne h1
            obtain ⟨tu, m⟩ := u
            simp only at hu
            subst hu
            have e : (operatorTok .innerName ⟨.innerName, m⟩).name = m := by
              rcases operatorTok_cases .innerName m with h | ⟨_, _, h⟩ <;> rw [h]
            rw [e] at h2
            obtain ⟨-, -, -, -, h5⟩ := pairs_free _ h2
            rw [passes_eq, twoPasses_pair h2, rewriteNameAndSymbol, ← passes_eq]
            rw [show symbolTok ⟨t, w⟩ _ = ⟨t, w⟩ by simp only [symbolTok, beq_iff_eq]; rw [if_neg h5]]
            exact .pair h2 (ih us.length (by simp at hn; omega) _ us (fun k h => hk' k (by simp [h])) rfl)
        | none =>
          have hnone : ∀ k ∈ us.head?, pairEntry ⟨.innerName, w⟩ (operatorTok .innerName k) = none := by
            intro k h
            rw [Option.mem_def] at h
            rw [h] at hp
            exact hp
          rw [passes_eq, twoPasses_cons ho (by simp) hnone, rewriteNameAndSymbol, ← passes_eq]
          unfold symbolTok
          simp only [beq_self_eq_true, if_true]
          split
          · rename_i e he
            have h2 := List.find?_some he
            simp only [Bool.and_eq_true, beq_iff_eq] at h2
            obtain ⟨hm, hin⟩ := tbl_marked e (List.mem_of_find?_eq_some he)
            have hkn : ∀ k ∈ us.head?, k.ty ≠ .nop := fun k h => hk' k (hhead k h)
            refine .marked (s := e.2.1) (h2.1 ▸ hm) ?_ (ih' _)
            by_contra hc
            refine (next_symbol (prev := .innerName) hkn).2 ?_ (h2.2 ▸ hin)
            intro k hkm
            by_contra hne
            exact hc ⟨k, hkm, by rw [h2.2, (next_symbol (prev := .innerName) hkn).1 k hkm hne]⟩
          · exact .name (ih' _)
      · have hty : t ≠ .nop ∧ t ≠ .innerName := by
          have : ∀ e ∈ operatorWords, e.2 ≠ .nop ∧ e.2 ≠ .innerName := by decide
          exact this _ ht
        rw [passes_eq, twoPasses_cons ho hty.1 fun b _ => pairEntry_left hty.2, rewriteNameAndSymbol, ← passes_eq]
        rw [show symbolTok ⟨t, w⟩ _ = ⟨t, w⟩ by simp only [symbolTok, beq_iff_eq]; rw [if_neg hty.2]]
        exact .operator ((wordOperators_iff _).2 ht) (ih' _)
    · rw [passes_eq, twoPasses_cons (operatorTok_other prev ha) (hk a (by simp)) fun b _ => pairEntry_left ha, rewriteNameAndSymbol, ← passes_eq]
      rw [show symbolTok a _ = a by simp only [symbolTok, beq_iff_eq]; rw [if_neg ha]]
      exact .same ha (ih' _)

/-! ## The tokens are as the parser expects them -/

theorem sane_lexeme {w : Str} {t : Tok} (h : LexemeA True w t) : t.ty = .innerName ∧ t.name ≠ [] ∨ t.ty ≠ .innerName ∧ SaneTok t := by
  have hnum : ∀ {v : Str} {k : TType}, k = .integerLiteral ∨ k = .decimalLiteral ∨ k = .doubleLiteral → (∃ c v', v = c :: v' ∧ (isDigitX c = true ∨ c = '.')) →
      (⟨k, v⟩ : Tok).ty = .innerName ∧ (⟨k, v⟩ : Tok).name ≠ [] ∨ (⟨k, v⟩ : Tok).ty ≠ .innerName ∧ SaneTok ⟨k, v⟩ := by
    rintro v k hk ⟨c, v', rfl, hc⟩
    have hn : c :: v' ∉ connectives := by
      intro hm
      have : ∀ x ∈ connectives, ∀ d ∈ x.head?, isDigitX d = false ∧ d ≠ '.' := by decide
      have := this _ hm c (by simp)
      rcases hc with h | h
      · rw [this.1] at h; cases h
      · exact this.2 h
    refine .inr ?_
    rcases hk with rfl | rfl | rfl <;> exact ⟨by simp, by simp, by simp, by simp, by simp, by simp, by simp, by simp, by simp, fun h => absurd h hn⟩
  have hman : ∀ {m e : Str}, (m ≠ [] ∧ AllDigits m) ∨ DecimalL m → ∃ c v', m ++ e = c :: v' ∧ (isDigitX c = true ∨ c = '.') := by
    rintro m e (⟨hne, hd⟩ | hd)
    · obtain ⟨c, d', rfl, hc, -⟩ := digit_head hne hd
      exact ⟨c, d' ++ e, rfl, .inl hc⟩
    · cases hd with
      | point => exact ⟨_, _, rfl, .inr rfl⟩
      | digits hne hd _ =>
        obtain ⟨c, d', rfl, hc, -⟩ := digit_head hne hd
        exact ⟨c, _, rfl, .inl hc⟩
  have huri : ∀ {u : Str}, SaneTok ⟨.bracedURILiteral, S "Q{" ++ u ++ S "}"⟩ := by
    intro u
    refine ⟨by simp, by simp [S], by simp, by simp, by simp, by simp, by simp, by simp, fun h => ?_⟩
    have : ∀ x ∈ connectives, x.head? ≠ some 'Q' := by decide
    exact absurd rfl (this _ h)
  cases h with
  | lexeme h =>
    cases h with
    | symbol h =>
      have : ∀ e ∈ symbols, (⟨e.2, e.1⟩ : Tok).ty ≠ .innerName ∧ SaneTok ⟨e.2, e.1⟩ := by decide
      exact .inr (this _ h)
    | word => exact .inl ⟨rfl, by simp⟩
    | string => exact .inr ⟨by simp, by simp, by simp, by simp, by simp, by simp, by simp, by simp, by simp, by simp⟩
    | uri => exact .inr ⟨by simp, huri⟩
    | integer h1 h2 => exact hnum (.inl rfl) (by simpa using hman (e := []) (.inl ⟨h1, h2⟩))
    | decimal h1 => exact hnum (.inr (.inl rfl)) (by simpa using hman (e := []) (.inr h1))
    | double h1 _ => exact hnum (.inr (.inr rfl)) (hman h1)
  | uri => exact .inr ⟨by simp, huri⟩
  | exponent _ h1 _ => exact hnum (.inr (.inr rfl)) (hman h1)
  | exponents _ h1 _ _ => exact hnum (.inr (.inr rfl)) (by rw [List.append_assoc]; exact hman (.inr h1))

theorem Spec.TextA.lexemes {lax : Prop} {us : List Tok} {s : Str} (h : TextA lax us s) : ∀ u ∈ us, ∃ w, LexemeA lax w u := by
  induction h with
  | nil => simp
  | cons _ hw _ ih =>
    intro u hu
    rcases List.mem_cons.1 hu with rfl | hu
    · exact ⟨_, hw⟩
    · exact ih u hu

theorem sane_spells {ts us : List Tok} (h : SpellsA ts us) (hu : ∀ u ∈ us, ∃ w, LexemeA True w u) : Sane ts := by
  have cons : ∀ {k : Tok} {ts : List Tok}, SaneTok k → Sane ts → Sane (k :: ts) := by
    intro k ts h1 h2 x hx
    rcases List.mem_cons.1 hx with rfl | hx
    · exact h1
    · exact h2 x hx
  induction h with
  | nil => intro k hk; simp at hk
  | @same k ts us hi _ ih =>
    obtain ⟨w, hw⟩ := hu k (by simp)
    exact cons ((sane_lexeme hw).resolve_left fun h => hi h.1).2 (ih fun u h => hu u (by simp [h]))
  | operator hm _ ih =>
    have : ∀ e ∈ wordOperators, SaneTok ⟨e.2, e.1⟩ := by decide
    exact cons (this _ hm) (ih fun u h => hu u (by simp [h]))
  | pair hm _ ih =>
    have : ∀ e ∈ wordPairs, SaneTok ⟨e.2.2, e.1⟩ := by decide
    exact cons (this _ hm) (ih fun u h => hu u (by simp [h]))
  | marked hm _ _ ih =>
    have : ∀ e ∈ markedWords, SaneTok ⟨e.2.2, e.1⟩ := by decide
    exact cons (this _ hm) (ih fun u h => hu u (by simp [h]))
  | @name n ts us _ ih =>
    refine cons ?_ (ih fun u h => hu u (by simp [h]))
    obtain ⟨w, hw⟩ := hu ⟨.innerName, n⟩ (by simp)
    have hn : n ≠ [] := by
      rcases sane_lexeme hw with h | h
      · exact h.2
      · exact absurd rfl h.1
    exact ⟨by simpa using hn, by simp, by simp, by simp, by simp, by simp, by simp, by simp, by simp⟩

end Lexer
end Amxml
