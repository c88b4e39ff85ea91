import Verif.Lemmas.Lexer
import Verif.Spec.XLexer
import Verif.Model.Eval

/-!
# C50 (string literals), C51 (comments), C52 (the lexer terminates and keeps its sentinels)
-/

namespace Amxml
open Spec Lexer

/-! ## C50 -/

theorem fetchString_quoted (q : Char) (hq : q ≠ EOFC) (s r : Str) (hs : '\x00' ∉ s) (hr : r.head? ≠ some q) :
    fetchString q (s.flatMap (fun c => if c = q then [q, q] else [c]) ++ q :: r) = some (s, r) := by
  induction s with
  | nil =>
    cases r with
    | nil => simp [fetchString, hq]
    | cons d r =>
      have : d ≠ q := by simpa using hr
      simp [fetchString, hq, this]
  | cons c s ih =>
    simp only [List.mem_cons, not_or] at hs
    have ih := ih hs.2
    have hc : c ≠ EOFC := fun h => hs.1 h.symm
    by_cases h : c = q
    · subst h
      simp only [List.flatMap_cons, if_true, List.append_assoc, List.cons_append, List.nil_append]
      rw [fetchString]
      simp [hq, ih]
    · simp only [List.flatMap_cons, if_neg h, List.append_assoc, List.cons_append, List.nil_append]
      generalize hX : s.flatMap (fun c => if c = q then [q, q] else [c]) ++ q :: r = X at ih ⊢
      cases X with
      | nil => simp at hX
      | cons d X =>
        rw [fetchString]
        simp [hc, h, ih]

theorem fetchString_nul (q : Char) (hq : q ≠ EOFC) (s r : Str) (hs : '\x00' ∈ s) :
    fetchString q (s.flatMap (fun c => if c = q then [q, q] else [c]) ++ q :: r) = none := by
  induction s with
  | nil => simp at hs
  | cons c s ih =>
    by_cases hc : c = EOFC
    · have h : c ≠ q := fun h => hq (h ▸ hc)
      simp only [List.flatMap_cons, if_neg h, List.append_assoc, List.cons_append, List.nil_append]
      generalize hX : s.flatMap (fun c => if c = q then [q, q] else [c]) ++ q :: r = X
      cases X with
      | nil => simp at hX
      | cons d X => rw [fetchString]; simp [hc]
    · have hs' : '\x00' ∈ s := by
        rcases List.mem_cons.1 hs with h | h
        · exact absurd h.symm hc
        · exact h
      have ih := ih hs'
      by_cases h : c = q
      · subst h
        simp only [List.flatMap_cons, if_true, List.append_assoc, List.cons_append, List.nil_append]
        rw [fetchString]
        simp [ih]
      · simp only [List.flatMap_cons, if_neg h, List.append_assoc, List.cons_append, List.nil_append]
        generalize hX : s.flatMap (fun c => if c = q then [q, q] else [c]) ++ q :: r = X at ih ⊢
        cases X with
        | nil => simp at hX
        | cons d X =>
          rw [fetchString]
          simp [h, ih]

/-- A text that begins with a quote character begins with no keyword. -/
theorem getTok_quote (q : Char) (hq : q = '"' ∨ q = '\'') (s : Str) :
    getTok (q :: s) = match fetchString q s with
      | some r => .ok (⟨.stringLiteral, r.1⟩, r.2)
      | none => .error .syntaxError := by
  rcases hq with rfl | rfl
  · have h1 : stripPrefix (S "(:") ('"' :: s) = none := rfl
    have h2 : stripPrefix (S "Q{") ('"' :: s) = none := rfl
    have h3 : matchKeyword keywords ('"' :: s) = none := rfl
    have h4 : isNameStart '"' = false := by decide
    simp only [getTok, h1, h2, h3, getTokChar, h4]
    rfl
  · have h1 : stripPrefix (S "(:") ('\'' :: s) = none := rfl
    have h2 : stripPrefix (S "Q{") ('\'' :: s) = none := rfl
    have h3 : matchKeyword keywords ('\'' :: s) = none := rfl
    have h4 : isNameStart '\'' = false := by decide
    simp only [getTok, h1, h2, h3, getTokChar, h4]
    rfl

/-- **C50**, where a token may start: the literal is read as one string literal token with the original text, and reading goes on
right behind it. -/
theorem C50_literal_token (q : Char) (hq : q = '"' ∨ q = '\'') (s r : Str) (hs : '\x00' ∉ s) (hr : r.head? ≠ some q) :
    getTok (quoted q s ++ r) = .ok (⟨.stringLiteral, s⟩, r) := by
  have hq0 : q ≠ EOFC := by rcases hq with rfl | rfl <;> decide
  simp only [quoted, List.cons_append, List.append_assoc, List.nil_append]
  rw [getTok_quote q hq, fetchString_quoted q hq0 s r hs hr]

theorem toks_quoted (q : Char) (hq : q = '"' ∨ q = '\'') (s : Str) (hs : '\x00' ∉ s) :
    toks (quoted q s) = .ok [⟨.stringLiteral, s⟩] := by
  have h1 := C50_literal_token q hq s [] hs (by simp)
  have h2 : Lexer.skipSpaces (quoted q s) = quoted q s := by
    simp only [quoted, List.cons_append]
    rcases hq with rfl | rfl <;> rfl
  rw [List.append_nil] at h1
  rw [toks_eq, h2, h1]
  rfl

/-- **C50**: a quoted text is, as a whole expression, one string literal token between the sentinels; it evaluates to that text, at
every node of every document. -/
theorem C50_literal (q : Char) (hq : q = '"' ∨ q = '\'') (s : Str) (hs : '\x00' ∉ s) :
    Lexer.new (quoted q s) = .ok [⟨.eof, []⟩, ⟨.stringLiteral, s⟩, ⟨.eof, []⟩] ∧
    ∀ h n start, evalXPath h (n + 1) start (quoted q s) = .ok [.string s] := by
  have h1 : Lexer.new (quoted q s) = .ok [⟨.eof, []⟩, ⟨.stringLiteral, s⟩, ⟨.eof, []⟩] := by
    have := toks_quoted q hq s hs
    unfold toks at this
    rw [Lexer.new, this]
    simp [Except.bind, rewriteOperatorType, operatorTok, rewritePairWords, eliminateNops, rewriteNameAndSymbol, symbolTok,
      eofTok]
  refine ⟨h1, fun h n start => ?_⟩
  have h2 : Parser.compileXPath (quoted q s) = .ok (Parser.leaf .stringLiteral s) := by
    rw [Parser.compileXPath, h1]
    rfl
  rw [evalXPath, h2]
  rfl

/-- Beside C50: a text with U+0000 cannot be written as a literal. -/
theorem C50_nul (q : Char) (hq : q = '"' ∨ q = '\'') (s : Str) (hs : '\x00' ∈ s) :
    Lexer.new (quoted q s) = .error .syntaxError := by
  have hq0 : q ≠ EOFC := by rcases hq with rfl | rfl <;> decide
  have h2 : Lexer.skipSpaces (quoted q s) = quoted q s := by
    simp only [quoted, List.cons_append]
    rcases hq with rfl | rfl <;> rfl
  have h1 : getTok (quoted q s) = .error .syntaxError := by
    simp only [quoted, List.cons_append, List.nil_append]
    rw [getTok_quote q hq, fetchString_nul q hq0 s [] hs]
  have h3 : toks (quoted q s) = .error .syntaxError := by
    rw [toks_eq, h2, h1]; rfl
  unfold toks at h3
  rw [Lexer.new, h3]; rfl

/-- `"it's ""quoted"""` is a literal for a text with both quote characters. -/
example : quoted '"' (S "it's \"quoted\"") = S "\"it's \"\"quoted\"\"\"" ∧ '\x00' ∉ S "it's \"quoted\"" := by decide

/-! ## C51 -/

/-- The text `p ++ r` is read as tokens, comments and white space up to the end of `p`, and the next token starts in `r`. -/
inductive Spec.TokenStart : Str → Str → Prop where
  | nil (r : Str) : TokenStart [] r
  | white (c : Char) (p r : Str) (hc : IsWhite c) (hp : TokenStart p r) : TokenStart (c :: p) r
  | next (a p r : Str) (t : Tok) (h : getTok (Lexer.skipSpaces (a ++ p ++ r)) = .ok (t, p ++ r)) (ht : t.ty ≠ .eof)
      (hp : TokenStart p r) : TokenStart (a ++ p) r

theorem head_no_open {c : Char} {s : Str} (h : ¬ S "(:" <+: c :: s) : ¬ (c = '(' ∧ s.head? = some ':') := by
  rintro ⟨rfl, h2⟩
  cases s with
  | nil => cases h2
  | cons d s =>
    simp at h2
    subst h2
    exact h ⟨s, rfl⟩

theorem head_no_close {c : Char} {s : Str} (h : ¬ S ":)" <+: c :: s) : ¬ (c = ':' ∧ s.head? = some ')') := by
  rintro ⟨rfl, h2⟩
  cases s with
  | nil => cases h2
  | cons d s =>
    simp at h2
    subst h2
    exact h ⟨s, rfl⟩

theorem skipComment_body {a : Str} (ha : CommentBody a) (n : Nat) (r : Str) :
    skipComment (n + 1) (a ++ S ":)" ++ r) = skipComment n r := by
  induction ha generalizing n r with
  | nil => simp [S, skipComment, EOFC]
  | char c b hb h0 h1 h2 ih =>
    have ih := ih n r
    have hn1 := head_no_open h1
    have hn2 := head_no_close h2
    have hX : ∃ d X, b ++ S ":)" = d :: X := by cases b <;> simp [S]
    obtain ⟨d, X, hX⟩ := hX
    rw [hX] at hn1 hn2
    simp only [List.cons_append]
    rw [hX] at ih ⊢
    simp only [List.cons_append] at ih ⊢
    have h0' : c ≠ EOFC := h0
    simp at hn1 hn2
    rw [skipComment]
    by_cases h3 : c = '('
    · simp [h3, EOFC, hn1 h3, ih]
    · by_cases h4 : c = ':'
      · simp [h4, EOFC, hn2 h4, ih]
      · simp [h3, h4, h0', ih]
  | comment a b ha hb iha ihb =>
    have h1 : S "(:" ++ a ++ S ":)" ++ b ++ S ":)" ++ r = '(' :: ':' :: (a ++ S ":)" ++ (b ++ S ":)" ++ r)) := by
      simp [S]
    rw [h1, skipComment]
    simp only [EOFC]
    simp [-List.append_assoc, iha, ihb]

theorem toks_comment {a : Str} (ha : CommentBody a) (r : Str) : toks (comment a ++ r) = toks r := by
  have h1 : Lexer.skipSpaces (comment a ++ r) = S "(:" ++ (a ++ S ":)" ++ r) := by
    simp [comment, S, Lexer.skipSpaces, EOFC, isSpaceX]
  have h2 : getTok (S "(:" ++ (a ++ S ":)" ++ r)) = .ok (⟨.nop, []⟩, r) := by
    unfold getTok
    rw [stripPrefix_append]
    simp only
    rw [skipComment_body ha 0 r]
    simp [skipComment]
  rw [toks_eq, h1, h2]
  rfl

theorem toks_white {c : Char} (hc : IsWhite c) (r : Str) : toks (c :: r) = toks r := by
  have h1 : Lexer.skipSpaces (c :: r) = Lexer.skipSpaces r := by
    have h2 : isSpaceX c = true := (isSpaceX_iff c).2 hc
    have h3 : c ≠ EOFC := by rcases hc with rfl | rfl | rfl | rfl <;> decide
    simp [Lexer.skipSpaces, h2, h3]
  rw [toks_eq, h1, ← toks_eq]

theorem skipSpaces_local {a X q : Str} (hq : q ≠ []) (h : Lexer.skipSpaces (a ++ X) = q ++ X) (X' : Str) :
    Lexer.skipSpaces (a ++ X') = q ++ X' := by
  induction a with
  | nil =>
    have := skipSpaces_length X
    have h2 := congrArg List.length h
    have := List.length_pos_of_ne_nil hq
    simp at h2
    omega
  | cons c a ih =>
    simp only [List.cons_append, Lexer.skipSpaces] at h ⊢
    by_cases h1 : c = EOFC
    · simp only [h1, if_true] at h ⊢
      rw [List.append_cancel_right h]
    · simp only [h1, if_false] at h ⊢
      by_cases h2 : isSpaceX c = true
      · simp only [h2, if_true] at h ⊢
        exact ih h
      · rw [if_neg h2, ← List.cons_append] at h ⊢
        rw [List.append_cancel_right h]

/-- Text put in where a token may start, beginning with a delimiter, leaves the tokens before it as they are. -/
theorem toks_insert {p r : Str} (hp : TokenStart p r) (w : Str) (hw : Delim (w ++ r)) (hw' : toks (w ++ r) = toks r) :
    toks (p ++ w ++ r) = toks (p ++ r) := by
  induction hp with
  | nil r => simpa using hw'
  | white c p r hc hp ih =>
    have ih := ih hw hw'
    simp only [List.cons_append]
    rw [toks_white hc, toks_white hc, ← ih]
  | next a p r t h ht hp ih =>
    have ih := ih hw hw'
    obtain ⟨q, hs, hq, hl⟩ := getTok_local h ht
    have hs' := skipSpaces_local (a := a) (X := p ++ r) hq (by simpa using hs) (p ++ w ++ r)
    have hlike : Like (p ++ r) (p ++ (w ++ r)) := (hw.like r).append p
    have hl' := hl (p ++ w ++ r) (by simpa using hlike)
    have e1 : a ++ p ++ w ++ r = a ++ (p ++ w ++ r) := by simp
    rw [e1, toks_eq (a ++ (p ++ w ++ r)), hs', hl']
    have e2 : a ++ p ++ r = a ++ (p ++ r) := by simp
    rw [toks_eq (a ++ p ++ r), h]
    simp only [Except.bind, ih]

/-- **C51**: a comment, nested to any depth, put in anywhere a token may start, changes nothing. -/
theorem C51_comment (p r a : Str) (hp : TokenStart p r) (ha : CommentBody a) :
    Lexer.new (p ++ comment a ++ r) = Lexer.new (p ++ r) := by
  have h := toks_insert hp (comment a) (by simp [comment, S, Delim]) (toks_comment ha r)
  unfold toks at h
  rw [Lexer.new, Lexer.new, h]

/-- **C51**, at the beginning of an expression, and for the queries. -/
theorem C51_comment_eval (h : Heap) (n : Nat) (start : NodeId) (p r a : Str) (hp : TokenStart p r) (ha : CommentBody a) :
    evalXPath h n start (p ++ comment a ++ r) = evalXPath h n start (p ++ r) := by
  simp only [evalXPath, Parser.compileXPath, C51_comment p r a hp ha]

/-- Beside C51: the same for white space. -/
theorem C51_white (p r : Str) (c : Char) (hp : TokenStart p r) (hc : IsWhite c) :
    Lexer.new (p ++ [c] ++ r) = Lexer.new (p ++ r) := by
  have h := toks_insert hp [c] (by
    intro d hd
    simp at hd
    exact Or.inl (hd ▸ (isSpaceX_iff c).2 hc)) (toks_white hc r)
  unfold toks at h
  rw [Lexer.new, Lexer.new, h]

/-- What the lexer skips as a comment is a comment in the sense of the specification. -/
theorem skipComment_only {n : Nat} {s r : Str} (h : skipComment (n + 1) s = some r) :
    ∃ a s', CommentBody a ∧ s = a ++ S ":)" ++ s' ∧ skipComment n s' = some r := by
  generalize hk : s.length = k
  induction k using Nat.strongRecOn generalizing n s r with
  | _ k ih =>
  match s, h with
  | [], h => simp [skipComment] at h
  | [_], h => simp [skipComment] at h
  | c :: d :: s, h =>
    rw [skipComment] at h
    have step : ∀ {c : Char}, c ≠ EOFC → (c = '(' → d ≠ ':') → (c = ':' → d ≠ ')') →
        skipComment (n + 1) (d :: s) = some r → k = s.length + 2 →
        ∃ a s', CommentBody a ∧ c :: d :: s = a ++ S ":)" ++ s' ∧ skipComment n s' = some r := by
      intro c h0 h1 h2 hh hk
      obtain ⟨a, s', ha, hs, hr⟩ := ih (s.length + 1) (by omega) hh (by simp)
      refine ⟨c :: a, s', .char c a ha h0 ?_ ?_, by rw [hs]; simp, hr⟩
      · rintro ⟨x, hx⟩
        cases a with
        | nil => simp [S] at hx hs; exact h1 hx.1.symm hs.1
        | cons e a => simp [S] at hx hs; exact h1 hx.1.symm (hs.1 ▸ hx.2.1.symm)
      · rintro ⟨x, hx⟩
        cases a with
        | nil => simp [S] at hx
        | cons e a => simp [S] at hx hs; exact h2 hx.1.symm (hs.1 ▸ hx.2.1.symm)
    have hk' : k = s.length + 2 := by simp at hk; omega
    by_cases h0 : c = EOFC
    · simp [h0] at h
    · rw [if_neg h0] at h
      by_cases h1 : c = '('
      · rw [if_pos h1] at h
        by_cases h2 : d = ':'
        · rw [if_pos h2] at h
          obtain ⟨a, s1, ha, hs, hr⟩ := ih s.length (by omega) h rfl
          have hl : s1.length < k := by
            have := congrArg List.length hs
            simp at this; omega
          obtain ⟨b, s2, hb, hs2, hr2⟩ := ih s1.length hl hr rfl
          refine ⟨S "(:" ++ a ++ S ":)" ++ b, s2, .comment a b ha hb, ?_, hr2⟩
          rw [h1, h2, hs, hs2]
          simp [S]
        · rw [if_neg h2] at h
          exact step h0 (fun _ => h2) (fun hc => by rw [h1] at hc; cases hc) h hk'
      · rw [if_neg h1] at h
        by_cases h2 : c = ':'
        · rw [if_pos h2] at h
          by_cases h3 : d = ')'
          · rw [if_pos h3] at h
            exact ⟨[], s, .nil, by simp [S, h2, h3], h⟩
          · rw [if_neg h3] at h
            exact step h0 (fun hc => absurd hc h1) (fun _ => h3) h hk'
        · rw [if_neg h2] at h
          exact step h0 (fun hc => absurd hc h1) (fun hc => absurd hc h2) h hk'

/-- Beside C51: behind `(:` the lexer either skips exactly one well-formed comment or rejects the expression. -/
theorem C51_only_comments (s : Str) :
    (∃ a r, CommentBody a ∧ S "(:" ++ s = comment a ++ r ∧ getTok (S "(:" ++ s) = .ok (⟨.nop, []⟩, r)) ∨
    ((¬ ∃ a r, CommentBody a ∧ S "(:" ++ s = comment a ++ r) ∧ getTok (S "(:" ++ s) = .error .syntaxError) := by
  cases h : skipComment 1 s with
  | some r =>
    left
    obtain ⟨a, s', ha, rfl, hr⟩ := skipComment_only h
    simp [skipComment] at hr
    subst hr
    refine ⟨a, s', ha, by simp [comment], ?_⟩
    unfold getTok
    rw [stripPrefix_append]
    simp only [h]
  | none =>
    right
    constructor
    · rintro ⟨a, r, ha, he⟩
      have : s = a ++ S ":)" ++ r := by
        simpa [comment, List.append_assoc] using he
      rw [this, skipComment_body ha] at h
      simp [skipComment] at h
    · unfold getTok
      rw [stripPrefix_append]
      simp only [h]

/-- `(: a (: b :) ) :)` is a comment; in `a(: … :)` a token may start behind the `a`. -/
example : ∃ a, CommentBody a ∧ comment a = S "(: (:b:) ) :)" := by
  refine ⟨S " (:b:) ) ", ?_, by decide⟩
  have hb : CommentBody (S "b") := .char 'b' [] .nil (by decide) (by decide) (by decide)
  have h1 : CommentBody (S " ) ") :=
    .char ' ' _ (.char ')' _ (.char ' ' _ .nil (by decide) (by decide) (by decide)) (by decide) (by decide) (by decide))
      (by decide) (by decide) (by decide)
  exact .char ' ' _ (.comment (S "b") (S " ) ") hb h1) (by decide) (by decide) (by decide)

example : TokenStart (S "a ") (S "+ b") :=
  .next (S "a") (S " ") (S "+ b") ⟨.innerName, S "a"⟩ (by rfl) (by decide)
    (.white ' ' [] (S "+ b") (by decide) (.nil _))

/-! ## C52 -/

theorem getTok_error {s : Str} {e : XErr} (h : getTok s = .error e) : e = .syntaxError := by
  have hE : ∀ s e, fetchAfterE s = .error e → e = .syntaxError := by
    intro s e h
    unfold fetchAfterE at h
    repeat' split at h
    all_goals first | exact (Except.error.inj h).symm | cases h
  have hP : ∀ s e, fetchAfterPeriod s = .error e → e = .syntaxError := by
    intro s e h
    unfold fetchAfterPeriod at h
    split at h
    · rename_i s
      cases he : fetchAfterE (fetchDigits s).2 with
      | error e' => rw [he] at h; simp [Except.map] at h; exact h ▸ hE _ _ he
      | ok r => rw [he] at h; simp [Except.map] at h
    · cases h
  have hN : ∀ s e, fetchNumericLiteral s = .error e → e = .syntaxError := by
    intro s e h
    unfold fetchNumericLiteral at h
    split at h
    · cases h
    · rename_i c s
      split at h
      · cases hp : fetchAfterPeriod (fetchDigits s).2 with
        | error e' => rw [hp] at h; simp [Except.bind] at h; exact h ▸ hP _ _ hp
        | ok p =>
          rw [hp] at h
          simp only [Except.bind] at h
          cases he : fetchAfterE p.2 with
          | error e' => rw [he] at h; simp [Except.map] at h; exact h ▸ hE _ _ he
          | ok r => rw [he] at h; simp [Except.map] at h
      · split at h
        · exact hP _ _ h
        · cases h
  have hN' : ∀ s e, fetchNumerics s = .error e → e = .syntaxError := by
    intro s e h
    unfold fetchNumerics at h
    cases he : fetchNumericLiteral s with
    | error e' => rw [he] at h; simp [Except.map] at h; exact h ▸ hN _ _ he
    | ok r => rw [he] at h; simp [Except.map] at h
  have hC : ∀ s e, getTokChar s = .error e → e = .syntaxError := by
    intro s e h
    unfold getTokChar at h
    repeat' split at h
    all_goals first | exact (Except.error.inj h).symm | cases h; done | exact hN' _ _ h
  have hG : ∀ s e, getTok s = .error e → e = .syntaxError := by
    intro s e h
    unfold getTok at h
    repeat' split at h
    all_goals first | exact (Except.error.inj h).symm | cases h; done | exact hC _ _ h
  exact hG _ _ h

/-- The tokens of any text are found, or the text is rejected with a syntax error. -/
theorem toks_total (s : Str) : (∃ l, toks s = .ok l) ∨ toks s = .error .syntaxError := by
  generalize hk : s.length = k
  induction k using Nat.strongRecOn generalizing s with
  | _ k ih =>
  rw [toks_eq]
  cases hg : getTok (Lexer.skipSpaces s) with
  | error e =>
    rw [getTok_error hg]
    exact Or.inr rfl
  | ok r =>
    obtain ⟨t, r⟩ := r
    simp only [Except.bind]
    by_cases h1 : t.ty = .eof
    · exact Or.inl ⟨[], by simp [h1]⟩
    · have h2 := getTok_length hg h1
      have h3 := skipSpaces_length s
      rw [if_neg h1]
      have ih := ih r.length (by omega) r rfl
      by_cases h4 : t.ty = .nop
      · rw [if_pos h4]; exact ih
      · rw [if_neg h4]
        rcases ih with ⟨l, h⟩ | h
        · exact Or.inl ⟨t :: l, by rw [h]; rfl⟩
        · exact Or.inr (by rw [h]; rfl)

theorem toks_types {s : Str} {l : List Tok} (h : toks s = .ok l) : ∀ t ∈ l, t.ty ≠ .eof ∧ t.ty ≠ .nop := by
  generalize hk : s.length = k
  induction k using Nat.strongRecOn generalizing s l with
  | _ k ih =>
  rw [toks_eq] at h
  cases hg : getTok (Lexer.skipSpaces s) with
  | error e => rw [hg] at h; cases h
  | ok r =>
    obtain ⟨t, r⟩ := r
    rw [hg] at h
    simp only [Except.bind] at h
    by_cases h1 : t.ty = .eof
    · rw [if_pos h1] at h
      cases h
      simp
    · have h2 := getTok_length hg h1
      have h3 := skipSpaces_length s
      rw [if_neg h1] at h
      by_cases h4 : t.ty = .nop
      · rw [if_pos h4] at h
        exact ih r.length (by omega) h rfl
      · rw [if_neg h4] at h
        cases hr : toks r with
        | error e => rw [hr] at h; cases h
        | ok l' =>
          rw [hr] at h
          cases h
          intro x hx
          rcases List.mem_cons.1 hx with rfl | hx
          · exact ⟨h1, h4⟩
          · exact ih r.length (by omega) hr rfl x hx

theorem operatorWords_types : ∀ e ∈ operatorWords, e.2 ≠ .eof ∧ e.2 ≠ .nop := by decide

theorem operatorTok_types (prev : TType) (t : Tok) (ht : t.ty ≠ .eof ∧ t.ty ≠ .nop) :
    (operatorTok prev t).ty ≠ .eof ∧ (operatorTok prev t).ty ≠ .nop := by
  unfold operatorTok
  split
  · split
    · rename_i e he
      exact operatorWords_types e (List.mem_of_find?_eq_some he)
    · exact ht
  · exact ht

theorem rewriteOperatorType_types (l : List Tok) (prev : TType) (hl : ∀ t ∈ l, t.ty ≠ .eof ∧ t.ty ≠ .nop) :
    ∀ t ∈ rewriteOperatorType prev l, t.ty ≠ .eof ∧ t.ty ≠ .nop := by
  induction l generalizing prev with
  | nil => simp [rewriteOperatorType]
  | cons a l ih =>
    intro t ht
    rcases List.mem_cons.1 ht with rfl | ht
    · exact operatorTok_types prev a (hl a (by simp))
    · exact ih _ (fun t ht => hl t (by simp [ht])) t ht

theorem pairWords_types : ∀ e ∈ pairWords, e.2.2 ≠ .eof ∧ e.2.2 ≠ .nop ∧ e.2.2 ≠ .innerName := by decide

theorem pairEntry_types {a b : Tok} {t : TType} (h : pairEntry a b = some t) : t ≠ .eof ∧ t ≠ .nop := by
  unfold pairEntry at h
  split at h
  · simp only [Option.map_eq_some_iff] at h
    obtain ⟨e, he, rfl⟩ := h
    have := pairWords_types e (List.mem_of_find?_eq_some he)
    exact ⟨this.1, this.2.1⟩
  · cases h

/-- The first token is no placeholder: it is kept. -/
theorem rewritePairWords_head {a : Tok} {l : List Tok} (ha : a.ty ≠ .nop) :
    ∃ b r, rewritePairWords (a :: l) = b :: r ∧ b.ty ≠ .nop := by
  cases l with
  | nil => exact ⟨a, [], by simp [rewritePairWords], ha⟩
  | cons b l =>
    rw [rewritePairWords]
    split
    · rename_i t ht
      exact ⟨_, _, rfl, (pairEntry_types ht).2⟩
    · exact ⟨_, _, rfl, ha⟩

theorem rewritePairWords_types (l : List Tok) (hl : ∀ t ∈ l, t.ty ≠ .eof) :
    ∀ t ∈ rewritePairWords l, t.ty ≠ .eof := by
  fun_induction rewritePairWords l with
  | case1 => simp
  | case2 a => simpa using hl
  | case3 a b r t ht ih =>
    intro x hx
    rcases List.mem_cons.1 hx with rfl | hx
    · exact (pairEntry_types ht).1
    · refine ih ?_ x hx
      intro y hy
      rcases List.mem_cons.1 hy with rfl | hy
      · simp
      · exact hl y (by simp [hy])
  | case4 a b r ht ih =>
    intro x hx
    rcases List.mem_cons.1 hx with rfl | hx
    · exact hl x (by simp)
    · exact ih (fun y hy => hl y (List.mem_cons_of_mem _ hy)) x hx

theorem nameAndSymbolTbl_types : ∀ e ∈ nameAndSymbolTbl, e.2.2 ≠ .eof ∧ e.2.2 ≠ .nop ∧ e.2.2 ≠ .innerName := by decide

theorem rewriteNameAndSymbol_types (l : List Tok) (hl : ∀ t ∈ l, t.ty ≠ .eof ∧ t.ty ≠ .nop) :
    ∀ t ∈ rewriteNameAndSymbol l, t.ty ≠ .eof ∧ t.ty ≠ .nop ∧ t.ty ≠ .innerName := by
  induction l with
  | nil => simp [rewriteNameAndSymbol]
  | cons a l ih =>
    intro t ht
    rcases List.mem_cons.1 ht with rfl | ht
    · have ha := hl a (by simp)
      unfold symbolTok
      split
      · split
        · rename_i e he
          exact nameAndSymbolTbl_types e (List.mem_of_find?_eq_some he)
        · simp
      · rename_i hn
        exact ⟨ha.1, ha.2, by simpa using hn⟩
    · exact ih (fun t ht => hl t (by simp [ht])) t ht

theorem rewriteNameAndSymbol_length (l : List Tok) : (rewriteNameAndSymbol l).length = l.length := by
  induction l with
  | nil => rfl
  | cons a l ih => simp [rewriteNameAndSymbol, ih]

theorem new_eq (s : Str) : Lexer.new s = (toks s).bind fun ts =>
    if (rewriteOperatorType .eof ts).isEmpty then .error .panic
    else .ok (eofTok :: rewriteNameAndSymbol (eliminateNops (rewritePairWords (rewriteOperatorType .eof ts))) ++ [eofTok]) := rfl

theorem rewriteOperatorType_isEmpty (prev : TType) (l : List Tok) :
    (rewriteOperatorType prev l).isEmpty = l.isEmpty := by
  cases l <;> rfl

/-- **C52**: for every text the lexer finds its tokens, reports an error, or (see `C52_panics`) panics; it never runs out of turns. The
token vector begins and ends with the EOF sentinel, there is at least one token between them, and none of those is a sentinel, a
placeholder or a name not yet classified. -/
theorem C52_lexer_total (s : Str) :
    Lexer.new s ≠ .error .outOfFuel ∧
    ∀ ts, Lexer.new s = .ok ts → ∃ m, ts = ⟨.eof, []⟩ :: m ++ [⟨.eof, []⟩] ∧ m ≠ [] ∧
      ∀ t ∈ m, t.ty ≠ .eof ∧ t.ty ≠ .nop ∧ t.ty ≠ .innerName := by
  rw [new_eq]
  constructor
  · rcases toks_total s with ⟨l, h⟩ | h
    · rw [h]
      simp only [Except.bind]
      split <;> simp
    · rw [h]; simp [Except.bind]
  · intro ts hts
    cases h : toks s with
    | error e => rw [h] at hts; cases hts
    | ok l =>
      rw [h] at hts
      simp only [Except.bind, rewriteOperatorType_isEmpty] at hts
      split at hts
      · cases hts
      · rename_i hne
        cases hts
        have ht := rewriteOperatorType_types l .eof (toks_types h)
        refine ⟨_, rfl, ?_, ?_⟩
        · cases l with
          | nil => simp at hne
          | cons a l =>
            have ha : (operatorTok .eof a).ty ≠ .nop := (operatorTok_types .eof a (toks_types h a (by simp))).2
            obtain ⟨b, r, hb, hbt⟩ := rewritePairWords_head (l := rewriteOperatorType (operatorTok .eof a).ty l) ha
            simp [rewriteOperatorType, hb, eliminateNops, hbt, rewriteNameAndSymbol]
        · apply rewriteNameAndSymbol_types
          intro t h1
          simp only [eliminateNops, List.mem_filter] at h1
          exact ⟨rewritePairWords_types _ (fun x hx => (ht x hx).1) t h1.1, by simpa using h1.2⟩

theorem toks_blank {s : Str} (h : Blank s) : toks s = .ok [] := by
  induction h with
  | nil => rfl
  | white c s hc hs ih => rw [toks_white hc, ih]
  | comment a s ha hs ih => rw [toks_comment ha, ih]

theorem toks_blank_only {s : Str} (h0 : '\x00' ∉ s) (h : toks s = .ok []) : Blank s := by
  generalize hk : s.length = k
  induction k using Nat.strongRecOn generalizing s with
  | _ k ih =>
  cases s with
  | nil => exact .nil
  | cons c s =>
    by_cases hc : IsWhite c
    · rw [toks_white hc] at h
      exact .white c s hc (ih s.length (by simp at hk; omega) (fun hx => h0 (by simp [hx])) h rfl)
    · have hc0 : c ≠ EOFC := fun hx => h0 (by rw [hx]; simp [EOFC])
      have hsp : Lexer.skipSpaces (c :: s) = c :: s := by
        have : isSpaceX c = false := by
          cases hx : isSpaceX c with
          | false => rfl
          | true => exact absurd ((isSpaceX_iff c).1 hx) hc
        simp [Lexer.skipSpaces, hc0, this]
      rw [toks_eq, hsp] at h
      cases hg : getTok (c :: s) with
      | error e => rw [hg] at h; cases h
      | ok r =>
        obtain ⟨t, r⟩ := r
        rw [hg] at h
        simp only [Except.bind] at h
        by_cases h1 : t.ty = .eof
        · exfalso
          unfold getTok at hg
          repeat' split at hg
          any_goals (cases hg; done)
          · rename_i h2; simp at hg; rw [← hg.1] at h1; cases h1
          · rename_i h2; simp at hg; rw [← hg.1] at h1; cases h1
          · rename_i r0 h2
            simp at hg
            subst hg
            obtain ⟨k, hk, rfl, -, -⟩ := matchKeyword_local keywords_solid h2
            exact (keywords_ty k hk).2 h1
          · simp only [getTokChar, if_neg hc0] at hg
            repeat' split at hg
            any_goals (cases hg; done)
            all_goals first
              | (simp at hg; rw [← hg.1] at h1; cases h1; done)
              | (rcases fetchNumerics_ty hg with h | h | h <;> rw [h] at h1 <;> cases h1; done)
        · rw [if_neg h1] at h
          by_cases h2 : t.ty = .nop
          · rw [if_pos h2] at h
            obtain ⟨r0, hr0⟩ := (getTok_nop hg).1 h2
            rw [← hr0] at hg
            rcases C51_only_comments r0 with ⟨a, r', ha, he, hg'⟩ | ⟨-, hg'⟩
            · rw [hg'] at hg
              simp at hg
              obtain ⟨-, rfl⟩ := hg
              rw [← hr0, he]
              refine .comment a r' ha (ih r'.length ?_ ?_ h rfl)
              · have := congrArg List.length (hr0.symm.trans he)
                simp [comment, S] at this
                simp at hk
                omega
              · intro hx
                apply h0
                rw [← hr0, he]
                simp [hx]
            · rw [hg'] at hg; cases hg
          · rw [if_neg h2] at h
            cases hr : toks r with
            | error e => rw [hr] at h; cases h
            | ok l => rw [hr] at h; cases h

/-- Beside C52: exactly the expressions of nothing but white space and comments make `eval_xpath` panic in the lexer (it reads the third of
two tokens). -/
theorem C52_panics (s : Str) (h0 : '\x00' ∉ s) : Lexer.new s = .error .panic ↔ Blank s := by
  rw [new_eq]
  constructor
  · intro h
    apply toks_blank_only h0
    rcases toks_total s with ⟨l, hl⟩ | hl
    · rw [hl] at h
      simp only [Except.bind, rewriteOperatorType_isEmpty] at h
      split at h
      · rename_i hne
        rw [hl, List.isEmpty_iff.1 hne]
      · cases h
    · rw [hl] at h; cases h
  · intro h
    rw [toks_blank h]
    rfl

/-- The clause of C52 that every input gives a token list or an error is violated: the empty expression panics. -/
theorem C52_violated : Lexer.new [] = .error .panic ∧ Lexer.new (S " (: nothing :)") = .error .panic := by
  constructor
  · exact (C52_panics [] (by simp)).2 .nil
  · decide +kernel

/-- **C52**, the part that holds: an expression with a token in it is lexed to a token vector or rejected as a syntax error. -/
theorem C52_lexer_total_partial (s : Str) (h0 : '\x00' ∉ s) (hs : ¬ Blank s) :
    (∃ ts, Lexer.new s = .ok ts) ∨ Lexer.new s = .error .syntaxError := by
  have hp : Lexer.new s ≠ .error .panic := fun h => hs ((C52_panics s h0).1 h)
  rw [new_eq] at hp ⊢
  rcases toks_total s with ⟨l, h⟩ | h
  · rw [h] at hp ⊢
    simp only [Except.bind] at hp ⊢
    split
    · rename_i hc
      rw [if_pos hc] at hp
      exact absurd rfl hp
    · exact Or.inl ⟨_, rfl⟩
  · rw [h]; exact Or.inr rfl

example : ¬ Blank (S "//a[1]") ∧ Lexer.new (S "@a") = .ok [⟨.eof, []⟩, ⟨.at, S "@"⟩, ⟨.name, S "a"⟩, ⟨.eof, []⟩] := by
  constructor
  · intro h
    generalize hx : S "//a[1]" = x at h
    cases h with
    | nil => cases hx
    | white c s hc hs => simp [S] at hx; rw [← hx.1] at hc; exact absurd hc (by decide)
    | comment a s ha hs => simp [S, comment] at hx
  · decide +kernel

end Amxml
