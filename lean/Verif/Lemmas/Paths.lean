import Verif.Spec.Paths
import Verif.Props.XDisplay

/-!
# Every location path is compiled to its tree

The terminals of a location path, how they are read as tokens, and the derivation of its tree.
-/

namespace Amxml
open Spec

/-! ## Terminals -/

theorem word_ends {n r : Str} (hn : IsNCName n) (hr : ∀ c ∈ r.head?, ¬ NameC c ∧ c ≠ '{') : Lexeme n ⟨.innerName, n⟩ ∧ Ends n .innerName r := by
  obtain ⟨⟨a, ha, hs⟩, hc⟩ := hn
  cases n with
  | nil => cases ha
  | cons b w =>
    obtain rfl : b = a := by simpa using ha
    refine ⟨.word hs fun x hx => hc x (by simp [hx]), fun v u hv hp => ?_, fun h => absurd h (by decide), fun _ h => ?_, fun h => absurd h (by decide), ?_⟩
    · by_contra hl
      obtain ⟨c, r', rfl, z, hz⟩ := longer hp (by omega)
      obtain ⟨h1, h2⟩ := hr c (by simp)
      have hh : v.head? = some b := by rw [← hz]; rfl
      have hcv : c ∈ v := by rw [← hz]; simp
      cases hv with
      | symbol hy =>
        have : ∀ e ∈ symbols, ∀ c ∈ e.1.head?, ¬ NameStartC c := by decide
        exact this _ hy _ hh hs
      | @word d w' h3 h4 =>
        rcases List.mem_cons.1 hcv with rfl | hcv
        · exact h1 (.inl h3)
        · exact h1 (h4 _ hcv)
      | @string q s' hqq _ =>
        have : q = b := by simpa [quoted] using hh
        subst this
        rcases hqq with rfl | rfl <;> revert hs <;> decide
      | @uri u h3 h4 h5 =>
        have e : S "Q{" ++ u ++ S "}" = 'Q' :: '{' :: (u ++ S "}") := by simp [S]
        rw [e] at hz
        simp only [List.cons_append, List.append_assoc, List.cons.injEq] at hz
        obtain ⟨rfl, hz⟩ := hz
        cases w with
        | nil =>
          simp only [List.nil_append, List.cons.injEq] at hz
          exact h2 hz.1
        | cons d w =>
          simp only [List.cons_append, List.cons.injEq] at hz
          have := hc d (by simp)
          rw [hz.1] at this
          revert this; decide
      | integer h0 hd => 
        have := hd _ (head_mem hh)
        rw [Lexer.digit_toNat] at this
        revert hs; unfold NameStartC; simp only; omega
      | decimal hd =>
        obtain ⟨c, m', rfl, h⟩ := Lexer.mantissa_head (.inr hd)
        cases hh
        rcases h with h | ⟨rfl, -⟩
        · rw [Lexer.isDigitX_iff, Lexer.digit_toNat] at h
          revert hs; unfold NameStartC; simp only; omega
        · revert hs; decide
      | double hd =>
        obtain ⟨c, m', rfl, h⟩ := Lexer.mantissa_head hd
        cases hh
        rcases h with h | ⟨rfl, -⟩
        · rw [Lexer.isDigitX_iff, Lexer.digit_toNat] at h
          revert hs; unfold NameStartC; simp only; omega
        · revert hs; decide
    · exact (hr _ h).2 rfl
    · rintro ⟨z, hz⟩
      have hz : '(' :: ':' :: z = b :: (w ++ r) := hz
      have := (List.cons.inj hz).1
      rw [← this] at hs
      revert hs; decide

/-- No symbol continues `w` with the character `d`. -/
def Apart (w : Str) (d : Char) : Prop := (∀ y ∈ symbols, ¬ w ++ [d] <+: y.1) ∧ (w = S "." → Lexer.isDigitX d = false) ∧ (w = S "(" → d ≠ ':')

instance (w : Str) (d : Char) : Decidable (Apart w d) := by unfold Apart; infer_instance

theorem symbol_ends {w r : Str} {t : TType} (hw : (w, t) ∈ symbols) (hr : ∀ d ∈ r.head?, Apart w d) : Lexeme w ⟨t, w⟩ ∧ Ends w t r := by
  have hall : ∀ e ∈ symbols, (∀ c ∈ e.1.head?, ¬ NameStartC c ∧ c ∉ ['"', '\'', 'Q'] ∧ Lexer.isDigitX c = false ∧ (c = '.' → e.1 = S "." ∨ e.1 = S "..") ∧ (c = '(' → e.1 = S "(")) ∧
      e.1 ≠ [] ∧ e.2 ∉ numericKinds ∧ e.2 ≠ .stringLiteral := by decide
  obtain ⟨h1, h2, h3, h4⟩ := hall _ hw
  cases w with
  | nil => exact absurd rfl h2
  | cons a w =>
    obtain ⟨g1, g2, g3, g4, g5⟩ := h1 a rfl
    refine ⟨.symbol hw, fun v u hv hp => ?_, fun h => absurd h h3, fun h => ?_, fun h => absurd h h4, ?_⟩
    · by_contra hl
      obtain ⟨c, r', rfl, hz⟩ := longer hp (by omega)
      have hA := hr c (by simp)
      have hh : v.head? = some a := by obtain ⟨z, hz⟩ := hz; rw [← hz]; rfl
      have dec : ∀ m x : Str, (m ≠ [] ∧ AllDigits m) ∨ DecimalL m → v = m ++ x → False := by
        rintro m x hm rfl
        obtain ⟨b, m', rfl, hb⟩ := Lexer.mantissa_head hm
        cases hh
        rcases hb with hb | ⟨rfl, b', m'', rfl, hb⟩
        · rw [g3] at hb; cases hb
        · have hb0 : b' ≠ '.' := by rintro rfl; revert hb; decide
          rcases g4 rfl with e | e
          · have e : w = [] := (List.cons.inj e).2
            subst e
            obtain ⟨z, hz⟩ := hz
            have : c = b' := by simp at hz; exact hz.1
            subst this
            rw [hA.2.1 rfl] at hb; cases hb
          · have e : w = ['.'] := (List.cons.inj e).2
            subst e
            obtain ⟨z, hz⟩ := hz
            have : '.' = b' := by simp at hz; exact hz.1
            exact hb0 this.symm
      cases hv with
      | symbol hy => exact hA.1 _ hy hz
      | word hw => cases hh; exact g1 hw
      | @string q s hq _ => cases hh; exact g2 (by rcases hq with rfl | rfl <;> decide)
      | uri => cases hh; exact g2 (by decide)
      | integer h0 hd => exact dec v [] (.inl ⟨h0, hd⟩) (by simp)
      | decimal hd => exact dec v [] (.inr hd) (by simp)
      | double hd => exact dec _ _ hd rfl
    · cases h; exact (g2 (by decide)).elim
    · rintro ⟨z, hz⟩
      have hz : '(' :: ':' :: z = a :: (w ++ r) := hz
      cases w with
      | nil =>
        simp only [List.nil_append, List.cons.injEq] at hz
        obtain ⟨rfl, hz⟩ := hz
        exact (hr ':' (by rename_i hz'; rw [← hz']; rfl)).2.2 rfl rfl
      | cons b w =>
        simp only [List.cons_append, List.cons.injEq] at hz
        obtain ⟨rfl, -⟩ := hz
        cases (g5 rfl)

theorem quote_longer {q : Char} : ∀ (s s' : Str) (c : Char) (z : Str), c ≠ q →
    s'.flatMap (fun c => if c = q then [q, q] else [c]) ++ [q] = s.flatMap (fun c => if c = q then [q, q] else [c]) ++ q :: c :: z → False := by
  intro s
  induction s with
  | nil =>
    intro s' c z hc e
    cases s' with
    | nil => simp at e
    | cons a s' =>
      rw [List.flatMap_cons] at e
      by_cases ha : a = q
      · rw [if_pos ha] at e; simp at e; exact hc e.1.symm
      · rw [if_neg ha] at e; simp at e; exact ha e.1
  | cons b s ih =>
    intro s' c z hc e
    rw [List.flatMap_cons] at e
    cases s' with
    | nil =>
      by_cases hb : b = q
      · rw [if_pos hb] at e; simp at e
      · rw [if_neg hb] at e; simp at e; try exact hb e.1.symm
    | cons a s' =>
      rw [List.flatMap_cons] at e
      by_cases ha : a = q
      · rw [if_pos ha] at e
        by_cases hb : b = q
        · rw [if_pos hb] at e
          simp only [List.cons_append, List.nil_append, List.cons.injEq, true_and] at e
          exact ih s' c z hc e
        · rw [if_neg hb] at e; simp at e; exact hb e.1.symm
      · rw [if_neg ha] at e
        by_cases hb : b = q
        · rw [if_pos hb] at e; simp at e; exact ha e.1
        · rw [if_neg hb] at e
          simp only [List.cons_append, List.nil_append, List.cons.injEq] at e
          exact ih s' c z hc e.2

theorem quoted_ends {q : Char} {s r : Str} (hq : q = '"' ∨ q = '\'') (h0 : '\x00' ∉ s) (hr : r.head? ≠ some q) :
    Lexeme (quoted q s) ⟨.stringLiteral, s⟩ ∧ Ends (quoted q s) .stringLiteral r := by
  have hqs : ¬ NameStartC q ∧ Lexer.isDigitX q = false ∧ (∀ e ∈ symbols, e.1.head? ≠ some q) ∧ q ≠ 'Q' ∧ q ≠ '(' ∧ q ≠ '.' := by
    rcases hq with rfl | rfl <;> decide
  refine ⟨.string hq h0, fun v u hv hp => ?_, fun h => absurd h (by decide), fun h => ?_, fun _ h => hr (by rw [h]; rfl), ?_⟩
  · by_contra hl
    obtain ⟨c, r', rfl, z, hz⟩ := longer hp (by omega)
    have hh : v.head? = some q := by rw [← hz]; rfl
    cases hv with
    | symbol hy => exact hqs.2.2.1 _ hy hh
    | word h1 => cases hh; exact hqs.1 h1
    | @string q' s' hqq _ =>
      have : q' = q := by simpa [quoted] using hh
      subst this
      unfold quoted at hz
      simp only [List.cons_append, List.cons.injEq, true_and] at hz
      exact quote_longer s s' c z (fun e => hr (by rw [e]; rfl)) (by rw [← hz]; simp)
    | uri => cases hh; exact hqs.2.2.2.1 rfl
    | integer h0 hd =>
      have := (Lexer.isDigitX_iff q).2 (hd _ (head_mem hh))
      rw [hqs.2.1] at this; cases this
    | decimal hd =>
      obtain ⟨c, m', rfl, h⟩ := Lexer.mantissa_head (.inr hd)
      cases hh
      rcases h with h | ⟨rfl, -⟩
      · rw [hqs.2.1] at h; cases h
      · exact hqs.2.2.2.2.2 rfl
    | double hd =>
      obtain ⟨c, m', rfl, h⟩ := Lexer.mantissa_head hd
      cases hh
      rcases h with h | ⟨rfl, -⟩
      · rw [hqs.2.1] at h; cases h
      · exact hqs.2.2.2.2.2 rfl
  · exact (hqs.2.2.2.1 (List.cons.inj h).1).elim
  · rintro ⟨z, hz⟩; exact hqs.2.2.2.2.1 (List.cons.inj hz).1.symm

/-! ## Reading a text -/

/-- The text is read as the tokens after a token of the kind `prev`. -/
def Reads (prev : TType) (ts : List Tok) (s : Str) : Prop := ∃ us, Text us s ∧ Spells prev ts us

/-- The kinds of the symbols that follow a word in a location path. -/
def afterWord : List TType := [.slash, .slashSlash, .leftBracket, .rightBracket, .generalEQ, .colon, .colonAsterisk, .colonColon, .leftParen, .rightParen,
  .generalNE]

/-- The token can follow a word in a location path. -/
def FollowsWord (k : Tok) : Prop := k.ty ∈ afterWord ∨ k = ⟨.union, S "|"⟩

theorem spells_head {prev : TType} {ts us : List Tok} (h : Spells prev ts us) {k : Tok} (hk : ts.head? = some k) (ha : FollowsWord k) :
    us.head? = some k := by
  have h1 : ∀ e ∈ wordOperators, e.2 ∉ afterWord ∧ e.1 ≠ S "|" := by decide
  have h2 : ∀ e ∈ wordPairs, e.2.2 ∉ afterWord ∧ e.1 ≠ S "|" := by decide
  have h3 : ∀ e ∈ markedWords, e.2.2 ∉ afterWord ∧ e.1 ≠ S "|" := by decide
  have no : ∀ {t : TType} {n : Str}, FollowsWord ⟨t, n⟩ → ¬ (t ∉ afterWord ∧ n ≠ S "|") := by
    rintro t n (h | h) ⟨g1, g2⟩
    · exact g1 h
    · cases h; exact g2 rfl
  cases h with
  | nil => cases hk
  | same => exact hk
  | operator h => cases hk; exact (no ha (h1 _ h)).elim
  | pair h => cases hk; exact (no ha (h2 _ h)).elim
  | marked h => cases hk; exact (no ha (h3 _ h)).elim
  | name =>
    cases hk
    rcases ha with h | h
    · exact absurd (show TType.name ∈ afterWord from h) (by decide)
    · cases h

theorem Reads.nil (prev : TType) : Reads prev [] [] := ⟨[], .nil .nil, .nil⟩

theorem Reads.symbol {prev t : TType} {w r : Str} {ts : List Tok} (hw : (w, t) ∈ symbols) (hr : ∀ d ∈ r.head?, Apart w d) (h : Reads t ts r) :
    Reads prev (⟨t, w⟩ :: ts) (w ++ r) := by
  obtain ⟨us, h1, h2⟩ := h
  obtain ⟨h3, h4⟩ := symbol_ends hw hr
  have : ∀ e ∈ symbols, e.2 ≠ .innerName := by decide
  exact ⟨_, .cons (b := []) .nil h3 h4 h1, .same (this _ hw) h2⟩

theorem Reads.string {prev : TType} {s r : Str} {ts : List Tok} (h0 : '\x00' ∉ s) (hr : r.head? ≠ some '\'') (h : Reads .stringLiteral ts r) :
    Reads prev (⟨.stringLiteral, s⟩ :: ts) (quoted '\'' s ++ r) := by
  obtain ⟨us, h1, h2⟩ := h
  obtain ⟨h3, h4⟩ := quoted_ends (.inr rfl) h0 hr
  exact ⟨_, .cons (b := []) .nil h3 h4 h1, .same (show TType.stringLiteral ≠ TType.innerName by decide) h2⟩

/-- How a word ends in a location path. -/
def WordEnd (r : Str) : Prop := ∀ c ∈ r.head?, ¬ NameC c ∧ c ≠ '{'

theorem Reads.name {prev : TType} {n r : Str} {ts : List Tok} (hn : IsNCName n) (hr : WordEnd r) (hp : prev ∈ operandStart)
    (ht : ∀ k ∈ ts.head?, FollowsWord k ∧ ∀ t, (n, k.ty, t) ∉ markedWords) (h : Reads .innerName ts r) :
    Reads prev (⟨.name, n⟩ :: ts) (n ++ r) := by
  obtain ⟨us, h1, h2⟩ := h
  obtain ⟨h3, h4⟩ := word_ends hn hr
  have hh : ∀ k ∈ us.head?, FollowsWord k ∧ ∀ t, (n, k.ty, t) ∉ markedWords := by
    intro k hk
    cases ts with
    | nil => cases h2; cases hk
    | cons a ts =>
      have ha := ht a rfl
      rw [spells_head h2 rfl ha.1] at hk
      cases hk; exact ha
  refine ⟨_, .cons (b := []) .nil h3 h4 h1, .name (fun _ => hp) ?_ (fun k hk => (hh k hk).2) h2⟩
  intro k hk e
  rcases (hh k hk).1 with this | rfl
  · rw [e] at this; exact absurd this (by decide)
  · cases e

theorem Reads.marked {prev t s : TType} {n r : Str} {ts : List Tok} (hm : (n, s, t) ∈ markedWords) (hn : IsNCName n) (hr : WordEnd r)
    (ht : ∃ k ∈ ts.head?, k.ty = s) (hs : s ∈ afterWord) (h : Reads .innerName ts r) : Reads prev (⟨t, n⟩ :: ts) (n ++ r) := by
  obtain ⟨us, h1, h2⟩ := h
  obtain ⟨h3, h4⟩ := word_ends hn hr
  obtain ⟨k, hk, e⟩ := ht
  exact ⟨_, .cons (b := []) .nil h3 h4 h1, .marked hm ⟨k, spells_head h2 hk (.inl (e ▸ hs)), e⟩ h2⟩

/-! ## The syntax of location paths -/

/-- What follows a step or a predicate: the text, and its tokens. -/
structure After (ts : List Tok) (r : Str) : Prop where
  text : ∀ c ∈ r.head?, c ∈ ['/', '[', ']', '=', ')', '|', '!']
  toks : ∀ k ∈ ts.head?, k.ty ∈ [TType.slash, .slashSlash, .leftBracket, .rightBracket, .generalEQ, .generalNE, .rightParen] ∨ k = ⟨.union, S "|"⟩
  reads : ∀ prev, Reads prev ts r

theorem After.wordEnd {ts : List Tok} {r : Str} (h : After ts r) : WordEnd r := by
  intro c hc
  have := h.text c hc
  have hall : ∀ c ∈ ['/', '[', ']', '=', ')', '|', '!'], ¬ NameC c ∧ c ≠ '{' := by decide
  exact hall c this

theorem After.next {ts : List Tok} {r n : Str} (h : After ts r) : ∀ k ∈ ts.head?, FollowsWord k ∧ ∀ t, (n, k.ty, t) ∉ markedWords := by
  intro k hk
  rcases h.toks k hk with h1 | rfl
  · have hall : ∀ t ∈ [TType.slash, .slashSlash, .leftBracket, .rightBracket, .generalEQ, .generalNE, .rightParen],
        t ∈ afterWord ∧ t ∉ markedWords.map (·.2.1) := by decide
    obtain ⟨h2, h3⟩ := hall _ h1
    exact ⟨.inl h2, fun t ht => h3 (List.mem_map.2 ⟨_, ht, rfl⟩)⟩
  · have : TType.union ∉ markedWords.map (·.2.1) := by decide
    exact ⟨.inr rfl, fun t ht => this (List.mem_map.2 ⟨_, ht, rfl⟩)⟩

theorem After.nil : After [] [] := ⟨by simp, by simp, fun prev => .nil prev⟩

theorem apart_name {w : Str} {d : Char} (hd : NameStartC d) : Apart w d := by
  have hs : ∀ y ∈ symbols, ∀ c ∈ y.1, ¬ NameStartC c := by decide
  refine ⟨fun y hy hp => hs y hy d (hp.subset (by simp)) hd, fun _ => ?_, fun _ => ?_⟩
  · rw [Bool.eq_false_iff]
    intro h
    rw [Lexer.isDigitX_iff, Lexer.digit_toNat] at h
    revert hd; unfold NameStartC; simp only; omega
  · rintro rfl; revert hd; decide

theorem apart_lone {w : Str} {d : Char} (hw : w ∈ [S "[", S "]", S ")", S "@"]) : Apart w d := by
  have hs : ∀ w ∈ [S "[", S "]", S ")", S "@"], (∀ y ∈ symbols, w <+: y.1 → y.1 = w) ∧ w ≠ S "." ∧ w ≠ S "(" := by decide
  obtain ⟨h1, h2, h3⟩ := hs w hw
  refine ⟨fun y hy hp => ?_, fun h => absurd h h2, fun h => absurd h h3⟩
  have e := h1 y hy ((List.prefix_append w [d]).trans hp)
  have := hp.length_le
  rw [e] at this; simp at this

/-- A token for a symbol. -/
def sym (t : TType) (w : String) : Tok := ⟨t, S w⟩

namespace Spec.PTest

/-- The tokens of a kind test without arguments. -/
def kindToks (t : TType) (w : String) : List Tok := [⟨t, S w⟩, sym .leftParen "(", sym .rightParen ")"]

def toks : PTest → List Tok
  | name n => [⟨.name, n⟩]
  | qname p n => [⟨.name, p⟩, sym .colon ":", ⟨.name, n⟩]
  | any => [sym .asterisk "*"]
  | inPrefix p => [⟨.name, p⟩, sym .colonAsterisk ":*"]
  | node => kindToks .anyKindTest "node"
  | text => kindToks .textTest "text"
  | comment => kindToks .commentTest "comment"
  | pi => kindToks .piTest "processing-instruction"
  | element => kindToks .elementTest "element"

end Spec.PTest

theorem wordEnd_paren (r : Str) : WordEnd ('(' :: r) := by
  intro c hc
  have : c = '(' := by simpa using hc.symm
  rw [this]; decide

theorem wordEnd_colon (r : Str) : WordEnd (':' :: r) := by
  intro c hc
  have : c = ':' := by simpa using hc.symm
  rw [this]; decide

theorem kind_reads {t : TType} {w : String} {prev : TType} {ts : List Tok} {r : Str} (ha : After ts r) (hm : (S w, .leftParen, t) ∈ markedWords)
    (hw : IsNCName (S w)) : Reads prev (PTest.kindToks t w ++ ts) (S w ++ '(' :: ')' :: r) := by
  have h1 : Reads .leftParen (sym .rightParen ")" :: ts) (')' :: r) :=
    Reads.symbol (w := S ")") (by decide) (fun d _ => apart_lone (by decide)) (ha.reads _)
  have h2 : Reads .innerName (sym .leftParen "(" :: sym .rightParen ")" :: ts) ('(' :: ')' :: r) :=
    Reads.symbol (w := S "(") (by decide) (by intro d hd; cases hd; decide) h1
  exact Reads.marked hm hw (wordEnd_paren _) ⟨_, rfl, rfl⟩ (by decide) h2

theorem test_reads {T : PTest} (hT : T.Ok) {prev : TType} (hp : prev ∈ operandStart) {ts : List Tok} {r : Str} (ha : After ts r) :
    Reads prev (T.toks ++ ts) (T.text' ++ r) := by
  cases T with
  | name n => exact Reads.name hT ha.wordEnd hp ha.next (ha.reads _)
  | qname p n =>
    have h1 : Reads .colon (⟨.name, n⟩ :: ts) (n ++ r) := Reads.name hT.2 ha.wordEnd (by decide) ha.next (ha.reads _)
    have h2 : Reads .innerName (sym .colon ":" :: ⟨.name, n⟩ :: ts) (':' :: (n ++ r)) := by
      refine Reads.symbol (w := S ":") (by decide) ?_ h1
      intro d hd
      obtain ⟨⟨c, hc, hs⟩, -⟩ := hT.2
      cases n with
      | nil => cases hc
      | cons a n => cases hc; cases hd; exact apart_name hs
    have h3 := Reads.name (prev := prev) hT.1 (wordEnd_colon _) hp (by
      intro k hk; cases hk
      have : TType.colon ∉ markedWords.map (·.2.1) := by decide
      exact ⟨.inl (by decide), fun t ht => this (List.mem_map.2 ⟨_, ht, rfl⟩)⟩) h2
    show Reads prev _ ((p ++ ':' :: n) ++ r)
    rw [List.append_assoc]
    exact h3
  | any =>
    refine Reads.symbol (w := S "*") (by decide) ?_ (ha.reads _)
    intro d hd
    have : ∀ d ∈ ['/', '[', ']', '=', ')', '|', '!'], Apart (S "*") d := by decide
    exact this d (ha.text d hd)
  | inPrefix p =>
    have h2 : Reads .innerName (sym .colonAsterisk ":*" :: ts) (S ":*" ++ r) := by
      refine Reads.symbol (w := S ":*") (by decide) ?_ (ha.reads _)
      intro d hd
      have : ∀ d ∈ ['/', '[', ']', '=', ')', '|', '!'], Apart (S ":*") d := by decide
      exact this d (ha.text d hd)
    have h3 := Reads.name (prev := prev) (n := p) (r := S ":*" ++ r) hT (wordEnd_colon _) hp (by
      intro k hk; cases hk
      have : TType.colonAsterisk ∉ markedWords.map (·.2.1) := by decide
      exact ⟨.inl (by decide), fun t ht => this (List.mem_map.2 ⟨_, ht, rfl⟩)⟩) h2
    show Reads prev _ ((p ++ S ":*") ++ r)
    rw [List.append_assoc]
    exact h3
  | node => exact kind_reads (w := "node") ha (by decide) (by decide)
  | text => exact kind_reads (w := "text") ha (by decide) (by decide)
  | comment => exact kind_reads (w := "comment") ha (by decide) (by decide)
  | pi => exact kind_reads (w := "processing-instruction") ha (by decide) (by decide)
  | element => exact kind_reads (w := "element") ha (by decide) (by decide)

theorem test_start {T : PTest} (hT : T.Ok) (r : Str) : ∃ c, (T.text' ++ r).head? = some c ∧ (NameStartC c ∨ c = '*') := by
  have word : ∀ (n x : Str), IsNCName n → ∃ c, (n ++ x).head? = some c ∧ (NameStartC c ∨ c = '*') := by
    rintro n x ⟨⟨c, hc, hs⟩, -⟩
    cases n with
    | nil => cases hc
    | cons a n => cases hc; exact ⟨_, rfl, .inl hs⟩
  cases T with
  | name n => exact word _ _ hT
  | qname p n => obtain ⟨c, h1, h2⟩ := word p (':' :: n ++ r) hT.1; exact ⟨c, (congrArg List.head? (List.append_assoc p (':' :: n) r)).trans h1, h2⟩
  | any => exact ⟨_, rfl, .inr rfl⟩
  | inPrefix p => obtain ⟨c, h1, h2⟩ := word p (S ":*" ++ r) hT; exact ⟨c, (congrArg List.head? (List.append_assoc p (S ":*") r)).trans h1, h2⟩
  | node => exact ⟨_, rfl, .inl (by decide)⟩
  | text => exact ⟨_, rfl, .inl (by decide)⟩
  | comment => exact ⟨_, rfl, .inl (by decide)⟩
  | pi => exact ⟨_, rfl, .inl (by decide)⟩
  | element => exact ⟨_, rfl, .inl (by decide)⟩

/-- The kinds of the operators that can follow a path. -/
def pathOps : List TType := [.generalEQ, .generalNE, .union]

theorem test_derives {T : PTest} (hT : T.Ok) : ∃ bad, NodeTestD T.toks T.toTest.label T.toTest.tree bad ∧ ∀ t ∈ pathOps, t ∉ bad := by
  have ne : ∀ n, IsNCName n → n ≠ [] := by rintro n ⟨⟨c, hc, -⟩, -⟩ rfl; cases hc
  cases T with
  | name n => exact ⟨_, .name (.ncname (ne _ hT)), by decide⟩
  | qname p n =>
    refine ⟨_, .name (n := p ++ ':' :: n) (bad := []) ?_, by decide⟩
    have := NameD.prefixed (pre := []) (p := p) (n := n)
    simpa [S, sym, PTest.toks] using this
  | any => exact ⟨_, .wildcard .star, by decide⟩
  | inPrefix p => exact ⟨_, .wildcard (.anyLocal (ne _ hT)), by decide⟩
  | node => exact ⟨_, .kind (.simple (by decide)), by decide⟩
  | text => exact ⟨_, .kind (.simple (by decide)), by decide⟩
  | comment => exact ⟨_, .kind (.simple (by decide)), by decide⟩
  | pi => exact ⟨_, .kind .pi, by decide⟩
  | element => exact ⟨_, .kind (.element .none), by decide⟩

theorem test_head {T : PTest} : ∀ k ∈ T.toks.head?, k.ty ≠ .attributeTest ∧ k.ty ≠ .schemaAttributeTest := by
  cases T <;> (intro k hk; cases hk; exact ⟨by rintro ⟨⟩, by rintro ⟨⟩⟩)

theorem test_proper {T : PTest} (hT : T.Ok) : T.toTest.Proper := by
  have lab : ∀ n, IsNCName n → NTest.IsLabel n ∧ ':' ∉ n := by
    intro n h0
    obtain ⟨⟨c, hc, -⟩, hn⟩ := h0
    refine ⟨⟨(by rintro rfl; cases hc), fun h => ?_, fun h => ?_⟩, fun h => ?_⟩
    all_goals exact absurd (hn _ h) (by decide)
  cases T with
  | name n => exact (lab n hT).1
  | qname p n =>
    obtain ⟨⟨h1, h2, h3⟩, h4⟩ := lab p hT.1
    obtain ⟨⟨g1, g2, g3⟩, g4⟩ := lab n hT.2
    refine ⟨by simp, ?_, ?_⟩ <;> simp_all
  | inPrefix p => exact lab p hT
  | pi => intro m hm; cases hm
  | element => intro m hm; cases hm
  | _ => trivial

namespace Spec.Core

def toks : Core → List Tok
  | child T => T.toks
  | attr T => sym .at "@" :: T.toks
  | along w T => ⟨.axisName, w⟩ :: sym .colonColon "::" :: T.toks

/-- The tree, with the chain of predicates. -/
def tree (c : Core) (p : XNode) : XNode := .node c.axis.1 c.test.toTest.label c.test.toTest.tree p

end Spec.Core

theorem axis_found {w : Str} (hw : w ∈ axisTable.map (·.1)) (T : PTest) :
    (w, (Core.along w T).axis.1, (Core.along w T).axis.2) ∈ axisNames ∧ (w, .colonColon, .axisName) ∈ markedWords ∧ IsNCName w := by
  have : ∀ w ∈ axisTable.map (·.1), (w, (((axisTable.find? (·.1 == w)).map (·.2)).getD (.axisSelf, false)).1,
      (((axisTable.find? (·.1 == w)).map (·.2)).getD (.axisSelf, false)).2) ∈ axisNames ∧ (w, .colonColon, .axisName) ∈ markedWords ∧ IsNCName w := by
    decide
  exact this w hw

/-- How steps begin. -/
def StepChar (c : Char) : Prop := NameStartC c ∨ c ∈ ['*', '@', '.']

theorem core_start {c : Core} (hc : c.Ok) (r : Str) : ∃ d, (c.text ++ r).head? = some d ∧ StepChar d := by
  cases c with
  | child T =>
    obtain ⟨d, h1, h2⟩ := test_start hc r
    refine ⟨d, h1, ?_⟩
    rcases h2 with h2 | rfl
    · exact .inl h2
    · exact .inr (by decide)
  | attr T => exact ⟨'@', rfl, .inr (by decide)⟩
  | along w T =>
    obtain ⟨⟨d, hd, hs⟩, -⟩ := (axis_found hc.1 T).2.2
    cases w with
    | nil => cases hd
    | cons a w => cases hd; exact ⟨_, rfl, .inl hs⟩

theorem core_reads {c : Core} (hc : c.Ok) {prev : TType} (hp : prev ∈ operandStart) {ts : List Tok} {r : Str} (ha : After ts r) :
    Reads prev (c.toks ++ ts) (c.text ++ r) := by
  cases c with
  | child T => exact test_reads hc hp ha
  | attr T =>
    refine Reads.symbol (w := S "@") (by decide) (fun d _ => apart_lone (by decide)) (test_reads hc (by decide) ha)
  | along w T =>
    obtain ⟨h1, h2, h3⟩ := axis_found hc.1 T
    have h4 : Reads .innerName (sym .colonColon "::" :: (T.toks ++ ts)) (S "::" ++ (T.text' ++ r)) := by
      refine Reads.symbol (w := S "::") (by decide) ?_ (test_reads hc.2 (by decide) ha)
      intro d hd
      obtain ⟨c, e, hs⟩ := test_start hc.2 r
      rw [e] at hd; cases hd
      rcases hs with hs | rfl
      · exact apart_name hs
      · decide
    have h5 := Reads.marked (prev := prev) (r := S "::" ++ (T.text' ++ r)) h2 h3 (wordEnd_colon _) ⟨_, rfl, rfl⟩ (by decide) h4
    show Reads prev _ (((w ++ S "::") ++ T.text') ++ r)
    rw [List.append_assoc, List.append_assoc]
    exact h5

theorem core_derives {c : Core} (hc : c.Ok) {ps : List Tok} {p : XNode} (hp : Derives (.preds c.axis.2) ps p []) :
    ∃ bad, Derives .step (c.toks ++ ps) (c.tree p) bad ∧ ∀ t ∈ pathOps, t ∉ bad := by
  have fin : ∀ bad : List TType, (∀ t ∈ pathOps, t ∉ bad) → ∀ t ∈ pathOps, t ∉ (if ps = [] then bad else []) := by
    intro bad h; split
    · exact h
    · simp
  cases c with
  | child T =>
    obtain ⟨bad, h1, h2⟩ := test_derives hc
    exact ⟨_, .child h1 test_head hp, fin _ h2⟩
  | attr T =>
    obtain ⟨bad, h1, h2⟩ := test_derives hc
    exact ⟨_, .atStep h1 hp, fin _ h2⟩
  | along w T =>
    obtain ⟨bad, h1, h2⟩ := test_derives hc.2
    exact ⟨_, .axis (axis_found hc.1 T).1 h1 hp, fin _ h2⟩

namespace Spec.Pred

/-- The tokens between the brackets. -/
def inner : Pred → List Tok
  | nth n => [⟨.integerLiteral, F64.natStr n⟩]
  | last => [⟨.name, S "last"⟩, sym .leftParen "(", sym .rightParen ")"]
  | eq c v => c.toks ++ sym .generalEQ "=" :: [⟨.stringLiteral, v⟩]
  | selfEq v => [sym .dot ".", sym .generalEQ "=", ⟨.stringLiteral, v⟩]

def toks (p : Pred) : List Tok := sym .leftBracket "[" :: p.inner ++ [sym .rightBracket "]"]

def tree : Pred → XNode
  | nth n => tip .integerLiteral (F64.natStr n)
  | last => .node .functionCall (S "fn:last") .nil .nil
  | eq c v => .node .operatorGeneralEQ (S "=") (c.tree .nil) (tip .stringLiteral v)
  | selfEq v => .node .operatorGeneralEQ (S "=") (tip .contextItem (S ".")) (tip .stringLiteral v)

end Spec.Pred

theorem close_reads {ts : List Tok} {r : Str} (ha : After ts r) : After (sym .rightBracket "]" :: ts) (S "]" ++ r) :=
  ⟨by intro c hc; cases hc; decide, by intro k hk; cases hk; exact .inl (by decide),
    fun _ => Reads.symbol (w := S "]") (by decide) (fun d _ => apart_lone (by decide)) (ha.reads _)⟩

theorem eq_reads {v : Str} (hv : '\x00' ∉ v) {ts : List Tok} {r : Str} (ha : After ts r) :
    After (sym .generalEQ "=" :: ⟨.stringLiteral, v⟩ :: sym .rightBracket "]" :: ts) ('=' :: (quoted '\'' v ++ (S "]" ++ r))) := by
  refine ⟨by intro c hc; cases hc; decide, by intro k hk; cases hk; exact .inl (by decide), fun prev => ?_⟩
  refine Reads.symbol (w := S "=") (by decide) (by intro d hd; cases hd; decide) ?_
  exact Reads.string hv (by simp [S]) ((close_reads ha).reads _)

theorem Reads.number {prev : TType} {w : Str} {ts : List Tok} {r : Str} {m : Nat} (hw : Lexeme w ⟨.integerLiteral, w⟩) (hn : Numeral w m 0)
    (ha : After (sym .rightBracket "]" :: ts) (S "]" ++ r)) : Reads prev (⟨.integerLiteral, w⟩ :: sym .rightBracket "]" :: ts) (w ++ (S "]" ++ r)) := by
  obtain ⟨us, h1, h2⟩ := ha.reads .integerLiteral
  exact ⟨_, .cons (b := []) .nil hw (ends_number hn (t := .integerLiteral) (by decide) (by intro c hc; cases hc; exact .inr (.inr rfl))) h1,
    .same (show TType.integerLiteral ≠ TType.innerName by decide) h2⟩

theorem pred_reads {p : Pred} (hp : p.Ok) {ts : List Tok} {r : Str} (ha : After ts r) : After (p.toks ++ ts) (p.text ++ r) := by
  have key : ∀ s, Reads .leftBracket (p.inner ++ sym .rightBracket "]" :: ts) s → p.text ++ r = S "[" ++ s → After (p.toks ++ ts) (p.text ++ r) := by
    intro s hs e
    rw [e]
    refine ⟨by intro c hc; cases hc; decide, by intro k hk; cases hk; exact .inl (by decide), fun prev => ?_⟩
    have := Reads.symbol (prev := prev) (w := S "[") (t := .leftBracket) (by decide) (fun d _ => apart_lone (by decide)) hs
    simpa [Pred.toks, sym] using this
  cases p with
  | nth n =>
    obtain ⟨d1, d2, d3⟩ := natStr_digits n
    have hn : Numeral (F64.natStr n) n 0 := by
      have := Numeral.fixed (Fixed.int d2 d1)
      rwa [d3] at this
    have hw : Lexeme (F64.natStr n) ⟨.integerLiteral, F64.natStr n⟩ := .integer d2 ((allDigits_iff _).2 d1)
    have ht : ∀ w : Str, ('[' :: w ++ S "]") ++ r = S "[" ++ (w ++ (S "]" ++ r)) := by intro w; simp [S]
    have hR := Reads.number (prev := .leftBracket) (w := F64.natStr n) (m := n) hw hn (close_reads ha)
    have hT : Pred.text (.nth n) = '[' :: F64.natStr n ++ S "]" := rfl
    have hI : Pred.inner (.nth n) = [⟨.integerLiteral, F64.natStr n⟩] := rfl
    rw [hT, hI] at key
    rw [hT]
    revert key hR
    generalize F64.natStr n = w
    exact fun key hR => key _ hR (ht w)
  | last =>
    refine key (S "last" ++ (S "(" ++ (S ")" ++ (S "]" ++ r)))) ?_ rfl
    have h1 : Reads .leftParen (sym .rightParen ")" :: sym .rightBracket "]" :: ts) (S ")" ++ (S "]" ++ r)) :=
      Reads.symbol (w := S ")") (by decide) (fun d _ => apart_lone (by decide)) ((close_reads ha).reads _)
    have h2 : Reads .innerName (sym .leftParen "(" :: sym .rightParen ")" :: sym .rightBracket "]" :: ts) (S "(" ++ (S ")" ++ (S "]" ++ r))) :=
      Reads.symbol (w := S "(") (by decide) (by intro d hd; cases hd; decide) h1
    refine Reads.name (by decide) (wordEnd_paren _) (by decide) ?_ h2
    intro k hk; cases hk
    have : S "last" ∉ markedWords.map (·.1) := by decide
    exact ⟨.inl (by decide), fun t ht => this (List.mem_map.2 ⟨_, ht, rfl⟩)⟩
  | eq c v =>
    have ht : ∀ a b : Str, ('[' :: a ++ '=' :: b ++ S "]") ++ r = S "[" ++ (a ++ ('=' :: (b ++ (S "]" ++ r)))) := by intro a b; simp [S]
    refine key (c.text ++ ('=' :: (quoted '\'' v ++ (S "]" ++ r)))) ?_ (ht _ _)
    have := core_reads hp.1 (prev := .leftBracket) (by decide) (eq_reads hp.2 ha)
    simpa [Pred.inner] using this
  | selfEq v =>
    have ht : ∀ b : Str, (S "[.=" ++ b ++ S "]") ++ r = S "[" ++ (S "." ++ ('=' :: (b ++ (S "]" ++ r)))) := by intro b; rw [List.append_assoc, List.append_assoc]; rfl
    refine key (S "." ++ ('=' :: (quoted '\'' v ++ (S "]" ++ r)))) ?_ (ht _)
    exact Reads.symbol (w := S ".") (by decide) (by intro d hd; cases hd; decide) ((eq_reads hp ha).reads _)

theorem preds_reads {ps : List Pred} (hp : ∀ p ∈ ps, p.Ok) {ts : List Tok} {r : Str} (ha : After ts r) :
    After (ps.flatMap Pred.toks ++ ts) (ps.flatMap Pred.text ++ r) := by
  induction ps with
  | nil => exact ha
  | cons p ps ih =>
    have := pred_reads (hp p (by simp)) (ih fun q hq => hp q (by simp [hq]))
    simpa using this

theorem pred_derives {p : Pred} (hp : p.Ok) : ∃ bad, Derives (.level 1) p.inner p.tree bad := by
  have eq5 : ∀ {a : List Tok} {x : XNode} {bad : List TType} {v : Str}, Derives .step a x bad → TType.generalEQ ∉ bad →
      Derives (.level 1) (a ++ sym .generalEQ "=" :: [⟨.stringLiteral, v⟩]) (.node .operatorGeneralEQ (S "=") x (tip .stringLiteral v)) [] := by
    intro a x bad v h hb
    have h5 := Derives.nonassoc (l := 5) (k := sym .generalEQ "=") (t := .operatorGeneralEQ) (by decide) (by decide)
      (.loosen 6 (.relative (.oneStep h)) (by omega) (by omega) (by omega)) hb (.prim 6 (.string (s := v)))
    exact .loosen 1 h5 (by omega) (by omega) (by omega)
  cases p with
  | nth n => exact ⟨_, .prim 1 .integer⟩
  | last =>
    have h1 := Derives.call (fs := [⟨.name, S "last"⟩]) (f := S "fn:last") (l := S "(") (a := []) (x := .nil) (r := S ")")
      (NameD.ncname (pre := S "fn") (n := S "last") (by decide)) .empty (by unfold Callable; decide)
    exact ⟨_, .prim 1 h1⟩
  | eq c v =>
    obtain ⟨bad, h1, h2⟩ := core_derives hp.1 (.noPreds)
    rw [List.append_nil] at h1
    exact ⟨_, eq5 h1 (h2 _ (by decide))⟩
  | selfEq v => exact ⟨_, eq5 (.expression (.primary (.context (s := S ".")))) (by decide)⟩

theorem preds_derive {ps : List Pred} (hp : ∀ p ∈ ps, p.Ok) (rev : Bool) :
    Derives (.preds rev) (ps.flatMap Pred.toks) (predChain rev (ps.map Pred.tree)) [] := by
  induction ps with
  | nil => exact .noPreds
  | cons p ps ih =>
    obtain ⟨bad, h⟩ := pred_derives (hp p (by simp))
    have := Derives.preds (l := S "[") (r := S "]") h (ih fun q hq => hp q (by simp [hq]))
    simpa [Pred.toks, sym, predChain] using this

namespace Spec.Seg

def toks : Seg → List Tok
  | step c ps => c.toks ++ ps.flatMap Pred.toks
  | parent => [sym .dotDot ".."]
  | self => [sym .dot "."]

def tree : Seg → XNode
  | step c ps => c.tree (predChain c.axis.2 (ps.map Pred.tree))
  | parent => tip .axisParent (S "node()")
  | self => tip .contextItem (S ".")

end Spec.Seg

theorem seg_start {s : Seg} (hs : s.Ok) (r : Str) : ∃ d, (s.text ++ r).head? = some d ∧ StepChar d := by
  cases s with
  | step c ps =>
    obtain ⟨d, h1, h2⟩ := core_start hs.1 (ps.flatMap Pred.text ++ r)
    exact ⟨d, by rw [← h1]; simp [Seg.text], h2⟩
  | parent => exact ⟨_, rfl, .inr (by decide)⟩
  | self => exact ⟨_, rfl, .inr (by decide)⟩

theorem seg_reads {s : Seg} (hs : s.Ok) {prev : TType} (hp : prev ∈ operandStart) {ts : List Tok} {r : Str} (ha : After ts r) :
    Reads prev (s.toks ++ ts) (s.text ++ r) := by
  cases s with
  | step c ps =>
    have := core_reads hs.1 hp (preds_reads hs.2 ha)
    simpa [Seg.toks, Seg.text] using this
  | parent =>
    refine Reads.symbol (w := S "..") (by decide) ?_ (ha.reads _)
    intro d hd
    have : ∀ d ∈ ['/', '[', ']', '=', ')', '|', '!'], Apart (S "..") d := by decide
    exact this d (ha.text d hd)
  | self =>
    refine Reads.symbol (w := S ".") (by decide) ?_ (ha.reads _)
    intro d hd
    have : ∀ d ∈ ['/', '[', ']', '=', ')', '|', '!'], Apart (S ".") d := by decide
    exact this d (ha.text d hd)

theorem seg_derives {s : Seg} (hs : s.Ok) : ∃ bad, Derives .step s.toks s.tree bad := by
  cases s with
  | step c ps =>
    obtain ⟨bad, h, -⟩ := core_derives hs.1 (preds_derive hs.2 c.axis.2)
    exact ⟨bad, h⟩
  | parent => exact ⟨_, .parent⟩
  | self => exact ⟨_, .expression (.primary .context)⟩

/-- The token between steps. -/
def slashTok (d : Bool) : Tok := if d then sym .slashSlash "//" else sym .slash "/"

namespace Spec.Rel

def toks : Rel → List Tok
  | one s => s.toks
  | more s d q => s.toks ++ slashTok d :: q.toks

/-- The tree for `/q` and `//q` after a step. -/
def tail (d : Bool) : Rel → XNode
  | one s => if d then .node .operatorPath pathSlash1 dslash (.node .operatorPath pathSlash2 s.tree .nil) else .node .operatorPath pathSlash s.tree .nil
  | more s d' q => if d then .node .operatorPath pathSlash1 dslash (.node .operatorPath pathSlash2 s.tree (q.tail d'))
    else .node .operatorPath pathSlash s.tree (q.tail d')

def tree : Rel → XNode
  | one s => s.tree
  | more s d q => .node .operatorPath pathTop s.tree (q.tail d)

end Spec.Rel

theorem rel_start {q : Rel} (hq : q.Ok) : ∃ d, q.text.head? = some d ∧ StepChar d := by
  cases q with
  | one s => simpa [Rel.text] using seg_start (s := s) hq []
  | more s d q =>
    obtain ⟨c, h1, h2⟩ := seg_start hq.1 (slashes d ++ q.text)
    exact ⟨c, by rw [← h1]; simp [Rel.text], h2⟩

theorem slash_reads {d : Bool} {ts : List Tok} {r : Str} (hr : ∃ c, r.head? = some c ∧ StepChar c)
    (h : ∀ prev ∈ operandStart, Reads prev ts r) : After (slashTok d :: ts) (slashes d ++ r) := by
  obtain ⟨c, hc, hs⟩ := hr
  have ap : ∀ w ∈ [S "/", S "//"], ∀ d ∈ r.head?, Apart w d := by
    intro w hw d hd
    rw [hc] at hd; cases hd
    rcases hs with hs | hs
    · exact apart_name hs
    · have : ∀ w ∈ [S "/", S "//"], ∀ c ∈ ['*', '@', '.'], Apart w c := by decide
      exact this w hw c hs
  cases d with
  | true =>
    exact ⟨by intro c hc; cases hc; decide, by intro k hk; cases hk; exact .inl (by decide),
      fun prev => Reads.symbol (w := S "//") (t := .slashSlash) (by decide) (ap _ (by decide)) (h _ (by decide))⟩
  | false =>
    exact ⟨by intro c hc; cases hc; decide, by intro k hk; cases hk; exact .inl (by decide),
      fun prev => Reads.symbol (w := S "/") (t := .slash) (by decide) (ap _ (by decide)) (h _ (by decide))⟩

theorem rel_reads {q : Rel} (hq : q.Ok) : ∀ prev ∈ operandStart, Reads prev q.toks q.text := by
  induction q with
  | one s =>
    intro prev hp
    simpa [Rel.toks, Rel.text] using seg_reads hq hp .nil
  | more s d q ih =>
    intro prev hp
    have := seg_reads hq.1 hp (slash_reads (d := d) (rel_start hq.2) (ih hq.2))
    simpa [Rel.toks, Rel.text] using this

theorem tail_derives {q : Rel} (hq : q.Ok) : ∀ d, ∃ bad, Derives .more (slashTok d :: q.toks) (q.tail d) bad := by
  induction q with
  | one s =>
    intro d
    obtain ⟨bad, h⟩ := seg_derives hq
    cases d with
    | true => exact ⟨_, .dslashLast h⟩
    | false => exact ⟨_, .slashLast h⟩
  | more s d' q ih =>
    intro d
    obtain ⟨bad, h⟩ := seg_derives hq.1
    obtain ⟨bad', h'⟩ := ih hq.2 d'
    cases d with
    | true => exact ⟨_, .dslashMore h h'⟩
    | false => exact ⟨_, .slashMore h h'⟩

theorem rel_derives {q : Rel} (hq : q.Ok) : ∃ bad, Derives .rel q.toks q.tree bad := by
  cases q with
  | one s =>
    obtain ⟨bad, h⟩ := seg_derives hq
    exact ⟨_, .oneStep h⟩
  | more s d q =>
    obtain ⟨bad, h⟩ := seg_derives hq.1
    obtain ⟨bad', h'⟩ := tail_derives hq.2 d
    exact ⟨_, .steps h h'⟩

namespace Spec.LPath

def toks : LPath → List Tok
  | root => [sym .slash "/"]
  | rel q => q.toks
  | abs d q => slashTok d :: q.toks

def tree : LPath → XNode
  | root => .node .operatorPath (S "parse_path_expr Slash") (tip .axisRoot (S "node()")) .nil
  | rel q => q.tree
  | abs true q => .node .operatorPath (S "parse_path_expr SlashSlash 1") (tip .axisRoot (S "/"))
      (.node .operatorPath (S "parse_path_expr SlashSlash 2") dslash q.tree)
  | abs false q => .node .operatorPath (S "parse_path_expr Slash") (tip .axisRoot (S "node()")) q.tree

end Spec.LPath

theorem path_compiles (p : LPath) (hp : p.Ok) : Parser.compileXPath p.text = .ok p.tree := by
  have key : ∀ {ts : List Tok} {x : XNode} {s : Str}, Reads .eof ts s → (∃ bad, Derives (.level 19) ts x bad) → Parser.compileXPath s = .ok x := by
    rintro ts x s ⟨us, h1, h2⟩ ⟨bad, h3⟩
    exact C55_text_partial s us ts x bad h1 h2 (.loosen 1 h3 (by omega) (by omega) (by omega))
  cases p with
  | root => exact key (Reads.symbol (w := S "/") (r := []) (by decide) (by simp) (.nil _)) ⟨_, .root⟩
  | rel q =>
    obtain ⟨bad, h⟩ := rel_derives (q := q) hp
    exact key (rel_reads hp _ (by decide)) ⟨_, .relative h⟩
  | abs d q =>
    obtain ⟨bad, h⟩ := rel_derives (q := q) hp
    refine key ((slash_reads (d := d) (rel_start hp) (rel_reads hp)).reads _) ?_
    cases d with
    | true => exact ⟨_, .rootedAll h⟩
    | false => exact ⟨_, .rooted h⟩

end Amxml
