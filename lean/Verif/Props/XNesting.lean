import Verif.Lemmas.Nesting
import Verif.Lemmas.Queries

/-!
# C119 (compiling needs a stack no deeper than the text is nested)
-/

namespace Amxml
open Spec

namespace Parser

theorem openings_le (ts : List Tok) : openings ts ≤ ts.length := List.length_filter_le _ _

theorem exprSingle_nest (d : Nat) : Nest d (exprSingleF d) exprSingle := by
  intro ts hts
  obtain ⟨h1, h2⟩ := Nest.exprSingleF d (max d (ts.length + 1)) (by omega) ts hts
  have h3 := (Nest.exprSingleF (ts.length + 1) (max d (ts.length + 1)) (by omega) ts (by have := openings_le ts; omega)).1
  exact ⟨by rw [h1, ← h3]; rfl, h2⟩

/-- A bound that is as large as the number of openings and one more is never reached. -/
theorem mainWithin_enough (d : Nat) (ts : List Tok) (h : openings ts < d) : mainWithin d ts = main ts := by
  unfold mainWithin main
  rw [(Nest.expr (exprSingle_nest d) ts h).1]
  rfl

/-! ## Parentheses in parentheses -/

/-- The token `(`. -/
def paren : Tok := ⟨.leftParen, S "("⟩

theorem bind_error {α β : Type} {p : P α} {ts : List Tok} {e : XErr} (h : p ts = .error e) (f : α → P β) : (p >>= f) ts = .error e := by
  rw [bind_run, h]

theorem binOp_error {p : P XNode} {ts : List Tok} {e : XErr} (h : p ts = .error e) (tbl : TType → Option XNodeType) (o : Bool) :
    binOp p tbl o ts = .error e := bind_error h _

theorem typeOp_error {p : P XNode} {ts : List Tok} {e : XErr} (h : p ts = .error e) (t : TType) (x : XNodeType) (q : P XNode) :
    typeOp p t x q ts = .error e := bind_error h _

theorem orIfNil_skip {p q : P XNode} {ts : List Tok} (h : p ts = .ok (.nil, ts)) : orIfNil p q ts = q ts := by
  unfold orIfNil
  rw [bind_run, h]
  rfl

theorem ifTok_skip {α : Type} {t : TType} {p q : P α} (k : Tok) (ts : List Tok) (h : k.ty ≠ t) : ifTok t p q (k :: ts) = q (k :: ts) := by
  simp [ifTok, h]

theorem step_paren {es : P XNode} {ts : List Tok} {e : XErr} (h : es ts = .error e) : exprSingleStep es (paren :: ts) = .error e := by
  have h1 : parenthesized es (paren :: ts) = .error e := by
    have : expr es ts = .error e := binOp_error h _ _
    show (do let x ← expr es; expect .rightParen; pure (XNode.node .parenthesizedExpr _ x .nil) : P XNode) ts = _
    exact bind_error this _
  have h2 : primary es (paren :: ts) = .error e := by
    unfold primary
    rw [orIfNil_skip rfl, orIfNil_skip rfl]
    exact bind_error h1 _
  have h3 : stepExpr es (paren :: ts) = .error e := bind_error (bind_error h2 _) _
  have h3' : pathExpr es (paren :: ts) = .error e := by
    unfold pathExpr
    rw [peek_bind]
    exact bind_error h3 _
  have h4 : unaryExpr es (paren :: ts) = .error e := by
    unfold unaryExpr
    rw [ifTok_skip _ _ (by decide), ifTok_skip _ _ (by decide)]
    exact binOp_error h3' _ _
  have h5 : orExpr es (paren :: ts) = .error e :=
    binOp_error (binOp_error (binOp_error (binOp_error (binOp_error (binOp_error (binOp_error (binOp_error (binOp_error
      (typeOp_error (typeOp_error (typeOp_error (typeOp_error (bind_error h4 _) _ _ _) _ _ _) _ _ _) _ _ _) _ _) _ _) _ _) _ _) _ _) _ _) _ _) _ _) _ _
  unfold exprSingleStep
  rw [ifTok_skip _ _ (by decide), ifTok_skip _ _ (by decide), ifTok_skip _ _ (by decide), ifTok_skip _ _ (by decide), orIfNil_skip rfl]
  exact h5

theorem exprSingleF_parens : ∀ (n : Nat) (ts : List Tok), exprSingleF n (List.replicate n paren ++ ts) = .error .outOfFuel
  | 0, _ => rfl
  | n + 1, ts => by
    rw [List.replicate_succ]
    exact step_paren (exprSingleF_parens n ts)

end Parser

/-- **C119**: however long the text, the calls of the parser that are nested in one another are no more than the tokens of the text that open something, and
one: with that bound, and every larger one, a text compiles as without. -/
theorem C119_nesting (s : Str) (ts : List Tok) (hl : Lexer.new s = .ok ts) (depth : Nat) (hd : openings (Parser.body ts) < depth) :
    Parser.compileWithin depth s = Parser.compileXPath s := by
  unfold Parser.compileWithin Parser.compileXPath
  rw [hl]
  exact Parser.mainWithin_enough depth _ hd

/-- **C119**: in particular, a text without brackets and without `for`, `let`, `some`, `every` needs one call, whatever its length. -/
theorem C119_flat (s : Str) (ts : List Tok) (hl : Lexer.new s = .ok ts) (hf : ∀ k ∈ Parser.body ts, opens k.ty = false) :
    Parser.compileWithin 1 s = Parser.compileXPath s := by
  refine C119_nesting s ts hl 1 ?_
  unfold openings
  rw [List.filter_eq_nil_iff.mpr (fun k hk => by simp [hf k hk])]
  exact Nat.zero_lt_one

/-- **C119**: the bound cannot be improved: a text that begins with `n` opening parentheses needs more than `n` nested calls. -/
theorem C119_needed (n : Nat) (s : Str) (ts rest : List Tok) (hl : Lexer.new s = .ok ts)
    (hp : Parser.body ts = List.replicate n ⟨.leftParen, S "("⟩ ++ rest) : Parser.compileWithin n s = .error .outOfFuel := by
  unfold Parser.compileWithin Parser.mainWithin
  rw [hl]
  have h : Parser.expr (Parser.exprSingleF n) (Parser.body ts) = .error .outOfFuel := by
    rw [hp]
    exact Parser.binOp_error (Parser.exprSingleF_parens n rest) _ _
  simp only [h]


/-- A period in `n` pairs of parentheses. -/
def Spec.nested (n : Nat) : Str := List.replicate n '(' ++ '.' :: List.replicate n ')'

theorem closers_read (n : Nat) : ∀ prev, Reads prev (List.replicate n ⟨.rightParen, S ")"⟩) (List.replicate n ')') := by
  induction n with
  | zero => exact fun prev => .nil prev
  | succ n ih =>
    intro prev
    have := Reads.symbol (prev := prev) (t := .rightParen) (w := S ")") (by decide) (by cases n <;> intro d hd <;> simp [List.replicate_succ] at hd <;> subst hd <;> decide) (ih _)
    simpa [List.replicate_succ, S] using this

theorem nested_read (n m : Nat) : ∀ prev, Reads prev (List.replicate n Parser.paren ++ ⟨.dot, S "."⟩ :: List.replicate m ⟨.rightParen, S ")"⟩)
    (List.replicate n '(' ++ '.' :: List.replicate m ')') := by
  induction n with
  | zero =>
    intro prev
    have := Reads.symbol (prev := prev) (t := .dot) (w := S ".") (by decide) (by cases m <;> intro d hd <;> simp [List.replicate_succ] at hd <;> subst hd <;> decide) (closers_read m _)
    simpa [S] using this
  | succ n ih =>
    intro prev
    have := Reads.symbol (prev := prev) (t := .leftParen) (w := S "(") (by decide) (by cases n <;> intro d hd <;> simp [List.replicate_succ] at hd <;> subst hd <;> decide) (ih _)
    simpa [List.replicate_succ, S, Parser.paren] using this

theorem nested_new (n : Nat) : Lexer.new (nested n) =
    .ok (Lexer.eofTok :: (List.replicate n Parser.paren ++ ⟨.dot, S "."⟩ :: List.replicate n ⟨.rightParen, S ")"⟩) ++ [Lexer.eofTok]) := by
  obtain ⟨us, h1, h2⟩ := nested_read n n .eof
  refine Lexer.new_text h1 h2 ?_
  rintro rfl
  cases n <;> cases h2

/-- The tree of a period in `n` pairs of parentheses. -/
def Spec.nestedTree : Nat → XNode
  | 0 => .node .contextItem (S ".") .nil .nil
  | n + 1 => .node .parenthesizedExpr [] (nestedTree n) .nil

theorem nested_derives : ∀ n, Derives .primary (List.replicate n Parser.paren ++ ⟨.dot, S "."⟩ :: List.replicate n ⟨.rightParen, S ")"⟩)
    (nestedTree n) []
  | 0 => .context
  | n + 1 => by
    have h : Derives (.level 1) _ _ _ := .loosen 1 (.relative (.oneStep (.expression (.primary (nested_derives n))))) (by omega) (by omega) (by omega)
    have := Derives.paren (l := S "(") (r := S ")") (.present h)
    have e : List.replicate (n + 1) (⟨.rightParen, S ")"⟩ : Tok) = List.replicate n ⟨.rightParen, S ")"⟩ ++ [⟨.rightParen, S ")"⟩] :=
      List.replicate_succ'
    rw [e, List.replicate_succ]
    simpa [nestedTree, Parser.paren] using this

/-- **C119**: the bound cannot be improved: a period in `n` pairs of parentheses compiles with `n + 1` nested calls, to `n` nested nodes, and not with `n`. -/
theorem C119_exact (n : Nat) : Parser.compileWithin (n + 1) (nested n) = .ok (nestedTree n) ∧ Parser.compileXPath (nested n) = .ok (nestedTree n) ∧
    Parser.compileWithin n (nested n) = .error .outOfFuel := by
  have hb : Parser.body (Lexer.eofTok :: (List.replicate n Parser.paren ++ ⟨.dot, S "."⟩ :: List.replicate n ⟨.rightParen, S ")"⟩) ++ [Lexer.eofTok])
      = List.replicate n Parser.paren ++ ⟨.dot, S "."⟩ :: List.replicate n ⟨.rightParen, S ")"⟩ := by
    unfold Parser.body
    rw [List.cons_append, List.tail_cons, List.dropLast_concat]
  have hc : Parser.compileXPath (nested n) = .ok (nestedTree n) :=
    compiles_of (l := 19) (by omega) (by omega) (nested_read n n .eof) (.relative (.oneStep (.expression (.primary (nested_derives n)))))
  refine ⟨?_, hc, C119_needed n _ _ _ (nested_new n) hb⟩
  rw [← hc]
  refine C119_nesting _ _ (nested_new n) _ ?_
  rw [hb]
  unfold openings
  have ho : opens Parser.paren.ty = true := rfl
  have hd : opens TType.dot = false := rfl
  have hr : opens TType.rightParen = false := rfl
  simp [List.filter_append, ho, hd, hr]

/-- A long flat text, and texts with nesting. -/
example : Parser.compileWithin 1 (S "1 + 2 * 3 - 4 to /a/b//@c | d") = Parser.compileXPath (S "1 + 2 * 3 - 4 to /a/b//@c | d") ∧
    (Parser.compileXPath (S "1 + 2 * 3 - 4 to /a/b//@c | d")).isOk = true ∧
    Parser.compileWithin 1 (S "for $x in a return $x") = .error .outOfFuel ∧ (Parser.compileWithin 2 (S "for $x in a return $x")).isOk = true ∧
    Parser.compileWithin 2 (S "a[b[1]]") = .error .outOfFuel ∧ (Parser.compileWithin 3 (S "a[b[1]]")).isOk = true := by
  refine ⟨?_, ?_, ?_, ?_, ?_, ?_⟩ <;> decide +kernel

end Amxml
