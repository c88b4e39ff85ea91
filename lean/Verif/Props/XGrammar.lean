import Verif.Lemmas.GrammarRuns
import Verif.Lemmas.Lexical
import Verif.Lemmas.Decide

/-!
# C55: expressions are compiled according to the grammar

`Verif/Spec/Grammar.lean` states the grammar of XPath 3.1 with the syntax tree of every phrase.
-/

namespace Amxml
open Spec Parser

/-- C55, for the productions in `Verif/Spec/Grammar.lean`: every text whose tokens form an expression is compiled, and to the tree that the
productions give, so that operators bind and associate as the grammar says. Missing: the productions that the code gets wrong
(`C55_violated`). `C55_text_partial` goes from the text to the tokens. -/
theorem C55_grammar_partial (s : Str) (ts : List Tok) (x : XNode) (bad : List TType) (hs : Lexer.new s = .ok ts)
    (hd : Derives (.level 1) (body ts) x bad) : compileXPath s = .ok x := by
  unfold compileXPath
  rw [hs]
  exact main_of_derives hd

/-- C55, from the text: a text whose terminals (`Text`: the longest possible ones, with white space and comments between them) write (`Spells`: words are read as operators and
keywords by what stands next to them) an expression of the grammar is compiled to its tree. Missing: see `C55_grammar_partial`; and the words that the code reads in
another way than the grammar (`C55_words_violated`), which `Spells` leaves out. -/
theorem C55_text_partial (s : Str) (us ts : List Tok) (x : XNode) (bad : List TType) (ht : Text us s) (hs : Spells .eof ts us)
    (hd : Derives (.level 1) ts x bad) : compileXPath s = .ok x := by
  have hne : us ≠ [] := by
    rintro rfl
    cases hs
    obtain ⟨k, r, h, -⟩ := derives_first hd trivial
    cases h
  refine C55_grammar_partial s _ x bad (Lexer.new_text ht hs hne) ?_
  have : body (Lexer.eofTok :: ts ++ [Lexer.eofTok]) = ts := by simp [body]
  rw [this]
  exact hd

/-- The grammar is unambiguous: a sequence of tokens has at most one tree. -/
theorem C55_unambiguous (ts : List Tok) (x y : XNode) (bad bad' : List TType) (hx : Derives (.level 1) ts x bad) (hy : Derives (.level 1) ts y bad') :
    x = y := by
  have h1 := main_of_derives hx
  have h2 := main_of_derives hy
  rw [h1] at h2
  exact Except.ok.inj h2

/-- A phrase of a tighter level is one of a looser level. -/
theorem Spec.Derives.loosen {m : Nat} (l : Nat) {ts : List Tok} {x : XNode} {bad : List TType} (h : Derives (.level m) ts x bad) (h1 : 1 ≤ l) (h2 : l ≤ m)
    (h3 : m ≤ 19) : Derives (.level l) ts x bad := by
  induction m with
  | zero => omega
  | succ m ih =>
    by_cases e : l = m + 1
    · exact e ▸ h
    · exact ih (.tighter (by omega) (by omega) h) (by omega) (by omega)

/-- A primary expression as an expression of any level. -/
theorem Spec.Derives.prim (l : Nat) {ts : List Tok} {x : XNode} {bad : List TType} (h : Derives .primary ts x bad) (h1 : 1 ≤ l := by omega) (h2 : l ≤ 19 := by omega) :
    Derives (.level l) ts x bad :=
  .loosen l (.relative (.oneStep (.expression (.primary h)))) h1 h2 (by omega)

/-- `1 + 2 * 3 - 4` meets the hypotheses: it is `(1 + (2 * 3)) - 4`. -/
example : ∃ ts, Lexer.new (S "1 + 2 * 3 - 4") = .ok ts ∧ Derives (.level 1) (body ts)
    (.node .operatorSubtract (S "-")
      (.node .operatorAdd (S "+") (tip .integerLiteral (S "1"))
        (.node .operatorMultiply (S "*") (tip .integerLiteral (S "2")) (tip .integerLiteral (S "3"))))
      (tip .integerLiteral (S "4"))) [] := by
  refine ⟨_, (by decide +kernel : Lexer.new (S "1 + 2 * 3 - 4") = .ok [⟨.eof, []⟩, ⟨.integerLiteral, S "1"⟩, ⟨.plus, S "+"⟩, ⟨.integerLiteral, S "2"⟩,
    ⟨.asterisk, S "*"⟩, ⟨.integerLiteral, S "3"⟩, ⟨.minus, S "-"⟩, ⟨.integerLiteral, S "4"⟩, ⟨.eof, []⟩]), ?_⟩
  refine .loosen 1 (m := 8) ?_ (by omega) (by omega) (by omega)
  have hm : Derives (.level 9) ([⟨.integerLiteral, S "2"⟩] ++ ⟨.asterisk, S "*"⟩ :: [⟨.integerLiteral, S "3"⟩]) _ [] :=
    .left (k := ⟨.asterisk, S "*"⟩) (t := .operatorMultiply) (by decide) (by decide) (.prim 9 .integer) (by decide) (.prim 10 .integer)
  have hp := Derives.left (l := 8) (k := ⟨.plus, S "+"⟩) (t := .operatorAdd) (by decide) (by decide)
    (.prim 8 (.integer (s := S "1"))) (by decide) hm
  exact .left (l := 8) (k := ⟨.minus, S "-"⟩) (t := .operatorSubtract) (by decide) (by decide) hp (by decide) (.prim 9 (.integer (s := S "4")))

/-- `a/@b[1]` meets the hypotheses. -/
example : ∃ ts, Lexer.new (S "a/@b[1]") = .ok ts ∧ Derives (.level 1) (body ts)
    (.node .operatorPath pathTop (tip .axisChild (S "a"))
      (.node .operatorPath pathSlash (.node .axisAttribute (S "b") .nil (.node .predicateTop (S "Predicate") (tip .integerLiteral (S "1")) .nil)) .nil)) [] := by
  refine ⟨_, (by decide +kernel : Lexer.new (S "a/@b[1]") = .ok [⟨.eof, []⟩, ⟨.name, S "a"⟩, ⟨.slash, S "/"⟩, ⟨.at, S "@"⟩, ⟨.name, S "b"⟩,
    ⟨.leftBracket, S "["⟩, ⟨.integerLiteral, S "1"⟩, ⟨.rightBracket, S "]"⟩, ⟨.eof, []⟩]), ?_⟩
  refine .loosen 1 (m := 19) (.relative ?_) (by omega) (by omega) (by omega)
  have hname : ∀ n : Str, n ≠ [] → NodeTestD [⟨.name, n⟩] n .nil [.sharp, .colonAsterisk, .colon] := fun n hn => .name (.ncname hn)
  exact .steps (.child (ps := []) (hname (S "a") (by decide)) (by simp) .noPreds)
    (.slashLast (.atStep (hname (S "b") (by decide)) (.preds (r := S "]") (.prim 1 (.integer (s := S "1"))) .noPreds)))

/-- Where the code departs from the grammar of XPath 3.1. A sign after a sign: the first one is applied to nothing and the second one subtracts. Predicates after `..`
are not accepted, nor is a function in parentheses after `=>`. `attribute(x)` without axis selects children. The namespace axis
is not implemented. A word operator directly after the wildcard `*` is read as a name. -/
theorem C55_violated :
    compileXPath (S "- - 1") = .ok (.node .operatorSubtract (S "-") (.node .operatorUnaryMinus (S "-") .nil .nil) (tip .integerLiteral (S "1"))) ∧
    compileXPath (S "..[1]") = .error .syntaxError ∧
    compileXPath (S "1 => (abs#1)()") = .error .syntaxError ∧
    compileXPath (S "attribute(x)") = .ok (.node .axisChild [] (.node .kindTest [] (.node .attributeTest (S "x") (tip .kindTestTypeName (S "xs:anyType")) .nil) .nil) .nil) ∧
    compileXPath (S "namespace::a") = .error .unimplemented ∧
    compileXPath (S "* and 1") = .error .syntaxError ∧ compileXPath (S "a/* except b") = .error .syntaxError := by
  decide +kernel

/-- Texts that are no expressions but are compiled: an operator without operand, and anything as a keyword between the parts of `for` (here
`foo` for `in`). -/
theorem C55_accepts_more :
    compileXPath (S "1 +") = .ok (.node .operatorAdd (S "+") (tip .integerLiteral (S "1")) .nil) ∧
    (∃ x, compileXPath (S "for $x foo 1 bar $x") = .ok x) := by
  refine ⟨by decide +kernel, ?_⟩
  cases h : compileXPath (S "for $x foo 1 bar $x") with
  | ok x => exact ⟨x, rfl⟩
  | error e =>
    exfalso
    have : (match compileXPath (S "for $x foo 1 bar $x") with | .ok _ => true | .error _ => false) = true := by decide +kernel
    rw [h] at this
    cases this

/-- A text of words and symbols separated by single spaces. -/
theorem text_spaced {w : Str} {t : Tok} {ts : List Tok} {r : Str} (hw : Lexeme w t) (h1 : w.head? ≠ some '"' ∧ w.head? ≠ some '\'' ∧ ¬ S "Q{" <+: w)
    (h : Text ts r) : Text (t :: ts) (w ++ ' ' :: r) := by
  have hr : Text ts (' ' :: r) := by
    cases h with
    | nil hb => exact .nil (.white ' ' _ (.inl rfl) hb)
    | cons hb hw he h => exact .cons (.white ' ' _ (.inl rfl) hb) hw he h
  exact .cons (b := []) .nil hw (Lexer.ends_of_white hw h1 (by simp [IsWhite])) hr

/-- `div div div ` meets the hypotheses of `C55_text_partial`: it is the child `div` divided by the child `div`. -/
example : ∃ us ts, Text us (S "div div div ") ∧ Spells .eof ts us ∧
    Derives (.level 1) ts (.node .operatorDiv (S "div") (tip .axisChild (S "div")) (tip .axisChild (S "div"))) [.sharp, .colonAsterisk, .colon] := by
  have hword : Lexeme (S "div") ⟨.innerName, S "div"⟩ := .word (c := 'd') (w := S "iv") (by decide) (by decide)
  have hfree : (S "div").head? ≠ some '"' ∧ (S "div").head? ≠ some '\'' ∧ ¬ S "Q{" <+: S "div" := by decide
  refine ⟨_, [⟨.name, S "div"⟩, ⟨.div, S "div"⟩, ⟨.name, S "div"⟩],
    text_spaced hword hfree (text_spaced hword hfree (text_spaced hword hfree (.nil .nil))), ?_, ?_⟩
  · exact .name (by decide) (by simp [S, wordPairs]) (by simp [S, markedWords])
      (.operator (t := .div) (by decide) (by decide) (.name (by decide) (by simp) (by simp) .nil))
  · have hstep : Derives .step [⟨.name, S "div"⟩] (tip .axisChild (S "div")) [.sharp, .colonAsterisk, .colon] :=
      .child (ps := []) (.name (.ncname (by decide))) (by simp) .noPreds
    have hl : ∀ l, 1 ≤ l → l ≤ 19 → Derives (.level l) [⟨.name, S "div"⟩] (tip .axisChild (S "div")) [.sharp, .colonAsterisk, .colon] :=
      fun l h1 h2 => .loosen l (.relative (.oneStep hstep)) h1 h2 (by omega)
    exact .loosen 1 (m := 9) (.left (k := ⟨.div, S "div"⟩) (t := .operatorDiv) (by decide) (by decide) (hl 9 (by omega) (by omega)) (by decide)
      (hl 10 (by omega) (by omega))) (by omega) (by omega) (by omega)

/-- Words that the code reads otherwise than the grammar: a variable, a key, or a name after `!`, spelled like an operator, and an operator directly after the wildcard `*` or
an occurrence indicator `*`. -/
theorem C55_words_violated :
    compileXPath (S "$div") = .error .syntaxError ∧ compileXPath (S "$m?to") = .error .syntaxError ∧
    compileXPath (S "a ! div") = .ok (.node .operatorDiv (S "div") (.node .operatorMap (S "!") (tip .axisChild (S "a")) .nil) .nil) ∧
    compileXPath (S "* and 1") = .error .syntaxError ∧ compileXPath (S "a/* except b") = .error .syntaxError ∧
    compileXPath (S "1 instance of item()* and 1") = .error .syntaxError := by
  decide +kernel

end Amxml
