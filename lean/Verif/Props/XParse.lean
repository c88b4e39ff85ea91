import Verif.Lemmas.Parser
import Verif.Props.XLexer

/-!
# C54 (the parser terminates)
-/

namespace Amxml
open Spec

namespace Parser

/-- The parser yields a syntax tree or one of two errors. -/
theorem main_total (ts : List Tok) :
    (∃ x, main ts = .ok x) ∨ main ts = .error .syntaxError ∨ main ts = .error .unimplemented := by
  obtain ⟨-, -, h3⟩ := R.expr (R.exprSingle (ts.length + 1)) ts (by omega)
  unfold main
  cases h : expr exprSingle ts with
  | ok r =>
    obtain ⟨x, r⟩ := r
    cases r with
    | nil => exact Or.inl ⟨x, rfl⟩
    | cons _ _ => exact Or.inr (Or.inl rfl)
  | error e =>
    rcases h3 e h with rfl | rfl
    · exact Or.inr (Or.inl rfl)
    · exact Or.inr (Or.inr rfl)

end Parser

/-- **C54**: every expression that is not blank (see C52) is compiled to a syntax tree or rejected with a syntax error or as not
implemented; neither the recursion of the parser nor one of its loops goes on for ever, and no token beyond the end is asked for. -/
theorem C54_parser_total (s : Str) (h0 : '\x00' ∉ s) (hs : ¬ Blank s) :
    (∃ x, Parser.compileXPath s = .ok x) ∨ Parser.compileXPath s = .error .syntaxError ∨
    Parser.compileXPath s = .error .unimplemented := by
  unfold Parser.compileXPath
  rcases C52_lexer_total_partial s h0 hs with ⟨ts, h⟩ | h
  · rw [h]; exact Parser.main_total _
  · rw [h]; exact Or.inr (Or.inl rfl)

/-- Trees and errors both occur. -/
example : (Parser.compileXPath "1 + 2".toList).isOk = true ∧
    Parser.compileXPath "1 +)".toList = .error .syntaxError := by
  constructor <;> decide +kernel

end Amxml
