/-!
# Strings

Rust `String` / `&str` / `Vec<char>` are modelled by lists of Unicode scalar values.
The library functions of `str` that the code uses with *literal, non-empty* patterns are modelled here.
-/

namespace Amxml

/-- Rust `String`, `&str`, `Vec<char>`. -/
abbrev Str := List Char

/-- A Lean string literal as a model string. -/
abbrev S (s : String) : Str := s.toList

/-- If `s` starts with `pat`, the rest of `s` (Rust: match of a literal pattern at the current position). -/
def stripPrefix : (pat s : Str) → Option Str
  | [], s => some s
  | _ :: _, [] => none
  | p :: ps, c :: cs => if p = c then stripPrefix ps cs else none

/-- `str::splitn(2, pat)` for a non-empty pattern, as used in src/sax.rs:881,886 and src/dom.rs:382,405:
`some (before, after)` at the first occurrence of `pat` (two pieces), `none` when `pat` does not occur (one piece). -/
def splitOnce (pat : Str) : Str → Option (Str × Str)
  | [] => none
  | c :: cs =>
    match stripPrefix pat (c :: cs) with
    | some rest => some ([], rest)
    | none => (splitOnce pat cs).map fun r => (c :: r.1, r.2)

/-- Worker of `replaceAll`: `k` characters of an already replaced match remain to be skipped. -/
def replaceAux (pat rep : Str) : Nat → Str → Str
  | _, [] => []
  | k + 1, _ :: cs => replaceAux pat rep k cs
  | 0, c :: cs =>
    match stripPrefix pat (c :: cs) with
    | some _ => rep ++ replaceAux pat rep (pat.length - 1) cs
    | none => c :: replaceAux pat rep 0 cs

/-- `str::replace(pat, rep)` for a non-empty pattern: replaces all non-overlapping occurrences, left to right
(src/sax.rs:912, src/dom.rs:1009). -/
def replaceAll (pat rep s : Str) : Str := replaceAux pat rep 0 s

/-- The character U+0000, used by tokenizer and XPath lexer as end-of-input mark
(`const EOF`, src/sax.rs:87, src/xpath_impl/lexer.rs:14). -/
def EOFC : Char := '\x00'

end Amxml
