import Verif.Spec.Entity

/-!
# Texts that are no references, and ill-formed references (specification)
-/

namespace Amxml.Spec

/-- The text contains something that looks like a reference: `&#`, anything, `;`, or a predefined entity. -/
def HasReference (s : Str) : Prop :=
  (∃ a b c, s = a ++ "&#".toList ++ b ++ ";".toList ++ c) ∨ ∃ (e : Ent) (a c : Str), s = a ++ "&".toList ++ e.name ++ ";".toList ++ c

/-- `n` is written with these characters, in base 10 (`hex = false`) or 16: digits, at least one, perhaps with a plus sign in front. -/
def Denotes (hex : Bool) (body : Str) (n : Nat) : Prop :=
  match hex with
  | false => ∃ ds : List (Fin 10), ds ≠ [] ∧ (body = ds.map decDigit ∨ body = '+' :: ds.map decDigit) ∧ n = value 10 (ds.map (·.1))
  | true => ∃ ds : List (Fin 16 × Bool), ds ≠ [] ∧
      (body = ds.map (fun d => hexDigit d.1 d.2) ∨ body = '+' :: ds.map (fun d => hexDigit d.1 d.2)) ∧ n = value 16 (ds.map (·.1.1))

/-- How a numeric reference begins. -/
def refMark : Bool → Str
  | false => "&#".toList
  | true => "&#x".toList

/-- The character for what stands between that and the semicolon: the character with the number, U+3013 if there is none or if it is no number. -/
def StandsFor (hex : Bool) (body : Str) (c : Char) : Prop :=
  (∃ n, Denotes hex body n ∧ c = charOf n) ∨ ((∀ n, ¬ Denotes hex body n) ∧ c = '\u3013')

end Amxml.Spec
