import Verif.Model.Lexer
import Verif.Model.Parser

/-!
# Nested expressions

What C119 speaks of: how many tokens of a text can open an expression inside an expression, and the compiler with a bound on the number of calls of
`parse_expr_single` that are under way at the same time.
-/

namespace Amxml
namespace Spec

/-- The tokens behind which an expression begins inside another one: the three opening brackets and the words before a variable that is bound. -/
def opens : TType → Bool
  | .leftParen | .leftBracket | .leftCurly | .forT | .letT | .someT | .every => true
  | _ => false

/-- How many tokens of the list open something. -/
def openings (ts : List Tok) : Nat := (ts.filter fun k => opens k.ty).length

end Spec

namespace Parser

/-- `parse_main` (src/xpath_impl/parser.rs:294-300) where no more than `depth` calls of `parse_expr_single` (834-848) may be under way at the same time:
the next one ends everything with `outOfFuel` (as it would end with an overflow of the stack). -/
def mainWithin (depth : Nat) (ts : List Tok) : Except XErr XNode :=
  match expr (exprSingleF depth) ts with
  | .ok (x, []) => .ok x
  | .ok (_, _ :: _) => .error .syntaxError
  | .error e => .error e

/-- `compile_xpath` (src/xpath_impl/parser.rs:285-289) with the same bound. -/
def compileWithin (depth : Nat) (s : Str) : Except XErr XNode :=
  match Lexer.new s with
  | .ok ts => mainWithin depth (body ts)
  | .error e => .error e

end Parser
end Amxml
