import Verif.Model.Basic

/-!
# What the XPath lexer should accept, without reference to the lexer
-/

namespace Amxml
namespace Spec

/-- A text as a string literal: between two quote characters, with every quote character inside doubled. -/
def quoted (q : Char) (s : Str) : Str := q :: s.flatMap (fun c => if c = q then [q, q] else [c]) ++ [q]

/-- The contents of a comment: characters and comments in any order. A character may not begin `(:` or `:)`; it is judged with the
closing `:)` of the comment behind it. -/
inductive CommentBody : Str → Prop where
  | nil : CommentBody []
  | char (c : Char) (b : Str) (hb : CommentBody b) (h0 : c ≠ '\x00') (h1 : ¬ S "(:" <+: c :: (b ++ S ":)"))
      (h2 : ¬ S ":)" <+: c :: (b ++ S ":)")) : CommentBody (c :: b)
  | comment (a b : Str) (ha : CommentBody a) (hb : CommentBody b) : CommentBody (S "(:" ++ a ++ S ":)" ++ b)

/-- A comment. -/
def comment (a : Str) : Str := S "(:" ++ a ++ S ":)"

/-- White space. -/
def IsWhite (c : Char) : Prop := c = ' ' ∨ c = '\t' ∨ c = '\r' ∨ c = '\n'

instance (c : Char) : Decidable (IsWhite c) := by unfold IsWhite; infer_instance

/-- A text of white space and comments only. -/
inductive Blank : Str → Prop where
  | nil : Blank []
  | white (c : Char) (s : Str) (hc : IsWhite c) (hs : Blank s) : Blank (c :: s)
  | comment (a s : Str) (ha : CommentBody a) (hs : Blank s) : Blank (comment a ++ s)

end Spec
end Amxml
