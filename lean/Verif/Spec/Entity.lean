import Verif.Model.Basic

/-!
# Specification of references in text and attribute values

Independent of the model: text is a sequence of pieces; `Piece.render` is how XML writes it, `Piece.meaning` the
character it stands for.
-/

namespace Amxml.Spec

/-- The five predefined entities of XML. -/
inductive Ent where
  | lt | gt | amp | quot | apos
  deriving DecidableEq, Repr

/-- The name between `&` and `;`. -/
def Ent.name : Ent → Str
  | .lt => "lt".toList
  | .gt => "gt".toList
  | .amp => "amp".toList
  | .quot => "quot".toList
  | .apos => "apos".toList

/-- The character a predefined entity stands for. -/
def Ent.char : Ent → Char
  | .lt => '<'
  | .gt => '>'
  | .amp => '&'
  | .quot => '"'
  | .apos => '\''

/-- How a character is written in text and attribute values: the five special characters as entity references, any other
as it is. -/
def escapeChar (c : Char) : Str :=
  match [Ent.lt, .gt, .amp, .quot, .apos].find? (fun e => e.char = c) with
  | some e => '&' :: (e.name ++ [';'])
  | none => [c]

/-- A text with its special characters written as entity references. -/
def escape (s : Str) : Str := s.flatMap escapeChar

/-- Decimal digits. -/
def decDigit (d : Fin 10) : Char := Char.ofNat (48 + d)

/-- Hexadecimal digits, upper or lower case. -/
def hexDigit (d : Fin 16) (upper : Bool) : Char :=
  if d.1 < 10 then Char.ofNat (48 + d) else if upper then Char.ofNat (55 + d) else Char.ofNat (87 + d)

/-- A piece of XML text: a literal character other than `&`, a decimal reference `&#ddd;`, a hexadecimal reference
`&#xhhh;` (digits most significant first), or a predefined entity reference. -/
inductive Piece where
  | lit (c : Char)
  | dec (ds : List (Fin 10))
  | hex (ds : List (Fin 16 × Bool))
  | ent (e : Ent)
  deriving Repr

/-- Well-formed: literal characters are not `&`, references have at least one digit. -/
def Piece.WF : Piece → Prop
  | .lit c => c ≠ '&'
  | .dec ds => ds ≠ []
  | .hex ds => ds ≠ []
  | .ent _ => True

/-- How the piece is written. -/
def Piece.render : Piece → Str
  | .lit c => [c]
  | .dec ds => '&' :: '#' :: (ds.map decDigit ++ [';'])
  | .hex ds => '&' :: '#' :: 'x' :: (ds.map (fun d => hexDigit d.1 d.2) ++ [';'])
  | .ent e => '&' :: (e.name ++ [';'])

/-- Value of a digit string in a given base. -/
def value (base : Nat) (ds : List Nat) : Nat := ds.foldl (fun acc d => acc * base + d) 0

/-- The character with a given code point; U+3013 if no character has it. -/
def charOf (n : Nat) : Char :=
  if n < 0xD800 ∨ (0xE000 ≤ n ∧ n ≤ 0x10FFFF) then Char.ofNat n else '\u3013'

/-- The character the piece stands for. -/
def Piece.meaning : Piece → Char
  | .lit c => c
  | .dec ds => charOf (value 10 (ds.map (·.1)))
  | .hex ds => charOf (value 16 (ds.map (·.1.1)))
  | .ent e => e.char

/-- A numeric reference to the ampersand (`&#38;`, `&#x26;`, ...). -/
def Piece.isNumAmp : Piece → Prop
  | .dec ds => charOf (value 10 (ds.map (·.1))) = '&'
  | .hex ds => charOf (value 16 (ds.map (·.1.1))) = '&'
  | _ => False

/-- The text written as a sequence of pieces, and what it stands for. -/
def renderAll (ps : List Piece) : Str := ps.flatMap Piece.render
def meaningAll (ps : List Piece) : Str := ps.map Piece.meaning

end Amxml.Spec
