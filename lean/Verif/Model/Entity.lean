import Verif.Model.Basic

/-!
# Entity encoding and decoding (`encode_entity` in src/dom.rs, `decode_entity` in src/sax.rs)
-/

namespace Amxml

/-- The table of `encode_entity` (src/dom.rs:1000-1006). -/
def encodeSpecs : List (Str × Str) :=
  [ (S "&", S "&amp;"), (S ">", S "&gt;"), (S "<", S "&lt;"), (S "\"", S "&quot;"), (S "'", S "&apos;") ]

/-- `encode_entity` (src/dom.rs:999-1012): the replacements are done one after the other. -/
def encodeEntity (s : Str) : Str :=
  encodeSpecs.foldl (fun acc spec => replaceAll spec.1 spec.2 acc) s

/-- `char::to_digit(radix)` of the Rust library, for radix 10 and 16. -/
def toDigit (radix : Nat) (c : Char) : Option Nat :=
  let d := if '0' ≤ c ∧ c ≤ '9' then some (c.toNat - '0'.toNat)
    else if 'a' ≤ c ∧ c ≤ 'z' then some (c.toNat - 'a'.toNat + 10)
    else if 'A' ≤ c ∧ c ≤ 'Z' then some (c.toNat - 'A'.toNat + 10)
    else none
  match d with
  | some v => if v < radix then some v else none
  | none => none

/-- Digits of `u32::from_str_radix`: `none` on an invalid digit or when the value exceeds `u32::MAX`. -/
def parseDigits (radix : Nat) : Nat → Str → Option Nat
  | acc, [] => some acc
  | acc, c :: cs =>
    match toDigit radix c with
    | none => none
    | some d => if acc * radix + d < 2 ^ 32 then parseDigits radix (acc * radix + d) cs else none

/-- `u32::from_str_radix` of the Rust library: an optional leading `+`, at least one digit. -/
def u32FromStrRadix (radix : Nat) (s : Str) : Option Nat :=
  match s with
  | [] => none
  | '+' :: [] => none
  | '+' :: cs => parseDigits radix 0 cs
  | cs => parseDigits radix 0 cs

/-- `char::from_u32` of the Rust library: `none` for surrogates and values above 0x10FFFF. -/
def charFromU32 (n : Nat) : Option Char :=
  if n < 0xD800 ∨ (0xDFFF < n ∧ n < 0x110000) then some (Char.ofNat n) else none

/-- The character a reference body denotes (src/sax.rs:895-897): unparsable bodies and numbers which are no
character give U+3013. -/
def refChar (radix : Nat) (entity : Str) : Char :=
  (charFromU32 ((u32FromStrRadix radix entity).getD 0x3013)).getD '〓'

/-- One iteration of the inner loop of `decode_entity` (src/sax.rs:879-899): `none` = `break`. -/
def decodeStep (pattern : Str) (radix : Nat) (buf : Str) : Option Str :=
  match splitOnce pattern buf with
  | none => none
  | some (head, v1) =>
    match splitOnce (S ";") v1 with
    | none => none
    | some (entity, tail) => some (head ++ refChar radix entity :: tail)

/-- The inner `loop` of `decode_entity` (src/sax.rs:878-899). Every iteration replaces at least three characters
(`&#`, `;`) by one, so `buf.length` iterations suffice (`decodeLoop_fixpoint` in Lemmas proves that the loop has
really ended when the fuel is used up). -/
def decodeLoop (pattern : Str) (radix : Nat) : Nat → Str → Str
  | 0, buf => buf
  | fuel + 1, buf =>
    match decodeStep pattern radix buf with
    | none => buf
    | some buf' => decodeLoop pattern radix fuel buf'

/-- The table of predefined entities (src/sax.rs:904-910). -/
def entitySpecs : List (Str × Str) :=
  [ (S "&gt;", S ">"), (S "&lt;", S "<"), (S "&quot;", S "\""), (S "&apos;", S "'"), (S "&amp;", S "&") ]

/-- `decode_entity` (src/sax.rs:873-916). -/
def decodeEntity (s : Str) : Str :=
  let buf := decodeLoop (S "&#x") 16 s.length s
  let buf := decodeLoop (S "&#") 10 buf.length buf
  entitySpecs.foldl (fun acc spec => replaceAll spec.1 spec.2 acc) buf

end Amxml
