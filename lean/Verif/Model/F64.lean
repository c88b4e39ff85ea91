import Verif.Model.Basic

/-!
# `f64`

Rust's `f64` is IEEE 754 binary64. Lean's core library contains an executable, kernel-reducible definition of
binary64 (`Float.Model`: 64-bit patterns with one canonical NaN, round-to-nearest-even arithmetic). `F64` is that
type; addition, subtraction, multiplication, division, negation, absolute value, the comparisons, `as i64` and the
conversion from `i64` are the operations of that library. The operations it lacks (`%`, `floor`, `ceil`, `from_str`,
`Display`, `LowerExp`) are defined here on the unpacked representation (sign, mantissa, exponent).
-/

namespace Amxml

/-- Rust `f64`. -/
abbrev F64 := Float.Model

namespace F64

open Float.Model (UnpackedFloat Format)
open Float.Model.UnpackedFloat (Sign)

/-- Packing of an already rounded number. -/
abbrev pack (u : UnpackedFloat) : F64 := Float.Model.pack u

/-- `f64::NAN`. -/
def nan : F64 := pack .notANumber

/-- `0.0`. -/
def zero : F64 := pack (.zero .positive)

/-- `n as f64` for an `i64`. -/
def ofInt (n : Int) : F64 := Float.Model.ofInt n

/-- `f as i64`: truncation, saturating, NaN to 0 (Rust since 1.45). -/
def toI64 (f : F64) : Int := (Float.Model.toInt64 f).toInt

/-- `a == b`. -/
def eq (a b : F64) : Bool := Float.Model.beq a b

/-- `a < b`. -/
def lt (a b : F64) : Bool := Float.Model.lt a b

/-- `f.is_nan()`. -/
def isNan (f : F64) : Bool := Float.Model.isNaN f

/-- `f.is_infinite()`. -/
def isInf (f : F64) : Bool := Float.Model.isInf f

/-- `f.is_finite()`. -/
def isFinite (f : F64) : Bool := Float.Model.isFinite f

/-- `f.signum() == 1.0` (for infinities and zeros: the sign bit is clear). -/
def signPos (f : F64) : Bool :=
  match f.unpack with
  | .infinity .positive | .zero .positive | .finite .positive .. => true
  | _ => false

/-- `f.signum() == -1.0`. -/
def signNeg (f : F64) : Bool :=
  match f.unpack with
  | .infinity .negative | .zero .negative | .finite .negative .. => true
  | _ => false

/-- Rounds `± m * 2^e` to binary64 (`m = 0`: a zero of the given sign). -/
def mk (s : Sign) (m : Nat) (e : Int) : F64 :=
  if m = 0 then pack (.zero s) else pack (UnpackedFloat.round Format.binary64 s m e)

/-- `a % b` (`Rem for f64`, the C `fmod`): the exact remainder of the truncated division, with `a`'s sign. -/
def rem (a b : F64) : F64 :=
  match a.unpack, b.unpack with
  | .notANumber, _ | _, .notANumber => nan
  | .infinity _, _ => nan
  | _, .zero _ => nan
  | .zero _, _ => a
  | _, .infinity _ => a
  | .finite s m e _, .finite _ m' e' _ =>
    let e0 := min e e'
    mk s ((m * 2 ^ (e - e0).toNat) % (m' * 2 ^ (e' - e0).toNat)) e0

/-- `f.floor()`. -/
def floor (f : F64) : F64 :=
  match f.unpack with
  | .finite s m e _ =>
    if 0 ≤ e then f
    else
      let d := 2 ^ (-e).toNat
      match s with
      | .positive => mk .positive (m / d) 0
      | .negative => mk .negative ((m + (d - 1)) / d) 0
  | _ => f

/-- `f.ceil()`. -/
def ceil (f : F64) : F64 :=
  match f.unpack with
  | .finite s m e _ =>
    if 0 ≤ e then f
    else
      let d := 2 ^ (-e).toNat
      match s with
      | .positive => mk .positive ((m + (d - 1)) / d) 0
      | .negative => mk .negative (m / d) 0
  | _ => f

/-! ## Decimal input -/

/-- ASCII digit. -/
def isAsciiDigit (c : Char) : Bool := decide ('0'.toNat ≤ c.toNat) && decide (c.toNat ≤ '9'.toNat)

/-- The value of a string of ASCII digits. -/
def digitsVal (s : Str) : Nat := s.foldl (fun n c => 10 * n + (c.toNat - '0'.toNat)) 0

/-- `[+-]?[0-9]+`: exponent of a number. -/
def parseExp (s : Str) : Option Int :=
  let (neg, t) : Bool × Str := match s with
    | '-' :: t => (true, t)
    | '+' :: t => (false, t)
    | t => (false, t)
  if t ≠ [] ∧ t.all isAsciiDigit then some (if neg then -(digitsVal t : Int) else digitsVal t) else none

/-- The part of a decimal number without sign: digits, optional fraction, optional exponent. At least one digit. -/
def parseUnsigned (s : Str) : Option (Nat × Int) :=
  let ip := s.takeWhile isAsciiDigit
  let r := s.dropWhile isAsciiDigit
  let (fp, r) : Str × Str := match r with
    | '.' :: t => (t.takeWhile isAsciiDigit, t.dropWhile isAsciiDigit)
    | t => ([], t)
  if ip = [] ∧ fp = [] then none
  else
    let m := digitsVal (ip ++ fp)
    match r with
    | [] => some (m, -(fp.length : Int))
    | c :: t =>
      if c = 'e' ∨ c = 'E' then (parseExp t).map fun e => (m, e - (fp.length : Int))
      else none

/-- ASCII lower case. -/
def asciiLower (c : Char) : Char := if 'A'.toNat ≤ c.toNat ∧ c.toNat ≤ 'Z'.toNat then Char.ofNat (c.toNat + 32) else c

/-- `f64::from_str` (grammar of Rust since 1.55: an optional sign, then `inf`, `infinity`, `nan` in any case, or a
decimal number; the value is the correctly rounded one). -/
def parse (s : Str) : Option F64 :=
  let (neg, t) : Bool × Str := match s with
    | '-' :: t => (true, t)
    | '+' :: t => (false, t)
    | t => (false, t)
  let sgn : F64 → F64 := fun f => if neg then Float.Model.neg f else f
  let l := t.map asciiLower
  if l = S "inf" ∨ l = S "infinity" then some (sgn (pack (.infinity .positive)))
  else if l = S "nan" then some nan
  else (parseUnsigned t).map fun p => sgn (Float.Model.ofScientific p.1 p.2)

/-! ## Decimal output -/

/-- `v < 10^k` for `v = m * 2^e` and an integer `k`. -/
def ltPow10 (m : Nat) (e k : Int) : Bool :=
  decide (m * 2 ^ e.toNat * 10 ^ (-k).toNat < 10 ^ k.toNat * 2 ^ (-e).toNat)

/-- The least `k` (searched upwards from `lo`) with `m * 2^e < 10^k`. -/
def decExp (m : Nat) (e : Int) : Nat → Int → Int
  | 0, lo => lo
  | n + 1, lo => if ltPow10 m e lo then lo else decExp m e n (lo + 1)

/-- The `n`-digit candidates: among `d * 10^q` with `d` the floor or ceiling of `m * 2^e / 10^q`, one that reads back
as `f`, the nearer one if both do. -/
def shortAt (f : F64) (m : Nat) (e q : Int) : Option Nat :=
  let num := m * 2 ^ e.toNat * 10 ^ (-q).toNat
  let den := 2 ^ (-e).toNat * 10 ^ q.toNat
  let d := num / den
  let ok := fun (x : Nat) => eq (Float.Model.ofScientific x q) f
  let near := decide (2 * (num - d * den) ≤ den)
  if near then (if ok d then some d else if ok (d + 1) then some (d + 1) else none)
  else (if ok (d + 1) then some (d + 1) else if ok d then some d else none)

/-- The shortest decimal that reads back as the positive number `f = m * 2^e`, with at most 17 digits: digits and
exponent. -/
def shortest (f : F64) (m : Nat) (e : Int) (k : Int) : Nat → Nat → Nat × Int
  | 0, n => (m * 2 ^ e.toNat * 10 ^ (n - k).toNat / (2 ^ (-e).toNat * 10 ^ (k - n).toNat), k - n)
  | fuel + 1, n =>
    match shortAt f m e (k - n) with
    | some d => (d, k - n)
    | none => shortest f m e k fuel (n + 1)

/-- Removes trailing zeros of the digits. -/
def stripZeros : Nat → Nat → Int → Nat × Int
  | 0, d, q => (d, q)
  | n + 1, d, q => if d ≠ 0 ∧ d % 10 = 0 then stripZeros n (d / 10) (q + 1) else (d, q)

/-- Shortest digits `d` and exponent `q` with `f = d * 10^q` for a positive finite `f`. -/
def digits (f : F64) (m : Nat) (e : Int) : Nat × Int :=
  let k := decExp m e 700 (-330)
  let r := shortest f m e k 17 1
  stripZeros 400 r.1 r.2

/-- Decimal digits of a natural number. -/
def natStr (n : Nat) : Str := (toString n).toList

/-- Positional notation of `d * 10^q`. -/
def positional (d : Nat) (q : Int) : Str :=
  let ds := natStr d
  if 0 ≤ q then ds ++ List.replicate q.toNat '0'
  else
    let p := (-q).toNat
    if p < ds.length then ds.take (ds.length - p) ++ '.' :: ds.drop (ds.length - p)
    else S "0." ++ List.replicate (p - ds.length) '0' ++ ds

/-- `format!("{}", f)` (shortest digits that read back, positional notation; negative zero is printed `-0`, Rust
since 1.53). -/
def fmt (f : F64) : Str :=
  match f.unpack with
  | .notANumber => S "NaN"
  | .infinity .positive => S "inf"
  | .infinity .negative => S "-inf"
  | .zero .positive => S "0"
  | .zero .negative => S "-0"
  | .finite s m e _ =>
    let r := digits (Float.Model.abs f) m e
    (if s == .negative then ['-'] else []) ++ positional r.1 r.2

/-- Decimal form of an integer (`format!("{}", n)`). -/
def intStr (n : Int) : Str := (if n < 0 then ['-'] else []) ++ natStr n.natAbs

/-- `format!("{:e}", f)`. -/
def fmtExp (f : F64) : Str :=
  match f.unpack with
  | .notANumber => S "NaN"
  | .infinity .positive => S "inf"
  | .infinity .negative => S "-inf"
  | .zero .positive => S "0e0"
  | .zero .negative => S "-0e0"
  | .finite s m e _ =>
    let r := digits (Float.Model.abs f) m e
    let ds := natStr r.1
    (if s == .negative then ['-'] else []) ++ ds.take 1 ++ (if ds.length ≤ 1 then [] else '.' :: ds.drop 1) ++
      'e' :: intStr (r.2 + (ds.length - 1 : Nat))

end F64
end Amxml
