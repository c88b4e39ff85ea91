import Verif.Model.Chars
import Verif.Model.Entity

/-!
# The SAX tokenizer (`SaxDecoder`, src/sax.rs)

`char_vec` and `index` (src/sax.rs:93-95) are represented by the list of characters from `index` on. `getchar`
(443-450) takes the head, or returns `EOF` and stays at the end; in the source every `ungetchar` (454-458) undoes the
immediately preceding `getchar`, so it is modelled by keeping the list from before the `getchar`.
-/

namespace Amxml

/-- `XmlToken` (src/sax.rs:104-126); an attribute is a (name, value) pair (`Attr`, 133-136). -/
inductive Token where
  | eof
  | startElement (name : Str) (attr : List (Str × Str))
  | endElement (name : Str)
  | charData (chardata : Str)
  | procInst (target inst : Str)
  | comment (comment : Str)
  | directive (directive : Str)
  deriving Repr, DecidableEq

/-- The syntax errors `raw_token` reports; the constructor determines the message in the source. -/
inductive SaxErr where
  | eofAfterLt            -- src/sax.rs:181
  | eofSearching (delim : Str)  -- 347, 365
  | badComment            -- 215
  | badCdata              -- 222
  | noQuote               -- 263
  | noEq                  -- 267
  | illegalAfterSlash     -- 279
  | eofBracket            -- 425
  deriving Repr, DecidableEq

/-- `SaxDecoder` (src/sax.rs:93-99). -/
structure Dec where
  rest : Str
  toClose : Str
  deriving Repr, DecidableEq

/-- `SaxDecoder::new` (src/sax.rs:152-160). -/
def Dec.new (xml : Str) : Dec := { rest := xml.filter (· != '\r'), toClose := [] }

/-- `getchar` (src/sax.rs:443-450). -/
def getchar : Str → Char × Str
  | [] => (EOFC, [])
  | c :: cs => (c, cs)

/-- `skip_spaces` (src/sax.rs:303-313). An EOF character is consumed. -/
def skipSpaces : Str → Str
  | [] => []
  | c :: cs => if c = EOFC then cs else if isSpace c then skipSpaces cs else c :: cs

/-- `look_ahead_keyword` (src/sax.rs:320-332): the rest after the keyword, or `none` with the position restored.
The keywords used do not contain EOF, so the end of the input never matches. -/
def lookAheadKeyword (keyword : Str) (r : Str) : Option Str := stripPrefix keyword r

/-- `get_until` (src/sax.rs:339-352). Result and the position afterwards. -/
def getUntil (delim : Str) : Str → Except SaxErr Str × Str
  | [] => (.error (.eofSearching delim), [])
  | c :: cs =>
    match lookAheadKeyword delim (c :: cs) with
    | some rest => (.ok [], rest)
    | none =>
      if c = EOFC then (.error (.eofSearching delim), cs)
      else
        let r := getUntil delim cs
        (r.1.map (c :: ·), r.2)

/-- `get_until_ch` (src/sax.rs:360-372). -/
def getUntilCh (delim : Char) : Str → Except SaxErr Str × Str
  | [] => (.error (.eofSearching [delim]), [])
  | c :: cs =>
    if c = EOFC then (.error (.eofSearching [delim]), cs)
    else if c = delim then (.ok [], cs)
    else
      let r := getUntilCh delim cs
      (r.1.map (c :: ·), r.2)

/-- The loop of `get_name` (src/sax.rs:388-396). -/
def getNameTail : Str → Str × Str
  | [] => ([], [])
  | c :: cs =>
    if isNameChar c then
      let r := getNameTail cs
      (c :: r.1, r.2)
    else ([], c :: cs)

/-- `get_name` (src/sax.rs:378-397). -/
def getName : Str → Str × Str
  | [] => ([], [])
  | c :: cs =>
    if isNameFirstChar c then
      let r := getNameTail cs
      (c :: r.1, r.2)
    else ([], c :: cs)

/-- `get_chardata` (src/sax.rs:402-415). An EOF character is consumed. -/
def getChardata : Str → Str × Str
  | [] => ([], [])
  | c :: cs =>
    if c = EOFC then ([], cs)
    else if c = '<' then ([], c :: cs)
    else
      let r := getChardata cs
      (c :: r.1, r.2)

/-- The loop of `get_until_matching_bracket` (src/sax.rs:419-439); the argument `nest` is `nest_level`, which
starts at 1 and is positive whenever the loop head is reached. -/
def getBracket : Nat → Str → Except SaxErr Str × Str
  | _, [] => (.error .eofBracket, [])
  | nest, c :: cs =>
    if c = EOFC then (.error .eofBracket, cs)
    else if c = '<' then
      let r := getBracket (nest + 1) cs
      (r.1.map (c :: ·), r.2)
    else if c = '>' then
      if nest - 1 = 0 then (.ok [c], cs)
      else
        let r := getBracket (nest - 1) cs
        (r.1.map (c :: ·), r.2)
    else
      let r := getBracket nest cs
      (r.1.map (c :: ·), r.2)

/-- Result of a tokenizer call: the returned value and the decoder afterwards. -/
abbrev TokRes := Except SaxErr Token × Dec

/-- The attribute part of one round of the start-tag loop (src/sax.rs:244-268): skip spaces, read an attribute if a
name follows. `.error` is an early return. -/
def readAttr (r : Str) : Except (SaxErr × Str) (Option (Str × Str) × Str) :=
  let n := getName (skipSpaces r)
  if n.1 ≠ [] then
    let g := getchar (skipSpaces n.2)
    if g.1 = '=' then
      let g := getchar (skipSpaces g.2)
      if g.1 = '"' ∨ g.1 = '\'' then
        let u := getUntilCh g.1 g.2
        match u.1 with
        | .error e => .error (e, u.2)
        | .ok v => .ok (some (n.1, decodeEntity v), u.2)
      else
        let u := getUntilCh '>' g.2
        match u.1 with
        | .error e => .error (e, u.2)
        | .ok _ => .error (.noQuote, u.2)
    else
      let u := getUntilCh '>' g.2
      match u.1 with
      | .error e => .error (e, u.2)
      | .ok _ => .error (.noEq, u.2)
  else .ok (none, n.2)

/-- The start-tag loop (src/sax.rs:242-282). The `loop` of the source has no exit at the end of the input, so the
model takes fuel: `none` means that the loop is still running after `fuel` rounds. -/
def startTagLoop (name : Str) : Nat → List (Str × Str) → Str → Option TokRes
  | 0, _, _ => none
  | fuel + 1, attr, r =>
    match readAttr r with
    | .error (e, r) => some (.error e, { rest := r, toClose := [] })
    | .ok (a, r) =>
      let attr := attr ++ a.toList
      let (ch, r) := getchar r
      if ch = '>' then some (.ok (.startElement name attr), { rest := r, toClose := [] })
      else if ch = '/' then
        let (ch, r) := getchar r
        if ch = '>' then some (.ok (.startElement name attr), { rest := r, toClose := name })
        else some (.error .illegalAfterSlash, { rest := r, toClose := [] })
      else startTagLoop name fuel attr r

/-- End tag (src/sax.rs:187-190); `r` is the input after `</`. -/
def rawEndTag (d : Dec) (r : Str) : TokRes :=
  let n := getName r
  let u := getUntilCh '>' n.2
  match u.1 with
  | .error e => (.error e, { d with rest := u.2 })
  | .ok _ => (.ok (.endElement n.1), { d with rest := u.2 })

/-- Processing instruction (src/sax.rs:199-203); `r` is the input after `<?`. -/
def rawPI (d : Dec) (r : Str) : TokRes :=
  let n := getName r
  let u := getUntil (S "?>") (skipSpaces n.2)
  match u.1 with
  | .error e => (.error e, { d with rest := u.2 })
  | .ok inst => (.ok (.procInst n.1 inst), { d with rest := u.2 })

/-- Comment, CDATA section, directive (src/sax.rs:208-229); `r` is the input after `<!`. -/
def rawBang (d : Dec) (r : Str) : TokRes :=
  let (ch, r2) := getchar r
  if ch = '-' then
    let (ch, r3) := getchar r2
    if ch = '-' then
      let u := getUntil (S "-->") r3
      match u.1 with
      | .error e => (.error e, { d with rest := u.2 })
      | .ok c => (.ok (.comment c), { d with rest := u.2 })
    else (.error .badComment, { d with rest := r2 })
  else if ch = '[' then
    match lookAheadKeyword (S "CDATA[") r2 with
    | some r3 =>
      let u := getUntil (S "]]>") r3
      match u.1 with
      | .error e => (.error e, { d with rest := u.2 })
      | .ok c => (.ok (.charData c), { d with rest := u.2 })
    | none => (.error .badCdata, { d with rest := r2 })
  else
    let u := getBracket 1 r2
    match u.1 with
    | .error e => (.error e, { d with rest := u.2 })
    | .ok s => (.ok (.directive (S "<!" ++ ch :: s)), { d with rest := u.2 })

/-- The branch after `<` (src/sax.rs:177-284); `r` is the input after `<`, `to_close` is empty here. -/
def rawMarkup (fuel : Nat) (d : Dec) (r : Str) : Option TokRes :=
  match r with
  | [] => some (.error .eofAfterLt, { d with rest := [] })
  | ch :: r1 =>
    if ch = EOFC then some (.error .eofAfterLt, { d with rest := r1 })
    else if ch = '/' then some (rawEndTag d r1)
    else if ch = '?' then some (rawPI d r1)
    else if ch = '!' then some (rawBang d r1)
    else startTagLoop (getName (ch :: r1)).1 fuel [] (getName (ch :: r1)).2

/-- Character data (src/sax.rs:289-293). -/
def rawText (d : Dec) (r : Str) : TokRes :=
  let u := getChardata r
  (.ok (.charData (decodeEntity u.1)), { d with rest := u.2 })

/-- `raw_token` (src/sax.rs:166-298), with fuel for the start-tag loop. -/
def rawTokenF (fuel : Nat) (d : Dec) : Option TokRes :=
  if d.toClose ≠ [] then
    some (.ok (.endElement d.toClose), { d with toClose := [] })
  else
    match d.rest with
    | [] => some (.ok .eof, { d with rest := [] })
    | c :: r =>
      if c = EOFC then some (.ok .eof, { d with rest := r })
      else if c = '<' then rawMarkup fuel d r
      else some (rawText d (c :: r))

/-- `raw_token` with enough fuel: `none` now means divergence (`rawTokenF_stable` in Lemmas/Sax.lean). -/
def rawToken (d : Dec) : Option TokRes := rawTokenF (d.rest.length + 1) d

end Amxml
