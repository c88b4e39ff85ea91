import Verif.Lemmas.RoundTrip
import Verif.Lemmas.Decide
import Verif.Props.XOper
import Verif.Props.XGrammar

/-!
# Casts, numeric literals, and exact arithmetic (C78, C82, C46)
-/

namespace Amxml
open Spec

/-! ## C78: the values of casts -/

theorem castGives_of {h : Heap} {x : XItem} {T : Str} {y : XItem} (hT : XSeq.trimQ T = T) (hc : (x.atomize h).castAs h T = .ok y) :
    CastGives h x T y := by
  intro c env e he
  rw [Value, cast_run T he]
  unfold XSeq.castAs
  simp only [hT, hc]
  rfl

theorem castFails_of {h : Heap} {x : XItem} {T : Str} {e : XErr} (hT : XSeq.trimQ T = T) (hc : (x.atomize h).castAs h T = .error e) :
    CastFails h x T := by
  intro c env e he
  rw [Fails, cast_run T he]
  unfold XSeq.castAs
  simp only [hT, hc]
  exact ⟨rfl, by simp⟩

/-- **C78**, `xs:integer` (partial: see `C78_violated`): the cast of a text that is a signed integer, with white space around it, is the
integer; the cast of a number drops the fraction. (Integers are those of 64 bits.) `true` and `false` are 1 and 0. -/
theorem C78_integer_partial (h : Heap) :
    (∀ s t n, IntText s n → Padded s t → isI64 n → CastGives h (.string t) (S "xs:integer") (.integer n)) ∧
    (∀ d q, F64.val d = some q → isI64 (F64.truncQ q) → CastGives h (.double d) (S "xs:integer") (.integer (F64.truncQ q)) ∧
      CastGives h (.decimal d) (S "xs:integer") (.integer (F64.truncQ q))) ∧
    (∀ n, CastGives h (.integer n) (S "xs:integer") (.integer n)) ∧
    (CastGives h (.boolean true) (S "xs:integer") (.integer 1) ∧ CastGives h (.boolean false) (S "xs:integer") (.integer 0)) := by
  refine ⟨fun s t n hs hp hn => castGives_of (by decide) ?_, fun d q hd hq => ?_, fun n => castGives_of (by decide) rfl,
    castGives_of (by decide) rfl, castGives_of (by decide) rfl⟩
  · show Except.ok (XItem.integer (atoi t)) = _
    rw [atoi_of hp hs hn]
  · have : F64.toI64 d = F64.truncQ q := F64.toI64_val hd (by unfold isI64 i64Min i64Max at hq; omega) (by unfold isI64 i64Min i64Max at hq; omega)
    constructor
    · refine castGives_of (by decide) ?_
      show Except.ok (XItem.integer (F64.toI64 d)) = _
      rw [this]
    · refine castGives_of (by decide) ?_
      show Except.ok (XItem.integer (F64.toI64 d)) = _
      rw [this]

/-- **C78**, `xs:double` and `xs:decimal` (partial: see `C78_violated`): the cast of a text that is a numeral, with white space around it,
is the number, correctly rounded to an `f64`; so is the cast of an integer; doubles and decimals keep their value. -/
theorem C78_number_partial (h : Heap) :
    (∀ s t q, NumberText s q → Padded s t → ∃ d, F64.Rounded q d ∧ CastGives h (.string t) (S "xs:double") (.double d) ∧
      CastGives h (.string t) (S "xs:decimal") (.decimal d)) ∧
    (∀ n : Int, ∃ d, F64.Rounded n d ∧ CastGives h (.integer n) (S "xs:double") (.double d) ∧ CastGives h (.integer n) (S "xs:decimal") (.decimal d)) ∧
    (∀ d, CastGives h (.decimal d) (S "xs:double") (.double d) ∧ CastGives h (.decimal d) (S "xs:decimal") (.decimal d) ∧
      CastGives h (.double d) (S "xs:double") (.double d) ∧ CastGives h (.double d) (S "xs:decimal") (.decimal d)) ∧
    (∀ b : Bool, ∃ d, F64.val d = some (if b then 1 else 0) ∧ CastGives h (.boolean b) (S "xs:double") (.double d) ∧
      CastGives h (.boolean b) (S "xs:decimal") (.decimal d)) := by
  refine ⟨fun s t q hs hp => ⟨_, atof_of hp hs, castGives_of (by decide) rfl, castGives_of (by decide) rfl⟩, fun n => ?_, fun d => ?_, fun b => ?_⟩
  · exact ⟨F64.ofInt n, F64.rounded_ofInt n, castGives_of (by decide) rfl, castGives_of (by decide) rfl⟩
  · exact ⟨castGives_of (by decide) rfl, castGives_of (by decide) rfl, castGives_of (by decide) rfl, castGives_of (by decide) rfl⟩
  · cases b with
    | true =>
      refine ⟨F64.ofInt 1, ?_, castGives_of (by decide) rfl, castGives_of (by decide) rfl⟩
      have := F64.val_ofInt (n := 1) (by decide)
      simpa using this
    | false => exact ⟨F64.zero, F64.val_zero, castGives_of (by decide) rfl, castGives_of (by decide) rfl⟩

/-- **C78**, `xs:boolean` (partial: see `C78_violated`): `true`, `1`, `false`, `0` are the texts of booleans, every other text is an
error; a number is true if it is neither zero nor NaN. -/
theorem C78_boolean_partial (h : Heap) :
    (∀ t, t = S "true" ∨ t = S "1" → CastGives h (.string t) (S "xs:boolean") (.boolean true)) ∧
    (∀ t, t = S "false" ∨ t = S "0" → CastGives h (.string t) (S "xs:boolean") (.boolean false)) ∧
    (∀ t, t ∉ [S "true", S "1", S "false", S "0"] → CastFails h (.string t) (S "xs:boolean")) ∧
    (∀ n, CastGives h (.integer n) (S "xs:boolean") (.boolean (decide (n ≠ 0)))) ∧
    (∀ d q, F64.val d = some q → CastGives h (.double d) (S "xs:boolean") (.boolean (decide (q ≠ 0))) ∧
      CastGives h (.decimal d) (S "xs:boolean") (.boolean (decide (q ≠ 0)))) ∧
    (CastGives h (.double F64.nan) (S "xs:boolean") (.boolean false)) ∧
    (∀ b, CastGives h (.boolean b) (S "xs:boolean") (.boolean b)) := by
  refine ⟨fun t ht => ?_, fun t ht => ?_, fun t ht => ?_, fun n => castGives_of (by decide) ?_, fun d q hd => ?_, castGives_of (by decide) ?_,
    fun b => castGives_of (by decide) rfl⟩
  · rcases ht with rfl | rfl <;> exact castGives_of (by decide) rfl
  · rcases ht with rfl | rfl <;> exact castGives_of (by decide) rfl
  · refine castFails_of (e := .typeError) (by decide) ?_
    simp only [List.mem_cons, List.not_mem_nil, or_false, not_or] at ht
    show XItem.castErr ((XItem.boolOfStr t).map .boolean) = _
    unfold XItem.boolOfStr
    rw [if_neg (by tauto), if_neg (by tauto)]
    rfl
  · show Except.ok (XItem.boolean (n != 0)) = _
    by_cases hn : n = 0 <;> simp [hn]
  · have hz : XItem.fltTrue d = decide (q ≠ 0) := by
      unfold XItem.fltTrue
      have hnan : d.isNan = false := F64.not_nan_of_val hd
      rw [hnan, Bool.or_false]
      by_cases hq : q = 0
      · rw [(F64.eq_val hd F64.val_zero).2 hq]; simp [hq]
      · have : F64.eq d F64.zero = false := by
          cases hb : F64.eq d F64.zero with
          | false => rfl
          | true => exact absurd ((F64.eq_val hd F64.val_zero).1 hb) hq
        rw [this]; simp [hq]
    constructor
    · refine castGives_of (by decide) ?_
      show Except.ok (XItem.boolean (XItem.fltTrue d)) = _
      rw [hz]
    · refine castGives_of (by decide) ?_
      show Except.ok (XItem.boolean (XItem.fltTrue d)) = _
      rw [hz]
  · show Except.ok (XItem.boolean (XItem.fltTrue F64.nan)) = _
    rw [show XItem.fltTrue F64.nan = false from by decide +kernel]

/-- **C78**, `xs:string`: an integer is written in decimal notation with a minus sign if it is negative and without leading zeros, booleans
as `true` and `false`, texts unchanged. What is written for an integer reads as the same integer. -/
theorem C78_string (h : Heap) :
    (∀ n, CastGives h (.integer n) (S "xs:string") (.string (toString n).toList)) ∧
    (∀ n, isI64 n → CastGives h (.string (toString n).toList) (S "xs:integer") (.integer n)) ∧
    (CastGives h (.boolean true) (S "xs:string") (.string (S "true")) ∧ CastGives h (.boolean false) (S "xs:string") (.string (S "false"))) ∧
    (∀ s, CastGives h (.string s) (S "xs:string") (.string s)) := by
  have hs : ∀ n : Int, (toString n).toList = F64.intStr n := by
    intro n
    unfold F64.intStr F64.natStr
    cases n with
    | ofNat n => rw [if_neg (by simp)]; rfl
    | negSucc n =>
      rw [if_pos (Int.negSucc_lt_zero n)]
      show ("-" ++ toString (n + 1)).toList = _
      rw [String.toList_append]; rfl
  refine ⟨fun n => castGives_of (by decide) ?_, fun n hn => ?_, ⟨castGives_of (by decide) rfl, castGives_of (by decide) rfl⟩,
    fun s => castGives_of (by decide) rfl⟩
  · rw [hs]; rfl
  · rw [hs]
    exact (C78_integer_partial h).1 _ _ n (intStr_text n) (.self _) hn

/-- **C78**: what cannot be cast. Maps, arrays and functions are of no atomic type; an empty sequence can be cast only if the type is
written with `?`, and a sequence of several items never. -/
theorem C78_errors (h : Heap) (T : Str) (hT : T ∈ [S "xs:string", S "xs:integer", S "xs:decimal", S "xs:double", S "xs:boolean"]) :
    (∀ x, (∃ es, x = .map es) ∨ (∃ ms, x = .array ms) ∨ (∃ f, x = .fn f) → CastFails h x T) ∧
    (∀ c env e, Value h c e env [] → Fails h c (typed .operatorCastAs e T) env .typeError ∧
      Value h c (typed .operatorCastAs e (T ++ S "?")) env []) ∧
    (∀ c env e s, 2 ≤ s.length → Value h c e env s → Fails h c (typed .operatorCastAs e T) env .typeError ∧
      Fails h c (typed .operatorCastAs e (T ++ S "?")) env .typeError) := by
  refine ⟨fun x hx => ?_, fun c env e he => ⟨?_, ?_⟩, fun c env e s hs he => ⟨?_, ?_⟩⟩
  · simp only [List.mem_cons, List.not_mem_nil, or_false] at hT
    rcases hx with ⟨_, rfl⟩ | ⟨_, rfl⟩ | ⟨_, rfl⟩ <;> rcases hT with rfl | rfl | rfl | rfl | rfl <;>
      exact castFails_of (e := .typeError) (by decide) rfl
  · rw [Fails, cast_run T he]
    refine ⟨?_, by simp⟩
    have : T.getLast? ≠ some '?' := by
      simp only [List.mem_cons, List.not_mem_nil, or_false] at hT
      rcases hT with rfl | rfl | rfl | rfl | rfl <;> decide
    simp [XSeq.castAs, this, Except.map]
  · rw [Value, cast_run _ he]
    simp [XSeq.castAs, S, Except.map]
  · rw [Fails, cast_run T he]
    match s, hs with
    | _ :: _ :: _, _ => exact ⟨rfl, by simp⟩
  · rw [Fails, cast_run _ he]
    match s, hs with
    | _ :: _ :: _, _ => exact ⟨rfl, by simp⟩

/-- Texts that meet the hypotheses. -/
example : IntText (S "-12") (-12) ∧ Padded (S "-12") (S " -12\n") ∧ NumberText (S "-12.5e1") (-125) := by
  refine ⟨.minus (d := S "12") (by decide) (by decide), ⟨S " ", S "\n", by decide, by decide, by decide⟩, ?_⟩
  have := NumberText.minus (.exp (c := 'e') (.point (a := S "12") (b := S "5") (by decide) (by decide) (.inl (by decide))) (.inl rfl)
    (.plain (d := S "1") (by decide) (by decide)))
  have e : digitsNumber (S "12" ++ S "5") = 125 ∧ digitsNumber (S "1") = 1 ∧ (S "5").length = 1 := by decide
  rw [e.1, e.2.1, e.2.2] at this
  norm_num at this
  exact this

/-- **C78** is false of the code: a text that is no numeral is the integer 0 and the double NaN, where an error is due, and so is a text
with a fraction for integers; NaN and infinity are cast to integers; `inf` is read as infinity and infinity is written `+Infinity`;
white space around `true` is an error. -/
theorem C78_violated :
    evalXPath editSample 20 0 (S "'abc' cast as xs:integer") = .ok [.integer 0] ∧
    evalXPath editSample 20 0 (S "'1.5' cast as xs:integer") = .ok [.integer 0] ∧
    evalXPath editSample 20 0 (S "('abc' cast as xs:double) cast as xs:string") = .ok [.string (S "NaN")] ∧
    evalXPath editSample 20 0 (S "('abc' cast as xs:double) cast as xs:integer") = .ok [.integer 0] ∧
    evalXPath editSample 20 0 (S "('inf' cast as xs:double) cast as xs:string") = .ok [.string (S "+Infinity")] ∧
    evalXPath editSample 20 0 (S "('INF' cast as xs:double) cast as xs:integer") = .ok [.integer (2 ^ 63 - 1)] ∧
    evalXPath editSample 20 0 (S "' true ' cast as xs:boolean") = .error .typeError := by
  refine ⟨?_, ?_, ?_, ?_, ?_, ?_, ?_⟩ <;> run_query

/-! ## C82: numeric literals and `fn:number` -/

/-- A numeric literal is a whole expression. -/
theorem compile_number {w : Str} {t : TType} {n : XNodeType} (ht : t ∈ numericKinds) (hw : Lexeme w ⟨t, w⟩) (hc : ¬ S "(:" <+: w)
    (hd : Derives .primary [⟨t, w⟩] (tip n w) []) : Parser.compileXPath w = .ok (tip n w) := by
  have h0 : w ++ [] = w := List.append_nil w
  refine C55_text_partial w [⟨t, w⟩] [⟨t, w⟩] _ [] ?_ (.same ?_ .nil) (.prim 1 hd)
  · have := Text.cons (b := []) (r := []) .nil hw ?_ (.nil .nil)
    · simpa using this
    · refine ⟨fun v u _ hp => ?_, by simp, by simp, fun h => ?_, by simpa using hc⟩
      · have := hp.length_le
        rwa [h0] at this
      · subst h; exact absurd ht (by decide)
  · rintro rfl; exact absurd ht (by decide)

theorem allDigits_iff (d : Str) : AllDigits d ↔ IsDigits d := by
  have : ∀ c : Char, ('0' ≤ c ∧ c ≤ '9') ↔ (48 ≤ c.toNat ∧ c.toNat ≤ 57) := by
    intro c
    simp only [Char.le_def, UInt32.le_iff_toNat_le]
    exact Iff.rfl
  unfold AllDigits IsDigits
  exact forall_congr' fun c => imp_congr_right fun _ => this c

theorem not_comment {w : Str} {c : Char} (h : w.head? = some c) (hc : c ≠ '(') : ¬ S "(:" <+: w := by
  rintro ⟨r, rfl⟩
  simp [S] at h
  exact hc h.symm

/-- **C82** (partial: see `C82_violated`): an integer literal, as a whole expression, evaluates to the integer it writes, if that has 64
bits. -/
theorem C82_integer_partial (d : Str) (h0 : d ≠ []) (hd : IsDigits d) (hn : isI64 (digitsNumber d)) (h : Heap) (n : Nat) (start : NodeId) :
    evalXPath h (n + 1) start d = .ok [.integer (digitsNumber d)] := by
  have hc : Parser.compileXPath d = .ok (tip .integerLiteral d) := by
    refine compile_number (by decide) (.integer h0 ((allDigits_iff d).2 hd)) ?_ .integer
    cases d with
    | nil => exact absurd rfl h0
    | cons c d => exact not_comment rfl (digit_ne (hd c (by simp)) (by decide))
  rw [evalXPath, hc]
  show Except.ok [XItem.integer (atoi d)] = _
  rw [atoi_of (.self d) (.plain h0 hd) hn]

/-- **C82**: a decimal literal, as a whole expression, evaluates to the number it writes, correctly rounded to an `f64`, as an
`xs:decimal`; so does a double literal, as an `xs:double`. -/
theorem C82_fraction (w : Str) (m : Nat) (e : Int) (h : Heap) (n : Nat) (start : NodeId) :
    (Fixed w m e → '.' ∈ w → ∃ d, F64.Rounded ((m : ℚ) * 10 ^ e) d ∧ evalXPath h (n + 1) start w = .ok [.decimal d]) ∧
    (Numeral w m e → (∃ c ∈ w, c = 'e' ∨ c = 'E') → ∃ d, F64.Rounded ((m : ℚ) * 10 ^ e) d ∧ evalXPath h (n + 1) start w = .ok [.double d]) := by
  have nodot : ∀ {d : Str}, IsDigits d → '.' ∉ d ∧ 'e' ∉ d ∧ 'E' ∉ d := by
    intro d hd
    exact ⟨fun hm => absurd (hd _ hm) (by decide), fun hm => absurd (hd _ hm) (by decide), fun hm => absurd (hd _ hm) (by decide)⟩
  have fixedL : ∀ {s m e}, Fixed s m e → (s ≠ [] ∧ AllDigits s) ∨ DecimalL s := by
    intro s m e hf
    cases hf with
    | int h0 hd => exact .inl ⟨h0, (allDigits_iff _).2 hd⟩
    | @point a b ha hb hab =>
      right
      by_cases h0 : a = []
      · subst h0
        exact .point (hab.resolve_left (fun h => h rfl)) ((allDigits_iff _).2 hb)
      · exact .digits h0 ((allDigits_iff _).2 ha) ((allDigits_iff _).2 hb)
  have head : ∀ {s m e}, Numeral s m e → ¬ S "(:" <+: s := by
    intro s m e hn
    obtain ⟨c, t, rfl, hc⟩ := numeral_head hn
    refine not_comment rfl ?_
    rcases hc with hc | rfl
    · exact digit_ne hc (by decide)
    · decide
  constructor
  · intro hf hm
    refine ⟨_, atof_of (.self w) (.plain (.fixed hf)), ?_⟩
    have hc : Parser.compileXPath w = .ok (tip .decimalLiteral w) := by
      refine compile_number (by decide) (.decimal ?_) (head (.fixed hf)) .decimal
      rcases fixedL hf with ⟨_, hd⟩ | hd
      · exact absurd hm (nodot ((allDigits_iff _).1 hd)).1
      · exact hd
    rw [evalXPath, hc]; rfl
  · intro hn hx
    refine ⟨_, atof_of (.self w) (.plain hn), ?_⟩
    have hc : Parser.compileXPath w = .ok (tip .doubleLiteral w) := by
      refine compile_number (by decide) ?_ (head hn) .double
      cases hn with
      | fixed hf =>
        exfalso
        obtain ⟨c, hc, hcc⟩ := hx
        cases hf with
        | int h0 hd => rcases hcc with rfl | rfl <;> exact absurd hc (by have := nodot hd; tauto)
        | @point a b ha hb hab =>
          have h1 := nodot ha
          have h2 := nodot hb
          simp only [List.mem_append, List.mem_cons] at hc
          rcases hcc with rfl | rfl <;> rcases hc with hc | hc | hc <;> tauto
      | @exp s x c m e k hf hcc hxx =>
        refine .double (fixedL hf) ?_
        cases hxx with
        | plain h0 hd => exact .plain hcc h0 ((allDigits_iff _).2 hd)
        | plus h0 hd => exact .signed hcc (.inl rfl) h0 ((allDigits_iff _).2 hd)
        | minus h0 hd => exact .signed hcc (.inr rfl) h0 ((allDigits_iff _).2 hd)
    rw [evalXPath, hc]; rfl

/-- **C82**: `fn:number` of a text that is a numeral, with white space around it, is the number, correctly rounded to an `f64`; so it is of
an integer; of a decimal or a double it is the same number as an `xs:double`; of the empty sequence NaN. -/
theorem C82_number (h : Heap) :
    (∀ s t q, NumberText s q → Padded s t → ∃ d, F64.Rounded q d ∧ CallGives h (S "fn:number") [[.string t]] [.double d]) ∧
    (∀ n : Int, ∃ d, F64.Rounded n d ∧ CallGives h (S "fn:number") [[.integer n]] [.double d]) ∧
    (∀ d, CallGives h (S "fn:number") [[.decimal d]] [.double d] ∧ CallGives h (S "fn:number") [[.double d]] [.double d]) ∧
    CallGives h (S "fn:number") [[]] [.double F64.nan] :=
  ⟨fun s t q hs hp => ⟨_, atof_of hp hs, calls_of 1 _ (hg := rfl)⟩, fun n => ⟨F64.ofInt n, F64.rounded_ofInt n, calls_of 1 _ (hg := rfl)⟩,
    fun d => ⟨calls_of 1 _ (hg := rfl), calls_of 1 _ (hg := rfl)⟩, calls_of 1 _ (hg := rfl)⟩

/-- **C82** is false of the code: an integer literal of more than 64 bits is 0, where an error is due. -/
theorem C82_violated : evalXPath editSample 20 0 (S "9223372036854775808") = .ok [.integer 0] ∧
    evalXPath editSample 20 0 (S "9223372036854775807") = .ok [.integer 9223372036854775807] := by
  refine ⟨?_, ?_⟩ <;> run_query

/-! ## C46: arithmetic is exact where it can be -/

/-- The number as it takes part in an operation with a decimal or a double. -/
theorem operand_val {x : XItem} {q : ℚ} (hx : NumVal x q) : (∃ n, x = .integer n ∧ F64.val (intToDec n) = some q) ∨
    (∃ d, x = .decimal d ∧ F64.val d = some q) ∨ ∃ d, x = .double d ∧ F64.val d = some q := by
  cases x with
  | integer n => exact .inl ⟨n, rfl, by rw [val_intToDec (F64.rep_int hx.1), hx.2]⟩
  | decimal d => exact .inr (.inl ⟨d, rfl, hx⟩)
  | double d => exact .inr (.inr ⟨d, rfl, hx⟩)
  | _ => exact hx.elim

theorem numOp_val {f : Int → Int → Except XErr Int} {g : F64 → F64 → F64} {x y : XItem} {p q r : ℚ} (hx : NumVal x p) (hy : NumVal y q)
    (hxy : (∀ n, x ≠ .integer n) ∨ ∀ n, y ≠ .integer n) (hg : ∀ a b, F64.val a = some p → F64.val b = some q → F64.val (g a b) = some r) :
    ∃ z, numOp f g x y = .ok z ∧ NumVal z r := by
  rcases operand_val hx with ⟨a, rfl, ha⟩ | ⟨a, rfl, ha⟩ | ⟨a, rfl, ha⟩ <;> rcases operand_val hy with ⟨b, rfl, hb⟩ | ⟨b, rfl, hb⟩ | ⟨b, rfl, hb⟩
  · exact hxy.elim (fun h => absurd rfl (h a)) (fun h => absurd rfl (h b))
  all_goals exact ⟨_, rfl, hg _ _ ha hb⟩

/-- **C46**, the value: a sum, difference, product or quotient of two numbers, not both integers, is the exact one whenever that has an
`f64`. (The type is the one of `C46_expression`; for two integers see `C46_expression_integers`.) -/
theorem C46_exact (h : Heap) (x y : XItem) (p q : ℚ) (hx : NumVal x p) (hy : NumVal y q) (hxy : (∀ n, x ≠ .integer n) ∨ ∀ n, y ≠ .integer n) :
    (F64.Rep (p + q) → ∃ z, NumVal z (p + q) ∧ OpGives h .operatorAdd [x] [y] [z]) ∧
    (F64.Rep (p - q) → ∃ z, NumVal z (p - q) ∧ OpGives h .operatorSubtract [x] [y] [z]) ∧
    (F64.Rep (p * q) → ∃ z, NumVal z (p * q) ∧ OpGives h .operatorMultiply [x] [y] [z]) := by
  refine ⟨fun hr => ?_, fun hr => ?_, fun hr => ?_⟩
  · obtain ⟨z, hz, hv⟩ := numOp_val (f := fun a b => checkI64 (a + b)) (g := (· + ·)) hx hy hxy (fun a b ha hb => F64.val_add ha hb hr)
    exact ⟨z, hv, (opGives_iff (f := opNumeric numAdd) rfl).2 (by rw [opNumeric_one, numAdd, hz]; rfl)⟩
  · obtain ⟨z, hz, hv⟩ := numOp_val (f := fun a b => checkI64 (a - b)) (g := (· - ·)) hx hy hxy (fun a b ha hb => F64.val_sub ha hb hr)
    exact ⟨z, hv, (opGives_iff (f := opNumeric numSub) rfl).2 (by rw [opNumeric_one, numSub, hz]; rfl)⟩
  · obtain ⟨z, hz, hv⟩ := numOp_val (f := fun a b => checkI64 (a * b)) (g := (· * ·)) hx hy hxy (fun a b ha hb => F64.val_mul ha hb hr)
    exact ⟨z, hv, (opGives_iff (f := opNumeric numMul) rfl).2 (by rw [opNumeric_one, numMul, hz]; rfl)⟩

/-- **C46**, the quotient: for all numbers, integers too, `p div q` is exact whenever it has an `f64`. -/
theorem C46_div_exact (h : Heap) (x y : XItem) (p q : ℚ) (hx : NumVal x p) (hy : NumVal y q) (h0 : q ≠ 0) (hr : F64.Rep (p / q)) :
    ∃ z, NumVal z (p / q) ∧ OpGives h .operatorDiv [x] [y] [z] := by
  have fin : ∀ {z}, numDiv x y = .ok z → NumVal z (p / q) → ∃ z, NumVal z (p / q) ∧ OpGives h .operatorDiv [x] [y] [z] := by
    intro z hz hv
    exact ⟨z, hv, (opGives_iff (f := opNumeric numDiv) rfl).2 (by rw [opNumeric_one, hz]; rfl)⟩
  have zero : ∀ d, F64.val d = some q → F64.eq d F64.zero = false := by
    intro d hd
    cases hb : F64.eq d F64.zero with
    | false => rfl
    | true => exact absurd ((F64.eq_val hd F64.val_zero).1 hb) h0
  cases y with
  | integer b =>
    have hb : F64.val (F64.ofInt b) = some q := by rw [F64.val_ofInt hy.1, hy.2]
    have hb0 : b ≠ 0 := by rintro rfl; exact h0 (by rw [hy.2]; rfl)
    obtain ⟨z, hz, hv⟩ := numOp_val (f := i64Div) (g := (· / ·)) (y := .decimal (F64.ofInt b)) hx hb (.inr (by simp)) (fun a b ha hb => F64.val_div ha hb h0 hr)
    exact fin (by simp only [numDiv, if_neg hb0, hz]) hv
  | decimal b =>
    obtain ⟨z, hz, hv⟩ := numOp_val (f := i64Div) (g := (· / ·)) (y := .decimal b) hx hy (.inr (by simp)) (fun a b ha hb => F64.val_div ha hb h0 hr)
    exact fin (by simp only [numDiv, zero b hy]; exact hz) hv
  | double b =>
    obtain ⟨z, hz, hv⟩ := numOp_val (f := i64Div) (g := (· / ·)) (y := .double b) hx hy (.inr (by simp)) (fun a b ha hb => F64.val_div ha hb h0 hr)
    exact fin (by simp only [numDiv]; exact hz) hv
  | _ => exact hy.elim

/-- `1 + 0.5` and `1 div 2` meet the hypotheses. -/
example : NumVal (.integer 1) 1 ∧ NumVal (.decimal F64.half) (1 / 2) ∧ F64.Rep (1 + 1 / 2) ∧ F64.Rep ((1 : ℚ) / (2 : ℚ)) := by
  refine ⟨⟨by decide, by simp⟩, F64.val_half, ?_, F64.rep_half⟩
  have := F64.rep_int_half (n := 1) (by decide)
  simpa using this

end Amxml
