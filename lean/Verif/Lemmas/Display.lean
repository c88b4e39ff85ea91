import Verif.Model.Display
import Verif.Spec.Display
import Verif.Lemmas.RoundTrip

/-!
# Lemmas about the texts of values
-/

namespace Amxml
open Spec
open Float.Model (UnpackedFloat)

/-! ## Numbers -/

/-- The text of an `f64`: a numeral, perhaps with a minus sign, and what it reads as. -/
def Shown (text : Str) (d : F64) (t : Str) : Prop :=
  ∃ m e, Numeral t m e ∧ ((text = t ∧ Float.Model.ofScientific m e = d) ∨ (text = '-' :: t ∧ Float.Model.neg (Float.Model.ofScientific m e) = d))

theorem shown_of {text t : Str} {d : F64} {s : UnpackedFloat.Sign} (hn : ∃ m e, Numeral t m e) (ht : text = (if s == .negative then ['-'] else []) ++ t)
    (hp : F64.parse ((if s == .negative then ['-'] else []) ++ t) = some d) : Shown text d t := by
  obtain ⟨m, e, hn⟩ := hn
  refine ⟨m, e, hn, ?_⟩
  cases s with
  | positive =>
    left
    rw [if_neg (by decide), List.nil_append] at ht hp
    rw [parse_plain hn] at hp
    exact ⟨ht, Option.some.inj hp⟩
  | negative =>
    right
    rw [if_pos (by decide)] at ht hp
    have hp : F64.parse ('-' :: t) = some d := hp
    rw [parse_minus hn] at hp
    exact ⟨ht, Option.some.inj hp⟩

theorem zero_of {d : F64} {s : UnpackedFloat.Sign} (h : d.unpack = .zero s) : d = F64.pack (.zero s) :=
  F64.unpack_inj (by rw [h, F64.unpack_zero])

theorem fixed_dot_zero {t : Str} {m : Nat} {e : Int} (h : Fixed t m e) (hd : '.' ∉ t) : ∃ k x, Fixed (t ++ S ".0") k x ∧ (k : ℚ) * 10 ^ x = (m : ℚ) * 10 ^ e := by
  cases h with
  | int h0 h1 =>
    refine ⟨_, _, .point (b := S "0") h1 (by unfold IsDigits; decide) (.inl h0), ?_⟩
    rw [digitsNumber_append]
    have h2 : digitsNumber (S "0") = 0 := by decide
    have h3 : (S "0").length = 1 := rfl
    rw [h2, h3]
    push_cast
    field_simp
    simp
  | point => simp at hd

theorem dotted_fmt {text t : Str} {s : UnpackedFloat.Sign} (h : text = (if s == .negative then ['-'] else []) ++ t) :
    (if text.contains '.' then text else text ++ S ".0") = (if s == .negative then ['-'] else []) ++ (if '.' ∈ t then t else t ++ S ".0") := by
  subst h
  cases s <;> by_cases hd : '.' ∈ t <;> simp [hd]

/-- The text of a finite decimal is a numeral with a point and without an exponent. -/
theorem shown_decimal {d : F64} {q : ℚ} (hd : F64.val d = some q) : ∃ t m e, Fixed t m e ∧ '.' ∈ t ∧ Shown (displayDecimal d) d t := by
  unfold displayDecimal
  simp only
  have key : ∀ {s : UnpackedFloat.Sign} {t : Str} {m : Nat} {e : Int}, F64.fmt d = (if s == .negative then ['-'] else []) ++ t → Fixed t m e →
      (∀ t' k x, Fixed t' k x → (k : ℚ) * 10 ^ x = (m : ℚ) * 10 ^ e → F64.parse ((if s == .negative then ['-'] else []) ++ t') = some d) →
      ∃ t m e, Fixed t m e ∧ '.' ∈ t ∧ Shown (if (F64.fmt d).contains '.' then F64.fmt d else F64.fmt d ++ S ".0") d t := by
    intro s t m e ht hf hp
    rw [dotted_fmt ht]
    by_cases h : '.' ∈ t
    · rw [if_pos h]
      exact ⟨t, m, e, hf, h, shown_of ⟨m, e, .fixed hf⟩ rfl (hp t m e hf rfl)⟩
    · rw [if_neg h]
      obtain ⟨k, x, hk, hx⟩ := fixed_dot_zero hf h
      exact ⟨_, k, x, hk, by simp [S], shown_of ⟨k, x, .fixed hk⟩ rfl (hp _ k x hk hx)⟩
  rcases hf : d.unpack with s | _ | s | ⟨s, m, e, hm⟩
  · unfold F64.val at hd; rw [hf] at hd; cases hd
  · unfold F64.val at hd; rw [hf] at hd; cases hd
  · rw [zero_of hf]
    have h0 : Fixed (S "0.0") 0 (-1) := Fixed.point (a := S "0") (b := S "0") (by unfold IsDigits; decide) (by unfold IsDigits; decide) (by decide)
    refine ⟨S "0.0", 0, -1, h0, by decide, 0, -1, .fixed h0, ?_⟩
    cases s
    · right; constructor <;> decide +kernel
    · left; constructor <;> decide +kernel
  · obtain ⟨k, x, h1, h2⟩ := positional_text (F64.digits (Float.Model.abs d) m e).1 (F64.digits (Float.Model.abs d) m e).2
    refine key (s := s) (t := F64.positional (F64.digits (Float.Model.abs d) m e).1 (F64.digits (Float.Model.abs d) m e).2) ?_ h1 ?_
    · unfold F64.fmt; rw [hf]
    · intro t' k' x' ht' hk'
      exact parse_digits hf ⟨k', x', .fixed ht', hk'.trans h2⟩

/-- The text of a finite double is a numeral with an exponent. -/
theorem shown_double {d : F64} {q : ℚ} (hd : F64.val d = some q) : ∃ t, 'e' ∈ t ∧ Shown (displayDouble d) d t := by
  have hfin : d.isNan = false ∧ d.isInf = false := by
    unfold F64.isNan F64.isInf Float.Model.isNaN Float.Model.isInf
    rcases F64.val_cases hd with ⟨s, hu, -⟩ | ⟨m, e, hm, hc, hu, -⟩ | ⟨m, e, hm, hc, hu, -⟩ <;> rw [hu] <;> exact ⟨rfl, rfl⟩
  rcases hf : d.unpack with s | _ | s | ⟨s, m, e, hm⟩
  · unfold F64.val at hd; rw [hf] at hd; cases hd
  · unfold F64.val at hd; rw [hf] at hd; cases hd
  · rw [zero_of hf]
    have h0 : Numeral (S "0e0") 0 0 := Numeral.exp (s := S "0") (x := S "0") (c := 'e') (m := 0) (e := 0) (n := 0)
      (Fixed.int (by decide) (by unfold IsDigits; decide)) (.inl rfl) (IntText.plain (by decide) (by unfold IsDigits; decide))
    refine ⟨S "0e0", by decide, 0, 0, h0, ?_⟩
    cases s
    · right; constructor <;> decide +kernel
    · left; constructor <;> decide +kernel
  · have hz : F64.eq d F64.zero = false := by
      cases he : F64.eq d F64.zero with
      | false => rfl
      | true =>
        have h0 := (F64.eq_val hd F64.val_zero).1 he
        have hp := F64.mag_pos (e := e) hm
        unfold F64.val at hd
        rw [hf] at hd
        cases s
        · have := Option.some.inj hd; linarith
        · have := Option.some.inj hd; linarith
    have hs : displayDouble d = F64.fmtExp d := by
      unfold displayDouble
      rw [hfin.1, hfin.2, hz]
      rfl
    rw [hs]
    have ht := scientific_text (F64.digits (Float.Model.abs d) m e).1 (F64.digits (Float.Model.abs d) m e).2
    refine ⟨_, ?_, shown_of (s := s) (t := (F64.natStr (F64.digits (Float.Model.abs d) m e).1).take 1 ++
      (if (F64.natStr (F64.digits (Float.Model.abs d) m e).1).length ≤ 1 then [] else '.' :: (F64.natStr (F64.digits (Float.Model.abs d) m e).1).drop 1) ++
      'e' :: F64.intStr ((F64.digits (Float.Model.abs d) m e).2 + ((F64.natStr (F64.digits (Float.Model.abs d) m e).1).length - 1 : Nat)))
      (let ⟨k, x, h1, _⟩ := ht; ⟨k, x, h1⟩) ?_ (parse_digits hf ht)⟩
    · exact List.mem_append_right _ (List.mem_cons_self ..)
    · unfold F64.fmtExp
      rw [hf]
      simp only [List.append_assoc]

/-! ## Texts without separators -/

/-- The characters that can follow the text of an item. -/
def stops : List Char := [',', ')', ']', '}', ' ']

/-- What follows the text of an item. -/
def Stop (r : Str) : Prop := ∀ c ∈ r.head?, c ∈ stops

theorem word_code {t t' r r' : Str} (ht : ∀ c ∈ t, c ∉ stops) (ht' : ∀ c ∈ t', c ∉ stops) (hr : Stop r) (hr' : Stop r') (h : t ++ r = t' ++ r') :
    t = t' ∧ r = r' := by
  induction t generalizing t' with
  | nil =>
    cases t' with
    | nil => exact ⟨rfl, h⟩
    | cons c t' =>
      rw [List.nil_append] at h
      subst h
      exact absurd (hr c (by simp)) (ht' c (by simp))
  | cons c t ih =>
    cases t' with
    | nil =>
      rw [List.nil_append] at h
      subst h
      exact absurd (hr' c (by simp)) (ht c (by simp))
    | cons c' t' =>
      simp only [List.cons_append, List.cons.injEq] at h
      obtain ⟨rfl, h⟩ := h
      obtain ⟨e1, e2⟩ := ih (fun c hc => ht c (List.mem_cons_of_mem _ hc)) (fun c hc => ht' c (List.mem_cons_of_mem _ hc)) h
      exact ⟨congrArg _ e1, e2⟩

/-- The characters of numerals. -/
def NumChar (c : Char) : Prop := (48 ≤ c.toNat ∧ c.toNat ≤ 57) ∨ c = '.' ∨ c = 'e' ∨ c = 'E' ∨ c = '+' ∨ c = '-'

theorem fixed_chars {t : Str} {m : Nat} {e : Int} (h : Fixed t m e) : ∀ c ∈ t, (48 ≤ c.toNat ∧ c.toNat ≤ 57) ∨ c = '.' := by
  cases h with
  | int _ h => exact fun c hc => .inl (h c hc)
  | point h1 h2 _ =>
    intro c hc
    simp only [List.mem_append, List.mem_cons] at hc
    rcases hc with hc | hc | hc
    · exact .inl (h1 c hc)
    · exact .inr hc
    · exact .inl (h2 c hc)

theorem numeral_chars {t : Str} {m : Nat} {e : Int} (h : Numeral t m e) : ∀ c ∈ t, NumChar c := by
  have fc : ∀ {t m e}, Fixed t m e → ∀ c ∈ t, NumChar c := fun h c hc => (fixed_chars h c hc).elim .inl (fun h => .inr (.inl h))
  cases h with
  | fixed h => exact fc h
  | exp h he hx =>
    intro c hc
    simp only [List.mem_append, List.mem_cons] at hc
    rcases hc with hc | rfl | hc
    · exact fc h c hc
    · rcases he with rfl | rfl
      · exact .inr (.inr (.inl rfl))
      · exact .inr (.inr (.inr (.inl rfl)))
    · cases hx with
      | plain _ hd => exact .inl (hd c hc)
      | plus _ hd =>
        rcases List.mem_cons.1 hc with rfl | hc
        · exact .inr (.inr (.inr (.inr (.inl rfl))))
        · exact .inl (hd c hc)
      | minus _ hd =>
        rcases List.mem_cons.1 hc with rfl | hc
        · exact .inr (.inr (.inr (.inr (.inr rfl))))
        · exact .inl (hd c hc)

theorem numChar_ne {c d : Char} (h : NumChar c) (hd : ¬ NumChar d) : c ≠ d := by rintro rfl; exact hd h

instance (c : Char) : Decidable (NumChar c) := by unfold NumChar; infer_instance

theorem shown_chars {text t : Str} {d : F64} (h : Shown text d t) : (∀ c ∈ text, NumChar c) ∧ text ≠ [] ∧ (∀ c ∈ text, c ∈ t ∨ c = '-') ∧ ∀ c ∈ t, c ∈ text := by
  obtain ⟨m, e, hn, h⟩ := h
  have hc := numeral_chars hn
  obtain ⟨c, t', rfl, -⟩ := numeral_head hn
  rcases h with ⟨rfl, -⟩ | ⟨rfl, -⟩
  · exact ⟨hc, by simp, fun c hc => .inl hc, fun c hc => hc⟩
  · refine ⟨fun c hm => ?_, by simp, fun c hm => ?_, fun c hc => List.mem_cons_of_mem _ hc⟩
    · rcases List.mem_cons.1 hm with rfl | hm
      · decide
      · exact hc c hm
    · rcases List.mem_cons.1 hm with rfl | hm
      · exact .inr rfl
      · exact .inl hm

theorem shown_parse {text t : Str} {d : F64} (h : Shown text d t) : F64.parse text = some d := by
  obtain ⟨m, e, hn, h⟩ := h
  rcases h with ⟨rfl, hd⟩ | ⟨rfl, hd⟩
  · rw [parse_plain hn, hd]
  · rw [parse_minus hn, hd]

theorem intStr_chars (n : Int) : F64.intStr n ≠ [] ∧ ∀ c ∈ F64.intStr n, (48 ≤ c.toNat ∧ c.toNat ≤ 57) ∨ c = '-' := by
  obtain ⟨h1, h2, -⟩ := natStr_digits n.natAbs
  unfold F64.intStr
  refine ⟨by simp [h2], fun c hc => ?_⟩
  rcases List.mem_append.1 hc with hc | hc
  · split at hc
    · exact .inr (by simpa using hc)
    · cases hc
  · exact .inl (h1 c hc)

theorem intStr_inj {m n : Int} (h : F64.intStr m = F64.intStr n) : m = n := by
  have hm := intStr_text m
  have hn := intStr_text n
  rw [h] at hm
  have head : ∀ {d : Str} {c : Char}, IsDigits (c :: d) → c ≠ '-' ∧ c ≠ '+' := by
    intro d c hd
    have := hd c (by simp)
    constructor <;> (rintro rfl; revert this; decide)
  generalize F64.intStr n = t at hm hn
  cases hm with
  | plain h0 hd =>
    cases hn with
    | plain => rfl
    | plus => exact absurd rfl (head hd).2
    | minus => exact absurd rfl (head hd).1
  | plus h0 hd =>
    cases hn with
    | plain _ hd' => exact absurd rfl (head hd').2
    | plus => rfl
  | minus h0 hd =>
    cases hn with
    | plain _ hd' => exact absurd rfl (head hd').1
    | minus => rfl

/-- The kind of an item without separators, by its text. -/
def wordKind (t : Str) : Nat :=
  if t.head? = some 't' ∨ t.head? = some 'f' then 0
  else if 'e' ∈ t ∨ 'y' ∈ t ∨ t = S "NaN" then 1
  else if '.' ∈ t then 2 else 3

/-- Items whose text is a word. -/
inductive Word (h : Heap) : XItem → Nat → Prop
  | boolean (b : Bool) : Word h (.boolean b) 0
  | double (d : F64) : Word h (.double d) 1
  | decimal (d : F64) : Word h (.decimal d) 2
  | integer (n : Int) : Word h (.integer n) 3

theorem nonfinite {d : F64} (h : ∀ q, F64.val d ≠ some q) : d = F64.pack .notANumber ∨ ∃ s, d = F64.pack (.infinity s) := by
  rcases hf : d.unpack with s | _ | s | ⟨s, m, e, hm⟩
  · exact .inr ⟨s, F64.unpack_inj (by rw [hf, F64.unpack_inf])⟩
  · exact .inl (F64.unpack_inj (by rw [hf, F64.unpack_nan]))
  · exact absurd (by unfold F64.val; rw [hf]; rfl) (h 0)
  · cases s
    · exact absurd (by unfold F64.val; rw [hf]; rfl) (h (-F64.mag m e))
    · exact absurd (by unfold F64.val; rw [hf]; rfl) (h (F64.mag m e))

theorem head_mem {t : Str} {c : Char} (h : t.head? = some c) : c ∈ t := by
  cases t with
  | nil => cases h
  | cons a t => cases h; simp

/-- What is known of such a text. -/
def WordText (t : Str) (k : Nat) : Prop :=
  wordKind t = k ∧ (∀ c ∈ t, c ∉ stops) ∧ (∃ c ∈ t.head?, c ∉ ['"', '(', '[', '{'])

instance (t : Str) (k : Nat) : Decidable (WordText t k) := by unfold WordText; infer_instance

theorem word_text {h : Heap} {x : XItem} {k : Nat} (hx : Word h x k) : WordText (displayItem h x) k := by
  have num : ∀ {t : Str}, (∀ c ∈ t, NumChar c) → t ≠ [] →
      (¬ (t.head? = some 't' ∨ t.head? = some 'f')) ∧ 'y' ∉ t ∧ t ≠ S "NaN" ∧ (∀ c ∈ t, c ∉ stops) ∧ ∃ c ∈ t.head?, c ∉ ['"', '(', '[', '{'] := by
    intro t ht h0
    refine ⟨?_, fun hm => absurd (ht _ hm) (by decide), ?_, fun c hc hs => ?_, ?_⟩
    · rintro (h | h) <;> exact absurd (ht _ (head_mem h)) (by decide)
    · rintro rfl; exact absurd (ht 'N' (by decide)) (by decide)
    · have : ∀ c ∈ stops, ¬ NumChar c := by decide
      exact this c hs (ht c hc)
    · cases t with
      | nil => exact absurd rfl h0
      | cons c t =>
        refine ⟨c, rfl, fun hc => ?_⟩
        have : ∀ c ∈ ['"', '(', '[', '{'], ¬ NumChar c := by decide
        exact this c hc (ht c (by simp))
  cases hx with
  | boolean b =>
    cases b
    · exact (by decide : WordText (S "false") 0)
    · exact (by decide : WordText (S "true") 0)
  | integer n =>
    obtain ⟨h0, hc⟩ := intStr_chars n
    have hn : ∀ c ∈ F64.intStr n, NumChar c := fun c hm => (hc c hm).elim .inl (fun h => by subst h; decide)
    obtain ⟨h1, h2, h3, h4, h5⟩ := num hn h0
    have he : 'e' ∉ F64.intStr n := fun hm => absurd (hc _ hm) (by decide)
    have hp : '.' ∉ F64.intStr n := fun hm => absurd (hc _ hm) (by decide)
    refine ⟨?_, h4, h5⟩
    show wordKind (F64.intStr n) = 3
    unfold wordKind
    rw [if_neg h1, if_neg (by simp [he, h2, h3]), if_neg hp]
  | decimal d =>
    by_cases hd : ∃ q, F64.val d = some q
    · obtain ⟨q, hd⟩ := hd
      obtain ⟨t, m, e, hf, hdot, hs⟩ := shown_decimal hd
      obtain ⟨k1, k2, k3, k4⟩ := shown_chars hs
      obtain ⟨h1, h2, h3, h4, h5⟩ := num k1 k2
      have he : 'e' ∉ displayDecimal d := by
        intro hm
        rcases k3 _ hm with hm | hm
        · exact absurd (fixed_chars hf _ hm) (by decide)
        · cases hm
      refine ⟨?_, h4, h5⟩
      show wordKind (displayDecimal d) = 2
      unfold wordKind
      rw [if_neg h1, if_neg (by simp [he, h2, h3]), if_pos (k4 _ hdot)]
    · rcases nonfinite (fun q h => hd ⟨q, h⟩) with rfl | ⟨s, rfl⟩
      · exact (by decide +kernel : WordText (displayDecimal (F64.pack .notANumber)) 2)
      · cases s
        · exact (by decide +kernel : WordText (displayDecimal (F64.pack (.infinity .negative))) 2)
        · exact (by decide +kernel : WordText (displayDecimal (F64.pack (.infinity .positive))) 2)
  | double d =>
    by_cases hd : ∃ q, F64.val d = some q
    · obtain ⟨q, hd⟩ := hd
      obtain ⟨t, he, hs⟩ := shown_double hd
      obtain ⟨k1, k2, k3, k4⟩ := shown_chars hs
      obtain ⟨h1, h2, h3, h4, h5⟩ := num k1 k2
      refine ⟨?_, h4, h5⟩
      show wordKind (displayDouble d) = 1
      unfold wordKind
      rw [if_neg h1, if_pos (.inl (k4 _ he))]
    · rcases nonfinite (fun q h => hd ⟨q, h⟩) with rfl | ⟨s, rfl⟩
      · exact (by decide +kernel : WordText (displayDouble (F64.pack .notANumber)) 1)
      · cases s
        · exact (by decide +kernel : WordText (displayDouble (F64.pack (.infinity .negative))) 1)
        · exact (by decide +kernel : WordText (displayDouble (F64.pack (.infinity .positive))) 1)

theorem displayDouble_inj {d d' : F64} (h : displayDouble d = displayDouble d') : d = d' := by
  have key : ∀ d, F64.parse (displayDouble d) = some d := by
    intro d
    by_cases hd : ∃ q, F64.val d = some q
    · obtain ⟨q, hd⟩ := hd
      obtain ⟨t, -, hs⟩ := shown_double hd
      exact shown_parse hs
    · rcases nonfinite (fun q h => hd ⟨q, h⟩) with rfl | ⟨s, rfl⟩
      · decide +kernel
      · cases s <;> decide +kernel
  have := key d
  rw [h, key d'] at this
  exact (Option.some.inj this).symm

theorem displayDecimal_inj {d d' : F64} (h : displayDecimal d = displayDecimal d') : d = d' := by
  have key : ∀ d, F64.parse (displayDecimal d) = some d ∨ (F64.parse (displayDecimal d) = none ∧ (d = F64.pack .notANumber ∨ ∃ s, d = F64.pack (.infinity s))) := by
    intro d
    by_cases hd : ∃ q, F64.val d = some q
    · obtain ⟨q, hd⟩ := hd
      obtain ⟨t, m, e, -, -, hs⟩ := shown_decimal hd
      exact .inl (shown_parse hs)
    · have := nonfinite (fun q h => hd ⟨q, h⟩)
      refine .inr ⟨?_, this⟩
      rcases this with rfl | ⟨s, rfl⟩
      · decide +kernel
      · cases s <;> decide +kernel
  rcases key d with h1 | ⟨h1, h2⟩ <;> rcases key d' with h3 | ⟨h3, h4⟩
  · rw [h, h3] at h1; exact (Option.some.inj h1).symm
  · rw [h, h3] at h1; cases h1
  · rw [h, h3] at h1; cases h1
  · rcases h2 with rfl | ⟨s, rfl⟩ <;> rcases h4 with rfl | ⟨s', rfl⟩
    · rfl
    · exfalso; revert h; cases s' <;> decide +kernel
    · exfalso; revert h; cases s <;> decide +kernel
    · cases s <;> cases s' <;> first | rfl | (exfalso; revert h; decide +kernel)

theorem word_inj {h h' : Heap} {x y : XItem} {k k' : Nat} (hx : Word h x k) (hy : Word h' y k') (e : displayItem h x = displayItem h' y) : x = y := by
  have hk : k = k' := by rw [← (word_text hx).1, ← (word_text hy).1, e]
  subst hk
  cases hx <;> cases hy
  · rename_i b b'
    have key : ∀ b b' : Bool, (if b then S "true" else S "false") = (if b' then S "true" else S "false") → b = b' := by decide
    exact congrArg _ (key b b' e)
  · exact congrArg _ (displayDouble_inj e)
  · exact congrArg _ (displayDecimal_inj e)
  · exact congrArg _ (intStr_inj e)

end Amxml
