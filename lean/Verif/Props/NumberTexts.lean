import Verif.Spec.NumberTexts
import Verif.Props.XCast
import Verif.Props.XValues

/-!
# C111: which texts are numbers
-/

namespace Amxml
open Spec

namespace NumberTexts

theorem blank_iff (c : Char) : WhiteChar c ↔ isWhite c = true := by
  unfold WhiteChar isWhite
  simp only [List.mem_cons, List.not_mem_nil, or_false, Bool.or_eq_true, beq_iff_eq, decide_eq_true_eq]
  omega

/-! ## trimming -/

theorem dropWhile_split (p : Char → Bool) : ∀ s : Str, ∃ u, s = u ++ s.dropWhile p ∧ (∀ c ∈ u, p c = true) ∧ ∀ c, (s.dropWhile p).head? = some c → p c = false
  | [] => ⟨[], rfl, by simp, by simp⟩
  | c :: s => by
    by_cases h : p c = true
    · obtain ⟨u, h1, h2, h3⟩ := dropWhile_split p s
      refine ⟨c :: u, ?_, ?_, ?_⟩
      · rw [List.dropWhile_cons_of_pos h, List.cons_append, ← h1]
      · simpa [h] using h2
      · rw [List.dropWhile_cons_of_pos h]; exact h3
    · refine ⟨[], ?_, by simp, ?_⟩
      · rw [List.dropWhile_cons_of_neg h]; rfl
      · rw [List.dropWhile_cons_of_neg h]
        intro d hd; simp at hd; subst hd; simpa using h

theorem amid_trim (t : Str) : Amid (trim t) t := by
  obtain ⟨u, h1, h2, _⟩ := dropWhile_split isWhite t
  obtain ⟨v, g1, g2, _⟩ := dropWhile_split isWhite (t.dropWhile isWhite).reverse
  refine ⟨u, v.reverse, ?_, fun c hc => (blank_iff c).2 (h2 c hc), fun c hc => (blank_iff c).2 (g2 c (by simpa using hc))⟩
  have : t.dropWhile isWhite = trim t ++ v.reverse := by
    unfold trim
    rw [← List.reverse_append, ← g1, List.reverse_reverse]
  rw [List.append_assoc, ← this]; exact h1

theorem trim_amid {s t : Str} (hp : Amid s t) (hs : Solid s) : trim t = s := by
  obtain ⟨u, v, rfl, hu, hv⟩ := hp
  obtain ⟨h0, hs⟩ := hs
  unfold trim
  rw [List.append_assoc, dropWhile_pad (fun c hc => (blank_iff c).1 (hu c hc)), List.reverse_append,
    dropWhile_pad (fun c hc => (blank_iff c).1 (hv c (List.mem_reverse.1 hc))), List.reverse_reverse]
  · intro c hc
    rw [List.head?_reverse] at hc
    exact hs c (.inr hc)
  · intro c hc
    cases s with
    | nil => exact absurd rfl h0
    | cons a s => exact hs c (.inl hc)

/-! ## numerals -/

theorem isDigits_of {d : Str} (h : d.all F64.isAsciiDigit = true) : IsDigits d := by
  intro c hc
  exact (digit_iff c).1 (List.all_eq_true.1 h c hc)

theorem taken {p : Char → Bool} : ∀ (l : Str), ∀ c ∈ l.takeWhile p, p c = true
  | [], c, h => by cases h
  | a :: l, c, h => by
    by_cases ha : p a = true
    · rw [List.takeWhile_cons_of_pos ha] at h
      rcases List.mem_cons.1 h with rfl | h
      · exact ha
      · exact taken l c h
    · rw [List.takeWhile_cons_of_neg ha] at h; cases h

theorem parseExp_text {s : Str} {n : Int} (h : F64.parseExp s = some n) : IntText s n := by
  have key : ∀ (neg : Bool) (t : Str), (if t ≠ [] ∧ t.all F64.isAsciiDigit then some (if neg then -(F64.digitsVal t : Int) else F64.digitsVal t) else none) = some n →
      t ≠ [] ∧ IsDigits t ∧ n = if neg then -(digitsNumber t : Int) else digitsNumber t := by
    intro neg t ht
    split at ht
    · rename_i hc
      simp only [Option.some.injEq] at ht
      exact ⟨hc.1, isDigits_of hc.2, ht.symm⟩
    · cases ht
  unfold F64.parseExp at h
  split at h
  rename_i neg t heq
  obtain ⟨h0, hd, rfl⟩ := key neg t h
  split at heq
  · cases heq; exact .minus h0 hd
  · cases heq; exact .plus h0 hd
  · cases heq; exact .plain h0 hd

theorem parseUnsigned_text {s : Str} {m : Nat} {e : Int} (h : F64.parseUnsigned s = some (m, e)) : Numeral s m e := by
  have hs : s = s.takeWhile F64.isAsciiDigit ++ s.dropWhile F64.isAsciiDigit := (List.takeWhile_append_dropWhile).symm
  have hd : ∀ l : Str, IsDigits (l.takeWhile F64.isAsciiDigit) := fun l c hc => (digit_iff c).1 (taken l c hc)
  have hip := hd s
  have fin : ∀ (f r : Str) (ip fp : Str), (¬(ip = [] ∧ fp = []) → Fixed f (digitsNumber (ip ++ fp)) (-(fp.length : Int))) →
      (if ip = [] ∧ fp = [] then none else
        match r with
        | [] => some (F64.digitsVal (ip ++ fp), -(fp.length : Int))
        | c :: t => if c = 'e' ∨ c = 'E' then (F64.parseExp t).map fun e => (F64.digitsVal (ip ++ fp), e - (fp.length : Int)) else none) = some (m, e) →
      Numeral (f ++ r) m e := by
    intro f r ip fp hf h
    split at h
    · cases h
    · rename_i hne
      have hf := hf hne
      cases r with
      | nil =>
        simp only [Option.some.injEq, Prod.mk.injEq] at h
        obtain ⟨rfl, rfl⟩ := h
        rw [List.append_nil]; exact .fixed hf
      | cons c t =>
        simp only at h
        split at h
        · rename_i hc
          simp only [Option.map_eq_some_iff, Prod.mk.injEq] at h
          obtain ⟨n, hn, rfl, rfl⟩ := h
          have := Numeral.exp hf hc (parseExp_text hn)
          rwa [show -(fp.length : Int) + n = n - fp.length by omega] at this
        · cases h
  unfold F64.parseUnsigned at h
  rw [hs]
  generalize s.takeWhile F64.isAsciiDigit = ip at *
  generalize s.dropWhile F64.isAsciiDigit = r at *
  dsimp only at h
  split at h
  · rename_i t
    have ht : t = t.takeWhile F64.isAsciiDigit ++ t.dropWhile F64.isAsciiDigit := (List.takeWhile_append_dropWhile).symm
    have h1 := hd t
    have := fin (ip ++ '.' :: t.takeWhile F64.isAsciiDigit) (t.dropWhile F64.isAsciiDigit) ip (t.takeWhile F64.isAsciiDigit)
      (fun hne => .point hip h1 (by
        by_contra hn; rw [not_or, not_not, not_not] at hn; exact hne hn)) h
    rw [List.append_assoc, List.cons_append, ← ht] at this
    exact this
  · refine fin ip _ ip [] (fun hne => ?_) h
    have : ip ≠ [] := fun h => hne ⟨h, rfl⟩
    simpa using Fixed.int this hip

/-! ## the words -/

theorem lower_small {a c : Char} (ha : 97 ≤ a.toNat ∧ a.toNat ≤ 122) : F64.asciiLower c = a ↔ c = a ∨ c.toNat + 32 = a.toNat := by
  unfold F64.asciiLower
  have hA : 'A'.toNat = 65 := rfl
  have hZ : 'Z'.toNat = 90 := rfl
  rw [hA, hZ]
  split
  · rename_i hc
    constructor
    · intro h
      right
      have hv : (c.toNat + 32).isValidChar := .inl (by omega)
      have : (Char.ofNat (c.toNat + 32)).toNat = c.toNat + 32 := by
        unfold Char.ofNat
        rw [dif_pos hv]; rfl
      rw [← h, this]
    · rintro (rfl | h)
      · omega
      · apply Char.ext
        rw [h]
        apply UInt32.toNat_inj.1
        show (Char.ofNat a.toNat).toNat = a.toNat
        rw [Char.ofNat_toNat]
  · rename_i hc
    constructor
    · exact .inl
    · rintro (h | h)
      · exact h
      · omega

theorem anyCase_iff : ∀ {w s : Str}, (∀ a ∈ w, 97 ≤ a.toNat ∧ a.toNat ≤ 122) → (AnyCase w s ↔ s.map F64.asciiLower = w)
  | [], [], _ => ⟨fun _ => rfl, fun _ => .nil⟩
  | [], _ :: _, _ => by constructor <;> intro h <;> cases h
  | _ :: _, [], _ => by constructor <;> intro h <;> cases h
  | a :: w, c :: s, hw => by
    have ih := anyCase_iff (w := w) (s := s) fun b hb => hw b (by simp [hb])
    rw [List.map_cons, List.cons.injEq, lower_small (hw a (by simp)), ← ih]
    exact ⟨fun h => by cases h with | cons h1 h2 => exact ⟨h1, h2⟩, fun h => .cons h.1 h.2⟩

theorem inf_iff (s : Str) : AnyCase (S "inf") s ∨ AnyCase (S "infinity") s ↔ s.map F64.asciiLower = S "inf" ∨ s.map F64.asciiLower = S "infinity" := by
  rw [anyCase_iff (by decide), anyCase_iff (by decide)]

theorem nan_iff (s : Str) : AnyCase (S "nan") s ↔ s.map F64.asciiLower = S "nan" := anyCase_iff (by decide)

/-! ## reading -/

theorem neg_infinity : (Float.Model.neg (F64.pack (.infinity .positive))).unpack = .infinity .negative := by rfl

/-- What the reader of floats accepts, and as what. -/
theorem parse_classes (s : Str) : (∃ q d, NumberText s q ∧ F64.Rounded q d ∧ F64.parse s = some d) ∨ (∃ v d, SpecialText s v ∧ FloatIs d v ∧ F64.parse s = some d) ∨
    F64.parse s = none := by
  have body : ∀ (t : Str) (sgn : F64 → F64), (∃ m e, Numeral t m e ∧ (if t.map F64.asciiLower = S "inf" ∨ t.map F64.asciiLower = S "infinity" then some (sgn (F64.pack (.infinity .positive)))
     else if t.map F64.asciiLower = S "nan" then some F64.nan
     else (F64.parseUnsigned t).map fun p => sgn (Float.Model.ofScientific p.1 p.2)) = some (sgn (Float.Model.ofScientific m e))) ∨
     ((AnyCase (S "inf") t ∨ AnyCase (S "infinity") t) ∧ (if t.map F64.asciiLower = S "inf" ∨ t.map F64.asciiLower = S "infinity" then some (sgn (F64.pack (.infinity .positive)))
     else if t.map F64.asciiLower = S "nan" then some F64.nan
     else (F64.parseUnsigned t).map fun p => sgn (Float.Model.ofScientific p.1 p.2)) = some (sgn (F64.pack (.infinity .positive)))) ∨
     (AnyCase (S "nan") t ∧ (if t.map F64.asciiLower = S "inf" ∨ t.map F64.asciiLower = S "infinity" then some (sgn (F64.pack (.infinity .positive)))
     else if t.map F64.asciiLower = S "nan" then some F64.nan
     else (F64.parseUnsigned t).map fun p => sgn (Float.Model.ofScientific p.1 p.2)) = some F64.nan) ∨
     (if t.map F64.asciiLower = S "inf" ∨ t.map F64.asciiLower = S "infinity" then some (sgn (F64.pack (.infinity .positive)))
     else if t.map F64.asciiLower = S "nan" then some F64.nan
     else (F64.parseUnsigned t).map fun p => sgn (Float.Model.ofScientific p.1 p.2)) = none := by
    intro t sgn
    by_cases h1 : t.map F64.asciiLower = S "inf" ∨ t.map F64.asciiLower = S "infinity"
    · rw [if_pos h1]; exact .inr (.inl ⟨(inf_iff t).2 h1, rfl⟩)
    · rw [if_neg h1]
      by_cases h2 : t.map F64.asciiLower = S "nan"
      · rw [if_pos h2]; exact .inr (.inr (.inl ⟨(nan_iff t).2 h2, rfl⟩))
      · rw [if_neg h2]
        cases hp : F64.parseUnsigned t with
        | none => exact .inr (.inr (.inr rfl))
        | some p => exact .inl ⟨p.1, p.2, parseUnsigned_text hp, rfl⟩
  unfold F64.parse
  split
  rename_i neg t heq
  dsimp only
  split at heq
  · cases heq
    rcases body t Float.Model.neg with ⟨m, e, h1, h2⟩ | ⟨h1, h2⟩ | ⟨h1, h2⟩ | h2
    · exact .inl ⟨_, _, .minus h1, (F64.rounded_ofScientific m e).neg, h2⟩
    · exact .inr (.inl ⟨_, _, .minusInf h1, neg_infinity, h2⟩)
    · exact .inr (.inl ⟨_, _, .minusNan h1, F64.unpack_nan, h2⟩)
    · exact .inr (.inr h2)
  · cases heq
    rcases body t id with ⟨m, e, h1, h2⟩ | ⟨h1, h2⟩ | ⟨h1, h2⟩ | h2
    · exact .inl ⟨_, _, .plus h1, F64.rounded_ofScientific m e, h2⟩
    · exact .inr (.inl ⟨_, _, .plusInf h1, F64.unpack_inf _, h2⟩)
    · exact .inr (.inl ⟨_, _, .plusNan h1, F64.unpack_nan, h2⟩)
    · exact .inr (.inr h2)
  · cases heq
    rcases body s id with ⟨m, e, h1, h2⟩ | ⟨h1, h2⟩ | ⟨h1, h2⟩ | h2
    · exact .inl ⟨_, _, .plain h1, F64.rounded_ofScientific m e, h2⟩
    · exact .inr (.inl ⟨_, _, .inf h1, F64.unpack_inf _, h2⟩)
    · exact .inr (.inl ⟨_, _, .nan h1, F64.unpack_nan, h2⟩)
    · exact .inr (.inr h2)

/-! ## the classes are disjoint -/

theorem anyCase_letters : ∀ {w s : Str}, (∀ a ∈ w, 97 ≤ a.toNat ∧ a.toNat ≤ 122) → AnyCase w s → ∀ c ∈ s, 65 ≤ c.toNat ∧ c.toNat ≤ 122
  | [], _, _, .nil, c, hc => by cases hc
  | a :: w, d :: s, hw, .cons h1 h2, c, hc => by
    rcases List.mem_cons.1 hc with rfl | hc
    · have := hw a (by simp)
      rcases h1 with rfl | h1 <;> omega
    · exact anyCase_letters (fun b hb => hw b (by simp [hb])) h2 c hc

theorem word_letters {s : Str} (h : (AnyCase (S "inf") s ∨ AnyCase (S "infinity") s) ∨ AnyCase (S "nan") s) : s ≠ [] ∧ ∀ c ∈ s, 65 ≤ c.toNat ∧ c.toNat ≤ 122 := by
  rcases h with (h | h) | h
  all_goals exact ⟨(by rintro rfl; cases h), anyCase_letters (by decide) h⟩

/-- The words, after the sign. -/
theorem special_word {s : Str} {v : Number} (h : SpecialText s v) : ∃ u w, s = u ++ w ∧ (u = [] ∨ u = ['+'] ∨ u = ['-']) ∧
    ((AnyCase (S "inf") w ∨ AnyCase (S "infinity") w) ∨ AnyCase (S "nan") w) := by
  cases h with
  | inf h => exact ⟨[], s, rfl, .inl rfl, .inl h⟩
  | plusInf h => exact ⟨['+'], _, rfl, .inr (.inl rfl), .inl h⟩
  | minusInf h => exact ⟨['-'], _, rfl, .inr (.inr rfl), .inl h⟩
  | nan h => exact ⟨[], s, rfl, .inl rfl, .inr h⟩
  | plusNan h => exact ⟨['+'], _, rfl, .inr (.inl rfl), .inr h⟩
  | minusNan h => exact ⟨['-'], _, rfl, .inr (.inr rfl), .inr h⟩

theorem special_solid {s : Str} {v : Number} (h : SpecialText s v) : Solid s := by
  obtain ⟨u, w, rfl, hu, hw⟩ := special_word h
  obtain ⟨h0, hl⟩ := word_letters hw
  have : ∀ c ∈ u ++ w, isWhite c = false := by
    intro c hc
    rcases List.mem_append.1 hc with hc | hc
    · rcases hu with rfl | rfl | rfl
      · cases hc
      · rw [List.mem_singleton.1 hc]; decide
      · rw [List.mem_singleton.1 hc]; decide
    · have := hl c hc
      rw [← Bool.not_eq_true, ← blank_iff]
      unfold WhiteChar
      simp only [List.mem_cons, List.not_mem_nil, or_false]
      omega
  refine ⟨by simp [h0], fun c hc => this c ?_⟩
  rcases hc with hc | hc
  · exact List.mem_of_mem_head? hc
  · exact List.mem_of_mem_getLast? hc

theorem number_head {s : Str} {q : ℚ} (h : NumberText s q) : ∃ u c t, s = u ++ c :: t ∧ (u = [] ∨ u = ['+'] ∨ u = ['-']) ∧ c.toNat < 58 ∧ c ≠ '+' ∧ c ≠ '-' := by
  have key : ∀ {s m e}, Numeral s m e → ∃ c t, s = c :: t ∧ c.toNat < 58 ∧ c ≠ '+' ∧ c ≠ '-' := by
    intro s m e hn
    obtain ⟨c, t, hs, hc⟩ := numeral_head hn
    refine ⟨c, t, hs, ?_⟩
    rcases hc with hc | rfl
    · refine ⟨by omega, ?_, ?_⟩ <;> (rintro rfl; revert hc; decide)
    · decide
  cases h with
  | plain h => obtain ⟨c, t, rfl, h'⟩ := key h; exact ⟨[], c, t, rfl, .inl rfl, h'⟩
  | plus h => obtain ⟨c, t, rfl, h'⟩ := key h; exact ⟨['+'], c, t, rfl, .inr (.inl rfl), h'⟩
  | minus h => obtain ⟨c, t, rfl, h'⟩ := key h; exact ⟨['-'], c, t, rfl, .inr (.inr rfl), h'⟩

theorem not_both {s : Str} {q : ℚ} {v : Number} (h1 : NumberText s q) (h2 : SpecialText s v) : False := by
  obtain ⟨u, c, t, rfl, hu, hc, hp, hm⟩ := number_head h1
  obtain ⟨u', w, he, hu', hw⟩ := special_word h2
  obtain ⟨h0, hl⟩ := word_letters hw
  cases w with
  | nil => exact h0 rfl
  | cons d w =>
    have hd := hl d (by simp)
    have hdp : d ≠ '+' ∧ d ≠ '-' := by constructor <;> (rintro rfl; revert hd; decide)
    rcases hu with rfl | rfl | rfl <;> rcases hu' with rfl | rfl | rfl <;>
      simp only [List.nil_append, List.cons_append, List.cons.injEq] at he
    · obtain ⟨rfl, _⟩ := he; omega
    · exact hp he.1
    · exact hm he.1
    · exact hdp.1 he.1.symm
    · obtain ⟨_, rfl, _⟩ := he; omega
    · exact absurd he.1 (by decide)
    · exact hdp.2 he.1.symm
    · exact absurd he.1 (by decide)
    · obtain ⟨_, rfl, _⟩ := he; omega

theorem number_value {s : Str} {q r : ℚ} (h1 : NumberText s q) (h2 : NumberText s r) : q = r := by
  have head : ∀ {s m e}, Numeral s m e → ∀ t, s ≠ '+' :: t ∧ s ≠ '-' :: t := by
    intro s m e hn t
    obtain ⟨c, t', rfl, hc⟩ := numeral_head hn
    constructor <;> (intro h; cases h; revert hc; decide)
  have same : ∀ {s m e m' e'}, Numeral s m e → Numeral s m' e' → (m, e) = (m', e') := fun h h' => by
    have := parseUnsigned_of h
    rw [parseUnsigned_of h'] at this
    exact (Option.some.inj this).symm
  cases h1 with
  | plain h =>
    cases h2 with
    | plain h' => cases same h h'; rfl
    | plus h' => exact absurd rfl (head h _).1
    | minus h' => exact absurd rfl (head h _).2
  | plus h =>
    cases h2 with
    | plain h' => exact absurd rfl (head h' _).1
    | plus h' => cases same h h'; rfl
  | minus h =>
    cases h2 with
    | plain h' => exact absurd rfl (head h' _).2
    | minus h' => cases same h h'; rfl

theorem special_parse {s : Str} {v : Number} (h : SpecialText s v) : F64.parse s ≠ none := by
  obtain ⟨u, w, rfl, hu, hw⟩ := special_word h
  have body : ∀ sgn : F64 → F64, (if w.map F64.asciiLower = S "inf" ∨ w.map F64.asciiLower = S "infinity" then some (sgn (F64.pack (.infinity .positive)))
     else if w.map F64.asciiLower = S "nan" then some F64.nan
     else (F64.parseUnsigned w).map fun p => sgn (Float.Model.ofScientific p.1 p.2)) ≠ none := by
    intro sgn
    rw [inf_iff, nan_iff] at hw
    rcases hw with hw | hw
    · rw [if_pos hw]; simp
    · rw [if_pos hw]; split <;> simp
  rcases hu with rfl | rfl | rfl
  · obtain ⟨h0, hl⟩ := word_letters hw
    cases w with
    | nil => exact absurd rfl h0
    | cons d w =>
      have hd := hl d (by simp)
      have hdp : d ≠ '+' ∧ d ≠ '-' := by constructor <;> (rintro rfl; revert hd; decide)
      rw [List.nil_append]
      unfold F64.parse
      split
      rename_i neg t heq
      split at heq
      · rename_i h; cases h; exact absurd rfl hdp.2
      · rename_i h; cases h; exact absurd rfl hdp.1
      · cases heq; exact body id
  · exact body id
  · exact body Float.Model.neg

/-- What a text is read as. -/
theorem atof_reads (t : Str) : ReadAsFloat t (atof t) := by
  unfold atof
  rcases parse_classes (trim t) with ⟨q, d, h1, h2, h3⟩ | ⟨v, d, h1, h2, h3⟩ | h3
  · rw [h3]; exact .numeral (amid_trim t) h1 h2
  · rw [h3]; exact .special (amid_trim t) h1 h2
  · rw [h3]
    refine .other (fun s hs => ⟨fun q hq => ?_, fun v hv => ?_⟩) F64.unpack_nan
    · obtain ⟨f, hf, _⟩ := parse_of hq
      rw [trim_amid hs (numberText_solid hq), hf] at h3; cases h3
    · rw [trim_amid hs (special_solid hv)] at h3; exact special_parse hv h3

theorem atoi_reads (t : Str) : ReadAsInteger t (atoi t) := by
  unfold atoi parseI64
  cases hp : F64.parseExp (trim t) with
  | none =>
    refine .other fun s n hs hn => ?_
    rw [trim_amid hs (intText_solid hn), parseExp_of hn] at hp; cases hp
  | some n =>
    have hn := parseExp_text hp
    by_cases hi : isI64 n
    · simp only [hi, if_true, Option.getD_some]
      unfold isI64 i64Min i64Max at hi
      exact .numeral (amid_trim t) hn (by omega) (by omega)
    · simp only [hi, if_false, Option.getD_none]
      refine .other fun s m hs hm => ?_
      rw [trim_amid hs (intText_solid hm), parseExp_of hm] at hp
      cases hp
      unfold isI64 i64Min i64Max at hi
      omega

end NumberTexts

open NumberTexts in
/-- **C111**, floats: `fn:number` and the casts to `xs:double` and `xs:decimal` read every text in the same way, and this is what they read it as:
the nearest float for a numeral, an infinity or NaN for the words `inf`, `infinity` and `nan`, NaN for all other texts. -/
theorem C111_number (h : Heap) (t : Str) : ∃ d, ReadAsFloat t d ∧ CallGives h (S "fn:number") [[.string t]] [.double d] ∧
    CastGives h (.string t) (S "xs:double") (.double d) ∧ CastGives h (.string t) (S "xs:decimal") (.decimal d) :=
  ⟨atof t, atof_reads t, calls_of 1 _ (hg := rfl), castGives_of (by decide) rfl, castGives_of (by decide) rfl⟩

open NumberTexts in
/-- **C111**, integers: the cast of every text to `xs:integer` is what the text is read as: the integer for an integer numeral of 64 bits, and 0 for
all other texts. -/
theorem C111_integer (h : Heap) (t : Str) : ∃ n, ReadAsInteger t n ∧ CastGives h (.string t) (S "xs:integer") (.integer n) :=
  ⟨atoi t, atoi_reads t, castGives_of (by decide) rfl⟩

open NumberTexts in
/-- **C111**: the classes do not overlap. A text has at most one numeral or word in it with nothing but white space around, this is not both a numeral
and a word, and as a numeral it is one number. -/
theorem C111_classes {s s' t : Str} (h : Amid s t) (h' : Amid s' t) : 
    (∀ q q', NumberText s q → NumberText s' q' → s = s' ∧ q = q') ∧ (∀ q v, NumberText s q → ¬ SpecialText s' v) ∧
    (∀ v v', SpecialText s v → SpecialText s' v' → s = s') ∧ ∀ n n', IntText s n → IntText s' n' → s = s' ∧ n = n' := by
  refine ⟨fun q q' hq hq' => ?_, fun q v hq hv => ?_, fun v v' hv hv' => ?_, fun n n' hn hn' => ?_⟩
  · have := (trim_amid h (numberText_solid hq)).symm.trans (trim_amid h' (numberText_solid hq'))
    subst this; exact ⟨rfl, number_value hq hq'⟩
  · have := (trim_amid h (numberText_solid hq)).symm.trans (trim_amid h' (special_solid hv))
    subst this; exact not_both hq hv
  · exact (trim_amid h (special_solid hv)).symm.trans (trim_amid h' (special_solid hv'))
  · have := (trim_amid h (intText_solid hn)).symm.trans (trim_amid h' (intText_solid hn'))
    subst this
    have h1 := parseExp_of hn
    rw [parseExp_of hn'] at h1
    exact ⟨rfl, (Option.some.inj h1).symm⟩

/-- A numeral with white space of Unicode around it, words in mixed case, and texts that say no number. -/
example : Amid (S "-1.5e3") (S "\u00a0 -1.5e3\n") ∧ NumberText (S "-1.5e3") (-1500) ∧ SpecialText (S "-iNfinity") .minusInfinity ∧
    SaysNoNumber (S "1 2") ∧ SaysNoNumber [] := by
  have nothing : ∀ t : Str, F64.parse (trim t) = none → SaysNoNumber t := by
    intro t ht s hs
    refine ⟨fun q hq => ?_, fun v hv => ?_⟩
    · obtain ⟨f, hf, _⟩ := parse_of hq
      rw [NumberTexts.trim_amid hs (numberText_solid hq), hf] at ht; cases ht
    · rw [NumberTexts.trim_amid hs (NumberTexts.special_solid hv)] at ht; exact NumberTexts.special_parse hv ht
  refine ⟨⟨S "\u00a0 ", S "\n", by decide, ?_, ?_⟩, ?_, .minusInf (.inr ((NumberTexts.anyCase_iff (by decide)).2 (by decide))),
    nothing _ (by decide +kernel), nothing _ (by decide +kernel)⟩
  · intro c hc; rcases List.mem_cons.1 hc with rfl | hc
    · unfold WhiteChar; decide
    · rw [List.mem_singleton.1 hc]; unfold WhiteChar; decide
  · intro c hc; rw [List.mem_singleton.1 hc]; unfold WhiteChar; decide
  · have := NumberText.minus (Numeral.exp (Fixed.point (a := S "1") (b := S "5") (by decide) (by decide) (.inl (by decide))) (.inl rfl)
      (IntText.plain (d := S "3") (by decide) (by decide)))
    have h2 : (-((digitsNumber (S "1" ++ S "5") : ℚ) * 10 ^ (-((S "5").length : Int) + (digitsNumber (S "3") : Int)))) = -1500 := by
      rw [show digitsNumber (S "1" ++ S "5") = 15 by decide, show digitsNumber (S "3") = 3 by decide, show (S "5").length = 1 by decide]
      norm_num
    rw [h2] at this
    exact this

/-- The casts on texts that are not numerals: 0 and NaN where errors are due. -/
example : evalXPath editSample 20 0 (S "('7.0' cast as xs:integer) + (' +7 ' cast as xs:integer)") = .ok [.integer 7] := by run_query

end Amxml
