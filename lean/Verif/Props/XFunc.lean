import Verif.Lemmas.Func
import Verif.Props.XCompare

/-!
# The library of string and sequence functions (C59 to C63, C65, C66)
-/

namespace Amxml
open Spec

/-! ## C59: `fn:concat`, `fn:string-join` -/

theorem textOf_iff {h : Heap} {v : XSeq} {t : Str} : TextOf h v t ↔ concatPiece h v = .ok t := by
  have key : ∀ r, fnString h v = r → (concatPiece h v = .ok t ↔ r = .ok [.string t]) := by
    rintro r rfl
    unfold fnString concatPiece
    split
    · constructor
      · intro e; cases e; rfl
      · intro e; cases e; rfl
    · cases XSeq.item1 v with
      | error e => constructor <;> (intro e; cases e)
      | ok x =>
        show x.rawString h = _ ↔ (x.rawString h).map _ = _
        cases x.rawString h with
        | error e => constructor <;> (intro e; cases e)
        | ok s => constructor <;> (intro e; cases e; rfl)
  cases hf : fnString h v with
  | error e =>
    constructor
    · intro ht
      refine absurd ?_ (CallGives.not_fails ht (e := e))
      refine fails_of 1 _ (hg := ?_) (he := ?_)
      · exact hf
      · rintro rfl
        unfold fnString at hf
        split at hf
        · cases hf
        · cases hi : XSeq.item1 v with
          | error e =>
            rw [hi] at hf
            unfold XSeq.item1 at hi
            split at hi <;> cases hi
            cases hf
          | ok x =>
            rw [hi] at hf
            cases hs : x.rawString h with
            | ok s =>
              have : (x.rawString h).map (fun s => [XItem.string s]) = .error .outOfFuel := hf
              rw [hs] at this; cases this
            | error e =>
              have : (x.rawString h).map (fun s => [XItem.string s]) = .error .outOfFuel := hf
              rw [hs] at this; cases this
              cases x <;> cases hs
    · intro hc
      have := (key _ hf).1 hc
      cases this
  | ok w =>
    have hw : CallGives h (S "fn:string") [v] w := calls_of 1 _ (hg := hf)
    constructor
    · intro ht
      rw [← CallGives.unique ht hw] at hf
      exact (key _ hf).2 rfl
    · intro hc
      have := (key _ hf).1 hc
      cases this
      exact hw

theorem concat_tables (n : Nat) : findCtxFn (S "fn:concat") n = none ∧ findPureFn (S "fn:concat") n = some fun h a => fnConcat h a := by
  constructor
  · unfold findCtxFn
    rw [List.find?_eq_none.2]
    · rfl
    · intro e he
      have : ∀ e ∈ funcContextTbl, e.2.1 ≠ S "fn:concat" := by decide +kernel
      simp [this e he]
  · have hs : funcTbl = funcTbl.take 12 ++ (none, S "fn:concat", fun h a => fnConcat h a) :: funcTbl.drop 13 := rfl
    unfold findPureFn
    rw [hs, List.find?_append, List.find?_eq_none.2, Option.none_or, List.find?_cons_of_pos]
    · rfl
    · rfl
    · intro e he
      have hn : ∀ s ∈ (funcTbl.take 12).map (·.2.1), s ≠ S "fn:concat" := by decide +kernel
      have := hn _ (List.mem_map_of_mem he)
      simp [this]

/-- **C59.** `fn:concat` with any number of arguments, each with at most one item: the concatenation of the texts of the arguments
(`()` has the empty text). -/
theorem C59_concat (h : Heap) (vs : List XSeq) (ts : List Str) (ht : List.Forall₂ (TextOf h) vs ts) :
    CallGives h (S "fn:concat") vs [.string ts.flatten] := by
  have hm : vs.mapM (concatPiece h) = .ok ts := mapM_ok (ht.imp fun _ _ => textOf_iff.1)
  exact calls_of vs.length _ (hc := (concat_tables _).1) (hp := (concat_tables _).2) (hg := by
    show (vs.mapM (concatPiece h)).map _ = _
    rw [hm]; rfl)

/-- **C59**, errors: an argument of several items makes the call a type error. -/
theorem C59_concat_several (h : Heap) (pre post : List XSeq) (ts : List Str) (hp : List.Forall₂ (TextOf h) pre ts) (x y : XItem) (r : XSeq) :
    CallFails h (S "fn:concat") (pre ++ (x :: y :: r) :: post) .typeError := by
  refine fails_of _ _ (hn := rfl) (hc := (concat_tables _).1) (hp := (concat_tables _).2) (hg := ?_)
  show ((pre ++ (x :: y :: r) :: post).mapM (concatPiece h)).map _ = _
  rw [mapM_err (f := concatPiece h) (e := .typeError) rfl ?_ rfl]
  · rfl
  · intro v hv
    induction hp with
    | nil => cases hv
    | cons h1 _ ih =>
      rcases List.mem_cons.1 hv with rfl | hv
      · exact ⟨_, textOf_iff.1 h1⟩
      · exact ih hv

theorem joinWith_eq (sep : Str) (ts : List Str) : joinWith sep ts = separated sep ts := by
  cases ts with
  | nil => rfl
  | cons t ts =>
    induction ts generalizing t with
    | nil => simp [joinWith, separated]
    | cons u ts ih =>
      rw [joinWith, ih]
      · simp [separated]
      · simp

theorem rawString_of_text {h : Heap} {s : XSeq} {ts : List Str} (ht : List.Forall₂ (fun x t => TextOf h [x] t) s ts) :
    s.mapM (fun x : XItem => x.rawString h) = .ok ts := mapM_ok (ht.imp fun _ _ hh => textOf_iff.1 hh)

/-- **C59.** `fn:string-join`: the texts of the items with the separator between any two of them. -/
theorem C59_string_join (h : Heap) (s : XSeq) (ts : List Str) (sep : Str) (ht : List.Forall₂ (fun x t => TextOf h [x] t) s ts) :
    CallGives h (S "fn:string-join") [s, [.string sep]] [.string (separated sep ts)] ∧
    CallGives h (S "fn:string-join") [s] [.string (separated [] ts)] := by
  constructor
  · refine calls_of 2 _ (hg := ?_)
    show (s.mapM fun x : XItem => x.rawString h).map _ = _
    rw [rawString_of_text ht, ← joinWith_eq]; rfl
  · refine calls_of 1 _ (hg := ?_)
    show (s.mapM fun x : XItem => x.rawString h).map _ = _
    rw [rawString_of_text ht, ← joinWith_eq]; rfl

/-- `concat("a", (), 12)`. -/
example (h : Heap) : CallGives h (S "fn:concat") [[.string (S "a")], [], [.integer 12]] [.string (S "a12")] :=
  C59_concat h _ [S "a", [], S "12"] (.cons (textOf_iff.2 rfl) (.cons (textOf_iff.2 rfl) (.cons (textOf_iff.2 (show Except.ok (F64.intStr 12) = _ by decide +kernel)) .nil)))

/-- `string-join(("a", "b", "c"), ", ")`. -/
example (h : Heap) : CallGives h (S "fn:string-join") [[.string (S "a"), .string (S "b"), .string (S "c")], [.string (S ", ")]]
    [.string (S "a, b, c")] :=
  (C59_string_join h _ [S "a", S "b", S "c"] (S ", ") (.cons (textOf_iff.2 rfl) (.cons (textOf_iff.2 rfl) (.cons (textOf_iff.2 rfl) .nil)))).1

/-! ## C60: searching in strings -/

theorem optString_of {v : XSeq} {s : Str} (h : OptText v s) : optString v = .ok s := by cases h <;> rfl

theorem splitOnce_some {t s u w : Str} (h : splitOnce t s = some (u, w)) : FirstOccurrence t s u w := by
  induction s generalizing u w with
  | nil => cases h
  | cons c s ih =>
    unfold splitOnce at h
    cases hp : stripPrefix t (c :: s) with
    | some r =>
      rw [hp] at h
      cases h
      rw [stripPrefix_eq_some] at hp
      exact ⟨by simpa using hp, fun _ _ _ => Nat.zero_le _⟩
    | none =>
      rw [hp] at h
      cases hs : splitOnce t s with
      | none => rw [hs] at h; cases h
      | some q =>
        rw [hs] at h
        obtain ⟨u1, w1⟩ := q
        cases h
        have := ih hs
        refine ⟨by rw [this.1]; simp, ?_⟩
        intro u' w' hh
        cases u' with
        | nil =>
          have : stripPrefix t (c :: s) = some w' := stripPrefix_eq_some.2 (by simpa using hh)
          rw [hp] at this; cases this
        | cons d u' =>
          simp only [List.cons_append, List.cons.injEq] at hh
          have := this.2 u' w' hh.2
          simpa using this

theorem splitOnce_none {t : Str} (ht : t ≠ []) {s : Str} (h : splitOnce t s = none) : ¬ Occurs t s := by
  induction s with
  | nil =>
    rintro ⟨u, w, hh⟩
    exact ht (by simpa using (List.append_eq_nil_iff.1 (List.append_eq_nil_iff.1 hh.symm).1).2)
  | cons c s ih =>
    unfold splitOnce at h
    cases hp : stripPrefix t (c :: s) with
    | some r => rw [hp] at h; cases h
    | none =>
      rw [hp] at h
      rintro ⟨u, w, hh⟩
      cases u with
      | nil =>
        have : stripPrefix t (c :: s) = some w := stripPrefix_eq_some.2 (by simpa using hh)
        rw [hp] at this; cases this
      | cons d u =>
        simp only [List.cons_append, List.cons.injEq] at hh
        refine ih ?_ ⟨u, w, hh.2⟩
        cases hs : splitOnce t s with
        | none => rfl
        | some q => rw [hs] at h; cases h

theorem splitn2_some {t s u w : Str} (h : splitn2 t s = some (u, w)) : FirstOccurrence t s u w := by
  unfold splitn2 at h
  split at h
  · cases h
    rename_i ht
    rw [List.isEmpty_iff.1 ht]
    exact ⟨by simp, fun _ _ _ => Nat.zero_le _⟩
  · exact splitOnce_some h

theorem splitn2_none {t s : Str} (h : splitn2 t s = none) : ¬ Occurs t s := by
  unfold splitn2 at h
  split at h
  · cases h
  · rename_i ht
    exact splitOnce_none (by simpa using ht) h

theorem first_unique {t s u w u' w' : Str} (h : FirstOccurrence t s u w) (h' : FirstOccurrence t s u' w') : u = u' ∧ w = w' := by
  have hl : u.length = u'.length := Nat.le_antisymm (h.2 _ _ h'.1) (h'.2 _ _ h.1)
  have := h.1.symm.trans h'.1
  rw [List.append_assoc, List.append_assoc] at this
  have h1 := List.append_inj this hl
  exact ⟨h1.1, List.append_cancel_left h1.2⟩

/-- **C60.** `fn:contains`, `fn:starts-with`, `fn:ends-with` say whether the second string occurs in the first, at its start, at its
end; `()` counts as the empty string, which occurs everywhere. -/
theorem C60_contains (h : Heap) (v w : XSeq) (s t : Str) (hv : OptText v s) (hw : OptText w t) :
    (∃ b, CallGives h (S "fn:contains") [v, w] [.boolean b] ∧ (b = true ↔ ∃ x y, s = x ++ t ++ y)) ∧
    (∃ b, CallGives h (S "fn:starts-with") [v, w] [.boolean b] ∧ (b = true ↔ ∃ y, s = t ++ y)) ∧
    (∃ b, CallGives h (S "fn:ends-with") [v, w] [.boolean b] ∧ (b = true ↔ ∃ x, s = x ++ t)) := by
  refine ⟨⟨(splitn2 t s).isSome, ?_, ?_⟩, ⟨(stripPrefix t s).isSome, ?_, ?_⟩, ⟨(stripPrefix t.reverse s.reverse).isSome, ?_, ?_⟩⟩
  · refine calls_of 2 _ (hg := ?_)
    show (optString v).bind (fun s => (optString w).map fun t => _) = _
    rw [optString_of hv, optString_of hw]; rfl
  · cases hs : splitn2 t s with
    | none => simp only [Option.isSome_none, Bool.false_eq_true, false_iff]; exact splitn2_none hs
    | some q => simp only [Option.isSome_some, true_iff]; exact ⟨q.1, q.2, (splitn2_some hs).1⟩
  · refine calls_of 2 _ (hg := ?_)
    show (optString v).bind (fun s => (optString w).map fun t => _) = _
    rw [optString_of hv, optString_of hw]; rfl
  · simp only [Option.isSome_iff_exists, stripPrefix_eq_some]
  · refine calls_of 2 _ (hg := ?_)
    show (optString v).bind (fun s => (optString w).map fun t => _) = _
    rw [optString_of hv, optString_of hw]; rfl
  · simp only [Option.isSome_iff_exists, stripPrefix_eq_some]
    constructor
    · rintro ⟨a, ha⟩
      exact ⟨a.reverse, by rw [← List.reverse_reverse s, ha]; simp⟩
    · rintro ⟨x, rfl⟩
      exact ⟨x.reverse, by simp⟩

/-- **C60.** `fn:substring-before` and `fn:substring-after`: what is before and behind the first occurrence of the second string in the
first, the empty string if it does not occur. -/
theorem C60_before_after (h : Heap) (v w : XSeq) (s t : Str) (hv : OptText v s) (hw : OptText w t) :
    (∀ x y, FirstOccurrence t s x y →
      CallGives h (S "fn:substring-before") [v, w] [.string x] ∧ CallGives h (S "fn:substring-after") [v, w] [.string y]) ∧
    (¬ Occurs t s →
      CallGives h (S "fn:substring-before") [v, w] [.string []] ∧ CallGives h (S "fn:substring-after") [v, w] [.string []]) := by
  have hb : CallGives h (S "fn:substring-before") [v, w] [.string (((splitn2 t s).map (·.1)).getD [])] := by
    refine calls_of 2 _ (hg := ?_)
    show (optString v).bind (fun s => (optString w).map fun t => _) = _
    rw [optString_of hv, optString_of hw]; rfl
  have ha : CallGives h (S "fn:substring-after") [v, w] [.string (((splitn2 t s).map (·.2)).getD [])] := by
    refine calls_of 2 _ (hg := ?_)
    show (optString v).bind (fun s => (optString w).map fun t => _) = _
    rw [optString_of hv, optString_of hw]; rfl
  cases hs : splitn2 t s with
  | none =>
    rw [hs] at hb ha
    exact ⟨fun x y hh => absurd ⟨x, y, hh.1⟩ (splitn2_none hs), fun _ => ⟨hb, ha⟩⟩
  | some q =>
    rw [hs] at hb ha
    have hq := splitn2_some hs
    refine ⟨fun x y hh => ?_, fun hn => absurd ⟨q.1, q.2, hq.1⟩ hn⟩
    obtain ⟨rfl, rfl⟩ := first_unique hq hh
    exact ⟨hb, ha⟩

/-- `substring-before("a-b-c", "-")` and `substring-after("a-b-c", "-")`. -/
example (h : Heap) : CallGives h (S "fn:substring-before") [[.string (S "a-b-c")], [.string (S "-")]] [.string (S "a")] ∧
    CallGives h (S "fn:substring-after") [[.string (S "a-b-c")], [.string (S "-")]] [.string (S "b-c")] :=
  (C60_before_after h _ _ _ _ (.some _) (.some _)).1 _ _ (splitn2_some (by decide +kernel))

/-! ## C61: code points -/

theorem codepointOf_eq (c : Char) : codepointOf c = c.toNat := by
  have h1 : c.toNat < 0xD800 ∨ 0xDFFF < c.toNat ∧ c.toNat < 0x110000 := by
    have := c.valid
    simpa [UInt32.isValidChar, Nat.isValidChar] using this
  unfold codepointOf
  simp only
  generalize c.toNat = n at *
  split <;> split <;> omega

/-- The code points of a text as items. -/
theorem string_to_codepoints (h : Heap) (s : Str) :
    CallGives h (S "fn:string-to-codepoints") [[.string s]] (s.map fun c => .integer (c.toNat : Int)) := by
  refine calls_of 1 _ (hg := ?_)
  show Except.ok (s.map fun c => XItem.integer (codepointOf c)) = _
  simp only [codepointOf_eq]

theorem asU64_nat (n : Nat) (hn : n < 2 ^ 64) : asU64 n = n := by
  unfold asU64; omega

theorem fromUtf16_char (c : Char) (r : List Nat) : fromUtf16 (unitsOf c.toNat ++ r) = (fromUtf16 r).map (c :: ·) := by
  have h1 : c.toNat < 0xD800 ∨ 0xDFFF < c.toNat ∧ c.toNat < 0x110000 := by
    have := c.valid
    simpa [UInt32.isValidChar, Nat.isValidChar] using this
  have hc : Char.ofNat c.toNat = c := Char.ofNat_toNat c
  unfold unitsOf
  split
  · rename_i hb
    simp only [List.cons_append, List.nil_append]
    rw [fromUtf16.eq_def]
    simp only
    rw [if_pos (by omega), if_pos (by omega)]
    have : 0x10000 + (((c.toNat - 0x10000) / 0x400 + 0xD800) % 0x10000 - 0xD800) * 0x400 +
        (((c.toNat - 0x10000) % 0x400 + 0xDC00) % 0x10000 - 0xDC00) = c.toNat := by omega
    rw [this, hc]
  · rename_i hb
    simp only [List.cons_append, List.nil_append]
    rw [fromUtf16.eq_def]
    simp only
    rw [if_neg (by omega), if_neg (by omega), hc]

/-- **C61.** `fn:string-length` is the number of characters, `fn:string-to-codepoints` the code points of the characters in order, and
`fn:codepoints-to-string` of them gives the string back, for every string (characters outside the basic plane included). -/
theorem C61_codepoints_partial (h : Heap) (s : Str) :
    CallGives h (S "fn:string-length") [[.string s]] [.integer s.length] ∧
    CallGives h (S "fn:string-to-codepoints") [[.string s]] (s.map fun c => .integer (c.toNat : Int)) ∧
    CallGives h (S "fn:codepoints-to-string") [s.map fun c => .integer (c.toNat : Int)] [.string s] := by
  refine ⟨calls_of 1 _ (hg := rfl), string_to_codepoints h s, calls_of 1 _ (hg := ?_)⟩
  show ((s.map fun c => XItem.integer (c.toNat : Int)).mapM fun x : XItem => x.rawInteger h).bind _ = _
  have hm : ((s.map fun c => XItem.integer (c.toNat : Int)).mapM fun x : XItem => x.rawInteger h) = .ok (s.map fun c => (c.toNat : Int)) := by
    refine mapM_ok ?_
    induction s with
    | nil => exact .nil
    | cons c s ih => exact .cons rfl ih
  rw [hm]
  have hu : fromUtf16 ((s.map fun c => (c.toNat : Int)).flatMap fun n => unitsOf (asU64 n)) = some s := by
    clear hm
    induction s with
    | nil => rfl
    | cons c s ih =>
      have h1 : c.toNat < 2 ^ 64 := by
        have := c.valid
        have : c.toNat < 0xD800 ∨ 0xDFFF < c.toNat ∧ c.toNat < 0x110000 := by simpa [UInt32.isValidChar, Nat.isValidChar] using this
        omega
      rw [List.map_cons, List.flatMap_cons, asU64_nat _ h1, fromUtf16_char, ih]; rfl
  simp only [Except.bind, hu]

/-- **C61 is violated by the code** for numbers that are not code points: instead of an error, `fn:codepoints-to-string` takes some
numbers beyond the largest code point, and negative ones, for code points, and a pair of surrogates for one character. -/
theorem C61_violated (h : Heap) :
    CallGives h (S "fn:codepoints-to-string") [[.integer (0x10000 + 2 ^ 26)]] [.string [Char.ofNat 0x10000]] ∧
    CallGives h (S "fn:codepoints-to-string") [[.integer (0x10000 - 2 ^ 26)]] [.string [Char.ofNat 0x10000]] ∧
    CallGives h (S "fn:codepoints-to-string") [[.integer 0xD800, .integer 0xDC00]] [.string [Char.ofNat 0x10000]] := by
  refine ⟨calls_of 1 _ (hg := ?_), calls_of 1 _ (hg := ?_), calls_of 1 _ (hg := ?_)⟩ <;> rfl

/-! ## C62: `fn:translate` -/

theorem lastIndex_acc (c : Char) (f : Str) : ∀ i acc, lastIndex c f i acc = match lastIndex c f 0 none with
    | some j => some (i + j)
    | none => acc := by
  induction f with
  | nil => intro i acc; rfl
  | cons d f ih =>
    intro i acc
    rw [lastIndex, ih, lastIndex, ih 1]
    cases lastIndex c f 0 none with
    | some j => simp only; congr 1; omega
    | none =>
      simp only
      split <;> simp_all

theorem lastIndex_first (c : Char) (f : Str) (hf : f.Nodup) : lastIndex c f 0 none = f.findIdx? (· == c) := by
  induction f with
  | nil => rfl
  | cons d f ih =>
    rw [List.nodup_cons] at hf
    rw [lastIndex, lastIndex_acc, ih hf.2, List.findIdx?_cons]
    by_cases hd : d = c
    · subst hd
      have : f.findIdx? (· == d) = none := by
        rw [List.findIdx?_eq_none_iff]
        intro x hx
        simp only [beq_eq_false_iff_ne]
        rintro rfl
        exact hf.1 hx
      simp [this]
    · have : (d == c) = false := by simpa using hd
      rw [this]
      cases f.findIdx? (· == c) with
      | none => simp [Ne.symm hd]
      | some j => simp; omega

/-- **C62** (partial: no character twice in the second argument). `fn:translate` replaces every character of the first string that
occurs in the second by the one at the same place of the third, and drops it if there is none. Missing: the second argument with a
repeated character, for which the code is wrong (`C62_violated`). -/
theorem C62_translate_partial (h : Heap) (s f t : Str) (hf : f.Nodup) :
    CallGives h (S "fn:translate") [[.string s], [.string f], [.string t]] [.string (translated f t s)] := by
  refine calls_of 3 _ (hg := ?_)
  show Except.ok [XItem.string (s.flatMap (translateChar f t))] = _
  have : translateChar f t = fun c => match f.findIdx? (· == c) with | none => [c] | some i => (t[i]?).toList := by
    funext c
    unfold translateChar
    rw [lastIndex_first c f hf]
    cases f.findIdx? (· == c) with
    | none => rfl
    | some i => simp only; cases t[i]? <;> rfl
  rw [this]; rfl

/-- **C62 is violated by the code** for a second argument with a repeated character: the last occurrence counts, not the first. -/
theorem C62_violated (h : Heap) :
    CallGives h (S "fn:translate") [[.string (S "a")], [.string (S "aa")], [.string (S "xy")]] [.string (S "y")] ∧
    translated (S "aa") (S "xy") (S "a") = S "x" :=
  ⟨calls_of 3 _ (hg := rfl), by decide +kernel⟩

theorem lastIndex_last (c : Char) (f : Str) : ∀ i acc, (c ∉ f → lastIndex c f i acc = acc) ∧
    (c ∈ f → ∃ j, lastIndex c f i acc = some (i + j) ∧ f[j]? = some c ∧ ∀ k, j < k → f[k]? ≠ some c) := by
  induction f with
  | nil => intro i acc; exact ⟨fun _ => rfl, fun h => by simp at h⟩
  | cons d f ih =>
    intro i acc
    obtain ⟨h1, h2⟩ := ih (i + 1) (if c = d then some i else acc)
    rw [lastIndex]
    refine ⟨fun h => ?_, fun h => ?_⟩
    · rw [List.mem_cons, not_or] at h
      rw [h1 h.2, if_neg h.1]
    · by_cases hf : c ∈ f
      · obtain ⟨j, a1, a2, a3⟩ := h2 hf
        refine ⟨j + 1, by rw [a1]; congr 1; omega, by simpa using a2, fun k hk => ?_⟩
        obtain ⟨k, rfl⟩ : ∃ m, k = m + 1 := ⟨k - 1, by omega⟩
        simpa using a3 k (by omega)
      · have hd : c = d := by simpa [hf] using h
        refine ⟨0, by rw [h1 hf, if_pos hd]; rfl, by simp [hd], fun k hk => ?_⟩
        obtain ⟨k, rfl⟩ : ∃ m, k = m + 1 := ⟨k - 1, by omega⟩
        intro he
        exact hf (List.mem_of_getElem? (by simpa using he))

/-- **C62**, what `fn:translate` computes for all arguments: a character of the first string that is not in the second stays; one that is there is
replaced by the character of the third string at the place of its last occurrence in the second, and dropped if there is none. -/
theorem C62_exact (h : Heap) (s f t : Str) (g : Char → Str) (h1 : ∀ c, c ∉ f → g c = [c])
    (h2 : ∀ c (j : Nat), f[j]? = some c → (∀ k : Nat, j < k → f[k]? ≠ some c) → g c = (t[j]?).toList) :
    CallGives h (S "fn:translate") [[.string s], [.string f], [.string t]] [.string (s.flatMap g)] := by
  refine calls_of 3 _ (hg := ?_)
  show Except.ok [XItem.string (s.flatMap (translateChar f t))] = _
  have : translateChar f t = g := by
    funext c
    unfold translateChar
    by_cases hc : c ∈ f
    · obtain ⟨j, a1, a2, a3⟩ := (lastIndex_last c f 0 none).2 hc
      rw [a1, h2 c j a2 a3, Nat.zero_add]
      simp only
      cases t[j]? <;> rfl
    · rw [(lastIndex_last c f 0 none).1 hc, h1 c hc]
  rw [this]

/-- `translate("bar", "abc", "AB")`. -/
example (h : Heap) : CallGives h (S "fn:translate") [[.string (S "bar-c")], [.string (S "abc")], [.string (S "AB")]] [.string (S "BAr-")] :=
  C62_translate_partial h (S "bar-c") (S "abc") (S "AB") (by decide +kernel)

/-! ## C63: `fn:normalize-space` -/

theorem splitWhiteAux_eq (s cur : Str) : splitWhiteAux cur s = (s.splitOnPPrepend isWhite cur).filter (! ·.isEmpty) := by
  induction s generalizing cur with
  | nil => cases cur <;> simp [splitWhiteAux]
  | cons c s ih =>
    rw [splitWhiteAux, List.splitOnPPrepend_cons_eq_if]
    split
    · cases cur with
      | nil => simp [ih]
      | cons d cur => simp [ih]
    · rw [ih]

theorem foldl_append_flatten (l : List Str) (a : Str) : l.foldl (fun r t => r ++ t) a = a ++ l.flatten := by
  induction l generalizing a with
  | nil => simp
  | cons x l ih => rw [List.foldl_cons, ih]; simp

/-- White space as the code sees it and as XPath does are the same for the characters of a text. -/
def PlainSpace (s : Str) : Prop := ∀ c ∈ s, isWhite c = isBlank c

theorem splitOnPPrepend_congr {p q : Char → Bool} (s : Str) (h : ∀ c ∈ s, p c = q c) : ∀ cur, s.splitOnPPrepend p cur = s.splitOnPPrepend q cur := by
  induction s with
  | nil => intro cur; simp
  | cons c s ih =>
    intro cur
    rw [List.splitOnPPrepend_cons_eq_if, List.splitOnPPrepend_cons_eq_if, h c (by simp)]
    rw [← List.splitOnPPrepend_nil_right, ← List.splitOnPPrepend_nil_right (p := q)]
    simp only [ih fun c hc => h c (by simp [hc])]

/-- **C63**, what `fn:normalize-space` computes: the words of the text one after the other, without anything between them. -/
theorem C63_exact (h : Heap) (s : Str) (hs : PlainSpace s) :
    CallGives h (S "fn:normalize-space") [[.string s]] [.string (wordsOf s).flatten] := by
  refine calls_of 1 _ (hg := ?_)
  show Except.ok [XItem.string ((splitWhite s).foldl (fun r t => r ++ t) [])] = _
  rw [foldl_append_flatten, splitWhite, splitWhiteAux_eq, splitOnPPrepend_congr s hs, List.splitOnPPrepend_nil_right, List.nil_append, wordsOf]

/-- **C63** (partial: at most one word). `fn:normalize-space` gives the text without white space at its ends and with one space between
words. Missing: texts of several words, for which the code is wrong: it leaves out the spaces between them (`C63_violated`). -/
theorem C63_normalize_space_partial (h : Heap) (s : Str) (hs : PlainSpace s) (hw : (wordsOf s).length ≤ 1) :
    CallGives h (S "fn:normalize-space") [[.string s]] [.string (normalized s)] := by
  have := C63_exact h s hs
  unfold normalized
  match hws : wordsOf s, hw with
  | [], _ => rw [hws] at this; exact this
  | [w], _ => rw [hws] at this; simpa [separated] using this

/-- **C63 is violated by the code** for every text of several words. -/
theorem C63_violated (h : Heap) (s : Str) (hs : PlainSpace s) (hw : 2 ≤ (wordsOf s).length) :
    ∃ v, CallGives h (S "fn:normalize-space") [[.string s]] v ∧ v ≠ [.string (normalized s)] := by
  refine ⟨_, C63_exact h s hs, ?_⟩
  intro he
  have he : (wordsOf s).flatten = normalized s := by simpa using he
  unfold normalized at he
  match hws : wordsOf s, hw with
  | w :: x :: r, _ =>
    rw [hws] at he
    have h1 := congrArg List.length he
    have h2 : ∀ l : List Str, l.flatten.length ≤ (l.map fun t => S " " ++ t).flatten.length := by
      intro l
      induction l with
      | nil => simp
      | cons a l ih =>
        simp only [List.flatten_cons, List.map_cons, List.length_append]
        have : (S " ").length = 1 := rfl
        omega
    simp only [separated, List.flatten_cons, List.map_cons, List.length_append] at h1
    have h3 := h2 r
    have : (S " ").length = 1 := rfl
    omega

/-- `normalize-space("  ab ")`, and a text of two words. -/
example (h : Heap) : CallGives h (S "fn:normalize-space") [[.string (S "  ab ")]] [.string (S "ab")] :=
  C63_normalize_space_partial h (S "  ab ") (by unfold PlainSpace; decide +kernel) (by decide +kernel)
example : 2 ≤ (wordsOf (S "a b")).length ∧ PlainSpace (S "a b") := ⟨by decide +kernel, by unfold PlainSpace; decide +kernel⟩

/-! ## C65: functions on sequences -/

/-- **C65.** `fn:count`, `fn:empty`, `fn:exists`, `fn:reverse`. -/
theorem C65_count (h : Heap) (s : XSeq) :
    CallGives h (S "fn:count") [s] [.integer s.length] ∧
    CallGives h (S "fn:empty") [s] [.boolean (decide (s = []))] ∧
    CallGives h (S "fn:exists") [s] [.boolean (decide (s ≠ []))] ∧
    CallGives h (S "fn:reverse") [s] s.reverse := by
  refine ⟨calls_of 1 _ (hg := rfl), calls_of 1 _ (hg := ?_), calls_of 1 _ (hg := ?_), calls_of 1 _ (hg := rfl)⟩ <;>
    (cases s <;> rfl)

/-- **C65.** `fn:head` and `fn:tail`: the first item and the rest, nothing for the empty sequence. -/
theorem C65_head_tail (h : Heap) (x : XItem) (s : XSeq) :
    CallGives h (S "fn:head") [x :: s] [x] ∧ CallGives h (S "fn:tail") [x :: s] s ∧
    CallGives h (S "fn:head") [[]] [] ∧ CallGives h (S "fn:tail") [[]] [] :=
  ⟨calls_of 1 _ (hg := rfl), calls_of 1 _ (hg := rfl), calls_of 1 _ (hg := rfl), calls_of 1 _ (hg := rfl)⟩

/-- **C65.** `fn:insert-before` puts the third argument before the position given, at the front if that is less than 1, at the end if it
is beyond the end, and keeps all items (`i64::MIN` apart, where the subtraction overflows: `C65_overflow`). -/
theorem C65_insert_before (h : Heap) (t ins : XSeq) (p : Int) (hp : isI64 p) (hm : p ≠ i64Min) :
    ∃ v, CallGives h (S "fn:insert-before") [t, [.integer p], ins] v ∧ Inserted t p ins v := by
  have hc : checkI64 (p - 1) = .ok (p - 1) := by
    unfold checkI64
    rw [if_pos]
    unfold isI64 at *
    unfold i64Min i64Max at *
    omega
  let k : Nat := (max 0 (min (p - 1) (t.length : Int))).toNat
  refine ⟨t.take k ++ ins ++ t.drop k, calls_of 3 _ (hg := ?_), t.take k, t.drop k, by simp, rfl, ?_⟩
  · show fnInsertBefore t [.integer p] ins = _
    unfold fnInsertBefore
    simp only [XSeq.integer1, Except.bind]
    rw [hc]
    simp only [Except.map]
    have : (if (t.length : Int) ≤ (if p - 1 ≤ 0 then 0 else p - 1) then (t.length : Int) else if p - 1 ≤ 0 then 0 else p - 1).toNat = k := by
      show _ = (max 0 (min (p - 1) (t.length : Int))).toNat
      split <;> split at * <;> omega
    show Except.ok (List.take _ t ++ ins ++ List.drop _ t) = _
    rw [this]
  · rw [List.length_take]
    show ((min (max 0 (min (p - 1) (t.length : Int))).toNat t.length : Nat) : Int) = _
    omega

/-- The one position for which `fn:insert-before` panics (with overflow checks). -/
theorem C65_overflow (h : Heap) (t ins : XSeq) : CallFails h (S "fn:insert-before") [t, [.integer i64Min], ins] .panic :=
  fails_of 3 _ (hg := rfl)

theorem removeLoop_eq (p : Int) (s : XSeq) : ∀ n, removeLoop p n s = selectFrom (fun k => decide ((k : Int) ≠ p)) (n + 1) s := by
  induction s with
  | nil => intro n; rfl
  | cons x s ih =>
    intro n
    rw [removeLoop, selectFrom, ih]
    have : (((n : Int) + 1 ≠ p) ↔ (((n + 1 : Nat) : Int) ≠ p)) := by
      rw [Int.natCast_add]; rfl
    by_cases hh : (n : Int) + 1 = p
    · rw [if_neg (by simpa using hh), if_neg (by simpa using hh)]
    · rw [if_pos hh, if_pos (by simpa using hh)]

/-- **C65.** `fn:remove` keeps the items at all positions but the one given. -/
theorem C65_remove (h : Heap) (s : XSeq) (p : Int) :
    CallGives h (S "fn:remove") [s, [.integer p]] (select (fun k => decide ((k : Int) ≠ p)) s) := by
  refine calls_of 2 _ (hg := ?_)
  show Except.ok (removeLoop p 0 s) = _
  rw [removeLoop_eq]; rfl

/-- `insert-before((1, 2), 2, 7)` and `remove((1, 2, 3), 2)`. -/
example (h : Heap) : ∃ v, CallGives h (S "fn:insert-before") [[.integer 1, .integer 2], [.integer 2], [.integer 7]] v ∧
    Inserted [.integer 1, .integer 2] 2 [.integer 7] v := C65_insert_before h _ _ 2 (by decide) (by decide)
example (h : Heap) : CallGives h (S "fn:remove") [[.integer 1, .integer 2, .integer 3], [.integer 2]] [.integer 1, .integer 3] :=
  C65_remove h _ 2

/-! ## C66: cardinality and `fn:index-of` -/

/-- **C66.** `fn:zero-or-one`, `fn:one-or-more`, `fn:exactly-one` return their argument if it has as many items as they say, and fail
otherwise. -/
theorem C66_cardinality (h : Heap) (s : XSeq) :
    (s.length ≤ 1 → CallGives h (S "fn:zero-or-one") [s] s) ∧ (1 < s.length → CallFails h (S "fn:zero-or-one") [s] .dynamicError) ∧
    (1 ≤ s.length → CallGives h (S "fn:one-or-more") [s] s) ∧ (s.length = 0 → CallFails h (S "fn:one-or-more") [s] .dynamicError) ∧
    (s.length = 1 → CallGives h (S "fn:exactly-one") [s] s) ∧ (s.length ≠ 1 → CallFails h (S "fn:exactly-one") [s] .dynamicError) := by
  refine ⟨fun hl => calls_of 1 _ (hg := ?_), fun hl => fails_of 1 _ (hg := ?_), fun hl => calls_of 1 _ (hg := ?_),
    fun hl => fails_of 1 _ (hg := ?_), fun hl => calls_of 1 _ (hg := ?_), fun hl => fails_of 1 _ (hg := ?_)⟩
  · show fnZeroOrOne s = _; unfold fnZeroOrOne; rw [if_pos hl]
  · show fnZeroOrOne s = _; unfold fnZeroOrOne; rw [if_neg (by omega)]
  · show fnOneOrMore s = _; unfold fnOneOrMore; rw [if_pos hl]
  · show fnOneOrMore s = _; unfold fnOneOrMore; rw [if_neg (by omega)]
  · show fnExactlyOne s = _; unfold fnExactlyOne; rw [if_pos hl]
  · show fnExactlyOne s = _; unfold fnExactlyOne; rw [if_neg hl]

/-- The positions, counted from `p`, of the items that satisfy `f`. -/
def positionsFrom (f : XItem → Bool) : Nat → XSeq → XSeq
  | _, [] => []
  | p, x :: s => if f x then .integer (p : Int) :: positionsFrom f (p + 1) s else positionsFrom f (p + 1) s

theorem positionsFrom_mem (f : XItem → Bool) (s : XSeq) : ∀ p (y : XItem), y ∈ positionsFrom f p s ↔
    ∃ k x, s[k]? = some x ∧ f x = true ∧ y = .integer ((p + k : Nat) : Int) := by
  induction s with
  | nil => intro p y; simp [positionsFrom]
  | cons x s ih =>
    intro p y
    have key : (∃ k z, (x :: s)[k]? = some z ∧ f z = true ∧ y = .integer ((p + k : Nat) : Int)) ↔
        (f x = true ∧ y = .integer (p : Int)) ∨ y ∈ positionsFrom f (p + 1) s := by
      rw [ih]
      constructor
      · rintro ⟨k, z, hk, hz, rfl⟩
        cases k with
        | zero => simp at hk; subst hk; exact .inl ⟨hz, by simp⟩
        | succ k => exact .inr ⟨k, z, by simpa using hk, hz, by congr 1; push_cast; omega⟩
      · rintro (⟨hx, rfl⟩ | ⟨k, z, hk, hz, rfl⟩)
        · exact ⟨0, x, rfl, hx, by simp⟩
        · exact ⟨k + 1, z, by simpa using hk, hz, by congr 1; push_cast; omega⟩
    rw [key, positionsFrom]
    split
    · rename_i hx; simp [hx]
    · rename_i hx; simp [hx]

end Amxml
