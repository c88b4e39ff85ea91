import Verif.Lemmas.Display
import Verif.Props.XRound
import Verif.Props.XMapFn
import Verif.Props.XGrammar

/-!
# C85, C86: the text of a value (`Sequence::to_string`)
-/

namespace Amxml
open Spec

theorem displayItems_map (h : Heap) (s : XSeq) : displayItems h s = s.map (displayItem h) := by
  induction s with
  | nil => rfl
  | cons x s ih => rw [displayItems, ih]; rfl

theorem displayMembers_map (h : Heap) (a : List XSeq) : displayMembers h a = a.map (displaySeq h) := by
  induction a with
  | nil => rfl
  | cons m a ih => rw [displayMembers, ih]; rfl

/-- The text of an entry of a map. -/
def displayEntry (h : Heap) (p : XItem × XSeq) : Str := displayItem h p.1 ++ S " => " ++ displaySeq h p.2

theorem displayEntries_map (h : Heap) (e : List (XItem × XSeq)) : displayEntries h e = e.map (displayEntry h) := by
  induction e with
  | nil => rfl
  | cons m a ih => obtain ⟨k, v⟩ := m; rw [displayEntries, ih]; rfl

/-! ## C85: different values have different texts -/

/-- No text of the one kind is the beginning of a text of the other kind, up to a separator. -/
def Codes {α : Type} (f g : α → Str) (x y : α) : Prop := ∀ r r', Stop r → Stop r' → f x ++ r = g y ++ r' → x = y ∧ r = r'

/-- The text begins, and not with a separator. -/
def Starts (t : Str) : Prop := ∃ c ∈ t.head?, c ∉ stops

theorem comma_code {α : Type} {f g : α → Str} {l l' : List α} {c : Char} {r r' : Str} (hc : c ∈ [')', ']', '}'])
    (hcode : ∀ x ∈ l, ∀ y ∈ l', Codes f g x y) (hf : ∀ x ∈ l, Starts (f x)) (hg : ∀ x ∈ l', Starts (g x))
    (e : commaList (l.map f) ++ c :: r = commaList (l'.map g) ++ c :: r') : l = l' ∧ r = r' := by
  have hcs : c ∈ stops := by
    have : ∀ c ∈ [')', ']', '}'], c ∈ stops := by decide
    exact this c hc
  have hcc : c ≠ ',' := by rintro rfl; revert hc; decide
  have start : ∀ {t u : Str} {r r' : Str}, Starts t → c :: r = t ++ u ++ r' → False := by
    rintro t u r r' ⟨a, ha, hs⟩ e
    cases t with
    | nil => cases ha
    | cons b t =>
      cases ha
      simp only [List.cons_append, List.cons.injEq] at e
      exact hs (e.1 ▸ hcs)
  have s1 : ∀ r, Stop (c :: r) := fun r a ha => by cases ha; exact hcs
  have s2 : ∀ r : Str, Stop (S ", " ++ r) := fun r a ha => by cases ha; decide
  induction l generalizing l' with
  | nil =>
    cases l' with
    | nil => simpa [commaList] using e
    | cons y l' =>
      exfalso
      cases l' with
      | nil => exact start (u := []) (hg y (by simp)) (by simpa [commaList] using e)
      | cons z l' => exact start (hg y (by simp)) (by simpa [commaList] using e)
  | cons x l ih =>
    cases l' with
    | nil =>
      exfalso
      cases l with
      | nil => exact start (u := []) (hf x (by simp)) (by simpa [commaList] using e.symm)
      | cons z l => exact start (hf x (by simp)) (by simpa [commaList] using e.symm)
    | cons y l' =>
      cases l with
      | nil =>
        cases l' with
        | nil =>
          obtain ⟨rfl, e'⟩ := hcode x (by simp) y (by simp) _ _ (s1 r) (s1 r') (by simpa [commaList] using e)
          exact ⟨rfl, by simpa using e'⟩
        | cons z l' =>
          exfalso
          obtain ⟨-, e⟩ := hcode x (by simp) y (by simp) (c :: r) (S ", " ++ (commaList (g z :: l'.map g) ++ c :: r')) (s1 r) (s2 _)
            (by simpa [commaList] using e)
          simp only [S] at e
          exact hcc (List.cons.inj e).1
      | cons w l =>
        cases l' with
        | nil =>
          exfalso
          obtain ⟨-, e⟩ := hcode x (by simp) y (by simp) (S ", " ++ (commaList (f w :: l.map f) ++ c :: r)) (c :: r') (s2 _) (s1 r')
            (by simpa [commaList] using e)
          simp only [S] at e
          exact hcc (List.cons.inj e).1.symm
        | cons z l' =>
          obtain ⟨rfl, e'⟩ := hcode x (by simp) y (by simp) (S ", " ++ (commaList (f w :: l.map f) ++ c :: r))
            (S ", " ++ (commaList (g z :: l'.map g) ++ c :: r')) (s2 _) (s2 _) (by simpa [commaList] using e)
          have e' := List.append_cancel_left e'
          obtain ⟨e1, e2⟩ := ih (l' := z :: l') (fun a ha b hb => hcode a (List.mem_cons_of_mem _ ha) b (List.mem_cons_of_mem _ hb))
            (fun a ha => hf a (List.mem_cons_of_mem _ ha)) (fun a ha => hg a (List.mem_cons_of_mem _ ha)) (by simpa using e')
          exact ⟨congrArg _ e1, e2⟩

/-- The text of a plain item begins with a character that is no separator and no parenthesis. -/
theorem plain_head {h : Heap} {x : XItem} (hx : Plain x) : ∃ c ∈ (displayItem h x).head?, c ∉ '(' :: stops := by
  have word : ∀ {k}, Word h x k → ∃ c ∈ (displayItem h x).head?, c ∉ '(' :: stops := by
    intro k hw
    obtain ⟨-, h2, c, hc, hn⟩ := word_text hw
    refine ⟨c, hc, ?_⟩
    have := h2 c (head_mem hc)
    rintro hm
    rcases List.mem_cons.1 hm with rfl | hm
    · exact hn (by decide)
    · exact this hm
  cases hx with
  | string => exact ⟨'"', rfl, by decide⟩
  | integer => exact word (.integer _)
  | decimal => exact word (.decimal _)
  | double => exact word (.double _)
  | boolean => exact word (.boolean _)
  | map => exact ⟨'{', rfl, by decide⟩
  | array => exact ⟨'[', rfl, by decide⟩

theorem plain_starts {h : Heap} {x : XItem} (hx : Plain x) : Starts (displayItem h x) := by
  obtain ⟨c, hc, hn⟩ := plain_head (h := h) hx
  exact ⟨c, hc, fun hm => hn (List.mem_cons_of_mem _ hm)⟩

theorem seq_text (h : Heap) (s : XSeq) : (∃ x, s = [x] ∧ displaySeq h s = displayItem h x) ∨
    (s.length ≠ 1 ∧ displaySeq h s = '(' :: (commaList (s.map (displayItem h)) ++ S ")")) := by
  unfold displaySeq inParens
  rw [displayItems_map]
  match s with
  | [] => exact .inr ⟨by simp, rfl⟩
  | [x] => exact .inl ⟨x, rfl, rfl⟩
  | x :: y :: s => exact .inr ⟨by simp, by rw [if_neg (by simp)]; rfl⟩

theorem seq_starts {h : Heap} {s : XSeq} (hs : ∀ x ∈ s, Plain x) : Starts (displaySeq h s) := by
  rcases seq_text h s with ⟨x, rfl, e⟩ | ⟨-, e⟩ <;> rw [e]
  · exact plain_starts (hs x (by simp))
  · exact ⟨'(', rfl, by decide⟩

theorem seq_code {h h' : Heap} {s s' : XSeq} (hc : ∀ x ∈ s, ∀ y, Plain y → Codes (displayItem h) (displayItem h') x y) (hs : ∀ x ∈ s, Plain x)
    (hs' : ∀ x ∈ s', Plain x) : Codes (displaySeq h) (displaySeq h') s s' := by
  intro r r' hr hr' e
  have clash : ∀ {h : Heap} {x : XItem} {t r r' : Str}, Plain x → displayItem h x ++ r = '(' :: t ++ r' → False := by
    intro h x t r r' hx e
    obtain ⟨c, hc, hn⟩ := plain_head (h := h) hx
    cases ht : displayItem h x with
    | nil => rw [ht] at hc; cases hc
    | cons a t =>
      rw [ht] at hc e
      cases hc
      simp only [List.cons_append, List.cons.injEq] at e
      exact hn (e.1 ▸ List.mem_cons_self ..)
  rcases seq_text h s with ⟨x, rfl, e1⟩ | ⟨-, e1⟩ <;> rcases seq_text h' s' with ⟨y, rfl, e2⟩ | ⟨-, e2⟩ <;> rw [e1, e2] at e
  · obtain ⟨rfl, e'⟩ := hc x (by simp) y (hs' y (by simp)) r r' hr hr' e
    exact ⟨rfl, e'⟩
  · exact (clash (hs x (by simp)) e).elim
  · exact (clash (hs' y (by simp)) e.symm).elim
  · simp only [List.cons_append, List.append_assoc, List.cons.injEq, true_and] at e
    exact comma_code (c := ')') (by decide) (fun x hx y hy => hc x hx y (hs' y hy)) (fun x hx => plain_starts (hs x hx)) (fun x hx => plain_starts (hs' x hx)) e

theorem string_code {s s' r r' : Str} (hs : '"' ∉ s) (hs' : '"' ∉ s') (e : s ++ '"' :: r = s' ++ '"' :: r') : s = s' ∧ r = r' := by
  induction s generalizing s' with
  | nil =>
    cases s' with
    | nil => exact ⟨rfl, by simpa using e⟩
    | cons c s' => simp at e hs'; exact absurd e.1 hs'.1
  | cons a s ih =>
    cases s' with
    | nil => simp at e hs; exact absurd e.1.symm hs.1
    | cons c s' =>
      simp only [List.cons_append, List.cons.injEq] at e
      obtain ⟨rfl, e⟩ := e
      obtain ⟨e1, e2⟩ := ih (fun hm => hs (List.mem_cons_of_mem _ hm)) (fun hm => hs' (List.mem_cons_of_mem _ hm)) e
      exact ⟨congrArg _ e1, e2⟩

/-- The kind of a plain item by the first character of its text. -/
def lead : XItem → Option Char
  | .string _ => some '"'
  | .map _ => some '{'
  | .array _ => some '['
  | _ => none

theorem lead_spec {h : Heap} {x : XItem} (hx : Plain x) {c : Char} (hc : (displayItem h x).head? = some c) :
    (lead x = some c ∧ c ∈ ['"', '{', '[']) ∨ (c ∉ ['"', '{', '['] ∧ ∃ k, Word h x k) := by
  have word : ∀ {k}, Word h x k → c ∉ ['"', '{', '['] ∧ ∃ k, Word h x k := by
    intro k hw
    obtain ⟨-, -, a, ha, hn⟩ := word_text hw
    rw [hc] at ha
    cases ha
    exact ⟨fun hm => hn (by revert hm; simp; tauto), k, hw⟩
  cases hx with
  | string => cases hc; exact .inl ⟨rfl, by decide⟩
  | integer => exact .inr (word (.integer _))
  | decimal => exact .inr (word (.decimal _))
  | double => exact .inr (word (.double _))
  | boolean => exact .inr (word (.boolean _))
  | map => cases hc; exact .inl ⟨rfl, by decide⟩
  | array => cases hc; exact .inl ⟨rfl, by decide⟩

theorem item_code {h h' : Heap} {x : XItem} (hx : Plain x) : ∀ y, Plain y → Codes (displayItem h) (displayItem h') x y := by
  have same : ∀ {x y : XItem} {r r' : Str}, Plain x → Plain y → displayItem h x ++ r = displayItem h' y ++ r' →
      (lead x = lead y ∧ lead x ≠ none) ∨ ((∃ k, Word h x k) ∧ ∃ k, Word h' y k) := by
    intro x y r r' hx hy e
    obtain ⟨c, hc, -⟩ := plain_head (h := h) hx
    obtain ⟨d, hd, -⟩ := plain_head (h := h') hy
    have hcd : c = d := by
      cases h1 : displayItem h x with
      | nil => rw [h1] at hc; cases hc
      | cons a t =>
        cases h2 : displayItem h' y with
        | nil => rw [h2] at hd; cases hd
        | cons b u =>
          rw [h1] at hc e
          rw [h2] at hd e
          cases hc; cases hd
          exact (List.cons.inj e).1
    subst hcd
    rcases lead_spec hx hc with ⟨h1, h2⟩ | ⟨h1, h2⟩ <;> rcases lead_spec hy hd with ⟨h3, h4⟩ | ⟨h3, h4⟩
    · exact .inl ⟨h1.trans h3.symm, by rw [h1]; simp⟩
    · exact absurd h2 h3
    · exact absurd h4 h1
    · exact .inr ⟨h2, h4⟩
  have words : ∀ {x y : XItem} {r r' : Str}, (∃ k, Word h x k) → (∃ k, Word h' y k) → Stop r → Stop r' → displayItem h x ++ r = displayItem h' y ++ r' →
      x = y ∧ r = r' := by
    rintro x y r r' ⟨k, hx⟩ ⟨k', hy⟩ hr hr' e
    obtain ⟨e1, e2⟩ := word_code (word_text hx).2.1 (word_text hy).2.1 hr hr' e
    exact ⟨word_inj hx hy e1, e2⟩
  induction hx with
  | @string s hs =>
    intro y hy r r' hr hr' e
    rcases same (.string hs) hy e with ⟨h1, -⟩ | ⟨h1, h2⟩
    · cases hy with
      | @string s' hs' =>
        have e : ('"' :: s ++ S "\"") ++ r = ('"' :: s' ++ S "\"") ++ r' := e
        simp only [S, List.cons_append, List.append_assoc, List.cons.injEq, true_and] at e
        obtain ⟨rfl, e'⟩ := string_code hs hs' e
        exact ⟨rfl, e'⟩
      | _ => cases h1
    · exact words h1 h2 hr hr' e
  | @map m hk hv ihk ihv =>
    intro y hy r r' hr hr' e
    rcases same (.map hk hv) hy e with ⟨h1, -⟩ | ⟨h1, h2⟩
    · cases hy with
      | @map m' hk' hv' =>
        have e : (S "{" ++ commaList (displayEntries h m) ++ S "}") ++ r = (S "{" ++ commaList (displayEntries h' m') ++ S "}") ++ r' := e
        rw [displayEntries_map, displayEntries_map] at e
        have e2 : commaList (m.map (displayEntry h)) ++ '}' :: r = commaList (m'.map (displayEntry h')) ++ '}' :: r' := by
          simpa [S] using e
        have code : ∀ p ∈ m, ∀ p' ∈ m', Codes (displayEntry h) (displayEntry h') p p' := by
          intro p hp p' hp' r r' hr hr' e
          unfold displayEntry at e
          rw [List.append_assoc, List.append_assoc, List.append_assoc, List.append_assoc] at e
          have st : ∀ t : Str, Stop (S " => " ++ t) := fun t a ha => by cases ha; decide
          obtain ⟨e1, e2⟩ := ihk p hp p'.1 (hk' p' hp') _ _ (st _) (st _) e
          obtain ⟨e3, e4⟩ := seq_code (fun x hx => ihv p hp x hx) (fun x hx => hv p hp x hx) (fun x hx => hv' p' hp' x hx) r r' hr hr' (List.append_cancel_left e2)
          exact ⟨Prod.ext e1 e3, e4⟩
        have starts : ∀ (h : Heap) (p : XItem × XSeq), Plain p.1 → Starts (displayEntry h p) := by
          intro h p hp
          obtain ⟨c, hc, hn⟩ := plain_starts (h := h) hp
          refine ⟨c, ?_, hn⟩
          unfold displayEntry
          cases ht : displayItem h p.1 with
          | nil => rw [ht] at hc; cases hc
          | cons a t => rw [ht] at hc; exact hc
        obtain ⟨rfl, e3⟩ := comma_code (c := '}') (by decide) code (fun p hp => starts h p (hk p hp)) (fun p hp => starts h' p (hk' p hp)) e2
        exact ⟨rfl, e3⟩
      | _ => cases h1
    · exact words h1 h2 hr hr' e
  | @array a ha ih =>
    intro y hy r r' hr hr' e
    rcases same (.array ha) hy e with ⟨h1, -⟩ | ⟨h1, h2⟩
    · cases hy with
      | @array a' ha' =>
        have e : (S "[" ++ commaList (displayMembers h a) ++ S "]") ++ r = (S "[" ++ commaList (displayMembers h' a') ++ S "]") ++ r' := e
        rw [displayMembers_map, displayMembers_map] at e
        have e2 : commaList (a.map (displaySeq h)) ++ ']' :: r = commaList (a'.map (displaySeq h')) ++ ']' :: r' := by
          simpa [S] using e
        obtain ⟨rfl, e3⟩ := comma_code (c := ']') (by decide)
          (fun m hm m' hm' => seq_code (fun x hx => ih m hm x hx) (fun x hx => ha m hm x hx) (fun x hx => ha' m' hm' x hx))
          (fun m hm => seq_starts (ha m hm)) (fun m hm => seq_starts (ha' m hm)) e2
        exact ⟨rfl, e3⟩
      | _ => cases h1
    · exact words h1 h2 hr hr' e
  | _ =>
    intro y hy r r' hr hr' e
    rcases same (by constructor) hy e with ⟨-, h2⟩ | ⟨h1, h2⟩
    · exact absurd rfl h2
    · exact words h1 h2 hr hr' e

/-- **C85** (partial: see `C85_violated`): two values without nodes and functions, and without quote characters in strings, have the same text only if they
are the same sequence: the text shows the number of items, their types, and the values themselves. -/
theorem C85_distinct_partial (h h' : Heap) (s s' : XSeq) (hs : ∀ x ∈ s, Plain x) (hs' : ∀ x ∈ s', Plain x) (e : displaySeq h s = displaySeq h' s') : s = s' :=
  (seq_code (fun x hx => item_code (hs x hx)) hs hs' [] [] (by simp [Stop]) (by simp [Stop]) (by simpa using e)).1



/-- The values of the example are plain. -/
example : ∀ x ∈ ([.string (S "a, b"), .integer (-1), .map [(.boolean true, [.decimal F64.zero, .double F64.nan])], .array [[], [.array []]]] : XSeq), Plain x := by
  intro x hx
  simp only [List.mem_cons, List.not_mem_nil, or_false] at hx
  rcases hx with rfl | rfl | rfl | rfl
  · exact .string (by decide)
  · exact .integer
  · refine .map (fun p hp => ?_) fun p hp x hx => ?_ <;> simp only [List.mem_cons, List.not_mem_nil, or_false] at hp <;> subst hp
    · exact .boolean
    · simp only [List.mem_cons, List.not_mem_nil, or_false] at hx
      rcases hx with rfl | rfl
      · exact .decimal
      · exact .double
  · refine .array fun m hm x hx => ?_
    simp only [List.mem_cons, List.not_mem_nil, or_false] at hm
    rcases hm with rfl | rfl
    · cases hx
    · simp only [List.mem_cons, List.not_mem_nil, or_false] at hx
      subst hx
      exact .array (by simp)

/-- **C85** is false of the code: strings are not escaped, so two strings have the text of three, and the text of a text node is that of a number. -/
theorem C85_violated :
    displaySeq editSample [.string (S "a\", \"b"), .string (S "c")] = displaySeq editSample [.string (S "a"), .string (S "b"), .string (S "c")] ∧
    (let h := editSample.makeChild .text 5 [] (S "1") none
     (h.node 6).ntype = .text ∧ displaySeq h [.node 6] = displaySeq h [.integer 1]) := by
  decide +kernel

/-! ## C86: the text of a value is an expression for it -/

/-- Separators that end a terminal. -/
def Closes (r : Str) : Prop := ∀ c ∈ r.head?, c = ',' ∨ c = ')' ∨ c = ']'

/-- Only string literals and braced URIs contain a comma or a closing bracket, besides the symbol itself. -/
theorem lexeme_closer {v : Str} {u : Tok} (hv : Lexeme v u) {c : Char} (hc : c = ',' ∨ c = ')' ∨ c = ']') (hm : c ∈ v) :
    v = [c] ∨ v.head? = some '"' ∨ v.head? = some '\'' ∨ v.head? = some 'Q' := by
  have hdig : ∀ d, AllDigits d → c ∉ d := by
    intro d hd h
    have := hd c h
    rcases hc with rfl | rfl | rfl <;> (revert this; decide)
  have hdot : c ≠ '.' := by rcases hc with rfl | rfl | rfl <;> decide
  have hdec : ∀ d, DecimalL d → c ∉ d := by
    intro d hd
    cases hd with
    | point _ h => simp [hdot, hdig _ h]
    | digits _ h h' => simp [hdot, hdig _ h, hdig _ h']
  cases hv with
  | symbol hs =>
    left
    have : ∀ e ∈ symbols, ∀ x ∈ [',', ')', ']'], x ∈ e.1 → e.1 = [x] := by decide
    exact this _ hs c (by simpa using hc) hm
  | word h1 h2 =>
    exfalso
    rcases List.mem_cons.1 hm with rfl | h
    · rcases hc with rfl | rfl | rfl <;> (revert h1; decide)
    · have := h2 _ h
      rcases hc with rfl | rfl | rfl <;> (revert this; decide)
  | string hq _ => rcases hq with rfl | rfl <;> simp [quoted]
  | uri => exact .inr (.inr (.inr rfl))
  | integer _ hd => exact absurd hm (hdig _ hd)
  | decimal hd => exact absurd hm (hdec _ hd)
  | double hd hx =>
    exfalso
    rcases List.mem_append.1 hm with h | h
    · rcases hd with ⟨-, hd⟩ | hd
      · exact hdig _ hd h
      · exact hdec _ hd h
    · cases hx with
      | plain he _ hd =>
        rcases List.mem_cons.1 h with rfl | h
        · rcases hc with rfl | rfl | rfl <;> (revert he; decide)
        · exact hdig _ hd h
      | signed he hs _ hd =>
        rcases List.mem_cons.1 h with rfl | h
        · rcases hc with rfl | rfl | rfl <;> (revert he; decide)
        · rcases List.mem_cons.1 h with rfl | h
          · rcases hc with rfl | rfl | rfl <;> (revert hs; decide)
          · exact hdig _ hd h

/-- A longer terminal contains the character that follows. -/
theorem longer {w r v : Str} (hp : v <+: w ++ r) (hl : w.length < v.length) : ∃ c r', r = c :: r' ∧ w ++ [c] <+: v := by
  cases r with
  | nil =>
    have := hp.length_le
    simp at this
    omega
  | cons c r =>
    refine ⟨c, r, rfl, ?_⟩
    exact List.prefix_of_prefix_length_le ⟨r, by simp⟩ hp (by simp; omega)

/-- A number ends before a comma, a closing bracket, and the end of the text. -/
theorem ends_number {w r : Str} {t : TType} {m : Nat} {e : Int} (hn : Numeral w m e) (ht : t ∈ numericKinds) (hr : Closes r) : Ends w t r := by
  obtain ⟨a, w', rfl, ha⟩ := numeral_head hn
  have hne : ∀ x : Char, ¬ ((48 ≤ x.toNat ∧ x.toNat ≤ 57) ∨ x = '.') → a ≠ x := by rintro x hx rfl; exact hx ha
  refine ⟨fun v u hv hp => ?_, fun _ c hc => ?_, fun h => ?_, fun h => ?_, ?_⟩
  · by_contra hl
    obtain ⟨c, r', rfl, z, hz⟩ := longer hp (by omega)
    have hc := hr c (by simp)
    have hh : v.head? = some a := by rw [← hz]; rfl
    rcases lexeme_closer hv hc (by rw [← hz]; simp) with h | h | h | h
    · rw [← hz] at h; simp at h
    all_goals rw [hh] at h; exact hne _ (by decide) (Option.some.inj h)
  · rcases hr c hc with rfl | rfl | rfl <;> decide
  · exact absurd (List.cons.inj h).1 (hne _ (by decide))
  · subst h; exact absurd ht (by decide)
  · rintro ⟨z, hz⟩
    exact hne '(' (by decide) (List.cons.inj hz).1.symm

theorem quoted_plain {s : Str} (hs : '"' ∉ s) : quoted '"' s = '"' :: s ++ S "\"" := by
  unfold quoted
  have : s.flatMap (fun c => if c = '"' then ['"', '"'] else [c]) = s := by
    induction s with
    | nil => rfl
    | cons c s ih =>
      simp only [List.mem_cons, not_or] at hs
      rw [List.flatMap_cons, if_neg (fun h => hs.1 h.symm), ih hs.2]
      rfl
  rw [this]; rfl

/-- A string literal ends at its quote character if no other follows. -/
theorem ends_string {s r : Str} (hs : '"' ∉ s) (hr : Closes r) : Ends (quoted '"' s) .stringLiteral r := by
  have hq : ∀ c ∈ r.head?, c ≠ '"' := by
    intro c hc
    rcases hr c hc with rfl | rfl | rfl <;> decide
  have inner : ∀ (s s' : Str), '"' ∉ s → s ++ ['"'] <+: s'.flatMap (fun c => if c = '"' then ['"', '"'] else [c]) ++ ['"'] →
      (∃ c z, c ≠ '"' ∧ s'.flatMap (fun c => if c = '"' then ['"', '"'] else [c]) ++ ['"'] = s ++ '"' :: c :: z) → False := by
    intro s
    induction s with
    | nil =>
      rintro s' - - ⟨c, z, hc, e⟩
      cases s' with
      | nil => simp at e
      | cons a s' =>
        rw [List.flatMap_cons] at e
        by_cases ha : a = '"'
        · rw [if_pos ha] at e
          simp at e
          exact hc e.1.symm
        · rw [if_neg ha] at e
          simp at e
          exact ha e.1
    | cons b s ih =>
      rintro s' hs - ⟨c, z, hc, e⟩
      simp only [List.mem_cons, not_or] at hs
      cases s' with
      | nil => simp at e
      | cons a s' =>
        rw [List.flatMap_cons] at e
        by_cases ha : a = '"'
        · rw [if_pos ha] at e
          simp at e
          exact hs.1 e.1
        · rw [if_neg ha] at e
          simp at e
          obtain ⟨rfl, e⟩ := e
          refine ih s' hs.2 ?_ ⟨c, z, hc, by simpa using e⟩
          exact ⟨c :: z, by simpa using e.symm⟩
  refine ⟨fun v u hv hp => ?_, fun h => absurd h (by decide), fun h => ?_, fun _ h => ?_, ?_⟩
  · by_contra hl
    obtain ⟨c, r', rfl, z, hz⟩ := longer hp (by omega)
    have hc := hq c (by simp)
    rw [quoted_plain hs] at hz
    have hh : v.head? = some '"' := by rw [← hz]; rfl
    have hz : v = '"' :: (s ++ '"' :: c :: z) := by rw [← hz]; simp [S]
    cases hv with
    | symbol hy =>
      have : ∀ e ∈ symbols, e.1.head? ≠ some '"' := by decide
      exact this _ hy hh
    | word h1 => cases hh; revert h1; decide
    | @string q s' hqq _ =>
      have : q = '"' := by simpa [quoted] using hh
      subst this
      unfold quoted at hz
      simp only [List.cons_append, List.cons.injEq, true_and] at hz
      exact inner s s' hs ⟨c :: z, by rw [hz]; simp⟩ ⟨c, z, hc, hz⟩
    | uri => cases hh
    | integer h0 hd => exact absurd (hd _ (head_mem hh)) (by decide)
    | decimal hd =>
      obtain ⟨c, m', rfl, h⟩ := Lexer.mantissa_head (.inr hd)
      cases hh
      exact absurd h (by rintro (h | ⟨h, -⟩) <;> revert h <;> decide)
    | double hd =>
      obtain ⟨c, m', rfl, h⟩ := Lexer.mantissa_head hd
      cases hh
      exact absurd h (by rintro (h | ⟨h, -⟩) <;> revert h <;> decide)
  · rw [quoted_plain hs] at h; cases h
  · rw [quoted_plain hs] at h
    cases hh : r.head? with
    | none => rw [hh] at h; cases h
    | some c => rw [hh] at h; exact hq c hh (Option.some.inj h)
  · rw [quoted_plain hs]; rintro ⟨z, hz⟩; cases hz

/-- How terminals begin. -/
theorem lexeme_start {v : Str} {u : Tok} (hv : Lexeme v u) {a : Char} (ha : v.head? = some a) :
    (∃ t, (v, t) ∈ symbols) ∨ NameStartC a ∨ a ∈ ['"', '\'', 'Q', '.'] ∨ Lexer.isDigitX a = true := by
  have man : ∀ {m x : Str}, (m ≠ [] ∧ AllDigits m) ∨ DecimalL m → (m ++ x).head? = some a → a ∈ ['"', '\'', 'Q', '.'] ∨ Lexer.isDigitX a = true := by
    intro m x hm h
    obtain ⟨c, m', rfl, hc⟩ := Lexer.mantissa_head hm
    cases h
    rcases hc with hc | ⟨rfl, -⟩
    · exact .inr hc
    · exact .inl (by decide)
  cases hv with
  | symbol hy => exact .inl ⟨_, hy⟩
  | word hw => cases ha; exact .inr (.inl hw)
  | @string q s hq _ => cases ha; exact .inr (.inr (.inl (by rcases hq with rfl | rfl <;> decide)))
  | uri => cases ha; exact .inr (.inr (.inl (by decide)))
  | integer h0 hd => exact .inr (.inr (man (x := []) (.inl ⟨h0, hd⟩) (by simpa using ha)))
  | decimal hd => exact .inr (.inr (man (x := []) (.inr hd) (by simpa using ha)))
  | double hd => exact .inr (.inr (man hd ha))

/-- Symbols with which no other terminal begins. -/
def lone : List (Char × TType) := [('(', .leftParen), (')', .rightParen), ('[', .leftBracket), (']', .rightBracket), (',', .comma), ('-', .minus)]

theorem ends_symbol {c : Char} {t : TType} {r : Str} (hc : (c, t) ∈ lone)
    (hr : c = '(' → r.head? ≠ some ':') : Lexeme [c] ⟨t, [c]⟩ ∧ Ends [c] t r := by
  have hall : ∀ e ∈ lone,
      ([e.1], e.2) ∈ symbols ∧ ¬ NameStartC e.1 ∧ e.1 ∉ ['"', '\'', 'Q', '.'] ∧ Lexer.isDigitX e.1 = false ∧ e.2 ∉ numericKinds ∧ e.2 ≠ .stringLiteral ∧
      (∀ y ∈ symbols, y.1.head? = some e.1 → y.1 = [e.1]) := by decide
  obtain ⟨h1, h2, h3, h4, h5, h6, h7⟩ := hall _ hc
  refine ⟨.symbol h1, fun v u hv hp => ?_, fun h => absurd h h5, fun h => ?_, fun h => absurd h h6, ?_⟩
  · cases v with
    | nil => simp
    | cons a v =>
      have ha : a = c := by obtain ⟨z, hz⟩ := hp; simp at hz; exact hz.1
      subst ha
      rcases lexeme_start hv (a := a) rfl with ⟨t', hy⟩ | h | h | h
      · have e : a :: v = [a] := h7 (a :: v, t') hy rfl
        rw [e]
      · exact absurd h h2
      · exact absurd h h3
      · rw [h4] at h; cases h
  · have : c = 'Q' := (List.cons.inj h).1
    exact (h3 (by subst this; simp)).elim
  · rintro ⟨z, hz⟩
    have hz : '(' :: ':' :: z = c :: r := hz
    cases hz
    exact hr rfl rfl

/-- The text is an expression for the value, up to a separator. -/
def Phrase (t : Str) (v : XSeq) : Prop := ∃ ts x, (∀ r us, Closes r → Text us r → Text (ts ++ us) (t ++ r)) ∧ (∀ k ∈ ts, k.ty ≠ .innerName) ∧
  Derives (.level 2) ts x [] ∧ (∀ h c env, Value h c x env v) ∧ (∃ c ∈ t.head?, c ≠ ':')

theorem text_space {ts : List Tok} {r : Str} (h : Text ts r) : Text ts (' ' :: r) := by
  cases h with
  | nil hb => exact .nil (.white ' ' _ (.inl rfl) hb)
  | cons hb hw he h => exact .cons (.white ' ' _ (.inl rfl) hb) hw he h

theorem text_lone {c : Char} {t : TType} {r : Str} {us : List Tok} (hc : (c, t) ∈ lone) (hr : c = '(' → r.head? ≠ some ':') (h : Text us r) :
    Text (⟨t, [c]⟩ :: us) (c :: r) :=
  .cons (b := []) .nil (ends_symbol hc hr).1 (ends_symbol hc hr).2 h

/-- A literal is a phrase. -/
theorem phrase_literal {w : Str} {k : Tok} {x : XNode} {v : XSeq} (hw : Lexeme w k) (he : ∀ r, Closes r → Ends w k.ty r) (hk : k.ty ≠ .innerName)
    (hd : Derives .primary [k] x []) (hv : ∀ h c env, Value h c x env v) (hh : ∃ c ∈ w.head?, c ≠ ':') : Phrase w v :=
  ⟨[k], x, fun r _ hr hu => .cons (b := []) .nil hw (he r hr) hu, by simpa using hk, .prim 2 hd, hv, hh⟩

/-- So is a literal with a minus sign. -/
theorem phrase_minus {w : Str} {k : Tok} {x : XNode} {i j : XItem} (hw : Lexeme w k) (he : ∀ r, Closes r → Ends w k.ty r) (hk : k.ty ≠ .innerName)
    (hd : Derives .primary [k] x []) (hv : ∀ h c env, Value h c x env [i]) (hm : numUMinus i = .ok j) : Phrase ('-' :: w) [j] := by
  refine ⟨[⟨.minus, ['-']⟩, k], .node .operatorUnaryMinus (S "-") .nil x, fun r _ hr hu => ?_, ?_, ?_, ?_, ⟨'-', rfl, by decide⟩⟩
  · exact text_lone (by decide) (fun h => absurd h (by decide)) (.cons (b := []) .nil hw (he r hr) hu)
  · intro k' hk'
    rcases List.mem_cons.1 hk' with rfl | h
    · simp
    · rwa [List.mem_singleton.1 h]
  · exact .loosen 2 (m := 17) (.minus (.prim 18 hd)) (by omega) (by omega) (by omega)
  · intro h c env
    unfold Value
    rw [evaluate_eq]
    show (do let r ← evaluate h c x; liftE (opUnary numUMinus r) : E XSeq) env = _
    rw [E.bind_run, hv h c env]
    simp only [opUnary, XSeq.item1, Except.bind, hm, Except.map, liftE_ok]

theorem fixed_lexeme {s : Str} {m : Nat} {e : Int} (hf : Fixed s m e) : (s ≠ [] ∧ AllDigits s) ∨ DecimalL s := by
  cases hf with
  | int h0 hd => exact .inl ⟨h0, (allDigits_iff _).2 hd⟩
  | @point a b ha hb hab =>
    right
    by_cases h0 : a = []
    · subst h0
      exact .point (hab.resolve_left (fun h => h rfl)) ((allDigits_iff _).2 hb)
    · exact .digits h0 ((allDigits_iff _).2 ha) ((allDigits_iff _).2 hb)

theorem fixed_nodot {s : Str} (hd : AllDigits s) (c : Char) (hc : c ∈ ['.', 'e', 'E']) : c ∉ s := by
  intro hm
  have := hd _ hm
  have h2 : ∀ c ∈ ['.', 'e', 'E'], ¬ ('0' ≤ c ∧ c ≤ '9') := by decide
  exact h2 c hc this

theorem double_lexeme {w : Str} {m : Nat} {e : Int} (hn : Numeral w m e) (hx : 'e' ∈ w) : Lexeme w ⟨.doubleLiteral, w⟩ := by
  cases hn with
  | fixed hf =>
    exfalso
    rcases fixed_lexeme hf with ⟨_, hd⟩ | hd
    · exact fixed_nodot hd 'e' (by decide) hx
    · cases hd with
      | point _ h => simp at hx; exact fixed_nodot h 'e' (by decide) hx
      | digits _ h h' =>
        simp at hx
        rcases hx with hx | hx
        · exact fixed_nodot h 'e' (by decide) hx
        · exact fixed_nodot h' 'e' (by decide) hx
  | @exp s x c m e k hf hcc hxx =>
    refine .double (fixed_lexeme hf) ?_
    cases hxx with
    | plain h0 hd => exact .plain hcc h0 ((allDigits_iff _).2 hd)
    | plus h0 hd => exact .signed hcc (.inl rfl) h0 ((allDigits_iff _).2 hd)
    | minus h0 hd => exact .signed hcc (.inr rfl) h0 ((allDigits_iff _).2 hd)

theorem decimal_lexeme {w : Str} {m : Nat} {e : Int} (hf : Fixed w m e) (hm : '.' ∈ w) : Lexeme w ⟨.decimalLiteral, w⟩ := by
  refine .decimal ?_
  rcases fixed_lexeme hf with ⟨_, hd⟩ | hd
  · exact absurd hm (fixed_nodot hd '.' (by decide))
  · exact hd

theorem atof_numeral {w : Str} {m : Nat} {e : Int} (hn : Numeral w m e) : atof w = Float.Model.ofScientific m e := by
  unfold atof
  rw [trim_padded (.self w) (numberText_solid (.plain hn)), parse_plain hn]
  rfl

theorem numeral_start {w : Str} {m : Nat} {e : Int} (hn : Numeral w m e) : ∃ c ∈ w.head?, c ≠ ':' := by
  obtain ⟨a, t, rfl, ha⟩ := numeral_head hn
  refine ⟨a, rfl, ?_⟩
  rintro rfl
  revert ha; decide

theorem neg_eq (d : F64) : -d = Float.Model.neg d := rfl

/-- The text of a finite decimal or double. -/
theorem phrase_shown {text t : Str} {d : F64} {k : TType} {n : XNodeType} (mk : F64 → XItem) (hs : Shown text d t) (hk : k ∈ numericKinds)
    (hw : Lexeme t ⟨k, t⟩) (hd : Derives .primary [⟨k, t⟩] (tip n t) []) (hv : ∀ h c env, Value h c (tip n t) env [mk (atof t)])
    (hm : ∀ d, numUMinus (mk d) = .ok (mk (-d))) : Phrase text [mk d] := by
  obtain ⟨m, e, hn, hs⟩ := hs
  have hkn : k ≠ .innerName := by rintro rfl; exact absurd hk (by decide)
  rcases hs with ⟨rfl, hs⟩ | ⟨rfl, hs⟩
  · refine phrase_literal hw (fun r hr => ends_number hn hk hr) hkn hd ?_ (numeral_start hn)
    rw [← hs, ← atof_numeral hn]
    exact hv
  · refine phrase_minus hw (fun r hr => ends_number hn hk hr) hkn hd hv ?_
    rw [hm, neg_eq, atof_numeral hn, hs]

theorem phrase_integer {n : Int} (h1 : -2 ^ 63 < n) (h2 : n < 2 ^ 63) : Phrase (F64.intStr n) [.integer n] := by
  obtain ⟨d1, d2, d3⟩ := natStr_digits n.natAbs
  have hn : Numeral (F64.natStr n.natAbs) n.natAbs 0 := by
    have := Numeral.fixed (Fixed.int d2 d1)
    rwa [d3] at this
  have hw : Lexeme (F64.natStr n.natAbs) ⟨.integerLiteral, F64.natStr n.natAbs⟩ := .integer d2 ((allDigits_iff _).2 d1)
  have hk : TType.integerLiteral ∈ numericKinds := by decide
  have hv : ∀ h c env, Value h c (tip .integerLiteral (F64.natStr n.natAbs)) env [.integer n.natAbs] := by
    intro h c env
    unfold Value
    rw [evaluate_eq]
    show Except.ok ([XItem.integer (atoi (F64.natStr n.natAbs))], env) = _
    have hi : IntText (F64.natStr n.natAbs) n.natAbs := by
      have := IntText.plain d2 d1
      rwa [d3] at this
    rw [atoi_of (.self _) hi (by unfold isI64 i64Min i64Max; omega)]
  unfold F64.intStr
  by_cases hneg : n < 0
  · rw [if_pos hneg]
    have e : n = -(n.natAbs : Int) := by omega
    refine phrase_minus hw (fun r hr => ends_number hn hk hr) (by simp) .integer hv ?_
    show (checkI64 (-(n.natAbs : Int))).map XItem.integer = _
    rw [← e]
    have : isI64 n := by unfold isI64 i64Min i64Max; omega
    simp [checkI64, this, Except.map]
  · rw [if_neg hneg, List.nil_append]
    have e : n = (n.natAbs : Int) := by omega
    have := phrase_literal hw (fun r hr => ends_number hn hk hr) (by simp) .integer hv (numeral_start hn)
    rwa [← e] at this

/-- A list of phrases, with commas between them, is a list of members. -/
theorem phrases {l : List Str} {vs : List XSeq} (h : List.Forall₂ Phrase l vs) (h0 : l ≠ []) :
    ∃ ts xs, (∀ r us, Closes r → Text us r → Text (ts ++ us) (commaList l ++ r)) ∧ (∀ k ∈ ts, k.ty ≠ .innerName) ∧
      Derives (.elems .member) ts (memberChain xs) [] ∧ (∀ h c env, List.Forall₂ (fun x v => Value h c x env v) xs vs) ∧
      ∃ c ∈ (commaList l).head?, c ≠ ':' := by
  induction h with
  | nil => exact absurd rfl h0
  | @cons t v l vs ht hl ih =>
    obtain ⟨ts, x, h1, h2, h3, h4, h5⟩ := ht
    cases l with
    | nil =>
      cases hl
      exact ⟨ts, [x], h1, h2, .lastElem (.member h3), fun h c env => .cons (h4 h c env) .nil, h5⟩
    | cons u l =>
      obtain ⟨us, xs, i1, i2, i3, i4, i5⟩ := ih (by simp)
      refine ⟨ts ++ ⟨.comma, [',']⟩ :: us, x :: xs, fun r zs hr hz => ?_, ?_, .moreElems (.member h3) i3, fun h c env => .cons (h4 h c env) (i4 h c env), ?_⟩
      · have := h1 _ _ (fun c hc => by cases hc; simp) (text_lone (c := ',') (t := .comma) (by decide) (fun h => absurd h (by decide)) (text_space (i1 r zs hr hz)))
        simpa [commaList, S] using this
      · intro k hk
        simp only [List.mem_append, List.mem_cons] at hk
        rcases hk with hk | rfl | hk
        · exact h2 k hk
        · simp
        · exact i2 k hk
      · obtain ⟨c, hc, hcc⟩ := h5
        refine ⟨c, ?_, hcc⟩
        show c ∈ (t ++ S ", " ++ commaList (u :: l)).head?
        cases t with
        | nil => cases hc
        | cons a t => exact hc

/-- The same as operands of the comma operator. -/
theorem phrases_comma {l : List Str} {vs : List XSeq} (h : List.Forall₂ Phrase l vs) (h0 : l ≠ []) :
    ∃ ts x, (∀ r us, Closes r → Text us r → Text (ts ++ us) (commaList l ++ r)) ∧ (∀ k ∈ ts, k.ty ≠ .innerName) ∧
      Derives (.level 1) ts x [] ∧ (∀ h c env, Value h c x env vs.flatten) ∧ ∃ c ∈ (commaList l).head?, c ≠ ':' := by
  -- the operator associates to the left: keep what has been read so far
  have key : ∀ {l : List Str} {vs : List XSeq}, List.Forall₂ Phrase l vs → l ≠ [] → ∀ (as : List Tok) (y : XNode) (w : XSeq),
      Derives (.level 1) as y [] → (∀ h c env, Value h c y env w) →
      ∃ ts x, (∀ r us, Closes r → Text us r → Text (ts ++ us) (commaList l ++ r)) ∧ (∀ k ∈ ts, k.ty ≠ .innerName) ∧
        Derives (.level 1) (as ++ ⟨.comma, [',']⟩ :: ts) x [] ∧ (∀ h c env, Value h c x env (w ++ vs.flatten)) := by
    intro l vs h
    induction h with
    | nil => intro h; exact absurd rfl h
    | @cons t v l vs ht hl ih =>
      intro _ as y w hy hw
      obtain ⟨ts, x, h1, h2, h3, h4, h5⟩ := ht
      have hcat : Derives (.level 1) (as ++ ⟨.comma, [',']⟩ :: ts) (.node .operatorConcatenate [','] y x) [] :=
        .left (k := ⟨.comma, [',']⟩) (by decide) (by decide) hy (by simp) h3
      have hval : ∀ h c env, Value h c (.node .operatorConcatenate [','] y x) env (w ++ v) :=
        fun h c env => (C75_concatenation h w v).1 c env _ _ _ (hw h c env) (h4 h c env)
      cases l with
      | nil =>
        cases hl
        exact ⟨ts, _, h1, h2, hcat, by simpa using hval⟩
      | cons u l =>
        obtain ⟨us, z, i1, i2, i3, i4⟩ := ih (by simp) _ _ _ hcat hval
        refine ⟨ts ++ ⟨.comma, [',']⟩ :: us, z, fun r zs hr hz => ?_, ?_, by simpa using i3, by simpa using i4⟩
        · have := h1 _ _ (fun c hc => by cases hc; simp) (text_lone (c := ',') (t := .comma) (by decide) (fun h => absurd h (by decide)) (text_space (i1 r zs hr hz)))
          simpa [commaList, S] using this
        · intro k hk
          simp only [List.mem_append, List.mem_cons] at hk
          rcases hk with hk | rfl | hk
          · exact h2 k hk
          · simp
          · exact i2 k hk
  cases h with
  | nil => exact absurd rfl h0
  | @cons t v l vs ht hl =>
    obtain ⟨ts, x, h1, h2, h3, h4, h5⟩ := ht
    have h3' : Derives (.level 1) ts x [] := .tighter (by omega) (by omega) h3
    cases l with
    | nil =>
      cases hl
      exact ⟨ts, x, h1, h2, h3', by simpa using h4, h5⟩
    | cons u l =>
      obtain ⟨us, z, i1, i2, i3, i4⟩ := key hl (by simp) _ _ _ h3' h4
      refine ⟨ts ++ ⟨.comma, [',']⟩ :: us, z, fun r zs hr hz => ?_, ?_, i3, by simpa using i4, ?_⟩
      · have := h1 _ _ (fun c hc => by cases hc; simp) (text_lone (c := ',') (t := .comma) (by decide) (fun h => absurd h (by decide)) (text_space (i1 r zs hr hz)))
        simpa [commaList, S] using this
      · intro k hk
        simp only [List.mem_append, List.mem_cons] at hk
        rcases hk with hk | rfl | hk
        · exact h2 k hk
        · simp
        · exact i2 k hk
      · obtain ⟨c, hc, hcc⟩ := h5
        refine ⟨c, ?_, hcc⟩
        show c ∈ (t ++ S ", " ++ commaList (u :: l)).head?
        cases t with
        | nil => cases hc
        | cons a t => exact hc

/-- The text of a sequence whose items are phrases. -/
theorem phrase_parens {l : List Str} {s : XSeq} (h : List.Forall₂ (fun t x => Phrase t [x]) l s) : Phrase (inParens l) s := by
  have hs : List.Forall₂ Phrase l (s.map fun x => [x]) := by
    rw [List.forall₂_map_right_iff]
    exact h
  have hflat : (s.map fun x => [x]).flatten = s := by
    rw [← List.flatMap_def]; simp
  unfold inParens
  by_cases h1 : l.length = 1
  · rw [if_pos h1]
    obtain ⟨t, rfl⟩ := List.length_eq_one_iff.1 h1
    cases h with
    | cons ht hl => cases hl; exact ht
  · rw [if_neg h1]
    have close : ∀ r us, Closes r → Text us r → Text (⟨.rightParen, [')']⟩ :: us) (')' :: r) :=
      fun r us _ hu => text_lone (by decide) (fun h => absurd h (by decide)) hu
    by_cases h0 : l = []
    · subst h0
      cases h
      refine ⟨[⟨.leftParen, ['(']⟩, ⟨.rightParen, [')']⟩], .node .parenthesizedExpr [] .nil .nil, fun r us hr hu => ?_, by simp,
        .prim 2 (.paren (a := []) .absent), fun h c env => (C75_concatenation h [] []).2.2 c env _ _, ⟨'(', rfl, by decide⟩⟩
      exact text_lone (c := '(') (by decide) (by simp [commaList, S]) (close r us hr hu)
    · obtain ⟨ts, x, i1, i2, i3, i4, i5⟩ := phrases_comma hs h0
      rw [hflat] at i4
      refine ⟨⟨.leftParen, ['(']⟩ :: ts ++ [⟨.rightParen, [')']⟩], .node .parenthesizedExpr [] x .nil, fun r us hr hu => ?_, ?_,
        .prim 2 (.paren (.present i3)), fun h c env => (C75_concatenation h s []).2.1 c env _ _ _ (i4 h c env), ⟨'(', rfl, by decide⟩⟩
      · have := text_lone (c := '(') (t := .leftParen) (by decide) ?_ (i1 _ _ (fun c hc => by cases hc; simp) (close r us hr hu))
        · simpa [S] using this
        · intro _
          obtain ⟨c, hc, hcc⟩ := i5
          cases hl : commaList l with
          | nil => rw [hl] at hc; cases hc
          | cons a t => rw [hl] at hc; cases hc; simpa using hcc
      · intro k hk
        simp only [List.cons_append, List.mem_append, List.mem_cons, List.not_mem_nil, or_false] at hk
        rcases hk with rfl | hk | rfl
        · simp
        · exact i2 k hk
        · simp

/-- The text of an array whose members are phrases. -/
theorem phrase_array {l : List Str} {a : List XSeq} (h : List.Forall₂ Phrase l a) : Phrase (S "[" ++ commaList l ++ S "]") [.array a] := by
  have close : ∀ r us, Closes r → Text us r → Text (⟨.rightBracket, [']']⟩ :: us) (']' :: r) :=
    fun r us _ hu => text_lone (by decide) (fun h => absurd h (by decide)) hu
  by_cases h0 : l = []
  · subst h0
    cases h
    refine ⟨[⟨.leftBracket, ['[']⟩, ⟨.rightBracket, [']']⟩], arrayOf [], fun r us hr hu => ?_, by simp,
      .prim 2 (.squareArray (a := []) .empty), fun h c env => (C69_array_constructors h c env).1 [] [] .nil, ⟨'[', rfl, by decide⟩⟩
    exact text_lone (c := '[') (by decide) (by simp) (close r us hr hu)
  · obtain ⟨ts, xs, i1, i2, i3, i4, i5⟩ := phrases h h0
    refine ⟨⟨.leftBracket, ['[']⟩ :: ts ++ [⟨.rightBracket, [']']⟩], arrayOf xs, fun r us hr hu => ?_, ?_,
      .prim 2 (.squareArray (.elems i3)), fun h c env => (C69_array_constructors h c env).1 _ _ (i4 h c env), ⟨'[', rfl, by decide⟩⟩
    · have := text_lone (c := '[') (t := .leftBracket) (by decide) (fun h => absurd h (by decide)) (i1 _ _ (fun c hc => by cases hc; simp) (close r us hr hu))
      simpa [S] using this
    · intro k hk
      simp only [List.cons_append, List.mem_append, List.mem_cons, List.not_mem_nil, or_false] at hk
      rcases hk with rfl | hk | rfl
      · simp
      · exact i2 k hk
      · simp

theorem forall₂_map {α : Type} {R : Str → α → Prop} {f : α → Str} {l : List α} (h : ∀ x ∈ l, R (f x) x) : List.Forall₂ R (l.map f) l := by
  induction l with
  | nil => exact .nil
  | cons x l ih => exact .cons (h x (by simp)) (ih fun y hy => h y (by simp [hy]))

theorem phrase_item (h : Heap) {x : XItem} (hx : Literal x) : Phrase (displayItem h x) [x] := by
  induction hx with
  | @string s h1 h2 =>
    rw [displayItem, ← quoted_plain h1]
    refine phrase_literal (k := ⟨.stringLiteral, s⟩) (.string (.inl rfl) h2) (fun r hr => ends_string h1 hr) (by simp) .string ?_ ⟨'"', rfl, by decide⟩
    intro h c env
    unfold Value
    rw [evaluate_eq]
    rfl
  | integer h1 h2 => rw [displayItem]; exact phrase_integer h1 h2
  | @decimal d q hd =>
    obtain ⟨t, m, e, hf, hm, hs⟩ := shown_decimal hd
    rw [displayItem]
    refine phrase_shown .decimal hs (by decide) (decimal_lexeme hf hm) .decimal (fun h c env => ?_) (fun _ => rfl)
    unfold Value
    rw [evaluate_eq]
    rfl
  | @double d q hd =>
    obtain ⟨t, hm, hs⟩ := shown_double hd
    rw [displayItem]
    obtain ⟨m, e, hn, -⟩ := id hs
    refine phrase_shown .double hs (by decide) (double_lexeme hn hm) .double (fun h c env => ?_) (fun _ => rfl)
    unfold Value
    rw [evaluate_eq]
    rfl
  | @array a _ ih =>
    rw [displayItem, displayMembers_map]
    refine phrase_array (forall₂_map fun m hm => ?_)
    unfold displaySeq
    rw [displayItems_map]
    exact phrase_parens (forall₂_map fun x hx => ih m hm x hx)

/-- **C86** (partial: see `C86_violated`): the text of a value made of strings, numbers and arrays (see `Literal`) is an XPath expression, and in every document
it evaluates to the value. -/
theorem C86_reads_partial (h : Heap) (s : XSeq) (hs : ∀ x ∈ s, Literal x) (h' : Heap) (start : NodeId) :
    ∃ N, ∀ n, N ≤ n → evalXPath h' n start (displaySeq h s) = .ok s := by
  have hp : Phrase (displaySeq h s) s := by
    unfold displaySeq
    rw [displayItems_map]
    exact phrase_parens (forall₂_map fun x hx => phrase_item h (hs x hx))
  obtain ⟨ts, x, h1, h2, h3, h4, -⟩ := hp
  have ht : Text ts (displaySeq h s) := by
    have := h1 [] [] (by simp [Closes]) (.nil .nil)
    simpa using this
  have hsp : ∀ (ts : List Tok) (prev : TType), (∀ k ∈ ts, k.ty ≠ .innerName) → Spells prev ts ts := by
    intro ts
    induction ts with
    | nil => intros; exact .nil
    | cons k ts ih => exact fun _ hk => .same (hk k (by simp)) (ih _ fun k' hk' => hk k' (by simp [hk']))
  have hc : Parser.compileXPath (displaySeq h s) = .ok x :=
    C55_text_partial _ _ _ _ _ ht (hsp ts _ h2) (.tighter (by omega) (by omega) h3)
  obtain ⟨N, hN⟩ := eval_of_evaluate h' [.node start] x Env.new
  refine ⟨N, fun n hn => ?_⟩
  unfold evalXPath
  rw [hc]
  simp only [matchXPath]
  rw [hN n hn, h4 h' [.node start] Env.new]

/-- `("it", -1, 0.0, 3e0, [(), (1, "a"), ["b"]])` meets the hypotheses. -/
example : ∀ x ∈ ([.string (S "it"), .integer (-1), .decimal F64.zero, .double (F64.ofInt 3), .array [[], [.integer 1, .string (S "a")], [.array [[.string (S "b")]]]]] : XSeq),
    Literal x := by
  have hs : ∀ s : Str, '"' ∉ s → '\x00' ∉ s → Literal (.string s) := fun _ => .string
  have h1 : Literal (.integer 1) := .integer (by norm_num) (by norm_num)
  intro x hx
  simp only [List.mem_cons, List.not_mem_nil, or_false] at hx
  rcases hx with rfl | rfl | rfl | rfl | rfl
  · exact hs _ (by decide) (by decide)
  · exact .integer (by norm_num) (by norm_num)
  · exact .decimal F64.val_zero
  · exact .double (F64.val_ofInt (by decide))
  · refine .array fun m hm x hx => ?_
    simp only [List.mem_cons, List.not_mem_nil, or_false] at hm
    rcases hm with rfl | rfl | rfl
    · cases hx
    · simp only [List.mem_cons, List.not_mem_nil, or_false] at hx
      rcases hx with rfl | rfl
      · exact h1
      · exact hs _ (by decide) (by decide)
    · simp only [List.mem_cons, List.not_mem_nil, or_false] at hx
      subst hx
      refine .array fun m hm x hx => ?_
      simp only [List.mem_cons, List.not_mem_nil, or_false] at hm
      subst hm
      simp only [List.mem_cons, List.not_mem_nil, or_false] at hx
      subst hx
      exact hs _ (by decide) (by decide)

/-- The example of the documentation of `Sequence::to_string`. -/
example : displaySeq editSample [.node 1, .integer 1, .decimal (F64.ofInt 2), .double (F64.ofInt 3), .string (S "str"), .boolean true] =
    S "(<a x=\"1\" y=\"2\">, 1, 2.0, 3e0, \"str\", true)" := by decide +kernel

/-- **C86** is false of the code: the texts of `true()`, NaN, infinity, maps, the least integer, and strings with quote characters are other expressions or none. -/
theorem C86_violated :
    evalXPath editSample 20 0 (displaySeq editSample [.boolean true]) = .ok [] ∧
    evalXPath editSample 20 0 (displaySeq editSample [.double F64.nan]) = .ok [] ∧
    evalXPath editSample 20 0 (displaySeq editSample [.double (F64.ofInt 1 / F64.zero)]) = .error .typeError ∧
    evalXPath editSample 20 0 (displaySeq editSample [.map [(.integer 1, [.integer 2])]]) = .error .syntaxError ∧
    evalXPath editSample 20 0 (displaySeq editSample [.integer i64Min]) = .ok [.integer 0] ∧
    evalXPath editSample 20 0 (displaySeq editSample [.string (S "a\"b")]) = .error .syntaxError ∧
    evalXPath editSample 20 0 (displaySeq editSample [.string (S "a\"\"b")]) = .ok [.string (S "a\"b")] := by
  refine ⟨?_, ?_, ?_, ?_, ?_, ?_, ?_⟩ <;> run_query

end Amxml
