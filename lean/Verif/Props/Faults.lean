import Verif.Lemmas.Faults
import Verif.Props.Program

/-!
# Property C122: the error for a rejected text
-/

namespace Amxml
open Spec Markup

namespace Faults

/-- Among the tokens is an end tag `b` where `a` is expected, and the tags before it match. -/
def Mismatch (st : List Str) (ts : List Token) (a b : Str) : Prop :=
  ∃ us vs st', ts = us ++ .endElement b :: vs ∧ OpenAfter st us st' ∧ innermost st' = a ∧ a ≠ b

theorem mis_cons {t : Token} {st st2 : List Str} (ts : List Token) (a b : Str) (h1 : ∀ us st', OpenAfter st (t :: us) st' ↔ OpenAfter st2 us st')
    (h2 : ∀ b, t = .endElement b → innermost st = b) : Mismatch st (t :: ts) a b ↔ Mismatch st2 ts a b := by
  constructor
  · rintro ⟨us, vs, st', e, ho, ha, hab⟩
    cases us with
    | nil =>
      obtain ⟨e1, -⟩ := List.cons.inj e
      cases ho
      exact absurd (ha.symm.trans (h2 b e1)) hab
    | cons u us =>
      obtain ⟨e1, e2⟩ := List.cons.inj e
      subst e1
      exact ⟨us, vs, st', e2, (h1 us st').1 ho, ha, hab⟩
  · rintro ⟨us, vs, st', e, ho, ha, hab⟩
    exact ⟨t :: us, vs, st', by rw [e]; rfl, (h1 us st').2 ho, ha, hab⟩

theorem mis_here {n : Str} {st : List Str} (h : innermost st ≠ n) (ts : List Token) (a b : Str) :
    Mismatch st (.endElement n :: ts) a b ↔ innermost st = a ∧ n = b := by
  constructor
  · rintro ⟨us, vs, st', e, ho, ha, hab⟩
    cases us with
    | nil => cases ho; cases e; exact ⟨ha, rfl⟩
    | cons u us =>
      obtain ⟨e1, e2⟩ := List.cons.inj e
      subst e1
      cases ho <;> exact absurd rfl h
  · rintro ⟨rfl, rfl⟩
    exact ⟨[], ts, st, rfl, .nil, rfl, h⟩

/-- What building the tree of the tokens stumbles over. -/
theorem build_mismatch (ts : List Token) {h : Heap} {cur : NodeId} {st : List Str} (hi : PathInv h cur st) (hne : Token.eof ∉ ts) (a b : Str) :
    buildTokens ts h cur = .error (.nameMismatch a b) ↔ Mismatch st ts a b := by
  induction ts generalizing h cur st with
  | nil =>
    constructor
    · intro h; cases h
    · rintro ⟨us, vs, st', e, -⟩; simp at e
  | cons t ts ih =>
    simp only [List.mem_cons, not_or] at hne
    have ih := fun {h cur st} hi => ih (h := h) (cur := cur) (st := st) hi hne.2
    cases t with
    | eof => exact absurd rfl hne.1
    | startElement n as =>
      rw [mis_cons (st2 := n :: st) ts a b (fun us st' => ⟨fun h => by cases h; assumption, .start⟩) (by intro _ e; cases e)]
      exact ih ((hi.makeChild .element n []).2.pushAttrs as)
    | charData s =>
      rw [mis_cons (st2 := st) ts a b (fun us st' => ⟨fun h => by cases h; assumption, .text⟩) (by intro _ e; cases e)]
      exact ih (hi.makeChild .text [] s).1
    | comment s =>
      rw [mis_cons (st2 := st) ts a b (fun us st' => ⟨fun h => by cases h; assumption, .comment⟩) (by intro _ e; cases e)]
      exact ih (hi.makeChild .comment [] s).1
    | directive s =>
      rw [mis_cons (st2 := st) ts a b (fun us st' => ⟨fun h => by cases h; assumption, .directive⟩) (by intro _ e; cases e)]
      exact ih hi
    | procInst t s =>
      rw [mis_cons (st2 := st) ts a b (fun us st' => ⟨fun h => by cases h; assumption, .pi⟩) (by intro _ e; cases e)]
      simp only [buildTokens, stepToken]
      by_cases ht : t = S "xml"
      · rw [if_pos ht]; exact ih (hi.makeChild .xmlDecl (S "xml") s).1
      · rw [if_neg ht]; exact ih (hi.makeChild .instruction t s).1
    | endElement n =>
      simp only [buildTokens, stepToken]
      obtain ⟨hb, hc, hp⟩ := hi
      cases hp with
      | root h1 h2 =>
        simp only [h1, h2, Option.getD_none]
        by_cases e : n = []
        · subst e
          rw [mis_cons (st2 := []) ts a b (fun us st' => ⟨fun h => by cases h; assumption, .stray⟩) (by intro _ e; cases e; rfl)]
          simp only [ne_eq, not_true_eq_false, if_false]
          exact ih ⟨hb, hc, .root h1 h2⟩
        · rw [mis_here (show innermost [] ≠ n from Ne.symm e)]
          simp only [ne_eq, Ne.symm e, not_false_eq_true, if_true, Except.error.injEq, DocErr.nameMismatch.injEq]
          rfl
      | @elem _ p st h1 h2 =>
        simp only [h1, Option.getD_some]
        by_cases e : (h.node cur).name = n
        · subst e
          rw [mis_cons (st2 := st) ts a b (fun us st' => ⟨fun h => by cases h; assumption, .close⟩) (by intro _ e; cases e; rfl)]
          simp only [ne_eq, not_true_eq_false, if_false]
          exact ih ⟨hb, hb _ _ hc h1, h2⟩
        · rw [mis_here (show innermost ((h.node cur).name :: st) ≠ n from e)]
          simp only [ne_eq, e, not_false_eq_true, if_true, Except.error.injEq, DocErr.nameMismatch.injEq]
          rfl

theorem loop_error {fuel : Nat} {d : Dec} {h : Heap} {cur : NodeId} {E : DocErr} (hf : d.measure < fuel)
    (hb : buildLoop fuel d h cur = some (.error E)) :
    (∃ ts d' r e d'', Delivers d ts d' ∧ buildTokens ts h cur = .ok r ∧ rawToken d' = some (.error e, d'') ∧ E = .syntaxErr e) ∨
    (∃ ts d', Delivers d ts d' ∧ buildTokens ts h cur = .error E) := by
  induction fuel generalizing d h cur with
  | zero => omega
  | succ fuel ih =>
    simp only [buildLoop] at hb
    split at hb
    · cases hb
    · rename_i e d1 e1
      cases hb
      exact .inl ⟨[], d, _, e, d1, .refl _, rfl, e1, rfl⟩
    · cases hb
    · rename_i tok d' hne e
      have hne' : tok ≠ .eof := by simpa using hne
      split at hb
      · rename_i e2 hs
        cases hb
        exact .inr ⟨[tok], d', .step e hne' (.refl _), by simp [buildTokens, hs]⟩
      · rename_i h1 c1 hs
        have hm : d'.measure < fuel := by
          rcases rawToken_measure _ _ e with hm | ⟨hm, _⟩
          · simp at hm; omega
          · simp at hm; exact absurd hm.1 hne'
        rcases ih hm hb with ⟨ts, d2, r, e2, d3, hd, hbt, hr, hE⟩ | ⟨ts, d2, hd, hbt⟩
        · exact .inl ⟨tok :: ts, d2, r, e2, d3, .step e hne' hd, by simp [buildTokens, hs, hbt], hr, hE⟩
        · exact .inr ⟨tok :: ts, d2, .step e hne' hd, by simp [buildTokens, hs, hbt]⟩

theorem delivers_split {us vs : List Token} {d d' : Dec} (h : Delivers d (us ++ vs) d') : ∃ m, Delivers d us m ∧ Delivers m vs d' := by
  induction us generalizing d with
  | nil => exact ⟨d, .refl _, h⟩
  | cons u us ih =>
    cases h with
    | step h1 h2 h3 =>
      obtain ⟨m, g1, g2⟩ := ih h3
      exact ⟨m, .step h1 h2 g1, g2⟩

/-- After an end tag nothing is pending. -/
theorem delivers_close {us : List Token} {b : Str} {d d' : Dec} (h0 : EOFC ∉ d.rest) (h : Delivers d (us ++ [.endElement b]) d') : d'.toClose = [] := by
  obtain ⟨m, g0, g⟩ := delivers_split h
  have hm0 : EOFC ∉ m.rest := fun hm => h0 (g0.suffix.mem hm)
  cases g with
  | @step _ m2 _ _ _ h1 h2 h3 =>
    cases h3
    by_cases hc : m.toClose = []
    · obtain ⟨rest, tc⟩ := m
      cases hc
      obtain ⟨w, -, hw⟩ := run_construct hm0 h1 h2
      by_contra hn
      rw [if_neg hn] at hw
      cases hw
    · rw [rawToken_toClose m hc] at h1
      cases h1; rfl

theorem path_empty (h : Heap) (hw : HeapWF h) : PathInv (h.alloc (mkNode .documentRoot none [] [])) h.size [] := PathInv.init h hw

end Faults

/-- **C122**: `new_document` reports a syntax error exactly for those texts where, after constructs whose tags match, a construct follows that is wrong, and the error says how
(`Fault`). -/
theorem C122_fault (h : Heap) (hw : HeapWF h) (xml : Str) (h0 : '\x00' ∉ xml) (e : SaxErr) :
    newDocument h xml = some (.error (.syntaxErr e)) ↔ ∃ ts r, Written (noCR xml) ts r ∧ TagsMatch [] ts ∧ Fault r e := by
  constructor
  · intro hn
    simp only [newDocument, Option.map_eq_some_iff] at hn
    obtain ⟨x, hb, hx⟩ := hn
    cases x with
    | ok x => cases hx
    | error E =>
      cases hx
      rcases Faults.loop_error (new_measure xml) hb with ⟨ts, d, r, e', d2, hd, hbt, hr, hE⟩ | ⟨ts, d, hd, hbt⟩
      · cases hE
        have h0' : EOFC ∉ d.rest := by
          rw [new_noCR] at hd
          exact fun hm => noCR_nul h0 (hd.suffix.mem hm)
        have hc : d.toClose = [] := by
          by_contra hc
          rw [rawToken_toClose d hc] at hr
          cases hr
        rw [new_noCR] at hd
        refine ⟨ts, d.rest, delivers_written ts.length (Nat.le_refl _) (noCR_nul h0) hd hc, ?_, ?_⟩
        · by_contra hm
          obtain ⟨a, b, e⟩ := (buildTokens_tags ts (PathInv.init h hw) hd.not_eof).2 hm
          rw [e] at hbt; cases hbt
        · obtain ⟨rest, tc⟩ := d
          cases hc
          exact Faults.run_fault h0' hr
      · by_cases hm : TagsMatch [] ts
        · obtain ⟨x, hx⟩ := (buildTokens_tags ts (PathInv.init h hw) hd.not_eof).1 hm
          rw [hx] at hbt; cases hbt
        · obtain ⟨a, b, e⟩ := (buildTokens_tags ts (PathInv.init h hw) hd.not_eof).2 hm
          rw [e] at hbt; cases hbt
  · rintro ⟨ts, r, hwr, ht, hf⟩
    have hd := written_delivers hwr (noCR_nul h0)
    obtain ⟨d', hr⟩ := Faults.fault_run hf fun hm => noCR_nul h0 (hd.suffix.mem hm)
    obtain ⟨p, hp⟩ := (buildTokens_tags ts (PathInv.init h hw) hd.not_eof).1 ht
    rw [← new_noCR] at hd
    have hl := hd.measure
    have hn := new_measure xml
    have hpos : ∃ k, 2 * xml.length + 2 - ts.length = k + 1 := ⟨2 * xml.length + 2 - ts.length - 1, by
      simp only [Dec.measure] at hl hn ⊢
      omega⟩
    obtain ⟨k, hk⟩ := hpos
    simp only [newDocument]
    rw [buildLoop_delivers hd _ _ _ (by omega), hp]
    simp only [hk, buildLoop, hr]
    rfl

/-- **C122**: `new_document` reports an element name mismatch of `a` and `b` exactly for those texts where, after constructs whose tags match, an end tag `b` follows although the
innermost open element is named `a` (or none is open; then `a` is empty). -/
theorem C122_mismatch (h : Heap) (hw : HeapWF h) (xml : Str) (h0 : '\x00' ∉ xml) (a b : Str) :
    newDocument h xml = some (.error (.nameMismatch a b)) ↔
      ∃ ts r st, Written (noCR xml) (ts ++ [.endElement b]) r ∧ OpenAfter [] ts st ∧ innermost st = a ∧ a ≠ b := by
  constructor
  · intro hn
    simp only [newDocument, Option.map_eq_some_iff] at hn
    obtain ⟨x, hb, hx⟩ := hn
    cases x with
    | ok x => cases hx
    | error E =>
      cases hx
      rcases Faults.loop_error (new_measure xml) hb with ⟨ts, d, r, e', d2, hd, hbt, hr, hE⟩ | ⟨ts, d, hd, hbt⟩
      · cases hE
      · obtain ⟨us, vs, st', rfl, ho, ha, hab⟩ := (Faults.build_mismatch ts (PathInv.init h hw) hd.not_eof a b).1 hbt
        rw [show us ++ Token.endElement b :: vs = (us ++ [.endElement b]) ++ vs by simp] at hd
        obtain ⟨m, g1, -⟩ := Faults.delivers_split hd
        rw [new_noCR] at g1
        exact ⟨us, m.rest, st', delivers_written _ (Nat.le_refl _) (noCR_nul h0) g1 (Faults.delivers_close (noCR_nul h0) g1), ho, ha, hab⟩
  · rintro ⟨ts, r, st, hwr, ho, ha, hab⟩
    have hd := written_delivers hwr (noCR_nul h0)
    have hb := (Faults.build_mismatch (ts ++ [.endElement b]) (PathInv.init h hw) hd.not_eof a b).2 ⟨ts, [], st, rfl, ho, ha, hab⟩
    rw [← new_noCR] at hd
    have hl := hd.measure
    have hn := new_measure xml
    simp only [newDocument]
    rw [buildLoop_delivers hd _ _ _ (by omega), hb]
    rfl

/-- **C122**: what a rejected text is told is determined by the grammar: two ways to read it up to a fault give the same error. -/
theorem C122_one_fault (xml : Str) (h0 : '\x00' ∉ xml) (ts us : List Token) (r q : Str) (e f : SaxErr) (h1 : Written (noCR xml) ts r) (m1 : TagsMatch [] ts)
    (k1 : Fault r e) (h2 : Written (noCR xml) us q) (m2 : TagsMatch [] us) (k2 : Fault q f) : e = f := by
  have a1 := (C122_fault Heap.empty .empty xml h0 e).2 ⟨ts, r, h1, m1, k1⟩
  have a2 := (C122_fault Heap.empty .empty xml h0 f).2 ⟨us, q, h2, m2, k2⟩
  rw [a1] at a2; cases a2; rfl

/-- **C122**, together with C95: every text (without U+0000) is a sequence of constructs with matching tags, or such a sequence and then a start tag the text ends in,
or such a sequence and then a fault, or it has an end tag that matches nothing; and never two of these. -/
theorem C122_verdict (xml : Str) (h0 : '\x00' ∉ xml) :
    let accepted := ∃ ts, Written (noCR xml) ts [] ∧ TagsMatch [] ts
    let cut := ∃ ts r, Written (noCR xml) ts r ∧ TagsMatch [] ts ∧ EndsInStartTag r
    let faulty := ∃ e ts r, Written (noCR xml) ts r ∧ TagsMatch [] ts ∧ Fault r e
    let mismatched := ∃ a b ts r st, Written (noCR xml) (ts ++ [.endElement b]) r ∧ OpenAfter [] ts st ∧ innermost st = a ∧ a ≠ b
    (accepted ∨ cut ∨ faulty ∨ mismatched) ∧ ¬ (accepted ∧ cut) ∧ ¬ (accepted ∧ faulty) ∧ ¬ (accepted ∧ mismatched) ∧ ¬ (cut ∧ faulty) ∧ ¬ (cut ∧ mismatched) ∧
      ¬ (faulty ∧ mismatched) := by
  intro accepted cut faulty mismatched
  have a1 : (∃ h' r, newDocument Heap.empty xml = some (.ok (h', r))) ↔ accepted := C95_accepts Heap.empty .empty xml h0
  have a2 : newDocument Heap.empty xml = none ↔ cut := C95_never_returns Heap.empty .empty xml h0
  have a3 : (∃ e, newDocument Heap.empty xml = some (.error (.syntaxErr e))) ↔ faulty := exists_congr fun e => C122_fault Heap.empty .empty xml h0 e
  have a4 : (∃ a b, newDocument Heap.empty xml = some (.error (.nameMismatch a b))) ↔ mismatched :=
    exists_congr fun a => exists_congr fun b => C122_mismatch Heap.empty .empty xml h0 a b
  rw [← a1, ← a2, ← a3, ← a4]
  cases hd : newDocument Heap.empty xml with
  | none => simp
  | some x =>
    cases x with
    | ok x => obtain ⟨h', r⟩ := x; simp
    | error E => cases E <;> simp

/-- The description of the error for a text. -/
def complaint (xml : Str) : Option Str := (newDocument Heap.empty xml).map fun r => match r with | .error e => e.toXml.descri.drop 37 | .ok _ => []

/-- Every kind of fault, with what follows "Syntax Error in XML: XML syntax error". -/
example : [S "a<", S "<a></a", S "<?a b>", S "<!--->", S "<!-x->", S "<a><![CDATA[b]>", S "<![CDATA", S "<!DOCTYPE a <b>", S "<a / >", S "<a b c>", S "<a b", S "<a b=c>",
      S "<a b='>"].map complaint =
    [S ": Syntax Error in XML: Unexpected EOF after <", S ": Syntax Error in XML: Unexpected EOF while searching >", S ": Syntax Error in XML: Unexpected EOF while searching ?>",
      S ": Syntax Error in XML: Unexpected EOF while searching -->", S ": Syntax Error in XML: Invalid sequence '<!-', not part of '<!--'",
      S ": Syntax Error in XML: Unexpected EOF while searching ]]>", S ": Syntax Error in XML: Invalid sequence '<![', not part of '<![CDATA[' ",
      S ": Syntax Error in XML: Unexpected EOF while searching matching bracket", S ": Syntax Error in XML: illegal char after /", S ": Syntax Error in XML: attr_name: no Eq",
      S ": Syntax Error in XML: Unexpected EOF while searching >", S ": Syntax Error in XML: attr_value: no Quote", S ": Syntax Error in XML: Unexpected EOF while searching '"].map some := by
  decide +kernel

/-- A fault and a mismatch, read with the grammar: `<a b c>` and `<a>x</b>`. -/
example : Fault (S "<a b c>") .noEq := by
  have ha : IsName (S "a") := ⟨'a', [], rfl, by decide +kernel, by simp⟩
  have hb : IsName (S "b") := ⟨'b', [], rfl, by decide +kernel, by simp⟩
  exact .startTag (n := S "a") (b := S " b c>") (.inl ⟨ha, by intro c hc; cases hc; decide +kernel⟩) (by intro c hc; cases hc; decide)
    (.space (by decide) (.noEq (n := S "b") (w := S " ") (t := S "c>") hb (by intro c hc; simp [S] at hc; subst hc; decide)
      (by intro c hc; cases hc; decide +kernel) (by intro c hc; cases hc; decide)))

example : OpenAfter [] [.startElement (S "a") [], .charData (S "x")] [S "a"] ∧ innermost [S "a"] ≠ S "b" := ⟨.start (.text .nil), by decide⟩

end Amxml
