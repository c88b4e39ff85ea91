import Verif.Lemmas.Markup
import Verif.Lemmas.EntityAmp
import Verif.Props.Serial

/-!
# C95, C96: the texts `new_document` accepts, and the trees it makes of them
-/

namespace Amxml
open Spec Markup

/-- A text without its carriage returns, which the parser drops first (C06). -/
def Spec.noCR (xml : Str) : Str := xml.filter (· ≠ '\r')

theorem new_noCR (xml : Str) : Dec.new xml = ⟨noCR xml, []⟩ := by
  have e : xml.filter (· != '\r') = noCR xml := by
    apply List.filter_congr; intro x _; simp [bne, BEq.beq]
  simp [Dec.new, e]

theorem noCR_nul {xml : Str} (h0 : '\x00' ∉ xml) : EOFC ∉ noCR xml := fun hm => h0 (List.mem_filter.1 hm).1

theorem written_stream {xml : Str} (h0 : '\x00' ∉ xml) (ts : List Token) :
    Stream (Dec.new xml) ts ↔ Written (noCR xml) ts [] := by
  rw [new_noCR]
  constructor
  · rintro ⟨d, hd, d', he⟩
    have hr : '\x00' ∉ d.rest := fun hm => noCR_nul h0 (hd.suffix.mem hm)
    obtain ⟨e1, e2⟩ := C14_eof_means_end d d' hr he
    have := delivers_written ts.length (Nat.le_refl _) (noCR_nul h0) hd e2
    rwa [e1] at this
  · intro h
    exact ⟨⟨[], []⟩, written_delivers h (noCR_nul h0), _, rawToken_eof⟩

/-- **C95**, tokens: the tokens of a text (without U+0000) are those of its decomposition into the constructs of
Spec/Markup.lean; a text with no such decomposition has no complete token stream. -/
theorem C95_tokens (xml : Str) (h0 : '\x00' ∉ xml) (ts : List Token) :
    Stream (Dec.new xml) ts ↔ Written (noCR xml) ts [] := written_stream h0 ts

theorem stream_unique {d : Dec} {ts us : List Token} (h : Stream d ts) (h' : Stream d us) : ts = us := by
  obtain ⟨d1, h1, d2, h2⟩ := h
  induction h1 generalizing us with
  | refl =>
    obtain ⟨e1, g1, e2, g2⟩ := h'
    cases g1 with
    | refl => rfl
    | step a b _ => rw [h2] at a; simp at a; exact absurd a.1.symm b
  | step a b _ ih =>
    obtain ⟨e1, g1, e2, g2⟩ := h'
    cases g1 with
    | refl => rw [g2] at a; simp at a; exact absurd a.1.symm b
    | step a' b' g1 =>
      rw [a] at a'
      simp at a'
      obtain ⟨rfl, rfl⟩ := a'
      rw [ih ⟨e1, g1, e2, g2⟩ h2]

/-- **C95**: the grammar gives a text one reading only. -/
theorem C95_one_reading (s : Str) (h0 : '\x00' ∉ s) (ts us : List Token) (h : Written s ts []) (h' : Written s us []) :
    ts = us :=
  stream_unique (d := ⟨s, []⟩) ⟨_, written_delivers h h0, _, rawToken_eof⟩ ⟨_, written_delivers h' h0, _, rawToken_eof⟩

/-- **C95**: `new_document` returns a document for exactly those texts (without U+0000) which are sequences of the
constructs of Spec/Markup.lean and whose tags match. -/
theorem C95_accepts (h : Heap) (hw : HeapWF h) (xml : Str) (h0 : '\x00' ∉ xml) :
    (∃ h' r, newDocument h xml = some (.ok (h', r))) ↔ ∃ ts, Written (noCR xml) ts [] ∧ TagsMatch [] ts := by
  constructor
  · rintro ⟨h', r, hd⟩
    obtain ⟨ts, hs, ht⟩ := C07_ok_tags_match h hw xml h' r hd
    exact ⟨ts, (written_stream h0 ts).1 hs, ht⟩
  · rintro ⟨ts, hs, ht⟩
    exact (C07_tags_match h hw xml ts ((written_stream h0 ts).2 hs)).1 ht

theorem buildLoop_none {fuel : Nat} {d : Dec} {h : Heap} {cur : NodeId} (hf : d.measure < fuel)
    (hb : buildLoop fuel d h cur = none) :
    ∃ ts d' r, Delivers d ts d' ∧ buildTokens ts h cur = .ok r ∧ rawToken d' = none := by
  induction fuel generalizing d h cur with
  | zero => omega
  | succ fuel ih =>
    simp only [buildLoop] at hb
    split at hb
    · rename_i e; exact ⟨[], d, _, .refl _, rfl, e⟩
    · simp at hb
    · simp at hb
    · rename_i tok d' hne e
      split at hb
      · simp at hb
      · rename_i h1 c1 hs
        have hne' : tok ≠ .eof := by simpa using hne
        have hm : d'.measure < fuel := by
          rcases rawToken_measure _ _ e with hm | ⟨hm, _⟩
          · simp at hm; omega
          · simp at hm; exact absurd hm.1 hne'
        obtain ⟨ts, d2, r, hd, hbt, hr⟩ := ih hm hb
        exact ⟨tok :: ts, d2, r, .step e hne' hd, by simp [buildTokens, hs, hbt], hr⟩

theorem rawToken_none {d : Dec} (h : rawToken d = none) (fuel : Nat) : rawTokenF fuel d = none := by
  cases hf : rawTokenF fuel d with
  | none => rfl
  | some r => rw [rawToken_of_some hf] at h; simp at h

/-- **C95**: `new_document` does not return (see C05) exactly where constructs with matching tags are followed by
a start tag which the text ends in. -/
theorem C95_never_returns (h : Heap) (hw : HeapWF h) (xml : Str) (h0 : '\x00' ∉ xml) :
    newDocument h xml = none ↔ ∃ ts r, Written (noCR xml) ts r ∧ TagsMatch [] ts ∧ EndsInStartTag r := by
  constructor
  · intro hn
    simp only [newDocument, Option.map_eq_none_iff] at hn
    obtain ⟨ts, d, r, hd, hb, hr⟩ := buildLoop_none (new_measure xml) hn
    have h0' : EOFC ∉ d.rest := by
      rw [new_noCR] at hd
      exact fun hm => noCR_nul h0 (hd.suffix.mem hm)
    obtain ⟨e1, e2⟩ := (rawToken_none_iff d h0').1 (rawToken_none hr)
    rw [new_noCR] at hd
    refine ⟨ts, d.rest, delivers_written ts.length (Nat.le_refl _) (noCR_nul h0) hd e1, ?_, e2⟩
    by_contra hm
    obtain ⟨a, b, e⟩ := (buildTokens_tags ts (PathInv.init h hw) hd.not_eof).2 hm
    rw [e] at hb; simp at hb
  · rintro ⟨ts, r, hwr, ht, he⟩
    have hd := written_delivers hwr (noCR_nul h0)
    have hr0 : EOFC ∉ r := fun hm => noCR_nul h0 (hd.suffix.mem hm)
    have hn := (rawToken_none_iff ⟨r, []⟩ hr0).2 ⟨rfl, he⟩
    have hr : rawToken ⟨r, []⟩ = none := hn _
    obtain ⟨p, hp⟩ := (buildTokens_tags ts (PathInv.init h hw) hd.not_eof).1 ht
    rw [← new_noCR] at hd
    have hl := hd.measure
    have hm := new_measure xml
    simp only [newDocument, Option.map_eq_none_iff]
    rw [buildLoop_delivers hd _ _ _ (by omega), hp]
    show buildLoop _ _ p.1 p.2 = none
    cases hf : 2 * xml.length + 2 - ts.length with
    | zero => rfl
    | succ f => simp [buildLoop, hr]

/-- **C95**: every other text is rejected with an error. -/
theorem C95_rejects (h : Heap) (hw : HeapWF h) (xml : Str) (h0 : '\x00' ∉ xml)
    (h1 : ¬ ∃ ts, Written (noCR xml) ts [] ∧ TagsMatch [] ts)
    (h2 : ¬ ∃ ts r, Written (noCR xml) ts r ∧ TagsMatch [] ts ∧ EndsInStartTag r) :
    ∃ e, newDocument h xml = some (.error e) := by
  cases hd : newDocument h xml with
  | none => exact absurd ((C95_never_returns h hw xml h0).1 hd) h2
  | some r =>
    cases r with
    | error e => exact ⟨e, rfl⟩
    | ok p => exact absurd ((C95_accepts h hw xml h0).1 ⟨p.1, p.2, hd⟩) h1

/-! ### XML documents are accepted -/

namespace Markup

/-- The inside of a start tag in the form the XML grammar gives it. -/
theorem attrs_inTag (as : List AttrSrc) (hwf : ∀ a ∈ as, a.WF) (w : Str) (hw : IsSpaces w) :
    InTag (as.flatMap AttrSrc.render ++ w) (as.map fun a => (a.name, decodeEntity a.raw)) ∧
    ∀ c r, as.flatMap AttrSrc.render ++ w = c :: r → isSpace c = true ∧
      InTag r (as.map fun a => (a.name, decodeEntity a.raw)) := by
  have spaces : ∀ {w b : Str} {l : List (Str × Str)}, IsSpaces w → InTag b l → InTag (w ++ b) l := by
    intro w b l hw hb
    induction w with
    | nil => exact hb
    | cons c cs ih => exact .space (hw c (by simp)) (ih fun x hx => hw x (by simp [hx]))
  induction as with
  | nil =>
    simp only [List.flatMap_nil, List.nil_append, List.map_nil]
    have : ∀ w : Str, IsSpaces w → InTag w [] := fun w hw => by simpa using spaces hw InTag.nil
    refine ⟨this w hw, ?_⟩
    rintro c r rfl
    exact ⟨hw c (by simp), this r fun x hx => hw x (by simp [hx])⟩
  | cons a as ih =>
    have ha := hwf a (by simp)
    obtain ⟨ih1, ih2⟩ := ih fun x hx => hwf x (by simp [hx])
    have core : InTag (a.name ++ a.sp2 ++ '=' :: a.sp3 ++ a.q :: a.raw ++ a.q :: (as.flatMap AttrSrc.render ++ w))
        ((a.name, decodeEntity a.raw) :: as.map fun a => (a.name, decodeEntity a.raw)) := by
      cases hR : as.flatMap AttrSrc.render ++ w with
      | nil =>
        have has : as = [] := by
          cases as with
          | nil => rfl
          | cons b bs =>
            exfalso
            have := congrArg List.length hR
            simp [AttrSrc.render] at this
        subst has
        exact .last ha.name ha.sp2 ha.sp3 ha.q ha.raw_q
      | cons c r =>
        obtain ⟨hc, hr⟩ := ih2 c r hR
        exact .attr ha.name ha.sp2 ha.sp3 ha.q ha.raw_q (by rintro rfl; revert hc; decide)
          (by rintro rfl; revert hc; decide) hr
    have e : (a :: as).flatMap AttrSrc.render ++ w = a.sp1 ++
        (a.name ++ a.sp2 ++ '=' :: a.sp3 ++ a.q :: a.raw ++ a.q :: (as.flatMap AttrSrc.render ++ w)) := by
      simp [AttrSrc.render]
    rw [e]
    refine ⟨spaces ha.sp1 core, ?_⟩
    obtain ⟨x, xs, hx⟩ := List.exists_cons_of_ne_nil ha.sp1_ne
    intro c r ec
    rw [hx] at ec
    simp only [List.cons_append, List.cons.injEq] at ec
    obtain ⟨rfl, rfl⟩ := ec
    exact ⟨ha.sp1 x (by simp [hx]), spaces (fun y hy => ha.sp1 y (by simp [hx, hy])) core⟩

theorem attrs_head (as : List AttrSrc) (hwf : ∀ a ∈ as, a.WF) (w : Str) (hw : IsSpaces w) (x : Char) (t : Str)
    (hx : isNameChar x = false) : ∀ c, (as.flatMap AttrSrc.render ++ w ++ x :: t).head? = some c → isNameChar c = false := by
  intro c hc
  cases hR : as.flatMap AttrSrc.render ++ w with
  | nil => rw [hR] at hc; simp at hc; rw [← hc]; exact hx
  | cons y r =>
    obtain ⟨hy, -⟩ := (attrs_inTag as hwf w hw).2 y r hR
    rw [hR] at hc; simp at hc; rw [← hc]; exact space_not_nameChar hy

/-- A text which reads as tokens describing `G`, if the text that follows is empty or starts with `<`. -/
def Reads (s : Str) (G : Forest Content) : Prop :=
  ∃ ts, (∀ us H, Trees us H → Trees (ts ++ us) (G ++ H)) ∧
    ∀ t us r, (t = [] ∨ t.head? = some '<') → Written t us r → Written (s ++ t) (ts ++ us) r

/-- A text starting with `<` which reads as tokens describing `G`, whatever text follows. -/
def Stands (s : Str) (G : Forest Content) : Prop :=
  s.head? = some '<' ∧ ∃ ts, (∀ us H, Trees us H → Trees (ts ++ us) (G ++ H)) ∧
    ∀ t us r, Written t us r → Written (s ++ t) (ts ++ us) r

theorem textThen_append (s v : Str) (G H : Forest Content) : textThen s v G ++ H = textThen s v (G ++ H) := by
  unfold textThen
  split <;> rfl

/-- Text in front of a text that starts with `<`. -/
theorem text_reads {s v : Str} {G : Forest Content} (hs : '<' ∉ s) (hv : v = [] ∨ v.head? = some '<') (h : Reads v G) :
    Reads (s ++ v) (textThen s (decodeEntity s) G) := by
  by_cases e : s = []
  · subst e; simpa [textThen] using h
  obtain ⟨ts, h1, h2⟩ := h
  refine ⟨.charData (decodeEntity s) :: ts, ?_, ?_⟩
  · intro us H hH
    rw [textThen_append, textThen, if_neg e]
    exact .leaf rfl (h1 us H hH)
  · intro t us r ht hw
    rw [List.append_assoc]
    show Written (s ++ (v ++ t)) ([.charData (decodeEntity s)] ++ (ts ++ us)) r
    refine .more (.text e hs ?_) (h2 t us r ht hw)
    rcases hv with rfl | hv
    · exact ht
    · right
      cases v with
      | nil => simp at hv
      | cons c v => exact hv

theorem Reads.nil : Reads [] .nil := ⟨[], fun _ _ h => h, fun _ _ _ _ h => h⟩

theorem Stands.reads {w t : Str} {N G : Forest Content} (hw : Stands w N) (ht : Reads t G) : Reads (w ++ t) (N ++ G) := by
  obtain ⟨h1, ts, h2, h3⟩ := hw
  obtain ⟨us, g1, g2⟩ := ht
  refine ⟨ts ++ us, fun xs H hm => ?_, ?_⟩
  · rw [List.append_assoc, Forest.append_assoc]; exact h2 _ _ (g1 _ _ hm)
  · intro t' xs r ht' hw'
    rw [List.append_assoc, List.append_assoc]
    exact h3 _ _ _ (g2 _ _ _ ht' hw')

theorem Stands.then {s w t : Str} {N G : Forest Content} (hs : '<' ∉ s) (hw : Stands w N) (ht : Reads t G) :
    Reads (s ++ w ++ t) (textThen s (decodeEntity s) (N ++ G)) := by
  rw [List.append_assoc]
  refine text_reads hs (.inr ?_) (hw.reads ht)
  have := hw.1
  cases w with
  | nil => simp at this
  | cons c w => exact this

theorem Stands.one {w : Str} {t : Token} {c : Content} (h0 : w.head? = some '<') (h1 : leafOf t = some c)
    (h2 : ∀ u, Construct w [t] u) : Stands w (.cons c .nil .nil) :=
  ⟨h0, [t], fun _ _ h => .leaf h1 h, fun _ _ _ hw => .more (h2 _) hw⟩

theorem startTag_construct {n : Str} {as : List AttrSrc} {w : Str} (hn : IsName n) (hwf : ∀ a ∈ as, AttrSrc.WF a)
    (hw : IsSpaces w) (t : Str) : Construct ('<' :: (n ++ as.flatMap AttrSrc.render ++ w ++ S ">"))
      [.startElement n (as.map fun a => (a.name, decodeEntity a.raw))] t := by
  have := Construct.startTag (n := n) (b := as.flatMap AttrSrc.render ++ w) (t := t)
    (.inl ⟨hn, attrs_head as hwf w hw '>' [] (not_nameChar_of (by simp))⟩) (attrs_inTag as hwf w hw).1 (by
      obtain ⟨x, xs, rfl, hx, -⟩ := hn
      intro c hc
      simp at hc; subst hc
      exact (nameFirst_not_special hx).2)
  simpa using this

theorem emptyTag_construct {n : Str} {as : List AttrSrc} {w : Str} (hn : IsName n) (hwf : ∀ a ∈ as, AttrSrc.WF a)
    (hw : IsSpaces w) (t : Str) : Construct ('<' :: (n ++ as.flatMap AttrSrc.render ++ w ++ S "/>"))
      [.startElement n (as.map fun a => (a.name, decodeEntity a.raw)), .endElement n] t := by
  have := Construct.emptyTag (n := n) (b := as.flatMap AttrSrc.render ++ w) (t := t)
    (.inl ⟨hn, attrs_head as hwf w hw '/' ['>'] (not_nameChar_of (by simp))⟩) (attrs_inTag as hwf w hw).1
    (by simp [hn.ne_nil]) (by
      obtain ⟨x, xs, rfl, hx, -⟩ := hn
      intro c hc
      simp at hc; subst hc
      exact (nameFirst_not_special hx).2)
  rw [if_neg hn.ne_nil] at this
  simpa using this

theorem endTag_construct {n w : Str} (hn : IsName n) (hw : IsSpaces w) (t : Str) :
    Construct (S "</" ++ n ++ w ++ S ">") [.endElement n] t := by
  refine .endTag (.inl ⟨hn, ?_⟩) (fun hm => by have := hw _ hm; revert this; decide)
  exact head_append_spaces (P := fun x => isNameChar x = false) (fun c hc => space_not_nameChar (hw c hc))
    (by intro x hx; simp [S] at hx; subst hx; exact not_nameChar_of (by simp))

theorem element_stands {n : Str} {as : List AttrSrc} {w c w' : Str} {K : Forest Content} (hn : IsName n)
    (hwf : ∀ a ∈ as, AttrSrc.WF a) (hw : IsSpaces w) (hc : Reads c K) (hw' : IsSpaces w') :
    Stands ('<' :: (n ++ as.flatMap AttrSrc.render ++ w ++ S ">") ++ c ++ (S "</" ++ n ++ w' ++ S ">"))
      (.cons ⟨.element, n, [], as.map fun a => (a.name, decodeEntity a.raw)⟩ K .nil) := by
  obtain ⟨ts, h1, h2⟩ := hc
  refine ⟨by simp, .startElement n (as.map fun a => (a.name, decodeEntity a.raw)) :: (ts ++ [.endElement n]), ?_, ?_⟩
  · intro us H hm
    have hk := h1 [] .nil .nil
    rw [List.append_nil, Forest.append_nil] at hk
    have := Trees.element (n := n) (as := as.map fun a => (a.name, decodeEntity a.raw)) hk hm
    show Trees _ (.cons _ K H)
    simpa only [List.cons_append, List.append_assoc, List.nil_append] using this
  · intro t us r ht
    have e1 := Written.more (endTag_construct hn hw' t) ht
    have e2 := h2 _ _ _ (.inr (by simp [S])) e1
    have e3 := Written.more (startTag_construct hn hwf hw _) e2
    simpa only [List.append_assoc, List.cons_append, List.nil_append] using e3

theorem empty_stands {n : Str} {as : List AttrSrc} {w : Str} (hn : IsName n)
    (hwf : ∀ a ∈ as, AttrSrc.WF a) (hw : IsSpaces w) :
    Stands ('<' :: (n ++ as.flatMap AttrSrc.render ++ w ++ S "/>"))
      (.cons ⟨.element, n, [], as.map fun a => (a.name, decodeEntity a.raw)⟩ .nil .nil) :=
  ⟨by simp, _, fun us H hm => Trees.element (ts := []) .nil hm, fun _ _ _ hw' => .more (emptyTag_construct hn hwf hw _) hw'⟩

theorem pi_stands {n w c : Str} (hn : IsName n) (hw : IsSpaces w) (h1 : w ≠ [] ∨ c = [])
    (h2 : ∀ x, c.head? = some x → isSpace x = false) (h3 : NoSub (S "?>") c) :
    Stands (S "<?" ++ n ++ w ++ c ++ S "?>")
      (.cons (if n = S "xml" then ⟨.xmlDecl, S "xml", c, []⟩ else ⟨.instruction, n, c, []⟩) .nil .nil) := by
  refine .one (t := .procInst n c) (by simp [S]) rfl fun _ => .pi (.inl ⟨hn, ?_⟩) hw h2 h3
  intro x hx
  cases w with
  | cons a as => simp at hx; subst hx; exact space_not_nameChar (hw a (by simp))
  | nil =>
    simp at h1
    subst h1
    simp [S] at hx; subst hx; exact not_nameChar_of (by simp)

theorem textThen_reads {s : Str} (h : '<' ∉ s) : Reads s (textThen s (decodeEntity s) .nil) := by
  have := text_reads h (.inl rfl) Reads.nil
  rwa [List.append_nil] at this

/-- What `R` says texts stand for is what the parser makes of them. -/
def Decodes (R : Str → Str → Prop) : Prop := ∀ s v, R s v → v = decodeEntity s

theorem attrs_decoded {R : Str → Str → Prop} (hR : Decodes R) {as : List (AttrSrc × Str)}
    (h : ∀ a ∈ as, AttrSrc.WF a.1 ∧ R a.1.raw a.2) :
    (as.map fun a => (a.1.name, a.2)) = (as.map (·.1)).map fun a => (a.name, decodeEntity a.raw) := by
  rw [List.map_map]
  apply List.map_congr_left
  intro a ha
  simp only [Function.comp, hR _ _ (h a ha).2]

mutual

theorem content_reads {R : Str → Str → Prop} (hR : Decodes R) :
    ∀ {s : Str} {G : Forest Content}, XmlContent R s G → Reads s G
  | _, _, .text h hv => by rw [hR _ _ hv]; exact textThen_reads h
  | _, _, .more h1 hv h2 h3 => by rw [hR _ _ hv]; exact (node_stands hR h2).then h1 (content_reads hR h3)

theorem node_stands {R : Str → Str → Prop} (hR : Decodes R) :
    ∀ {s : Str} {G : Forest Content}, XmlNode R s G → Stands s G
  | _, _, .element (as := as) hn hwf hw hc hw' => by
    have := element_stands (as := as.map (·.1)) hn (by simpa using fun a b h => (hwf (a, b) h).1) hw (content_reads hR hc) hw'
    rwa [← attrs_decoded hR hwf, List.flatMap_map] at this
  | _, _, .empty (as := as) hn hwf hw => by
    have := empty_stands (as := as.map (·.1)) hn (by simpa using fun a b h => (hwf (a, b) h).1) hw
    rwa [← attrs_decoded hR hwf, List.flatMap_map] at this
  | _, _, .comment (c := c) h => .one (t := .comment c) (by simp [S]) rfl fun _ => .comment h
  | _, _, .cdata (c := c) h => .one (t := .charData c) (by simp [S]) rfl fun _ => .cdata h
  | _, _, .pi hn hx hw h1 h2 h3 => by
    have := pi_stands hn hw h1 h2 h3
    rwa [if_neg hx] at this

end

theorem spaces_no_lt {w : Str} (h : IsSpaces w) : '<' ∉ w := fun hm => by have := h _ hm; revert this; decide

theorem readAs_decodes : Decodes ReadAs := by
  rintro s v ⟨ps, h1, h2, rfl, rfl⟩
  exact (EntityAmp.decode ps h1 h2).symm

/-- A text without references stands for itself. -/
theorem readAs_plain : ∀ {s : Str}, '&' ∉ s → ReadAs s s := by
  intro s hs
  have hw : ∀ p ∈ s.map Piece.lit, p.WF := by
    intro p hp
    obtain ⟨c, hc, rfl⟩ := List.mem_map.1 hp
    exact fun e => hs (e ▸ hc)
  have hu : ∀ s : Str, Unambiguous (s.map Piece.lit) := by
    intro s
    induction s with
    | nil => exact trivial
    | cons c s ih => exact ⟨fun h => h.elim, ih⟩
  refine ⟨s.map .lit, hw, hu s, ?_, ?_⟩
  · simp [renderAll, List.flatMap_map, Piece.render]
  · rw [meaningAll, List.map_map]
    exact (List.map_id s).symm

theorem decode_spaces {w : Str} (h : IsSpaces w) : decodeEntity w = w :=
  (readAs_decodes _ _ (readAs_plain fun hm => by have := h _ hm; revert this; decide)).symm

theorem misc_reads {R : Str → Str → Prop} (hR : Decodes R) {s : Str} {G : Forest Content} (h : XmlMisc R s G) :
    Reads s G := by
  induction h with
  | spaces h =>
    have := textThen_reads (spaces_no_lt h)
    rwa [decode_spaces h] at this
  | node h1 h2 _ ih =>
    have := (node_stands hR h2).then (spaces_no_lt h1) ih
    rwa [decode_spaces h1] at this
  | @doctype w b t G h1 h2 _ ih =>
    have hb : ∀ s : Str, (∀ c ∈ s, c ≠ '<' ∧ c ≠ '>' ∧ c ≠ '\x00') → Balanced (s ++ b) := by
      intro s hs
      induction s with
      | nil => exact h2
      | cons c s ih =>
        obtain ⟨a1, a2, a3⟩ := hs c (by simp)
        exact .char a1 a2 a3 (ih fun x hx => hs x (by simp [hx]))
    have hs : Stands (S "<!DOCTYPE" ++ b ++ S ">") .nil := by
      refine ⟨by simp [S], [.directive (S "<!DOCTYPE" ++ b ++ S ">")], fun _ _ hm => .directive hm, fun t us r hw => .more ?_ hw⟩
      exact .directive (c := 'D') (by decide) (by decide) (hb (S "OCTYPE") (by decide))
    have := Stands.then (spaces_no_lt h1) hs ih
    rwa [decode_spaces h1] at this

/-- What a document describes when every text stands for what the parser makes of it. -/
def Decoded (s v : Str) : Prop := v = decodeEntity s

mutual

theorem content_decoded {R : Str → Str → Prop} :
    ∀ {s : Str} {G : Forest Content}, XmlContent R s G → ∃ G', XmlContent Decoded s G'
  | _, _, .text h _ => ⟨_, .text h rfl⟩
  | _, _, .more h1 _ h2 h3 => by
    obtain ⟨N, hN⟩ := node_decoded h2
    obtain ⟨G, hG⟩ := content_decoded h3
    exact ⟨_, .more h1 rfl hN hG⟩

theorem node_decoded {R : Str → Str → Prop} :
    ∀ {s : Str} {G : Forest Content}, XmlNode R s G → ∃ G', XmlNode Decoded s G'
  | _, _, .element (as := as) hn hwf hw hc hw' => by
    obtain ⟨G, hG⟩ := content_decoded hc
    have := XmlNode.element (R := Decoded) (as := as.map fun a => (a.1, decodeEntity a.1.raw)) hn
      (by
        intro a ha
        obtain ⟨b, hb, rfl⟩ := List.mem_map.1 ha
        exact ⟨(hwf b hb).1, rfl⟩) hw hG hw'
    rw [List.flatMap_map] at this
    exact ⟨_, this⟩
  | _, _, .empty (as := as) hn hwf hw => by
    have := XmlNode.empty (R := Decoded) (as := as.map fun a => (a.1, decodeEntity a.1.raw)) hn
      (by
        intro a ha
        obtain ⟨b, hb, rfl⟩ := List.mem_map.1 ha
        exact ⟨(hwf b hb).1, rfl⟩) hw
    rw [List.flatMap_map] at this
    exact ⟨_, this⟩
  | _, _, .comment h => ⟨_, .comment h⟩
  | _, _, .cdata h => ⟨_, .cdata h⟩
  | _, _, .pi hn hx hw h1 h2 h3 => ⟨_, .pi hn hx hw h1 h2 h3⟩

end

theorem misc_decoded {R : Str → Str → Prop} {s : Str} {G : Forest Content} (h : XmlMisc R s G) :
    ∃ G', XmlMisc Decoded s G' := by
  induction h with
  | spaces h => exact ⟨_, .spaces h⟩
  | node h1 h2 _ ih =>
    obtain ⟨N, hN⟩ := node_decoded h2
    obtain ⟨G, hG⟩ := ih
    exact ⟨_, .node h1 hN hG⟩
  | doctype h1 h2 _ ih =>
    obtain ⟨G, hG⟩ := ih
    exact ⟨_, .doctype h1 h2 hG⟩

theorem document_decoded {R : Str → Str → Prop} {s : Str} {G : Forest Content} (h : XmlDocument R s G) :
    ∃ G', XmlDocument Decoded s G' := by
  obtain ⟨d, a, e, b, D, A, E, B, rfl, rfl, hd, ha, he, hb⟩ := h
  obtain ⟨A', hA⟩ := misc_decoded ha
  obtain ⟨E', hE⟩ := node_decoded he
  obtain ⟨B', hB⟩ := misc_decoded hb
  exact ⟨_, d, a, e, b, _, _, _, _, rfl, rfl, hd, hA, hE, hB⟩

theorem decl_reads {d s : Str} {D G : Forest Content} (h : XmlDecl d D) (hs : Reads s G) : Reads (d ++ s) (D ++ G) := by
  cases h with
  | none => exact hs
  | @some w c h1 h2 h3 h4 =>
    have := pi_stands (n := S "xml") ⟨'x', S "ml", rfl, by decide +kernel, by decide +kernel⟩ h1 (.inl h2) h3 h4
    rw [if_pos rfl] at this
    exact this.reads hs

theorem document_reads {R : Str → Str → Prop} (hR : Decodes R) {s : Str} {G : Forest Content} (h : XmlDocument R s G) : ∃ ts, Written s ts [] ∧ Trees ts G := by
  obtain ⟨d, a, e, b, D, A, E, B, rfl, rfl, hd, ha, he, hb⟩ := h
  have h1 := (node_stands hR he).reads (misc_reads hR hb)
  obtain ⟨us, k1, k2⟩ := misc_reads hR ha
  obtain ⟨vs, g1, g2⟩ := h1
  have h2 : Reads (a ++ (e ++ b)) (A ++ (E ++ B)) := by
    refine ⟨us ++ vs, fun xs H hm => ?_, fun t xs r ht hw => ?_⟩
    · rw [List.append_assoc, Forest.append_assoc]; exact k1 _ _ (g1 _ _ hm)
    · have h3 : (e ++ b ++ t).head? = some '<' := by
        have := (node_stands hR he).1
        cases e with
        | nil => simp at this
        | cons c e => exact this
      have := k2 (e ++ b ++ t) (vs ++ xs) r (.inr h3) (g2 t xs r ht hw)
      simpa only [List.append_assoc] using this
  obtain ⟨ts, f1, f2⟩ := decl_reads hd h2
  have e1 := f2 [] [] [] (.inl rfl) (.refl _)
  have e2 := f1 [] .nil .nil
  refine ⟨ts, ?_, ?_⟩
  · simpa only [List.append_nil, List.append_assoc] using e1
  · simpa only [List.append_nil, List.append_assoc, Forest.append_nil, Forest.append_assoc] using e2

theorem trees_match {ts : List Token} {G : Forest Content} (h : Trees ts G) (st : List Str) (us : List Token)
    (hu : TagsMatch st us) : TagsMatch st (ts ++ us) := by
  induction h generalizing st us with
  | nil => exact hu
  | @leaf t c ts G h1 _ ih =>
    have := ih st us hu
    cases t with
    | charData s => exact .text this
    | comment s => exact .comment this
    | procInst t s => exact .pi this
    | _ => cases h1
  | directive _ ih => exact .directive (ih st us hu)
  | element _ _ ih1 ih2 =>
    rw [List.append_assoc]
    exact .start (ih1 _ _ (.close (ih2 st us hu)))

end Markup

/-- **C95**: every XML document is accepted, in the sense of `C95_accepts`, whatever its texts and attribute values
stand for. -/
theorem C95_xml_written (R : Str → Str → Prop) (s : Str) (G : Forest Content) (h : XmlDocument R s G) :
    ∃ ts, Written s ts [] ∧ TagsMatch [] ts := by
  obtain ⟨G', hG⟩ := document_decoded h
  obtain ⟨ts, h1, h2⟩ := document_reads (R := Decoded) (fun _ _ e => e) hG
  refine ⟨ts, h1, ?_⟩
  have := trees_match h2 [] [] .nil
  rwa [List.append_nil] at this

/-- **C95**: `new_document` returns a document for every XML document. -/
theorem C95_xml_accepted (R : Str → Str → Prop) (h : Heap) (hw : HeapWF h) (xml : Str) (h0 : '\x00' ∉ xml)
    (G : Forest Content) (hx : XmlDocument R (noCR xml) G) : ∃ h' r, newDocument h xml = some (.ok (h', r)) :=
  (C95_accepts h hw xml h0).2 (C95_xml_written R _ G hx)

/-! ## C96 -/

namespace Markup

theorem leaf_token {t : Token} {c : Content} (h : leafOf t = some c) {h0 : Heap} {cur : NodeId} (hc : cur < h0.size) :
    ∃ h1, AddLeaf h0 h1 cur c ∧ stepToken h0 cur t = .ok (h1, cur) := by
  cases t with
  | charData s => cases h; exact ⟨_, addLeaf_makeChild hc _ _ _, rfl⟩
  | comment s => cases h; exact ⟨_, addLeaf_makeChild hc _ _ _, rfl⟩
  | procInst t s =>
    simp only [leafOf, Option.some.injEq] at h
    subst h
    by_cases e : t = S "xml"
    · exact ⟨_, by rw [if_pos e]; exact addLeaf_makeChild hc _ _ _, by simp [stepToken, e]⟩
    · exact ⟨_, by rw [if_neg e]; exact addLeaf_makeChild hc _ _ _, by simp [stepToken, e]⟩
  | _ => cases h

/-- The trees which the tokens describe are appended to the children of the current node. -/
theorem trees_build {ts : List Token} {G : Forest Content} (h : Trees ts G) (h0 : Heap) (cur : NodeId)
    (hc : cur < h0.size) : ∃ h1 F, Adds h0 h1 cur G F ∧ ∀ rest, buildTokens (ts ++ rest) h0 cur = buildTokens rest h1 cur := by
  induction h generalizing h0 cur with
  | nil => exact ⟨h0, .nil, .nil h0 cur, fun _ => rfl⟩
  | leaf h1 _ ih =>
    obtain ⟨ha, hl, hs⟩ := leaf_token h1 hc
    have hsz := hl.size
    have a := hl.adds hc (.nil ha h0.size)
    obtain ⟨hb, F, a2, b2⟩ := ih ha cur (by omega)
    exact ⟨hb, _, a.trans hc a2, fun rest => by simp only [List.cons_append, buildTokens, hs]; exact b2 rest⟩
  | directive _ ih =>
    obtain ⟨hb, F, a, b⟩ := ih h0 cur hc
    exact ⟨hb, F, a, fun rest => by simp only [List.cons_append, buildTokens, stepToken]; exact b rest⟩
  | @element n as ts us K G _ _ ih1 ih2 =>
    have hl := addLeaf_element hc n as
    generalize hh1 : List.foldl (fun h' a => h'.pushAttr h0.size a) (h0.makeChild .element cur n [] none) as = ha at hl
    have hs := hl.size
    obtain ⟨hb, Fn, a1, b1⟩ := ih1 ha h0.size (by omega)
    have a := hl.adds hc a1
    have hs2 := a1.size
    obtain ⟨hd, F2, a2, b2⟩ := ih2 hb cur (by omega)
    refine ⟨hd, _, a.trans hc a2, fun rest => ?_⟩
    have hn : (hb.node h0.size).name = n := by rw [a1.atCur, hl.new]; rfl
    have hp : (hb.node h0.size).parent = some cur := by rw [a1.atCur, hl.new]; rfl
    simp only [List.cons_append, buildTokens, stepToken]
    rw [hh1, List.append_assoc, b1]
    simp only [List.cons_append, buildTokens, stepToken, hn, hp]
    simpa using b2 rest

theorem openTrees_build {ts : List Token} {G : Forest Content} (h : OpenTrees ts G) (h0 : Heap) (cur : NodeId)
    (hc : cur < h0.size) : ∃ h1 F cur', Adds h0 h1 cur G F ∧ buildTokens ts h0 cur = .ok (h1, cur') := by
  induction h generalizing h0 cur with
  | closed h =>
    obtain ⟨h1, F, a, b⟩ := trees_build h h0 cur hc
    refine ⟨h1, F, cur, a, ?_⟩
    have := b []
    rwa [List.append_nil] at this
  | @opened n as ts us G K h _ ih =>
    obtain ⟨h1, F, a, b⟩ := trees_build h h0 cur hc
    have hs1 := a.size
    have hl := addLeaf_element (h := h1) (cur := cur) (by omega) n as
    generalize hh1 : List.foldl (fun h' a => h'.pushAttr h1.size a) (h1.makeChild .element cur n [] none) as = ha at hl
    have hs := hl.size
    obtain ⟨hb, Fn, cur', a1, b1⟩ := ih ha h1.size (by omega)
    refine ⟨hb, _, cur', a.trans hc (hl.adds (by omega) a1), ?_⟩
    rw [b]
    simp only [buildTokens, stepToken]
    rw [hh1, b1]

/-- At the root: a node without name and parent. -/
theorem textTrees_build {ts : List Token} {G : Forest Content} (h : TextTrees ts G) (h0 : Heap) (r : NodeId)
    (hc : r < h0.size) (hn : (h0.node r).name = []) (hp : (h0.node r).parent = none) :
    ∃ h1 F cur', Adds h0 h1 r G F ∧ buildTokens ts h0 r = .ok (h1, cur') := by
  induction h generalizing h0 with
  | all h => exact openTrees_build h h0 r hc
  | stray h _ ih =>
    obtain ⟨h1, F, a, b⟩ := trees_build h h0 r hc
    have hs := a.size
    have hn1 : (h1.node r).name = [] := by rw [a.atCur]; exact hn
    have hp1 : (h1.node r).parent = none := by rw [a.atCur]; exact hp
    obtain ⟨h2, F2, cur', a2, b2⟩ := ih h1 (by omega) hn1 hp1
    refine ⟨h2, _, cur', a.trans hc a2, ?_⟩
    rw [b]
    simp only [buildTokens, stepToken, hn1, hp1]
    simpa using b2

theorem trees_append {ts us : List Token} {G H : Forest Content} (h : Trees ts G) (h' : Trees us H) :
    Trees (ts ++ us) (G ++ H) := by
  induction h with
  | nil => exact h'
  | leaf h1 _ ih => exact .leaf h1 ih
  | directive _ ih => exact .directive ih
  | element h1 _ _ ih2 =>
    rw [List.append_assoc, List.cons_append]
    exact .element h1 ih2

theorem openTrees_append {ts us : List Token} {G H : Forest Content} (h : Trees ts G) (h' : OpenTrees us H) :
    OpenTrees (ts ++ us) (G ++ H) := by
  cases h' with
  | closed h' => exact .closed (trees_append h h')
  | opened h1 h2 =>
    rw [← List.append_assoc, ← Forest.append_assoc]
    exact .opened (trees_append h h1) h2

/-- Matching tags describe trees, up to the end tag that closes the innermost open element. -/
theorem match_trees (k : Nat) {ts : List Token} (hk : ts.length ≤ k) {st : List Str} (h : TagsMatch st ts) :
    (∃ G, OpenTrees ts G) ∨ ∃ ts1 G us, Trees ts1 G ∧ us.length < ts.length ∧
      ((∃ n st', st = n :: st' ∧ ts = ts1 ++ .endElement n :: us ∧ TagsMatch st' us) ∨
       (st = [] ∧ ts = ts1 ++ .endElement [] :: us ∧ TagsMatch [] us)) := by
  induction k generalizing ts st with
  | zero =>
    cases ts with
    | nil => exact .inl ⟨_, .closed .nil⟩
    | cons => simp at hk
  | succ k ih =>
    -- one tree in front
    have front : ∀ {t : List Token} {N : Forest Content} {vs : List Token}, Trees t N → ts = t ++ vs → vs.length ≤ k →
        TagsMatch st vs → (∃ G, OpenTrees ts G) ∨ ∃ ts1 G us, Trees ts1 G ∧ us.length < ts.length ∧
          ((∃ n st', st = n :: st' ∧ ts = ts1 ++ .endElement n :: us ∧ TagsMatch st' us) ∨
           (st = [] ∧ ts = ts1 ++ .endElement [] :: us ∧ TagsMatch [] us)) := by
      intro t N vs ht e hl hm
      rcases ih hl hm with ⟨G, hG⟩ | ⟨ts1, G, us, h1, h2, h3⟩
      · exact .inl ⟨_, by rw [e]; exact openTrees_append ht hG⟩
      · refine .inr ⟨t ++ ts1, N ++ G, us, trees_append ht h1, by rw [e]; simp; omega, ?_⟩
        rcases h3 with ⟨n, st', h3, h4, h5⟩ | ⟨h3, h4, h5⟩
        · exact .inl ⟨n, st', h3, by rw [e, h4]; simp, h5⟩
        · exact .inr ⟨h3, by rw [e, h4]; simp, h5⟩
    cases h with
    | nil => exact .inl ⟨_, .closed .nil⟩
    | @start _ n as vs hm =>
      simp at hk
      rcases ih hk hm with ⟨K, hK⟩ | ⟨ts1, K, us, h1, h2, h3⟩
      · exact .inl ⟨_, .opened (ts := []) .nil hK⟩
      · rcases h3 with ⟨n', st', h3, h4, h5⟩ | ⟨h3, _, _⟩
        · simp at h3
          obtain ⟨rfl, rfl⟩ := h3
          refine front (t := .startElement n as :: ts1 ++ [.endElement n]) (.element h1 .nil) ?_ (by omega) h5
          rw [h4]; simp
        · cases h3
    | @close st n us hm => exact .inr ⟨[], .nil, us, .nil, by simp, .inl ⟨n, st, rfl, rfl, hm⟩⟩
    | @stray us hm => exact .inr ⟨[], .nil, us, .nil, by simp, .inr ⟨rfl, rfl, hm⟩⟩
    | @text _ s vs hm => exact front (t := [.charData s]) (.leaf rfl .nil) rfl (by simp at hk; exact hk) hm
    | @pi _ t s vs hm => exact front (t := [.procInst t s]) (.leaf rfl .nil) rfl (by simp at hk; exact hk) hm
    | @comment _ s vs hm => exact front (t := [.comment s]) (.leaf rfl .nil) rfl (by simp at hk; exact hk) hm
    | @directive _ s vs hm => exact front (t := [.directive s]) (.directive .nil) rfl (by simp at hk; exact hk) hm

theorem match_textTrees (k : Nat) {ts : List Token} (hk : ts.length ≤ k) (h : TagsMatch [] ts) : ∃ G, TextTrees ts G := by
  induction k generalizing ts with
  | zero =>
    cases ts with
    | nil => exact ⟨_, .all (.closed .nil)⟩
    | cons => simp at hk
  | succ k ih =>
    rcases match_trees _ hk h with ⟨G, hG⟩ | ⟨ts1, G, us, h1, h2, h3⟩
    · exact ⟨G, .all hG⟩
    · rcases h3 with ⟨n, st', h3, _, _⟩ | ⟨_, h4, h5⟩
      · cases h3
      · obtain ⟨H, hH⟩ := ih (by omega) h5
        exact ⟨_, by rw [h4]; exact .stray h1 hH⟩

theorem textTrees_document {xml : Str} {ts : List Token} {G : Forest Content} (h0 : '\x00' ∉ xml)
    (hs : Written (noCR xml) ts []) (ht : TextTrees ts G) (h : Heap) (hw : HeapWF h) :
    ∃ h' F, newDocument h xml = some (.ok (h', h.size)) ∧ ParsedDoc h' h.size F ∧ F.map (contentOf h') = G := by
  obtain ⟨h', Fn, cur', ha, hb⟩ := textTrees_build ht (h.alloc (mkNode .documentRoot none [] [])) h.size (by simp)
    (by simp [mkNode]) (by simp [mkNode])
  have hd : newDocument h xml = some (.ok (h', h.size)) := by
    rw [newDocument_stream ((written_stream h0 ts).2 hs), hb]; rfl
  obtain ⟨F, cur, hi⟩ := newDocument_parsed hw hd (P := fun _ => True) (fun _ _ _ _ _ _ => trivial)
  have hroots : F.roots = Fn.roots := by
    rw [← hi.doc.linked.2.2.1, ha.atCur]; simp [mkNode]
  have : F = Fn := linked_unique hi.doc.linked.2.2.2.1 ha.linked hroots
  subst this
  exact ⟨h', F, hd, hi.doc, ha.content⟩

end Markup

/-- **C96**: the document made of an XML document has the nodes that the text describes: the same elements with the
same attributes, texts, comments and processing instructions, one below the other and in the same order. -/
theorem C96_xml_tree (h : Heap) (hw : HeapWF h) (xml : Str) (h0 : '\x00' ∉ xml) (G : Forest Content)
    (hx : XmlDocument ReadAs (noCR xml) G) :
    ∃ h' r F, newDocument h xml = some (.ok (h', r)) ∧ ParsedDoc h' r F ∧ F.map (contentOf h') = G := by
  obtain ⟨ts, h1, h2⟩ := document_reads readAs_decodes hx
  obtain ⟨h', F, hd, hp, hc⟩ := textTrees_document h0 h1 (.all (.closed h2)) h hw
  exact ⟨h', _, F, hd, hp, hc⟩

/-- **C96**, for every accepted text: the nodes of the document are those that the tokens of the text describe. -/
theorem C96_tree (h : Heap) (hw : HeapWF h) (xml : Str) (h0 : '\x00' ∉ xml) (h' : Heap) (r : NodeId)
    (hd : newDocument h xml = some (.ok (h', r))) :
    ∃ ts G F, Written (noCR xml) ts [] ∧ TextTrees ts G ∧ ParsedDoc h' r F ∧ F.map (contentOf h') = G := by
  obtain ⟨ts, h1, h2⟩ := (C95_accepts h hw xml h0).1 ⟨h', r, hd⟩
  obtain ⟨G, hG⟩ := match_textTrees _ (Nat.le_refl _) h2
  obtain ⟨h2', F, hd2, hp, hc⟩ := textTrees_document h0 h1 hG h hw
  rw [hd] at hd2
  simp at hd2
  obtain ⟨rfl, rfl⟩ := hd2
  exact ⟨ts, G, F, h1, hG, hp, hc⟩

/-- **C96**: what a text describes is determined by the text. -/
theorem C96_determined (s : Str) (h0 : '\x00' ∉ s) (ts us : List Token) (G H : Forest Content) (h1 : Written s ts [])
    (h2 : Written s us []) (g1 : TextTrees ts G) (g2 : TextTrees us H) : G = H := by
  obtain rfl := C95_one_reading s h0 ts us h1 h2
  let h := Heap.empty.alloc (mkNode .documentRoot none [] [])
  obtain ⟨ha, F1, c1, a1, b1⟩ := textTrees_build g1 h 0 (by simp [h, Heap.empty]) (by simp [h, mkNode, Heap.empty])
    (by simp [h, mkNode, Heap.empty])
  obtain ⟨hb, F2, c2, a2, b2⟩ := textTrees_build g2 h 0 (by simp [h, Heap.empty]) (by simp [h, mkNode, Heap.empty])
    (by simp [h, mkNode, Heap.empty])
  rw [b1] at b2
  simp at b2
  obtain ⟨rfl, -⟩ := b2
  have e : F1 = F2 := by
    refine linked_unique a1.linked a2.linked ?_
    have := a1.atCur.symm.trans a2.atCur
    simpa using this
  rw [← a1.content, ← a2.content, e]

/-! ### examples -/

/-- `<?xml version="1.0"?><!DOCTYPE a [<!ELEMENT a (b)>]>⏎<a x = '1'>t&amp;<b /><!--c--></a >⏎` -/
def markupSample : Str :=
  S "<?xml version=\"1.0\"?><!DOCTYPE a [<!ELEMENT a (b)>]>\n<a x = '1'>t&amp;<b /><!--c--></a >\n"

/-- The nodes of `markupSample`. -/
def markupTree : Forest Content :=
  .cons ⟨.xmlDecl, S "xml", S "version=\"1.0\"", []⟩ .nil <|
  .cons ⟨.text, [], S "\n", []⟩ .nil <|
  .cons ⟨.element, S "a", [], [(S "x", S "1")]⟩
    (.cons ⟨.text, [], S "t&", []⟩ .nil <| .cons ⟨.element, S "b", [], []⟩ .nil <|
      .cons ⟨.comment, [], S "c", []⟩ .nil .nil) <|
  .cons ⟨.text, [], S "\n", []⟩ .nil .nil

theorem markupSample_xml : XmlDocument ReadAs markupSample markupTree := by
  have name : ∀ c : Char, isNameFirstChar c = true → IsName [c] := fun c hc => ⟨c, [], rfl, hc, by simp⟩
  have sp : IsSpaces (S " ") := by unfold IsSpaces; decide
  have nl : IsSpaces (S "\n") := by unfold IsSpaces; decide
  have na : IsName (S "a") := name 'a' (by decide +kernel)
  have nb : IsName (S "b") := name 'b' (by decide +kernel)
  have nx : IsName (S "x") := name 'x' (by decide +kernel)
  have bal : ∀ s : Str, (∀ c ∈ s, c ≠ '<' ∧ c ≠ '>' ∧ c ≠ '\x00') → ∀ b, Balanced b → Balanced (s ++ b) := by
    intro s hs b hb
    induction s with
    | nil => exact hb
    | cons c s ih =>
      obtain ⟨a1, a2, a3⟩ := hs c (by simp)
      exact .char a1 a2 a3 (ih fun x hx => hs x (by simp [hx]))
  have b1 : Balanced (S " a [" ++ ('<' :: (S "!ELEMENT a (b)" ++ []) ++ '>' :: (S "]" ++ []))) :=
    bal (S " a [") (by decide) _ (.nest (bal (S "!ELEMENT a (b)") (by decide) _ .nil) (bal (S "]") (by decide) _ .nil))
  refine ⟨S "<?xml" ++ S " " ++ S "version=\"1.0\"" ++ S "?>",
      [] ++ (S "<!DOCTYPE" ++ (S " a [" ++ ('<' :: (S "!ELEMENT a (b)" ++ []) ++ '>' :: (S "]" ++ []))) ++ S ">") ++ S "\n",
    _, S "\n", _, _, _, _, ?_, ?_, .some sp (by decide) (by decide) (noSub_of_check _ _ (by decide)),
    .doctype (by simp [IsSpaces]) b1 (.spaces nl),
    .element (n := S "a") (as := [(⟨S " ", S "x", S " ", S " ", '\'', S "1"⟩, S "1")]) (w := []) (w' := S " ") na ?_ (by simp [IsSpaces])
      (.more (s := S "t&amp;") (v := S "t&") (by decide) ⟨[.lit 't', .ent .amp], by simp [Piece.WF], by decide, by decide, by decide⟩ (.empty (n := S "b") (as := []) (w := S " ") nb (by simp) sp)
        (.more (s := []) (v := []) (by simp) (readAs_plain (by simp)) (.comment (c := S "c") (noSub_of_check _ _ (by decide)))
          (.text (s := []) (v := []) (by simp) (readAs_plain (by simp))))) sp,
    .spaces nl⟩
  · decide
  · have e4 : S "t&amp;" ≠ [] := by decide
    have e5 : S "\n" ≠ [] := by decide
    simp only [textThen, if_neg e4, if_neg e5, if_true, List.map_cons, List.map_nil]
    rfl
  · intro a ha
    simp at ha
    subst ha
    exact ⟨⟨by decide, sp, nx, sp, sp, by decide, by decide, by decide⟩, readAs_plain (by decide)⟩

theorem markupSample_noCR : noCR markupSample = markupSample := by decide

/-- The sample is accepted, -/
example : ∃ h' r, newDocument Heap.empty markupSample = some (.ok (h', r)) :=
  C95_xml_accepted _ _ .empty _ (by decide) markupTree (by rw [markupSample_noCR]; exact markupSample_xml)

/-- and the document has the nodes of `markupTree`. -/
example : ∃ h' r F, newDocument Heap.empty markupSample = some (.ok (h', r)) ∧ ParsedDoc h' r F ∧
    F.map (contentOf h') = markupTree :=
  C96_xml_tree _ .empty _ (by decide) markupTree (by rw [markupSample_noCR]; exact markupSample_xml)

/-- `<a !x="1"y></a z>` is accepted though it is no XML: the grammar of `C95_accepts` is wider. -/
theorem markup_liberties : ∃ h' r, newDocument Heap.empty (S "<a !x=\"1\"y></a z>") = some (.ok (h', r)) := by
  have na : IsName (S "a") := ⟨'a', [], rfl, by decide +kernel, by simp⟩
  have nx : IsName (S "x") := ⟨'x', [], rfl, by decide +kernel, by simp⟩
  refine (C95_accepts _ .empty _ (by decide)).2 ⟨[.startElement (S "a") [(S "x", decodeEntity (S "1"))], .endElement (S "a")],
    ?_, .start (.close .nil)⟩
  have hb : InTag (S " !x=\"1\"y") [(S "x", decodeEntity (S "1"))] :=
    .space (by decide) (.junk (by decide) (by decide +kernel) (by decide) (by decide)
      (.attr (n := S "x") (w := []) (w' := []) (q := '"') (v := S "1") (c := 'y') nx (by simp [IsSpaces]) (by simp [IsSpaces])
        (.inl rfl) (by decide) (by decide) (by decide) .nil))
  have h2 := Written.more (.endTag (n := S "a") (j := S " z") (t := [])
    (.inl ⟨na, by intro c hc; simp [S] at hc; subst hc; exact not_nameChar_of (by simp)⟩) (by decide)) (.refl [])
  have h1 := Written.more (.startTag (n := S "a") (b := S " !x=\"1\"y") (t := S "</a z>")
    (.inl ⟨na, by intro c hc; simp [S] at hc; subst hc; exact not_nameChar_of (by simp)⟩) hb (by
      intro c hc; simp [S] at hc; subst hc; decide)) h2
  exact h1

end Amxml
