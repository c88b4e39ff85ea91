import Verif.Lemmas.AddLeaf
import Verif.Props.Entity
import Verif.Props.Sax

/-!
# Serialising and reading back
-/

namespace Amxml
open Spec

/-! ### `to_string` on forests -/

/-- The text of the attributes. -/
def attrsStr (as : List (Str × Str)) : Str :=
  as.flatMap fun a => S " " ++ a.1 ++ S "=\"" ++ encodeEntity a.2 ++ S "\""

/-- The text of a forest. -/
def strOf : Forest Content → Str
  | .nil => []
  | .cons c k r =>
    (match c.ntype with
      | .documentRoot => strOf k
      | .element =>
        if k.roots.length = 0 then S "<" ++ c.name ++ attrsStr c.attrs ++ S "/>"
        else S "<" ++ c.name ++ attrsStr c.attrs ++ S ">" ++ strOf k ++ S "</" ++ c.name ++ S ">"
      | .text => encodeEntity c.value
      | .comment => S "<!--" ++ c.value ++ S "-->"
      | .xmlDecl => S "<?xml " ++ c.value ++ S "?>"
      | .instruction => S "<?" ++ c.name ++ S " " ++ c.value ++ S "?>"
      | .attribute => []
      | .directive => []) ++ strOf r

theorem toStringF_forest {h : Heap} (F : Forest NodeId) {p : Option NodeId} (hl : Linked h p F) (fuel : Nat)
    (hf : F.toList.length ≤ fuel) : toStringF fuel h F.roots 0 0 = some (strOf (F.map (contentOf h))) := by
  induction F generalizing p fuel with
  | nil => cases fuel <;> rfl
  | cons i k r ih1 ih2 =>
    obtain ⟨h1, h2, h3, h4, h5⟩ := hl
    simp only [Forest.toList, List.length_cons, List.length_append] at hf
    obtain ⟨f, rfl⟩ : ∃ f, fuel = f + 1 := ⟨fuel - 1, by omega⟩
    have i1 := ih1 h4 f (by omega)
    have i2 := ih2 h5 f (by omega)
    have ha : attrsToString h (h.node i).attributes = attrsStr (contentOf h i).attrs := by
      simp [attrsToString, attrsStr, contentOf, List.flatMap_map]
    have hlen : (k.map (contentOf h)).roots.length = k.roots.length := by rw [Forest.roots_map]; simp
    simp only [Forest.roots, toStringF, h3, i1, i2, Forest.map, strOf, hlen]
    have ht : (contentOf h i).ntype = (h.node i).ntype := rfl
    have hn : (contentOf h i).name = (h.node i).name := rfl
    have hv : (contentOf h i).value = (h.node i).value := rfl
    rw [ht, hn, hv, ha]
    by_cases hk : k.roots.length = 0
    · cases (h.node i).ntype <;> simp [nlIfPositive, hk]
    · cases (h.node i).ntype <;> simp [nlIfPositive, hk, i1]

theorem toStringF_mono {h : Heap} (n : Nat) (is : List NodeId) (a b : Nat) (s : Str) (hs : toStringF n h is a b = some s)
    (m : Nat) (hm : n ≤ m) : toStringF m h is a b = some s := by
  induction n generalizing is a b s m with
  | zero =>
    cases is with
    | nil => cases m <;> simpa [toStringF] using hs
    | cons i is => simp [toStringF] at hs
  | succ n ih =>
    cases is with
    | nil => cases m <;> simpa [toStringF] using hs
    | cons i is =>
      obtain ⟨m, rfl⟩ : ∃ m', m = m' + 1 := ⟨m - 1, by omega⟩
      simp only [toStringF] at hs ⊢
      have fin : ∀ (o o' : Option Str), (∀ x, o = some x → o' = some x) →
          (match o, toStringF n h is a b with | some a, some b => some (a ++ b) | _, _ => none) = some s →
          (match o', toStringF m h is a b with | some a, some b => some (a ++ b) | _, _ => none) = some s := by
        intro o o' ho e
        split at e
        · rename_i x y h2
          rw [ho x rfl, ih _ _ _ _ h2 m (by omega)]; exact e
        · simp at e
      cases hty : (h.node i).ntype <;> simp only [hty] at hs ⊢
      case documentRoot => exact fin _ _ (fun x hx => ih _ _ _ _ hx m (by omega)) hs
      case element =>
        refine fin _ _ (fun x hx => ?_) hs
        split at hx
        · rename_i e; rw [if_pos e]; exact hx
        · rename_i e
          rw [if_neg e]
          simp only [Option.map_eq_some_iff] at hx ⊢
          obtain ⟨inner, hi, he⟩ := hx
          exact ⟨inner, ih _ _ _ _ hi m (by omega), he⟩
      all_goals exact fin _ _ (fun x hx => hx) hs

theorem toString_total {h : Heap} {r : NodeId} {F : Forest NodeId} (hd : DocTree h r F)
    (ht : (h.node r).ntype = .documentRoot) (fuel : Nat) (hf : F.toList.length + 1 ≤ fuel) :
    h.toString fuel r = some (strOf (F.map (contentOf h))) := by
  have := toStringF_forest (h := h) (.cons r F .nil) hd.linked fuel (by simp [Forest.toList]; omega)
  unfold Heap.toString
  simp only [Forest.roots] at this
  rw [this]
  have hc : (contentOf h r).ntype = .documentRoot := ht
  simp [strOf, Forest.map, hc]

theorem toString_eq {h : Heap} {r : NodeId} {F : Forest NodeId} (hd : DocTree h r F)
    (ht : (h.node r).ntype = .documentRoot) {fuel : Nat} {s : Str} (hs : h.toString fuel r = some s) :
    s = strOf (F.map (contentOf h)) := by
  have h1 := toString_total hd ht (max fuel (F.toList.length + 1)) (by omega)
  have h2 := toStringF_mono _ _ _ _ _ hs (max fuel (F.toList.length + 1)) (by omega)
  unfold Heap.toString at h1
  rw [h2] at h1
  simpa using h1

/-! ### characters of the text -/

theorem encode_mem {c : Char} {s : Str} (h : c ∈ encodeEntity s) : c ∈ s ∨ c ∈ S "&amp;&gt;&lt;&quot;&apos;" := by
  rw [encodeEntity_eq] at h
  simp only [List.mem_flatMap] at h
  obtain ⟨a, ha, hc⟩ := h
  unfold esc at hc
  repeat' split at hc
  all_goals (try (right; revert hc; simp [S]; tauto))
  simp at hc; left; exact hc ▸ ha

theorem encode_append (u v : Str) : encodeEntity (u ++ v) = encodeEntity u ++ encodeEntity v := by
  simp [encodeEntity_eq]

theorem encode_ne_nil {u : Str} (h : u ≠ []) : encodeEntity u ≠ [] := by
  intro e
  have := C01_decode_encode u
  rw [e] at this
  exact h (by rw [← this]; decide)

theorem encode_clean {u : Str} (h : CleanStr u) : CleanStr (encodeEntity u) := by
  constructor <;> intro hm <;> rcases encode_mem hm with h' | h'
  · exact h.1 h'
  · revert h'; decide
  · exact h.2 h'
  · revert h'; decide

theorem clean_append {u v : Str} : CleanStr (u ++ v) ↔ CleanStr u ∧ CleanStr v := by
  unfold CleanStr; simp only [List.mem_append]; tauto

theorem clean_nil : CleanStr [] := by simp [CleanStr]

theorem isName_clean {n : Str} (h : IsName n) : CleanStr n := by
  obtain ⟨c, cs, rfl, hc, hcs⟩ := h
  have hall : ∀ x ∈ c :: cs, isNameChar x = true := by
    intro x hx; simp at hx; rcases hx with rfl | hx
    · exact nameFirst_nameChar hc
    · exact hcs x hx
  constructor <;> intro hm <;> have := hall _ hm
  · rw [not_nameChar_of (by simp)] at this; simp at this
  · rw [not_nameChar_of (by simp)] at this; simp at this

theorem clean_of_check {s : Str} (h : (s.all fun c => c != '\x00' && c != '\r') = true) : CleanStr s := by
  simp at h
  exact ⟨fun hm => (h _ hm).1 rfl, fun hm => (h _ hm).2 rfl⟩

theorem attrsStr_clean {as : List (Str × Str)} (h : ∀ a ∈ as, IsName a.1 ∧ CleanStr a.2) : CleanStr (attrsStr as) := by
  induction as with
  | nil => simp [attrsStr, clean_nil]
  | cons a as ih =>
    have h1 := h a (by simp)
    simp only [attrsStr, List.flatMap_cons, clean_append]
    exact ⟨⟨⟨⟨⟨clean_of_check (by decide), isName_clean h1.1⟩, clean_of_check (by decide)⟩, encode_clean h1.2⟩,
      clean_of_check (by decide)⟩, ih fun x hx => h x (by simp [hx])⟩

theorem strOf_clean {G : Forest Content} (h : WritableForest G) : CleanStr (strOf G) := by
  induction G with
  | nil => exact clean_nil
  | cons c k r ih1 ih2 =>
    obtain ⟨h1, h2, h3, h4⟩ := h
    simp only [strOf, clean_append]
    refine ⟨?_, ih2 h4⟩
    have ck := ih1 h3
    unfold Content.Writable at h1
    split at h1 <;> rename_i ht <;> (try simp only [ht])
    · obtain ⟨a, _, b⟩ := h1
      split <;> simp only [clean_append]
      · exact ⟨⟨⟨clean_of_check (by decide), isName_clean a⟩, attrsStr_clean b⟩, clean_of_check (by decide)⟩
      · exact ⟨⟨⟨⟨⟨⟨⟨clean_of_check (by decide), isName_clean a⟩, attrsStr_clean b⟩, clean_of_check (by decide)⟩, ck⟩,
          clean_of_check (by decide)⟩, isName_clean a⟩, clean_of_check (by decide)⟩
    · exact encode_clean h1.2.2
    · simp only [clean_append]
      exact ⟨⟨clean_of_check (by decide), h1.2.2.1⟩, clean_of_check (by decide)⟩
    · simp only [clean_append]
      exact ⟨⟨clean_of_check (by decide), h1.2.2.1⟩, clean_of_check (by decide)⟩
    · simp only [clean_append]
      refine ⟨⟨⟨⟨clean_of_check (by decide), ?_⟩, clean_of_check (by decide)⟩, h1.2.2.2.1⟩, clean_of_check (by decide)⟩
      rcases h1.1 with h | h
      · exact isName_clean h
      · rw [h]; exact clean_nil
    · exact absurd h1 id

theorem new_of_clean {s : Str} (h : CleanStr s) : Dec.new s = ⟨s, []⟩ := by
  unfold Dec.new
  congr 1
  rw [List.filter_eq_self]
  intro a ha
  simp
  rintro rfl
  exact h.2 ha

/-! ### tokens of the text -/

/-- The tokens of a forest. -/
def toksOf : Forest Content → List Token
  | .nil => []
  | .cons c k r =>
    (match c.ntype with
      | .element => .startElement c.name c.attrs :: (toksOf k ++ [.endElement c.name])
      | .text => [.charData c.value]
      | .comment => [.comment c.value]
      | .xmlDecl => [.procInst (S "xml") c.value]
      | .instruction => [.procInst c.name c.value]
      | _ => []) ++ toksOf r

theorem toksOf_consText (u : Str) (G : Forest Content) :
    toksOf (consText u G) = (if u = [] then [] else [.charData u]) ++ toksOf G := by
  unfold consText; split <;> simp [toksOf]

theorem rawToken_pi_noname (c t : Str) (hc : ∀ x, c.head? = some x → isSpace x = false) (h0 : EOFC ∉ c)
    (h : NoSub (S "?>") (c ++ S "?")) :
    rawToken { rest := S "<?" ++ (S " " ++ c ++ S "?>" ++ t), toClose := [] } =
      some (.ok (.procInst [] c), { rest := t, toClose := [] }) := by
  have hu := getUntil_append (S "?>") c t (by simp [S]) h0 h
  have hsk : skipSpaces (S " " ++ (c ++ (S "?>" ++ t))) = c ++ (S "?>" ++ t) := by
    rw [skipSpaces_append (S " ") _ (by intro x hx; simp [S] at hx; subst hx; decide)]
    apply skipSpaces_id
    intro x hx
    cases c with
    | nil => simp [S] at hx; subst hx; decide
    | cons a as =>
      simp at hx; subst hx
      exact ⟨hc a (by simp), by rintro rfl; simp at h0⟩
  have hg : getName (S " " ++ (c ++ (S "?>" ++ t))) = ([], S " " ++ (c ++ (S "?>" ++ t))) :=
    getName_none (by intro x hx; simp [S] at hx; subst hx; decide +kernel)
  simp only [List.append_assoc] at hu ⊢
  have e : S "<?" ++ (S " " ++ (c ++ (S "?>" ++ t))) = '<' :: '?' :: (S " " ++ (c ++ (S "?>" ++ t))) := rfl
  rw [e]
  simp only [rawToken, rawTokenF, rawMarkup, rawPI, hg, hsk, hu]
  simp [EOFC]

/-- Attribute source as the serialiser writes it. -/
def attrSrcOf (a : Str × Str) : AttrSrc := ⟨S " ", a.1, [], [], '"', encodeEntity a.2⟩

theorem attrSrcOf_wf {a : Str × Str} (h : IsName a.1 ∧ CleanStr a.2) : (attrSrcOf a).WF where
  sp1_ne := by simp [attrSrcOf, S]
  sp1 := by intro x hx; simp [attrSrcOf, S] at hx; subst hx; decide
  name := h.1
  sp2 := by simp [attrSrcOf, IsSpaces]
  sp3 := by simp [attrSrcOf, IsSpaces]
  q := .inl rfl
  raw_q := fun hm => ((C02_encoded_has_no_markup a.2).1 _ hm).2.2.1 rfl
  raw_nul := (encode_clean h.2).1

theorem attrsStr_render (as : List (Str × Str)) : attrsStr as = (as.map attrSrcOf).flatMap AttrSrc.render := by
  simp only [attrsStr, List.flatMap_map, AttrSrc.render, attrSrcOf]
  simp [S]

theorem rawToken_written_start (n : Str) (hn : IsName n) (as : List (Str × Str))
    (ha : ∀ a ∈ as, IsName a.1 ∧ CleanStr a.2) (sc : Bool) (t : Str) :
    rawToken ⟨S "<" ++ n ++ attrsStr as ++ (tagEnd sc ++ t), []⟩ =
      some (.ok (.startElement n as), ⟨t, if sc then n else []⟩) := by
  have := rawToken_startTag n hn (as.map attrSrcOf) (by
    intro x hx; simp only [List.mem_map] at hx; obtain ⟨a, h1, rfl⟩ := hx; exact attrSrcOf_wf (ha a h1)) []
    (by simp [IsSpaces]) sc t
  rw [← attrsStr_render] at this
  have e : S "<" ++ n ++ attrsStr as ++ (tagEnd sc ++ t) = '<' :: (n ++ attrsStr as ++ [] ++ (tagEnd sc ++ t)) := by
    simp [S]
  rw [e, this]
  have : (as.map attrSrcOf).map (fun a => (a.name, decodeEntity a.raw)) = as := by
    rw [List.map_map]
    conv => rhs; rw [← List.map_id as]
    apply List.map_congr_left
    intro a _
    simp [attrSrcOf, C01_decode_encode]
  rw [this]

/-- A pending text in front of markup or the end. -/
theorem delivers_text (u t : Str) (hu : CleanStr u) (ht : t = [] ∨ ∃ r, t = '<' :: r) :
    Delivers ⟨encodeEntity u ++ t, []⟩ (if u = [] then [] else [.charData u]) ⟨t, []⟩ := by
  by_cases e : u = []
  · subst e
    have : encodeEntity [] = [] := by decide
    simp [this]; exact .refl _
  · simp only [e, if_false]
    have := rawToken_text (encodeEntity u) t (encode_ne_nil e)
      (fun hm => ((C02_encoded_has_no_markup u).1 _ hm).1 rfl) (encode_clean hu).1 ht
    rw [C01_decode_encode] at this
    exact .one this (by simp)

/-- Reading a written forest behind a pending text gives the tokens of the forest with texts joined. -/
theorem delivers_strOf (G : Forest Content) (hG : WritableForest G) (u t : Str) (hu : CleanStr u)
    (ht : t = [] ∨ ∃ r, t = '<' :: r) :
    Delivers ⟨encodeEntity u ++ strOf G ++ t, []⟩ (toksOf (joinTexts u G)) ⟨t, []⟩ := by
  induction G generalizing u t with
  | nil =>
    simp only [strOf, List.append_nil, joinTexts, toksOf_consText, toksOf]
    exact delivers_text u t hu ht
  | cons c k r ih1 ih2 =>
    obtain ⟨h1, h2, h3, h4⟩ := hG
    simp only [joinTexts]
    by_cases htx : c.ntype = .text
    · simp only [htx, if_true]
      have hc : CleanStr c.value := by
        unfold Content.Writable at h1; rw [htx] at h1; exact h1.2.2
      have := ih2 h4 (u ++ c.value) t (clean_append.2 ⟨hu, hc⟩) ht
      simp only [strOf, htx]
      rw [encode_append] at this
      simpa using this
    · simp only [htx, if_false, toksOf_consText]
      have hnil : encodeEntity [] = [] := by decide
      have ihr := ih2 h4 [] t clean_nil ht
      rw [hnil, List.nil_append] at ihr
      -- one node `m` in front of the rest
      have main : ∀ (m : Str) (ts : List Token), (∃ x, m = '<' :: x) →
          (∀ t', Delivers ⟨m ++ t', []⟩ ts ⟨t', []⟩) →
          Delivers ⟨encodeEntity u ++ (m ++ strOf r) ++ t, []⟩
            ((if u = [] then [] else [.charData u]) ++ (ts ++ toksOf (joinTexts [] r))) ⟨t, []⟩ := by
        intro m ts hm hd
        have e : encodeEntity u ++ (m ++ strOf r) ++ t = encodeEntity u ++ (m ++ (strOf r ++ t)) := by simp
        rw [e]
        refine (delivers_text u _ hu (.inr ?_)).append ((hd _).append ihr)
        obtain ⟨x, rfl⟩ := hm
        exact ⟨_, rfl⟩
      unfold Content.Writable at h1
      split at h1 <;> rename_i hty
      · -- element
        obtain ⟨hn, _, hat⟩ := h1
        simp only [strOf, hty, toksOf]
        split
        · rename_i hk
          have hk' : k = .nil := Forest.roots_eq_nil.1 (by simpa using hk)
          subst hk'
          apply main
          · exact ⟨_, by simp [S]; rfl⟩
          · intro t'
            have s1 := rawToken_written_start c.name hn c.attrs hat true t'
            have s2 := rawToken_toClose ⟨t', c.name⟩ (hn.ne_nil)
            simp only [joinTexts, consText, if_true, toksOf, List.nil_append]
            have e : S "<" ++ c.name ++ attrsStr c.attrs ++ S "/>" ++ t' =
              S "<" ++ c.name ++ attrsStr c.attrs ++ (tagEnd true ++ t') := by simp [tagEnd]
            rw [e]
            exact .step s1 (by simp) (.step s2 (by simp) (.refl _))
        · apply main
          · exact ⟨_, by simp [S]; rfl⟩
          · intro t'
            have s1 := rawToken_written_start c.name hn c.attrs hat false (strOf k ++ (S "</" ++ c.name ++ S ">" ++ t'))
            have s2 := ih1 h3 [] (S "</" ++ c.name ++ S ">" ++ t') clean_nil (.inr ⟨_, by simp [S]; rfl⟩)
            have s3 := rawToken_endTag c.name hn [] (by simp [IsSpaces]) t'
            rw [hnil, List.nil_append] at s2
            have e : S "<" ++ c.name ++ attrsStr c.attrs ++ S ">" ++ strOf k ++ S "</" ++ c.name ++ S ">" ++ t' =
              S "<" ++ c.name ++ attrsStr c.attrs ++ (tagEnd false ++ (strOf k ++ (S "</" ++ c.name ++ S ">" ++ t'))) := by
              simp [tagEnd]
            have e3 : S "</" ++ c.name ++ [] ++ '>' :: t' = S "</" ++ c.name ++ S ">" ++ t' := by simp [S]
            rw [e3] at s3
            rw [e]
            exact .step s1 (by simp) (s2.append (.one s3 (by simp)))
      · exact absurd hty htx
      · simp only [strOf, hty, toksOf]
        apply main
        · exact ⟨_, by simp [S]; rfl⟩
        · intro t'
          exact .one (C11_comment_verbatim _ t' h1.2.2.1.1 h1.2.2.2) (by simp)
      · simp only [strOf, hty, toksOf]
        apply main
        · exact ⟨_, by simp [S]; rfl⟩
        · intro t'
          have := C11_pi_verbatim (S "xml") (S " ") c.value t' ⟨'x', S "ml", rfl, by decide +kernel, by decide +kernel⟩
            (by intro x hx; simp [S] at hx; subst hx; decide) (.inl (by simp [S])) h1.2.2.2.2 h1.2.2.1.1 h1.2.2.2.1
          exact .one (by simpa [S] using this) (by simp)
      · simp only [strOf, hty, toksOf]
        apply main
        · exact ⟨_, by simp [S]; rfl⟩
        · intro t'
          rcases h1.1 with hn | hn
          · have := C11_pi_verbatim c.name (S " ") c.value t' hn
              (by intro x hx; simp [S] at hx; subst hx; decide) (.inl (by simp [S])) h1.2.2.2.2.2 h1.2.2.2.1.1 h1.2.2.2.2.1
            exact .one this (by simp)
          · have := rawToken_pi_noname c.value t' h1.2.2.2.2.2 h1.2.2.2.1.1
              (noSub_append (w := S "?") (z := '>') (by decide) h1.2.2.2.2.1)
            rw [hn]
            refine .one ?_ (by simp)
            simpa using this
      · exact absurd h1 id

theorem stream_strOf (G : Forest Content) (hG : WritableForest G) :
    Stream (Dec.new (strOf G)) (toksOf (joinTexts [] G)) := by
  have h1 := delivers_strOf G hG [] [] clean_nil (.inl rfl)
  have hnil : encodeEntity [] = [] := by decide
  rw [hnil] at h1
  simp only [List.nil_append, List.append_nil] at h1
  rw [new_of_clean (strOf_clean hG)]
  exact ⟨_, h1, _, rawToken_eof⟩

theorem writable_consText {u : Str} {G : Forest Content} (hu : CleanStr u) (hG : WritableForest G) :
    WritableForest (consText u G) := by
  unfold consText
  split
  · exact hG
  · exact ⟨by simp [Content.Writable, hu], by simp, trivial, hG⟩

theorem joinTexts_writable {G : Forest Content} (hG : WritableForest G) (u : Str) (hu : CleanStr u) :
    WritableForest (joinTexts u G) := by
  induction G generalizing u with
  | nil => exact writable_consText hu trivial
  | cons c k r ih1 ih2 =>
    obtain ⟨h1, h2, h3, h4⟩ := hG
    simp only [joinTexts]
    split
    · rename_i ht
      have hc : CleanStr c.value := by
        unfold Content.Writable at h1; rw [ht] at h1; exact h1.2.2
      exact ih2 h4 _ (clean_append.2 ⟨hu, hc⟩)
    · refine writable_consText hu ⟨h1, ?_, ih1 h3 [] clean_nil, ih2 h4 [] clean_nil⟩
      intro hne
      rw [h2 hne]; rfl

theorem joinTexts_of_normal {G : Forest Content} (hn : NormalForest G) (hw : WritableForest G) : joinTexts [] G = G := by
  induction G with
  | nil => rfl
  | cons c k r ih1 ih2 =>
    obtain ⟨h1, h2, h3⟩ := hn
    obtain ⟨w1, w2, w3, w4⟩ := hw
    simp only [joinTexts]
    split
    · rename_i ht
      obtain ⟨hv, hr⟩ := h1 ht
      have hcc : c = ⟨.text, [], c.value, []⟩ := by
        unfold Content.Writable at w1; rw [ht] at w1
        cases c; simp_all
      have hk : k = .nil := w2 (by rw [ht]; simp)
      cases r with
      | nil =>
        simp only [List.nil_append, joinTexts, consText, hv, if_false]
        rw [hk]; congr 1; exact hcc.symm
      | cons d k' r' =>
        have hd := hr d (by simp [Forest.roots])
        have := ih2 h3 w4
        simp only [joinTexts, hd, if_false, List.nil_append, consText, if_true] at this ⊢
        simp only [hv, if_false]
        rw [this, hk, ← hcc]
    · simp only [consText, if_true]
      rw [ih1 h2 w3, ih2 h3 w4]

/-! ### building the forest -/

/-- The difference between the heaps is a forest with contents `G` appended to the children of `cur`. -/
structure Adds (h h' : Heap) (cur : NodeId) (G : Forest Content) (Fn : Forest NodeId) : Prop where
  size : h.size ≤ h'.size
  linked : Linked h' (some cur) Fn
  content : Fn.map (contentOf h') = G
  range : ∀ i ∈ docIds h' Fn, h.size ≤ i ∧ i < h'.size
  atCur : h'.node cur = { h.node cur with children := (h.node cur).children ++ Fn.roots }
  other : ∀ j, j ≠ cur → j < h.size → h'.node j = h.node j

theorem contentOf_congr {h h' : Heap} {i : NodeId} (hi : (h'.node i).ntype = (h.node i).ntype ∧
    (h'.node i).name = (h.node i).name ∧ (h'.node i).value = (h.node i).value ∧
    (h'.node i).attributes = (h.node i).attributes)
    (ha : ∀ a ∈ (h.node i).attributes, (h'.node a).name = (h.node a).name ∧ (h'.node a).value = (h.node a).value) :
    contentOf h' i = contentOf h i := by
  unfold contentOf
  simp only [hi.1, hi.2.1, hi.2.2.1, hi.2.2.2, Content.mk.injEq, true_and]
  apply List.map_congr_left
  intro a hm
  rw [(ha a hm).1, (ha a hm).2]

theorem Adds.trans {h h1 h2 : Heap} {cur : NodeId} {G1 G2 : Forest Content} {F1 F2 : Forest NodeId}
    (hc : cur < h.size) (a : Adds h h1 cur G1 F1) (b : Adds h1 h2 cur G2 F2) :
    Adds h h2 cur (G1 ++ G2) (F1 ++ F2) := by
  have hs := a.size
  have hsame : ∀ i ∈ docIds h1 F1, h2.node i = h1.node i := by
    intro i hi
    have := a.range i hi
    exact b.other i (by omega) this.2
  have hd : docIds h2 F1 = docIds h1 F1 := docIds_congr fun i hi => by rw [hsame i (mem_docIds_of_mem hi)]
  refine ⟨Nat.le_trans a.size b.size, ?_, ?_, ?_, ?_, ?_⟩
  · rw [linked_append]
    exact ⟨linked_congr a.linked fun i hi => .of_eq (hsame i hi), b.linked⟩
  · rw [Forest.map_append, b.content, ← a.content]
    congr 1
    apply Forest.map_congr
    intro i hi
    apply contentOf_congr
    · rw [hsame i (mem_docIds_of_mem hi)]; simp
    · intro x hx
      rw [hsame x (mem_docIds_attr hi hx)]; simp
  · intro i hi
    rw [docIds_append, hd, List.mem_append] at hi
    have := b.size
    rcases hi with hi | hi
    · have := a.range i hi; omega
    · have := b.range i hi; omega
  · rw [b.atCur, a.atCur]; simp
  · intro j hj hlt
    rw [b.other j hj (by omega), a.other j hj hlt]

theorem Adds.nil (h : Heap) (cur : NodeId) : Adds h h cur .nil .nil := by
  refine ⟨Nat.le_refl _, trivial, rfl, by simp [docIds], by simp [Forest.roots], fun _ _ _ => rfl⟩

/-- A leaf, then a forest below it. -/
theorem AddLeaf.adds {h h1 h2 : Heap} {cur : NodeId} {c : Content} {G : Forest Content} {Fn : Forest NodeId}
    (hc : cur < h.size) (hl : AddLeaf h h1 cur c) (b : Adds h1 h2 h.size G Fn) :
    Adds h h2 cur (.cons c G .nil) (.cons h.size Fn .nil) := by
  have hs := hl.size
  have hs2 := b.size
  have hnew : h2.node h.size = { h1.node h.size with children := (h1.node h.size).children ++ Fn.roots } := b.atCur
  have hattr : ∀ a ∈ (h1.node h.size).attributes, h2.node a = h1.node a ∧ h.size < a ∧ a < h1.size ∧
      (h1.node a).parent = some h.size := by
    intro a ha
    rw [hl.new] at ha
    simp only [List.mem_range'_1] at ha
    refine ⟨b.other a (by omega) (by omega), by omega, by omega, ?_⟩
    have hka : a - (h.size + 1) < c.attrs.length := by omega
    have := hl.attr _ _ (List.getElem?_eq_getElem hka)
    rw [show h.size + 1 + (a - (h.size + 1)) = a by omega] at this
    rw [this]; rfl
  refine ⟨by omega, ⟨?_, ?_, ?_, b.linked, trivial⟩, ?_, ?_, ?_, ?_⟩
  · rw [hnew, hl.new]; rfl
  · intro a ha
    rw [hnew] at ha
    obtain ⟨e, _, _, hp⟩ := hattr a ha
    rw [e, hp]
  · rw [hnew, hl.new]; simp [mkNode]
  · simp only [Forest.map, b.content, Forest.cons.injEq, and_true]
    rw [← hl.contentOf_new]
    apply contentOf_congr
    · rw [hnew]; simp
    · intro a ha; rw [(hattr a ha).1]; simp
  · intro i hi
    simp only [docIds, List.mem_cons, List.mem_append, List.not_mem_nil, or_false] at hi
    rcases hi with rfl | hi | hi
    · omega
    · rw [hnew] at hi
      have := hattr i hi; omega
    · have := b.range i hi; omega
  · rw [b.other cur (by omega) (by omega), hl.atCur]
    simp [Forest.roots]
  · intro j hj hlt
    rw [b.other j (by omega) (by omega), hl.other j hj (.inl hlt)]

theorem buildTokens_forest (G : Forest Content) (hG : WritableForest G) (h : Heap) (cur : NodeId) (hc : cur < h.size) :
    ∃ h' Fn, Adds h h' cur G Fn ∧ ∀ rest, buildTokens (toksOf G ++ rest) h cur = buildTokens rest h' cur := by
  induction G generalizing h cur with
  | nil => exact ⟨h, .nil, .nil h cur, fun _ => rfl⟩
  | cons c k r ih1 ih2 =>
    obtain ⟨h1, h2, h3, h4⟩ := hG
    -- it suffices to treat the first tree
    suffices hone : ∃ h1 F1, Adds h h1 cur (.cons c k .nil) F1 ∧
        ∀ rest, buildTokens (toksOf (.cons c k .nil) ++ rest) h cur = buildTokens rest h1 cur by
      obtain ⟨ha, F1, a1, b1⟩ := hone
      obtain ⟨hb, F2, a2, b2⟩ := ih2 h4 ha cur (Nat.lt_of_lt_of_le hc a1.size)
      refine ⟨hb, F1 ++ F2, a1.trans hc a2, fun rest => ?_⟩
      have e : toksOf (.cons c k r) ++ rest = toksOf (.cons c k .nil) ++ (toksOf r ++ rest) := by
        simp [toksOf]
      rw [e, b1, b2]
    -- leaves
    have leaf : ∀ (ts : Token) (h' : Heap), k = .nil → AddLeaf h h' cur c → toksOf (.cons c .nil .nil) = [ts] →
        stepToken h cur ts = .ok (h', cur) → ∃ h1 F1, Adds h h1 cur (.cons c k .nil) F1 ∧
        ∀ rest, buildTokens (toksOf (.cons c k .nil) ++ rest) h cur = buildTokens rest h1 cur := by
      intro ts h' hk hl ht hs
      subst hk
      refine ⟨h', _, hl.adds hc (.nil h' h.size), fun rest => ?_⟩
      rw [ht]; simp [buildTokens, hs]
    unfold Content.Writable at h1
    split at h1 <;> rename_i hty
    · -- element
      have hcc : c = ⟨.element, c.name, [], c.attrs⟩ := by cases c; simp_all
      have hl := addLeaf_element hc c.name c.attrs
      rw [← hcc] at hl
      generalize hh1 : List.foldl (fun h' a => h'.pushAttr h.size a) (h.makeChild .element cur c.name [] none) c.attrs =
        ha at hl
      have hs := hl.size
      obtain ⟨hb, Fn, a1, b1⟩ := ih1 h3 ha h.size (by omega)
      refine ⟨hb, _, hl.adds hc a1, fun rest => ?_⟩
      have hn : (hb.node h.size).name = c.name := by rw [a1.atCur, hl.new]; rfl
      have hp : (hb.node h.size).parent = some cur := by rw [a1.atCur, hl.new]; rfl
      simp only [toksOf, hty, List.append_nil, List.cons_append, buildTokens, stepToken]
      rw [hh1, List.append_assoc, b1]
      simp [buildTokens, stepToken, hn, hp]
    · have hk := h2 (by rw [hty]; simp)
      have hcc : c = ⟨.text, [], c.value, []⟩ := by cases c; simp_all
      have hl := addLeaf_makeChild hc .text [] c.value
      rw [← hcc] at hl
      exact leaf (.charData c.value) _ hk hl (by simp [toksOf, hty])
        (by simp [stepToken])
    · have hk := h2 (by rw [hty]; simp)
      have hcc : c = ⟨.comment, [], c.value, []⟩ := by cases c; simp_all
      have hl := addLeaf_makeChild hc .comment [] c.value
      rw [← hcc] at hl
      exact leaf (.comment c.value) _ hk hl (by simp [toksOf, hty])
        (by simp [stepToken])
    · have hk := h2 (by rw [hty]; simp)
      have hcc : c = ⟨.xmlDecl, S "xml", c.value, []⟩ := by cases c; simp_all
      have hl := addLeaf_makeChild hc .xmlDecl (S "xml") c.value
      rw [← hcc] at hl
      exact leaf (.procInst (S "xml") c.value) _ hk hl
        (by simp [toksOf, hty]) (by simp [stepToken])
    · have hk := h2 (by rw [hty]; simp)
      have hcc : c = ⟨.instruction, c.name, c.value, []⟩ := by cases c; simp_all
      have hl := addLeaf_makeChild hc .instruction c.name c.value
      rw [← hcc] at hl
      exact leaf (.procInst c.name c.value) _ hk hl
        (by simp [toksOf, hty]) (by simp [stepToken, h1.2.1])
    · exact absurd h1 id

theorem linked_unique {h : Heap} {p : Option NodeId} {F G : Forest NodeId} (hF : Linked h p F) (hG : Linked h p G)
    (hr : F.roots = G.roots) : F = G := by
  induction F generalizing p G with
  | nil => cases G with
    | nil => rfl
    | cons => simp [Forest.roots] at hr
  | cons a k r ih1 ih2 =>
    cases G with
    | nil => simp [Forest.roots] at hr
    | cons b k' r' =>
      simp only [Forest.roots, List.cons.injEq] at hr
      obtain ⟨rfl, hr⟩ := hr
      obtain ⟨_, _, f3, f4, f5⟩ := hF
      obtain ⟨_, _, g3, g4, g5⟩ := hG
      rw [ih1 f4 g4 (f3.symm.trans g3), ih2 f5 g5 hr]

/-- Parsing a written forest gives the forest with texts joined. -/
theorem newDocument_strOf (h : Heap) (hw : HeapWF h) (G : Forest Content) (hG : WritableForest G) :
    ∃ h' F, newDocument h (strOf G) = some (.ok (h', h.size)) ∧ ParsedDoc h' h.size F ∧
      F.map (contentOf h') = joinTexts [] G ∧ HeapWF h' := by
  have hs := stream_strOf G hG
  obtain ⟨h', Fn, ha, hb⟩ := buildTokens_forest (joinTexts [] G) (joinTexts_writable hG [] clean_nil)
    (h.alloc (mkNode .documentRoot none [] [])) h.size (by simp)
  have hb' := hb []
  simp only [List.append_nil, buildTokens] at hb'
  have hd : newDocument h (strOf G) = some (.ok (h', h.size)) := by
    rw [newDocument_stream hs, hb']; rfl
  obtain ⟨F, cur, hi⟩ := newDocument_parsed hw hd (P := fun _ => True) (fun _ _ _ _ _ _ => trivial)
  have hroots : F.roots = Fn.roots := by
    rw [← hi.doc.linked.2.2.1, ha.atCur]; simp [mkNode]
  have : F = Fn := linked_unique hi.doc.linked.2.2.2.1 ha.linked hroots
  subst this
  exact ⟨h', F, hd, hi.doc, ha.content, hi.wf⟩

end Amxml
