import Verif.Lemmas.Entity
import Verif.Lemmas.EntityAmp
import Verif.Lemmas.Sax

/-!
# C01, C02, C12: entity encoding and decoding
-/

namespace Amxml
open Spec

/-- **C01.** Decoding (as the parser reads text and attribute values) undoes encoding (as `to_string()` writes
them), for every string. -/
theorem C01_decode_encode (s : Str) : decodeEntity (encodeEntity s) = s := decode_encode' s

/-- **C02.** The encoded form contains none of `<`, `>`, `"`, `'`, and every `&` in it begins a reference to a
predefined entity. -/
theorem C02_encoded_has_no_markup (s : Str) :
    (∀ c ∈ encodeEntity s, c ≠ '<' ∧ c ≠ '>' ∧ c ≠ '"' ∧ c ≠ '\'') ∧
    (∀ pre post, encodeEntity s = pre ++ '&' :: post → ∃ e : Ent, (e.name ++ [';']) <+: post) := by
  rw [encodeEntity_eq]
  constructor
  · intro c hc
    simp only [List.mem_flatMap] at hc
    obtain ⟨a, _, hc⟩ := hc
    unfold esc at hc
    repeat' split at hc
    all_goals simp [S] at hc
    all_goals (try (rcases hc with rfl | rfl | rfl | rfl | rfl | rfl) <;> decide)
    all_goals (try (rcases hc with rfl | rfl | rfl | rfl | rfl) <;> decide)
    all_goals (try (rcases hc with rfl | rfl | rfl | rfl) <;> decide)
    subst hc; simp_all
  · induction s with
    | nil => intro pre post h; simp at h
    | cons a s ih =>
      intro pre post h
      simp only [List.flatMap_cons] at h
      rcases List.append_eq_append_iff.1 h with ⟨w, h1, h2⟩ | ⟨w, h1, h2⟩
      · exact ih w post h2
      · rcases w with _ | ⟨x, w⟩
        · simp at h2
          exact ih [] post (by simpa using h2.symm)
        · simp at h2
          obtain ⟨rfl, rfl⟩ := h2
          have key : ∀ e : Ent, '&' :: (e.name ++ [';']) = pre ++ '&' :: w →
              (e.name ++ [';']) <+: w ++ s.flatMap esc := by
            intro e he
            cases pre with
            | nil => simp at he; exact ⟨s.flatMap esc, by simp [← he]⟩
            | cons p pre =>
              have hm : '&' ∈ e.name ++ [';'] := by
                simp at he; simp [he.2]
              cases e <;> simp [Ent.name] at hm
          unfold esc at h1
          repeat' split at h1
          · exact ⟨.amp, key .amp h1⟩
          · exact ⟨.gt, key .gt h1⟩
          · exact ⟨.lt, key .lt h1⟩
          · exact ⟨.quot, key .quot h1⟩
          · exact ⟨.apos, key .apos h1⟩
          · rename_i hne _ _ _ _
            have : '&' ∈ [a] := by rw [h1]; simp
            simp at this
            exact absurd this.symm hne

/-- **C02**: the encoder writes `<`, `>`, `&`, `"` and `'` as the references to the entities that stand for them, and every other
character as it is. -/
theorem C02_escape (s : Str) : encodeEntity s = escape s := (escape_eq s).symm

/-- **C12**, positive part: a text made of literal characters, decimal and hexadecimal character references and
predefined entity references decodes, in one pass from left to right, to the characters named — for all texts in
which no *numeric* reference to `&` stands before `#` or the name of an entity and `;` (literal or again written with references).

Full statement: the same without the hypothesis on numeric references to `&`. It is false of the code, see
`C12_numeric_amp_decoded_twice`. -/
theorem C12_references_partial (ps : List Piece) (hwf : ∀ p ∈ ps, p.WF) (hamp : Unambiguous ps) :
    decodeEntity (renderAll ps) = meaningAll ps :=
  EntityAmp.decode ps hwf hamp

/-- **C12** for character data (partial as above): text made of such pieces, up to the next tag or the end of the input, is read as one
character data token with the characters that the pieces stand for. -/
theorem C12_text_partial (ps : List Piece) (hwf : ∀ p ∈ ps, p.WF) (hamp : Unambiguous ps) (hne : renderAll ps ≠ [])
    (hlt : '<' ∉ renderAll ps) (h0 : '\x00' ∉ renderAll ps) (t : Str) (ht : t = [] ∨ ∃ r, t = '<' :: r) :
    rawToken ⟨renderAll ps ++ t, []⟩ = some (.ok (.charData (meaningAll ps)), ⟨t, []⟩) := by
  rw [rawToken_text _ t hne hlt h0 ht, C12_references_partial ps hwf hamp]

/-- **C12** for attribute values (partial as above): in a start tag, each attribute whose value is written with such pieces, in quotation
marks or apostrophes, is reported with the characters that the pieces stand for. -/
theorem C12_attribute_partial (n : Str) (hn : IsName n) (as : List (AttrSrc × List Piece))
    (hwf : ∀ a ∈ as, a.1.WF ∧ a.1.raw = renderAll a.2 ∧ (∀ p ∈ a.2, p.WF) ∧ Unambiguous a.2) (ws : Str) (hws : IsSpaces ws) (t : Str) :
    rawToken ⟨'<' :: (n ++ as.flatMap (fun a => a.1.render) ++ ws ++ '>' :: t), []⟩ =
      some (.ok (.startElement n (as.map fun a => (a.1.name, meaningAll a.2))), ⟨t, []⟩) := by
  have := rawToken_startTag n hn (as.map (·.1)) (by simpa using fun a b hab => (hwf (a, b) hab).1) ws hws false t
  rw [List.flatMap_map, List.map_map] at this
  have e : List.map ((fun a : AttrSrc => (a.name, decodeEntity a.raw)) ∘ fun x : AttrSrc × List Piece => x.1) as =
      as.map fun a => (a.1.name, meaningAll a.2) := by
    apply List.map_congr_left
    intro a ha
    obtain ⟨_, h1, h2, h3⟩ := hwf a ha
    simp only [Function.comp]
    rw [h1, C12_references_partial _ h2 h3]
  rw [e] at this
  exact this

/-- **C12**, negative part: `&#38;` followed by the literal characters `lt;` stands for the four characters `&lt;`,
but the code decodes the result again; the same for every entity, and for `&#38;#65;`, which stands for `&#65;`. -/
theorem C12_numeric_amp_decoded_twice :
    (∃ ps : List Piece, (∀ p ∈ ps, p.WF) ∧ meaningAll ps = "&lt;".toList ∧ decodeEntity (renderAll ps) = "<".toList) ∧
    (∀ e : Ent, meaningAll (.dec [3, 8] :: (e.name ++ [';']).map .lit) = '&' :: (e.name ++ [';']) ∧
      decodeEntity (renderAll (.dec [3, 8] :: (e.name ++ [';']).map .lit)) = [e.char]) ∧
    meaningAll (.dec [3, 8] :: "#65;".toList.map .lit) = "&#65;".toList ∧
      decodeEntity (renderAll (.dec [3, 8] :: "#65;".toList.map .lit)) = "A".toList :=
  ⟨⟨[.dec [3, 8], .lit 'l', .lit 't', .lit ';'], by simp [Piece.WF], by decide, by decide⟩,
   fun e => by cases e <;> decide, by decide, by decide⟩

/-! ### non-vacuity -/

/-- `<n a='&#65;&lt;'>`: the hypotheses of `C12_attribute_partial` hold. -/
example : rawToken ⟨S "<n a='&#65;&lt;'>x", []⟩ = some (.ok (.startElement (S "n") [(S "a", S "A<")]), ⟨S "x", []⟩) :=
  C12_attribute_partial (S "n") ⟨'n', [], rfl, by decide +kernel, by simp⟩ [(⟨S " ", S "a", [], [], '\'', S "&#65;&lt;"⟩, [.dec [6, 5], .ent .lt])]
    (by
      intro a ha
      simp only [List.mem_singleton] at ha
      subst ha
      refine ⟨⟨by decide, ?_, ?_, ?_, ?_, by decide, by decide, by decide⟩, by decide, ?_, ?_⟩
      · unfold IsSpaces; decide
      · exact ⟨'a', [], rfl, by decide +kernel, by simp⟩
      · unfold IsSpaces; decide
      · unfold IsSpaces; decide
      · simp [Piece.WF]
      · decide +kernel) [] (by unfold IsSpaces; decide) (S "x")


example : encodeEntity "a<b & 'c' \"&lt;\" &#65;".toList =
    "a&lt;b &amp; &apos;c&apos; &quot;&amp;lt;&quot; &amp;#65;".toList := by decide +kernel

example : renderAll [.dec [6, 5], .lit ';', .hex [(14, true), (9, false)], .ent .amp, .lit 'l', .lit 't', .lit ';',
    .hex [(13, false), (8, false), (0, false), (0, false)]] = "&#65;;&#xE9;&amp;lt;&#xd800;".toList ∧
    meaningAll [.dec [6, 5], .lit ';', .hex [(14, true), (9, false)], .ent .amp, .lit 'l', .lit 't', .lit ';',
    .hex [(13, false), (8, false), (0, false), (0, false)]] = "A;é&lt;〓".toList := by
  constructor <;> decide +kernel

/-- `AT&#38;T&#x26; lt;`: references to `&` that are read as such. -/
example : renderAll [.lit 'A', .lit 'T', .dec [3, 8], .lit 'T', .hex [(2, false), (6, false)], .lit ' ', .lit 'l', .lit 't', .lit ';'] =
      "AT&#38;T&#x26; lt;".toList ∧
    Unambiguous [.lit 'A', .lit 'T', .dec [3, 8], .lit 'T', .hex [(2, false), (6, false)], .lit ' ', .lit 'l', .lit 't', .lit ';'] := by
  decide +kernel

end Amxml
