import Verif.Spec.Settle
import Verif.Props.Serial

/-!
# C04: exactly when writing is stable
-/

namespace Amxml
open Spec

namespace Settle

theorem blank_join {G : Forest Content} (hb : G.blank = true) : joinTexts [] G = .nil := by
  induction G with
  | nil => rfl
  | cons c k r _ ih =>
    rw [Forest.blank, Bool.and_eq_true, decide_eq_true_iff] at hb
    rw [joinTexts, if_pos hb.1.1, hb.1.2]
    exact ih hb.2

theorem join_blank {G : Forest Content} (hb : joinTexts [] G = .nil) : G.blank = true := by
  have := (joinTexts_eq_nil hb).2
  clear hb
  induction G with
  | nil => rfl
  | cons c k r _ ih =>
    rw [Forest.blank, Bool.and_eq_true, decide_eq_true_iff]
    exact ⟨this c (by simp [Forest.roots]), ih fun d hd => this d (by simp [Forest.roots, hd])⟩

theorem settle_roots {G : Forest Content} (h : G.settle.roots.length = 0) : G = .nil := by
  cases G with
  | nil => rfl
  | cons c k r => simp [Forest.settle, Forest.roots] at h

/-- What is written after a round is the settled forest. -/
theorem strOf_join (G : Forest Content) (hw : WritableForest G) (u : Str) :
    strOf (joinTexts u G) = encodeEntity u ++ strOf G.settle := by
  induction G generalizing u with
  | nil => simp only [joinTexts, strOf_consText, Forest.settle]
  | cons c k r ih1 ih2 =>
    obtain ⟨w1, w2, w3, w4⟩ := hw
    have hnil : encodeEntity [] = [] := by decide
    simp only [joinTexts]
    split
    · rename_i ht
      rw [ih2 w4, encode_append]
      simp [strOf, ht, Forest.settle]
    · rw [strOf_consText, Forest.settle]
      have i1 := ih1 w3 []
      have i2 := ih2 w4 []
      rw [hnil, List.nil_append] at i1 i2
      by_cases hb : k.blank = true
      · rw [if_pos hb, blank_join hb]
        simp only [strOf, i2]
      · rw [if_neg hb]
        have hj : joinTexts [] k ≠ .nil := fun e => hb (join_blank e)
        have hlen : (joinTexts [] k).roots.length = 0 ↔ k.settle.roots.length = 0 := by
          refine ⟨fun e => absurd (Forest.roots_eq_nil.1 (List.length_eq_zero_iff.1 e)) hj, fun e => ?_⟩
          rw [settle_roots e] at hb
          exact absurd rfl hb
        simp only [strOf, i1, i2, hlen]

/-- No element has only empty texts in it. -/
def Full : Forest Content → Prop
  | .nil => True
  | .cons c k r => ¬ (c.ntype = .element ∧ k ≠ .nil ∧ k.blank = true) ∧ Full k ∧ Full r

theorem settle_full {G : Forest Content} (hw : WritableForest G) (hf : Full G) : G.settle = G := by
  induction G with
  | nil => rfl
  | cons c k r ih1 ih2 =>
    obtain ⟨w1, w2, w3, w4⟩ := hw
    rw [Forest.settle, ih1 w3 hf.2.1, ih2 w4 hf.2.2]
    split
    · rename_i hb
      by_cases hk : k = .nil
      · rw [hk]
      · by_cases ht : c.ntype = .element
        · exact absurd ⟨ht, hk, hb⟩ hf.1
        · exact absurd (w2 ht) hk
    · rfl

theorem shorter (G : Forest Content) (hw : WritableForest G) :
    (strOf G.settle).length ≤ (strOf G).length ∧ ((strOf G.settle).length = (strOf G).length → Full G) := by
  induction G with
  | nil => exact ⟨Nat.le_refl _, fun _ => trivial⟩
  | cons c k r ih1 ih2 =>
    obtain ⟨w1, w2, w3, w4⟩ := hw
    obtain ⟨a1, a2⟩ := ih1 w3
    obtain ⟨b1, b2⟩ := ih2 w4
    by_cases ht : c.ntype = .element
    · by_cases hk : k = .nil
      · subst hk
        simp only [Forest.settle, Forest.blank, if_true, strOf, ht, List.length_append, Forest.roots, List.length_nil] at *
        exact ⟨by omega, fun e => ⟨by rintro ⟨-, h, -⟩; exact h rfl, trivial, b2 (by omega)⟩⟩
      · have hl : ¬ k.roots.length = 0 := fun e => hk (Forest.roots_eq_nil.1 (List.length_eq_zero_iff.1 e))
        have hl' : ¬ k.settle.roots.length = 0 := fun e => hk (settle_roots e)
        rw [Forest.settle]
        by_cases hb : k.blank = true
        · rw [if_pos hb]
          simp only [strOf, ht, if_neg hl, Forest.roots, List.length_nil, if_true, List.length_append]
          have s1 : (S "/>").length = 2 := rfl
          have s2 : (S "</").length = 2 := rfl
          have s3 : (S ">").length = 1 := rfl
          exact ⟨by omega, fun e => by omega⟩
        · rw [if_neg hb]
          simp only [strOf, ht, if_neg hl, if_neg hl', List.length_append]
          exact ⟨by omega, fun e => ⟨fun h => hb h.2.2, a2 (by omega), b2 (by omega)⟩⟩
    · have hk := w2 ht
      subst hk
      have e : Forest.settle (.cons c .nil r) = .cons c .nil r.settle := rfl
      rw [e]
      simp only [strOf, List.length_append]
      refine ⟨by omega, fun e => ⟨fun h => ht h.1, trivial, b2 (by omega)⟩⟩

theorem blank_iff {h : Heap} (F : Forest NodeId) : (F.map (contentOf h)).blank = true ↔ ∀ c ∈ F.roots, (h.node c).ntype = .text ∧ (h.node c).value = [] := by
  induction F with
  | nil => simp [Forest.map, Forest.blank, Forest.roots]
  | cons a k r _ ih =>
    rw [Forest.map, Forest.blank, Bool.and_eq_true, decide_eq_true_iff, ih, Forest.roots]
    simp only [List.mem_cons, forall_eq_or_imp]
    rfl

theorem full_iff {h : Heap} (F : Forest NodeId) (p : Option NodeId) (hl : Linked h p F) :
    Full (F.map (contentOf h)) ↔ ∀ i ∈ F.toList, ¬ Hollow h i := by
  induction F generalizing p with
  | nil => simp [Forest.map, Full, Forest.toList]
  | cons a k r ih1 ih2 =>
    obtain ⟨-, -, hc, h1, h2⟩ := hl
    rw [Forest.map, Full, ih1 _ h1, ih2 _ h2, Forest.toList]
    simp only [List.mem_cons, List.mem_append, or_imp, forall_and, forall_eq]
    refine and_congr (not_congr ?_) Iff.rfl
    rw [Hollow, hc, blank_iff]
    refine and_congr Iff.rfl (and_congr ?_ Iff.rfl)
    rw [not_iff_not]
    cases k with
    | nil => simp [Forest.map, Forest.roots]
    | cons x y z => simp [Forest.map, Forest.roots]

end Settle

/-- **C04**, exactly: let `s` be a text without U+0000 that `new_document` accepts, and let the resulting document contain no U+0000, no carriage
return and no element without a name. Then the text that `to_string()` gives is accepted again; what `to_string()` then gives is the text of
the document in which elements with nothing but empty text in them have nothing in them; and that is the same text if and only if there is no
such element. -/
theorem C04_exact (h : Heap) (hw : HeapWF h) (s : Str) (h0 : '\x00' ∉ s) (h1 : Heap) (r1 : NodeId)
    (hd : newDocument h s = some (.ok (h1, r1))) (hr : ∀ F, ParsedDoc h1 r1 F → ∀ i ∈ F.toList, Readable (contentOf h1 i)) :
    ∃ F s1 h2 r2 s2, ParsedDoc h1 r1 F ∧ (∃ n, ∀ m ≥ n, h1.toString m r1 = some s1) ∧ newDocument h1 s1 = some (.ok (h2, r2)) ∧
      (∃ n, ∀ m ≥ n, h2.toString m r2 = some s2) ∧ s2 = strOf (F.map (contentOf h1)).settle ∧
      (s2 = s1 ↔ ∀ i ∈ F.toList, ¬ Hollow h1 i) := by
  obtain ⟨F, hp, hc, hw1⟩ := newDocument_contents hw h0 hd
  have hwr := writable_of_parsed hp hc (hr F hp)
  obtain ⟨h2, F2, e, hp2, hc2, _⟩ := newDocument_strOf h1 hw1 _ hwr
  have e2 : strOf (joinTexts [] (F.map (contentOf h1))) = strOf (F.map (contentOf h1)).settle := by
    rw [Settle.strOf_join _ hwr]
    have hnil : encodeEntity [] = [] := by decide
    rw [hnil, List.nil_append]
  refine ⟨F, _, h2, h1.size, _, hp, ⟨_, fun m hm => toString_total hp.toDocTree hp.root_type m hm⟩, e, ⟨F2.toList.length + 1, fun m hm => ?_⟩, rfl, ?_⟩
  · rw [toString_total hp2.toDocTree hp2.root_type m hm, hc2, e2]
  · rw [← Settle.full_iff F _ hp.linked.2.2.2.1]
    refine ⟨fun e => (Settle.shorter _ hwr).2 (congrArg _ e), fun hf => by rw [Settle.settle_full hwr hf]⟩

/-- There are hollow elements: `<a><![CDATA[]]></a>` (see `C04_empty_cdata_counterexample`). -/
example : strOf (Forest.cons ⟨.element, S "a", [], []⟩ (.cons ⟨.text, [], [], []⟩ .nil .nil) .nil) = S "<a></a>" ∧
    strOf (Forest.settle (Forest.cons ⟨.element, S "a", [], []⟩ (.cons ⟨.text, [], [], []⟩ .nil .nil) .nil)) = S "<a/>" := by decide

end Amxml
