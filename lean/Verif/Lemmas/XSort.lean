import Verif.Lemmas.Axes

/-!
# Lemmas on sorting by document order
-/

namespace Amxml
open Spec

theorem insertByOrder_perm (h : Heap) (i : NodeId) (l : List NodeId) : (insertByOrder h i l).Perm (i :: l) := by
  induction l with
  | nil => exact .refl _
  | cons j l ih =>
    simp only [insertByOrder]
    split
    · exact (ih.cons j).trans (.swap _ _ _)
    · exact .refl _

theorem sortByOrder_perm_aux (h : Heap) (l : List NodeId) : ∀ acc, (l.foldl (fun acc i => insertByOrder h i acc) acc).Perm (acc ++ l) := by
  induction l with
  | nil => intro acc; simp
  | cons i l ih =>
    intro acc
    refine (ih _).trans ?_
    refine ((insertByOrder_perm h i acc).append_right l).trans ?_
    simpa using (List.perm_middle (a := i) (l₁ := acc) (l₂ := l)).symm

theorem sortByOrder_perm (h : Heap) (l : List NodeId) : (sortByOrder h l).Perm l := by
  simpa [sortByOrder] using sortByOrder_perm_aux h l []

theorem insertByOrder_sorted (h : Heap) (i : NodeId) (l : List NodeId) (hl : l.Pairwise fun a b => orderOf h a ≤ orderOf h b) :
    (insertByOrder h i l).Pairwise fun a b => orderOf h a ≤ orderOf h b := by
  induction l with
  | nil => simp [insertByOrder]
  | cons j l ih =>
    simp only [insertByOrder]
    rw [List.pairwise_cons] at hl
    split
    · rename_i hji
      refine List.pairwise_cons.2 ⟨?_, ih hl.2⟩
      intro x hx
      rcases List.mem_cons.1 ((insertByOrder_perm h i l).mem_iff.1 hx) with rfl | hx
      · exact hji
      · exact hl.1 x hx
    · rename_i hji
      refine List.pairwise_cons.2 ⟨?_, List.pairwise_cons.2 hl⟩
      intro x hx
      rcases List.mem_cons.1 hx with rfl | hx
      · omega
      · have := hl.1 x hx; omega

theorem sortByOrder_sorted (h : Heap) (l : List NodeId) : (sortByOrder h l).Pairwise fun a b => orderOf h a ≤ orderOf h b := by
  unfold sortByOrder
  have gen : ∀ (l acc : List NodeId), (acc.Pairwise fun a b => orderOf h a ≤ orderOf h b) →
      (l.foldl (fun acc i => insertByOrder h i acc) acc).Pairwise fun a b => orderOf h a ≤ orderOf h b := by
    intro l
    induction l with
    | nil => intro acc ha; exact ha
    | cons i l ih => intro acc ha; exact ih _ (insertByOrder_sorted h i acc ha)
  exact gen l [] (by simp)

theorem mem_dedupe (l : List NodeId) (x : NodeId) : x ∈ dedupe l ↔ x ∈ l := by
  induction l with
  | nil => simp [dedupe]
  | cons i l ih =>
    simp only [dedupe]
    cases e : dedupe l with
    | nil =>
      rw [e] at ih
      simp only [List.not_mem_nil, false_iff] at ih
      simp [ih]
    | cons j r =>
      rw [e] at ih
      simp only
      split
      · rename_i hij; subst hij
        simp only [List.mem_cons] at ih ⊢
        rw [← ih]; simp
      · simp only [List.mem_cons] at ih ⊢
        rw [ih]

theorem dedupe_sorted (o : NodeId → Int) (l : List NodeId) (hl : l.Pairwise fun a b => o a ≤ o b)
    (hinj : ∀ a ∈ l, ∀ b ∈ l, o a = o b → a = b) : (dedupe l).Pairwise fun a b => o a < o b := by
  induction l with
  | nil => simp [dedupe]
  | cons i l ih =>
    rw [List.pairwise_cons] at hl
    have ih := ih hl.2 fun a ha b hb => hinj a (by simp [ha]) b (by simp [hb])
    have hm := mem_dedupe l
    simp only [dedupe]
    cases e : dedupe l with
    | nil => simp
    | cons j r =>
      rw [e] at ih hm
      simp only
      split
      · rename_i hij; subst hij; exact ih
      · rename_i hij
        refine List.pairwise_cons.2 ⟨?_, ih⟩
        have hjl : j ∈ l := (hm j).1 (by simp)
        have hlt : o i < o j := by
          have h1 := hl.1 j hjl
          have h2 : o i ≠ o j := fun h' => hij (hinj i (by simp) j (by simp [hjl]) h')
          omega
        intro x hx
        rcases List.mem_cons.1 hx with rfl | hx
        · exact hlt
        · have := (List.pairwise_cons.1 ih).1 x hx; omega

/-- A strictly sorted list of elements of a strictly sorted list is a sublist of it. -/
theorem sublist_of_sorted {o : NodeId → Int} (D : List NodeId) : ∀ l : List NodeId, (D.Pairwise fun a b => o a < o b) →
    (l.Pairwise fun a b => o a < o b) → (∀ x ∈ l, x ∈ D) → l.Sublist D := by
  induction D with
  | nil =>
    intro l _ _ hs
    cases l with
    | nil => exact .slnil
    | cons x l => exact absurd (hs x (by simp)) (by simp)
  | cons d D ih =>
    intro l hD hl hs
    rw [List.pairwise_cons] at hD
    cases l with
    | nil => exact List.nil_sublist _
    | cons x l =>
      rw [List.pairwise_cons] at hl
      have rest : ∀ y ∈ l, y ∈ D ∨ y = d := fun y hy => by
        rcases List.mem_cons.1 (hs y (by simp [hy])) with e | e
        · exact .inr e
        · exact .inl e
      by_cases hx : x = d
      · subst hx
        refine (ih l hD.2 hl.2 fun y hy => ?_).cons_cons x
        rcases rest y hy with h1 | rfl
        · exact h1
        · have := hl.1 y hy; omega
      · have hxD : x ∈ D := by
          rcases List.mem_cons.1 (hs x (by simp)) with e | e
          · exact absurd e hx
          · exact e
        refine (ih (x :: l) hD.2 (List.pairwise_cons.2 hl) fun y hy => ?_).cons d
        rcases List.mem_cons.1 hy with rfl | hy
        · exact hxD
        · rcases rest y hy with h1 | rfl
          · exact h1
          · have h1 := hl.1 y hy
            have h2 := hD.1 x hxD
            omega

/-- Two sublists of a list without repetitions that have the same members are equal. -/
theorem sublist_ext {D : List NodeId} (hD : D.Nodup) {l m : List NodeId} (hl : l.Sublist D) (hm : m.Sublist D)
    (he : ∀ x, x ∈ l ↔ x ∈ m) : l = m := by
  have hlm : l.Perm m := (List.perm_ext_iff_of_nodup (hD.sublist hl) (hD.sublist hm)).2 he
  induction D generalizing l m with
  | nil => rw [List.sublist_nil.1 hl, List.sublist_nil.1 hm]
  | cons d D ih =>
    rw [List.nodup_cons] at hD
    have nd : ∀ {l : List NodeId}, l.Sublist (d :: D) → d ∉ l → l.Sublist D := by
      intro l h1 h2
      cases h1 with
      | cons _ h => exact h
      | cons_cons _ h => exact absurd (by simp) h2
    have yd : ∀ {l : List NodeId}, l.Sublist (d :: D) → d ∈ l → ∃ l', l = d :: l' ∧ l'.Sublist D := by
      intro l h1 h2
      cases h1 with
      | cons _ h => exact absurd (h.subset h2) hD.1
      | cons_cons _ h => exact ⟨_, rfl, h⟩
    by_cases hd : d ∈ l
    · obtain ⟨l', rfl, h1⟩ := yd hl hd
      obtain ⟨m', rfl, h2⟩ := yd hm ((he d).1 hd)
      have := hlm.cons_inv
      rw [ih hD.2 h1 h2 (fun x => this.mem_iff) this]
    · exact ih hD.2 (nd hl hd) (nd hm fun h' => hd ((he d).2 h')) he hlm

theorem toNodeset_ofNodes (l : List NodeId) : XSeq.toNodeset (XSeq.ofNodes l) = l := by
  induction l with
  | nil => rfl
  | cons i l ih => simp only [XSeq.ofNodes, XSeq.toNodeset] at ih ⊢; simp [XItem.asNode, ih]

theorem mem_toNodeset (s : XSeq) (i : NodeId) : i ∈ s.toNodeset ↔ XItem.node i ∈ s := by
  simp only [XSeq.toNodeset, List.mem_filterMap]
  constructor
  · rintro ⟨x, hx, e⟩
    cases x <;> simp [XItem.asNode] at e
    subst e; exact hx
  · intro hx; exact ⟨_, hx, rfl⟩

/-- The numbers the evaluator reads are the order of the document. -/
theorem orderOf_spec {h : Heap} {r : NodeId} {F : Forest NodeId} (hd : DocTree h r F) (hc : OrderCorrect h r F) :
    (docIds h (.cons r F .nil)).Pairwise fun i j => orderOf h i < orderOf h j := by
  obtain ⟨o, hp, ho⟩ := hc
  have hlen := doc_length_le hd
  have e : ∀ i ∈ docIds h (.cons r F .nil), orderOf h i = o i := by
    intro i hi
    obtain ⟨h', hh⟩ := ho i hi (h.size + 1) (by simp at hlen; omega)
    simp [orderOf, hh]
  exact hp.imp_of_mem fun {a b} ha hb hlt => by rw [e a ha, e b hb]; exact hlt

theorem pairwise_lt_inj {o : NodeId → Int} {D : List NodeId} (hD : D.Pairwise fun a b => o a < o b) :
    ∀ a ∈ D, ∀ b ∈ D, o a = o b → a = b := by
  induction D with
  | nil => intro a ha; simp at ha
  | cons d D ih =>
    rw [List.pairwise_cons] at hD
    intro a ha b hb e
    rcases List.mem_cons.1 ha with ha | ha <;> rcases List.mem_cons.1 hb with hb | hb
    · rw [ha, hb]
    · have := hD.1 b hb; subst ha; omega
    · have := hD.1 a ha; subst hb; omega
    · exact ih hD.2 a ha b hb e

/-- What `sort_by_doc_order` does with nodes of a document whose order numbers are right. -/
theorem sortByDocOrder_spec {h : Heap} {r : NodeId} {F : Forest NodeId} (hd : DocTree h r F) (hc : OrderCorrect h r F)
    (l : List NodeId) (hl : ∀ i ∈ l, i ∈ docIds h (.cons r F .nil)) :
    (sortByDocOrder h l).Sublist (docIds h (.cons r F .nil)) ∧ ∀ i, i ∈ sortByDocOrder h l ↔ i ∈ l := by
  have hD := orderOf_spec hd hc
  unfold sortByDocOrder
  split
  · rename_i hlen
    refine ⟨?_, fun _ => Iff.rfl⟩
    match l, hlen, hl with
    | [], _, _ => exact List.nil_sublist _
    | [i], _, hl => exact List.singleton_sublist.2 (hl i (by simp))
  · have hm : ∀ i, i ∈ dedupe (sortByOrder h l) ↔ i ∈ l := fun i => by
      rw [mem_dedupe, (sortByOrder_perm h l).mem_iff]
    refine ⟨?_, hm⟩
    apply sublist_of_sorted _ _ hD
    · apply dedupe_sorted _ _ (sortByOrder_sorted h l)
      intro a ha b hb e
      exact pairwise_lt_inj hD a (hl a ((sortByOrder_perm h l).mem_iff.1 ha)) b (hl b ((sortByOrder_perm h l).mem_iff.1 hb)) e
    · intro x hx
      exact hl x ((hm x).1 hx)

end Amxml
