import Verif.Props.Links

/-!
# C24: exactly which links an edit breaks
-/

namespace Amxml
open Spec

/-- The node `p` lists the node `c` as a child, but `parent()` of `c` is not `p`. -/
def Spec.Misplaced (h : Heap) (p c : NodeId) : Prop := c ∈ (h.node p).children ∧ (h.node c).parent ≠ some p

theorem copy_misplaced {h h' : Heap} (hw : HeapWF h) {p x : NodeId} (hps : p < h.size) (hxp : x ≠ p) {a c : List NodeId}
    (hi : InsertedCopy h h' p x a c) (hsub : ∀ g ∈ a ++ c, g ∈ (h.node p).children)
    (hfresh : ∀ j, h.size < j → (h'.node j).children = []) (q g : NodeId) :
    Misplaced h' q g ↔ (Misplaced h q g ∧ g ∈ (h'.node q).children) ∨ (q = h.size ∧ g ∈ (h.node x).children) := by
  have hpar : ∀ j, j < h.size → (h'.node j).parent = (h.node j).parent := by
    intro j hj
    by_cases e : j = p
    · rw [e]; exact hi.parentKept.2.2.2.2
    · exact (hi.other j e hj).links.1
  unfold Misplaced
  by_cases hq : q = h.size
  · subst hq
    rw [hi.copy.2.2.2.2.1 hxp, (hw.fresh _ (Nat.le_refl _)).2.1]
    simp only [List.not_mem_nil, false_and, false_or, true_and]
    refine ⟨fun e => e.1, fun e => ⟨e, ?_⟩⟩
    have hg := hw.closed x g (.inl e)
    rw [hpar g hg]
    intro e2
    have := hw.parent_lt g _ e2
    omega
  · simp only [hq, false_and, or_false]
    rcases Nat.lt_or_ge h.size q with hlt | hge
    · rw [hfresh q hlt]; simp
    · have hq' : q < h.size := by omega
      by_cases e : q = p
      · subst e
        rw [hi.children]
        have hmem : ∀ g, g ∈ a ++ h.size :: c ↔ g = h.size ∨ g ∈ a ++ c := by
          intro g; simp only [List.mem_append, List.mem_cons]; tauto
        rw [hmem]
        constructor
        · rintro ⟨rfl | hg, h2⟩
          · exact absurd hi.copy.2.2.2.2.2 h2
          · have hg' := hsub g hg
            rw [hpar g (hw.closed q g (.inl hg'))] at h2
            exact ⟨⟨hg', h2⟩, .inr hg⟩
        · rintro ⟨⟨h1, h2⟩, h3⟩
          refine ⟨h3, ?_⟩
          rw [hpar g (hw.closed q g (.inl h1))]
          exact h2
      · rw [(hi.other q e hq').links.2.1]
        constructor
        · rintro ⟨h1, h2⟩
          rw [hpar g (hw.closed q g (.inl h1))] at h2
          exact ⟨⟨h1, h2⟩, h1⟩
        · rintro ⟨⟨h1, h2⟩, -⟩
          exact ⟨h1, by rw [hpar g (hw.closed q g (.inl h1))]; exact h2⟩

/-- **C24**, exactly: which nodes are listed by a node that is not their parent, after each edit. Setting and deleting attributes makes no
difference; a deletion only takes such a link away with the child; `append_child` adds exactly the child appended, unless its parent is the
node already; and the insertion of a copy of `x` adds exactly the children of `x`, listed by the copy too. -/
theorem C24_exact (h : Heap) (hw : HeapWF h) :
    (∀ i n v, i < h.size → ∀ q g, Misplaced (h.setAttribute i n v) q g ↔ Misplaced h q g) ∧
    (∀ i n, ∀ q g, Misplaced (h.deleteAttribute i n) q g ↔ Misplaced h q g) ∧
    (∀ i t, ∀ q g, Misplaced (h.deleteChild i t) q g ↔ Misplaced h q g ∧ g ∈ ((h.deleteChild i t).node q).children) ∧
    (∀ i c, ∀ q g, Misplaced (h.appendChild i c) q g ↔ Misplaced h q g ∨ (q = i ∧ g = c ∧ (h.node c).parent ≠ some i)) ∧
    ∀ self x p, self < h.size → x < h.size → (h.node self).parent = some p → self ∈ (h.node p).children → x ≠ p →
      ∀ q g,
        (Misplaced (h.insertPrev self x) q g ↔ Misplaced h q g ∨ (q = h.size ∧ g ∈ (h.node x).children)) ∧
        (Misplaced (h.insertNext self x) q g ↔ Misplaced h q g ∨ (q = h.size ∧ g ∈ (h.node x).children)) ∧
        (Misplaced (h.replaceWith self x) q g ↔
          (Misplaced h q g ∧ g ∈ ((h.replaceWith self x).node q).children) ∨ (q = h.size ∧ g ∈ (h.node x).children)) := by
  refine ⟨?_, ?_, ?_, ?_, ?_⟩
  · intro i n v hi q g
    obtain ⟨h1, h2, ⟨o, h3⟩, o', as, h4, -⟩ := setAttribute_spec h hw i hi n v
    have hk : ∀ j, ((h.setAttribute i n v).node j).children = (h.node j).children := by
      intro j
      by_cases e : j = i
      · rw [e, h4]
      · by_cases e2 : j = h.size
        · rw [e2, h3, (hw.fresh _ (Nat.le_refl _)).2.1]; rfl
        · exact (h2 j e e2).links.2.1
    unfold Misplaced
    rw [hk]
    refine and_congr_right fun hg => ?_
    have hlt := hw.closed q g (.inl hg)
    have : ((h.setAttribute i n v).node g).parent = (h.node g).parent := by
      by_cases e : g = i
      · rw [e, h4]
      · exact (h2 g e (by omega)).links.1
    rw [this]
  · intro i n q g
    obtain ⟨h1, h2, o, as, h3, -⟩ := deleteAttribute_spec h i n
    have hk : ∀ j, ((h.deleteAttribute i n).node j).children = (h.node j).children ∧ ((h.deleteAttribute i n).node j).parent = (h.node j).parent := by
      intro j
      by_cases e : j = i
      · rw [e, h3]; exact ⟨rfl, rfl⟩
      · exact ⟨(h2 j e).links.2.1, (h2 j e).links.1⟩
    unfold Misplaced
    rw [(hk q).1, (hk g).2]
  · intro i t q g
    obtain ⟨h1, h2, o, h3⟩ := deleteChild_spec h i t
    have hp : ∀ j, ((h.deleteChild i t).node j).parent = (h.node j).parent := by
      intro j
      by_cases e : j = i
      · rw [e, h3]
      · exact (h2 j e).links.1
    unfold Misplaced
    rw [hp]
    refine ⟨fun ⟨a, b⟩ => ⟨⟨?_, b⟩, a⟩, fun ⟨⟨_, b⟩, a⟩ => ⟨a, b⟩⟩
    by_cases e : q = i
    · rw [e, h3] at a
      rw [e]
      exact List.mem_of_mem_erase a
    · rw [(h2 q e).links.2.1] at a
      exact a
  · intro i c q g
    obtain ⟨h1, h2, o, h3⟩ := appendChild_spec h i c
    have hp : ∀ j, ((h.appendChild i c).node j).parent = (h.node j).parent := by
      intro j
      by_cases e : j = i
      · rw [e, h3]
      · exact (h2 j e).links.1
    unfold Misplaced
    rw [hp]
    by_cases e : q = i
    · subst e
      rw [h3]
      simp only [List.mem_append, List.mem_singleton, true_and]
      constructor
      · rintro ⟨h4 | rfl, h5⟩
        · exact .inl ⟨h4, h5⟩
        · exact .inr ⟨rfl, h5⟩
      · rintro (⟨h4, h5⟩ | ⟨rfl, h5⟩)
        · exact ⟨.inl h4, h5⟩
        · exact ⟨.inr rfl, h5⟩
    · rw [(h2 q e).links.2.1]
      simp [e]
  · intro self x p hs hx hp hm hxp q g
    have hps : p < h.size := Nat.lt_trans (hw.parent_lt self p hp) hs
    obtain ⟨a, c, hna, e, -⟩ := List.exists_erase_eq hm
    obtain ⟨i1, i2⟩ := (C19_insert_sibling h hw self x hs hx).1 p a c hp e hna
    have i3 := (C21_replace_with h hw self x hs hx).1 p a c hp e hna
    have f1 := effect_insertPrev hw hs hx hp
    have f2 := effect_insertNext hw hs hx hp
    have f3 := effect_replaceWith hw hs hx hp
    have hf := findChildIndex_of_split e hna
    have s1 : (h.insertPrev self x).size = h.size + 1 := by
      unfold Heap.insertPrev; simp only [hp, hf]; rfl
    have s2 : (h.insertNext self x).size = h.size + 1 := by
      unfold Heap.insertNext; simp only [hp, hf]; rfl
    have s3 : (h.replaceWith self x).size = h.size + 1 := by
      have hdef : h.replaceWith self x = ((h.insertPrev self x).deleteChild p self).clearOrder self := by
        simp [Heap.replaceWith, hp]
      rw [hdef]
      exact (deleteChild_spec (h.insertPrev self x) p self).1.trans s1
    have k1 := copy_misplaced hw hps hxp i1 (by rw [e]; exact fun g hg => hg) (fun j hj => (f1.wf.fresh j (by omega)).2.1) q g
    have k2 := copy_misplaced hw hps hxp i2 (by rw [e]; simp) (fun j hj => (f2.wf.fresh j (by omega)).2.1) q g
    have k3 := copy_misplaced hw hps hxp i3 (by
      rw [e]; simp only [List.mem_append, List.mem_cons]
      rintro g (h1 | h1)
      exacts [.inl h1, .inr (.inr h1)])
      (fun j hj => (f3.wf.fresh j (by omega)).2.1) q g
    refine ⟨k1.trans ?_, k2.trans ?_, k3⟩
    · refine or_congr_left (and_iff_left_of_imp fun hmis => ?_)
      by_cases e1 : q = p
      · rw [e1, i1.children, List.mem_append, List.mem_cons]
        have := hmis.1
        rw [e1, e, List.mem_append] at this
        exact this.imp id .inr
      · have hq : q < h.size := by
          by_contra hn
          have := hmis.1
          rw [(hw.fresh q (by omega)).2.1] at this
          cases this
        rw [(i1.other q e1 hq).links.2.1]
        exact hmis.1
    · refine or_congr_left (and_iff_left_of_imp fun hmis => ?_)
      by_cases e1 : q = p
      · rw [e1, i2.children]
        have := hmis.1
        rw [e1, e] at this
        simp only [List.mem_append, List.mem_cons, List.not_mem_nil, or_false] at this ⊢
        rcases this with h1 | h1 | h1
        exacts [.inl (.inl h1), .inl (.inr h1), .inr (.inr h1)]
      · have hq : q < h.size := by
          by_contra hn
          have := hmis.1
          rw [(hw.fresh q (by omega)).2.1] at this
          cases this
        rw [(i2.other q e1 hq).links.2.1]
        exact hmis.1

/-- `<a x="1" y="2"><b/><c/></a>`: appending `b` to `c` misplaces `b`; inserting a copy of `a` before `b`… is excluded (its parent is `a`). -/
example : Misplaced (editSample.appendChild 5 4) 5 4 ∧ HeapWF editSample ∧ (editSample.node 4).parent = some 1 ∧ 4 ∈ (editSample.node 1).children := by
  refine ⟨by unfold Misplaced; decide, editSample_wf, by decide, by decide⟩

end Amxml
