import Verif.Props.XQueries

/-!
# The axes in terms of each other

Facts about the trees of documents behind the laws of `Spec/PathLaws.lean`.
-/

namespace Amxml.PathTree
open Spec

/-- The node or one above it. -/
def AoS (h : Heap) (a i : NodeId) : Prop := a = i ∨ Ancestor h a i

section
variable {h : Heap} (hw : HeapWF h) {r : NodeId} {F : Forest NodeId} (hd : DocTree h r F) (hp : PlainAttrs h r F)

include hw in
theorem anc_lt {a b : NodeId} (ha : Ancestor h a b) : a < b := by
  induction ha with
  | parent e => exact hw.parent_lt _ _ e
  | step e _ ih => exact Nat.lt_trans ih (hw.parent_lt _ _ e)

/-- An ancestor is the parent or an ancestor of it. -/
theorem anc_parent {a b : NodeId} : Ancestor h a b ↔ ∃ k, (h.node b).parent = some k ∧ AoS h a k := by
  constructor
  · intro ha
    cases ha with
    | parent e => exact ⟨_, e, .inl rfl⟩
    | step e h2 => exact ⟨_, e, .inr h2⟩
  · rintro ⟨k, e, rfl | ha⟩
    · exact .parent e
    · exact .step e ha

/-- From above: an ancestor has a child on the way. -/
theorem anc_child {a b : NodeId} : Ancestor h a b ↔ ∃ k, (h.node k).parent = some a ∧ AoS h k b := by
  constructor
  · intro ha
    induction ha with
    | parent e => exact ⟨_, e, .inl rfl⟩
    | step e _ ih =>
      obtain ⟨k, ek, hk⟩ := ih
      refine ⟨k, ek, .inr ?_⟩
      rcases hk with rfl | hk
      · exact .parent e
      · exact .step e hk
  · rintro ⟨k, e, rfl | hk⟩
    · exact .parent e
    · exact (Ancestor.parent e).trans hk

include hd in
theorem root_none : (h.node r).parent = none := hd.linked.1

include hd in
theorem anc_root {a : NodeId} : ¬ Ancestor h a r := by
  intro ha
  obtain ⟨k, e, -⟩ := anc_parent.1 ha
  rw [root_none hd] at e; cases e

include hd in
theorem parent_tree {i p : NodeId} (hi : i ∈ docIds h (.cons r F .nil)) (e : (h.node i).parent = some p) : p ∈ r :: F.toList := by
  simpa [Forest.toList] using (docIds_parent hd hi e).1

theorem tree_doc {i : NodeId} (hi : i ∈ r :: F.toList) : i ∈ docIds h (.cons r F .nil) := mem_docIds_of_mem (by simpa [Forest.toList] using hi)

theorem kids_doc {i : NodeId} (hi : i ∈ F.toList) : i ∈ docIds h (.cons r F .nil) := tree_doc (by simp [hi])

include hd in
/-- A node of the tree with a parent is not the root. -/
theorem below_root {i p : NodeId} (hi : i ∈ r :: F.toList) (e : (h.node i).parent = some p) : i ∈ F.toList := by
  rcases List.mem_cons.1 hi with rfl | hi
  · rw [root_none hd] at e; cases e
  · exact hi

include hw hd hp in
theorem has_parent {i : NodeId} (hi : i ∈ F.toList) : ∃ p ∈ r :: F.toList, (h.node i).parent = some p := by
  obtain ⟨-, k, e, -⟩ := all_below hw hd hp i hi
  exact ⟨k, parent_tree hd (kids_doc hi) e, e⟩

include hw in
/-- Two nodes on the way up from a node are one above the other. -/
theorem aos_total {a b i : NodeId} (ha : AoS h a i) (hb : AoS h b i) : a = b ∨ Ancestor h a b ∨ Ancestor h b a := by
  induction i using Nat.strongRecOn with
  | ind i ih =>
    rcases ha with rfl | ha
    · rcases hb with rfl | hb
      · exact .inl rfl
      · exact .inr (.inr hb)
    · rcases hb with rfl | hb
      · exact .inr (.inl ha)
      · obtain ⟨k, e, ha⟩ := anc_parent.1 ha
        obtain ⟨k', e', hb⟩ := anc_parent.1 hb
        rw [e] at e'; cases e'
        exact ih k (hw.parent_lt _ _ e) ha hb

include hw in
/-- Siblings are not on one way. -/
theorem aos_sibling {a b i q : NodeId} (ha : AoS h a i) (hb : AoS h b i) (ea : (h.node a).parent = some q) (eb : (h.node b).parent = some q) : a = b := by
  have no : ∀ {a b : NodeId}, (h.node a).parent = some q → (h.node b).parent = some q → ¬ Ancestor h a b := by
    intro a b ea eb hab
    obtain ⟨k, e, hk⟩ := anc_parent.1 hab
    rw [eb] at e; cases e
    have h1 := hw.parent_lt _ _ ea
    rcases hk with rfl | hk
    · omega
    · have := anc_lt hw hk; omega
  rcases aos_total hw ha hb with e | e | e
  · exact e
  · exact (no ea eb e).elim
  · exact (no eb ea e).elim

theorem AoS.trans {a b c : NodeId} (h1 : AoS h a b) (h2 : AoS h b c) : AoS h a c := by
  rcases h1 with rfl | h1
  · exact h2
  · rcases h2 with rfl | h2
    · exact .inr h1
    · exact .inr (h1.trans h2)

/-- `i` is in the subtree of a node that has a later sibling whose subtree has `j`. -/
def Apart (h : Heap) (L : List NodeId) (i j : NodeId) : Prop :=
  ∃ a s, AoS h a i ∧ Before L a s ∧ (h.node a).parent = (h.node s).parent ∧ AoS h s j

theorem before_cons {a i j : NodeId} {L : List NodeId} (hb : Before (a :: L) i j) : Before L i j ∨ (i = a ∧ j ∈ L) := by
  unfold Before at hb ⊢
  cases hb with
  | cons _ hb => exact .inl hb
  | cons_cons _ hb => exact .inr ⟨rfl, List.singleton_sublist.1 hb⟩

theorem before_append {i j : NodeId} : ∀ {L M : List NodeId}, Before (L ++ M) i j → Before L i j ∨ Before M i j ∨ (i ∈ L ∧ j ∈ M)
  | [], _, hb => .inr (.inl hb)
  | a :: L, M, hb => by
    rcases before_cons hb with hb | ⟨rfl, hj⟩
    · rcases before_append hb with hb | hb | ⟨h1, h2⟩
      · exact .inl (List.Sublist.cons _ hb)
      · exact .inr (.inl hb)
      · exact .inr (.inr ⟨by simp [h1], h2⟩)
    · rcases List.mem_append.1 hj with hj | hj
      · exact .inl (List.Sublist.cons_cons _ (List.singleton_sublist.2 hj))
      · exact .inr (.inr ⟨by simp, hj⟩)

theorem aos_roots {p : Option NodeId} : ∀ {G : Forest NodeId}, Linked h p G → ∀ j ∈ G.toList, ∃ s ∈ G.roots, AoS h s j
  | .nil, _, j, hj => by simp [Forest.toList] at hj
  | .cons b k rest, hl, j, hj => by
    obtain ⟨h1, h2, h3, h4, h5⟩ := hl
    simp only [Forest.toList, List.mem_cons, List.mem_append] at hj
    rcases hj with rfl | hj | hj
    · exact ⟨j, by simp [Forest.roots], .inl rfl⟩
    · exact ⟨b, by simp [Forest.roots], .inr (toList_ancestor h4 j hj)⟩
    · obtain ⟨s, hs, ha⟩ := aos_roots h5 j hj
      exact ⟨s, by simp [Forest.roots, hs], ha⟩

/-- In a forest, one node before another is above it or in an earlier subtree. -/
theorem before_apart {p : Option NodeId} : ∀ {G : Forest NodeId}, Linked h p G → ∀ {i j}, Before G.toList i j → Ancestor h i j ∨ Apart h G.toList i j
  | .nil, _, i, j, hb => by
    have := (before_mem hb).1
    simp [Forest.toList] at this
  | .cons b k rest, hl, i, j, hb => by
    obtain ⟨h1, h2, h3, h4, h5⟩ := hl
    have up : ∀ {L : List NodeId} {i j}, L.Sublist (Forest.cons b k rest).toList → Apart h L i j → Apart h (Forest.cons b k rest).toList i j := by
      rintro L i j hL ⟨a, s, ha, hb, e, hs⟩
      exact ⟨a, s, ha, List.Sublist.trans hb hL, e, hs⟩
    have over : ∀ {i j}, AoS h b i → j ∈ rest.toList → Apart h (Forest.cons b k rest).toList i j := by
      intro i j hi hj
      obtain ⟨s, hs, ha⟩ := aos_roots h5 j hj
      refine ⟨b, s, hi, ?_, by rw [h1, linked_roots_parent h5 hs], ha⟩
      exact List.Sublist.cons_cons _ (List.singleton_sublist.2 (List.mem_append.2 (.inr ((roots_sublist rest).subset hs))))
    rcases before_cons (show Before (b :: (k.toList ++ rest.toList)) i j from hb) with hb | ⟨rfl, hj⟩
    · rcases before_append hb with hb | hb | ⟨hi, hj⟩
      · rcases before_apart h4 hb with ha | ha
        · exact .inl ha
        · exact .inr (up (List.Sublist.cons _ (List.sublist_append_left _ _)) ha)
      · rcases before_apart h5 hb with ha | ha
        · exact .inl ha
        · exact .inr (up (List.Sublist.cons _ (List.sublist_append_right _ _)) ha)
      · exact .inr (over (.inr (toList_ancestor h4 i hi)) hj)
    · rcases List.mem_append.1 hj with hj | hj
      · exact .inl (toList_ancestor h4 j hj)
      · exact .inr (over (.inl rfl) hj)

theorem before_total {L : List NodeId} {i j : NodeId} (hi : i ∈ L) (hj : j ∈ L) : i = j ∨ Before L i j ∨ Before L j i := by
  obtain ⟨A, B, rfl⟩ := List.append_of_mem hi
  rcases List.mem_append.1 hj with hj | hj
  · refine .inr (.inr ?_)
    exact (List.singleton_sublist.2 hj).append (List.singleton_sublist.2 (by simp) : [i].Sublist (i :: B))
  · rcases List.mem_cons.1 hj with e | hj
    · exact .inl e.symm
    · refine .inr (.inl ?_)
      exact (List.Sublist.cons_cons i (List.singleton_sublist.2 hj)).trans (List.sublist_append_right _ _)

theorem before_ne {L : List NodeId} (hn : L.Nodup) {i j : NodeId} (hb : Before L i j) : i ≠ j := by
  have := hn.sublist hb
  simpa using this

theorem before_asymm {L : List NodeId} (hn : L.Nodup) {i j : NodeId} (hb : Before L i j) (hb' : Before L j i) : False := by
  obtain ⟨A, B, e⟩ := List.append_of_mem (before_mem hb).1
  have h1 := (before_iff e hn j).1.1 hb
  have h2 := (before_iff e hn j).2.1 hb'
  subst e
  rw [List.nodup_append] at hn
  exact hn.2.2 j h2 j (by simp [h1]) rfl

include hw hd hp in
/-- **What follows a node, in terms of siblings**: `j` comes after `i` in document order and is not below it, exactly if some node at or above `i` has
a later sibling at or above `j`. -/
theorem follows_iff {i j : NodeId} (hi : i ∈ r :: F.toList) (hj : j ∈ r :: F.toList) :
    (Before (r :: F.toList) i j ∧ ¬ Ancestor h i j) ↔ Apart h F.toList i j := by
  have hn : (r :: F.toList).Nodup := by
    have := hd.nodup.sublist (toList_sublist_docIds h (.cons r F .nil))
    simpa [Forest.toList] using this
  have hnF : F.toList.Nodup := (List.nodup_cons.1 hn).2
  have fwd : ∀ {i j}, Before (r :: F.toList) i j → ¬ Ancestor h i j → Apart h F.toList i j := by
    intro i j hb ha
    have hl := hd.linked
    obtain ⟨-, -, -, h4, -⟩ := hl
    rcases before_cons hb with hb | ⟨e, hj'⟩
    · rcases before_apart h4 hb with h1 | h1
      · exact (ha h1).elim
      · exact h1
    · exact (ha (e ▸ (all_below hw hd hp _ hj').1)).elim
  constructor
  · rintro ⟨hb, ha⟩
    exact fwd hb ha
  · rintro ⟨a, s, hai, hb, e, hsj⟩
    obtain ⟨q, hq, ea⟩ := has_parent hw hd hp (before_mem hb).1
    have es : (h.node s).parent = some q := e ▸ ea
    have hne : a ≠ s := before_ne hnF hb
    have n1 : i ≠ j := by
      rintro rfl
      exact hne (aos_sibling hw hai hsj ea es)
    have n2 : ¬ Ancestor h i j := fun hij => hne (aos_sibling hw (hai.trans (.inr hij)) hsj ea es)
    have n3 : ¬ Ancestor h j i := fun hji => hne (aos_sibling hw hai (hsj.trans (.inr hji)) ea es)
    refine ⟨?_, n2⟩
    rcases before_total hi hj with e1 | e1 | e1
    · exact (n1 e1).elim
    · exact e1
    · exfalso
      obtain ⟨a', s', haj, hb', e', hsi⟩ := fwd e1 n3
      obtain ⟨q', hq', ea'⟩ := has_parent hw hd hp (before_mem hb').1
      have es' : (h.node s').parent = some q' := e' ▸ ea'
      have hne' : a' ≠ s' := before_ne hnF hb'
      rcases aos_total hw hai hsi with rfl | h1 | h1
      · rw [ea] at es'; cases es'
        have := aos_sibling hw hsj haj es ea'
        subst this
        exact before_asymm hnF hb hb'
      · obtain ⟨k, ek, hk⟩ := anc_parent.1 h1
        rw [es'] at ek; cases ek
        have : Ancestor h a a' := anc_parent.2 ⟨_, ea', hk⟩
        exact hne (aos_sibling hw (AoS.trans (.inr this) haj) hsj ea es)
      · obtain ⟨k, ek, hk⟩ := anc_parent.1 h1
        rw [ea] at ek; cases ek
        have : Ancestor h s' s := anc_parent.2 ⟨_, es, hk⟩
        exact hne' (aos_sibling hw haj (AoS.trans (.inr this) hsj) ea' es')

end

end Amxml.PathTree
