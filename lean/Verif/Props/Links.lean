import Verif.Props.Order

/-!
# Links after edits: C24
-/

namespace Amxml
open Spec

/-! ## splitting forests -/

theorem forest_split {α : Type} {F : Forest α} {a c : List α} (h : F.roots = a ++ c) :
    ∃ A C : Forest α, F = A ++ C ∧ A.roots = a ∧ C.roots = c := by
  induction a generalizing F with
  | nil => exact ⟨.nil, F, rfl, rfl, by simpa using h⟩
  | cons x a ih =>
    cases F with
    | nil => simp [Forest.roots] at h
    | cons y k r =>
      simp only [Forest.roots, List.cons_append, List.cons.injEq] at h
      obtain ⟨rfl, h⟩ := h
      obtain ⟨A, C, rfl, h1, h2⟩ := ih h
      exact ⟨.cons y k A, C, rfl, by simp [Forest.roots, h1], h2⟩

theorem forest_split_cons {α : Type} {F : Forest α} {a c : List α} {x : α} (h : F.roots = a ++ x :: c) :
    ∃ A k C, F = A ++ .cons x k C ∧ A.roots = a ∧ C.roots = c := by
  obtain ⟨A, C, rfl, h1, h2⟩ := forest_split h
  cases C with
  | nil => simp [Forest.roots] at h2
  | cons y k r =>
    simp only [Forest.roots, List.cons.injEq] at h2
    obtain ⟨rfl, h2⟩ := h2
    exact ⟨A, k, r, rfl, h1, h2⟩

/-! ## replacing the forest below a node -/

theorem docTree_setKids {h h' : Heap} {r q : NodeId} {F k k' : Forest NodeId} (hd : DocTree h r F)
    (hk : (Forest.cons r F .nil).kidsOf q = some k) (hsz : h.size ≤ h'.size)
    (hs : ∀ j ∈ docIds h (.cons r F .nil), j ≠ q → SameLinks h h' j)
    (hip : (h'.node q).parent = (h.node q).parent) (hia : (h'.node q).attributes = (h.node q).attributes)
    (hic : (h'.node q).children = k'.roots) (hl : Linked h' (some q) k')
    (hnd : (docIds h' k').Nodup)
    (hmem : ∀ j ∈ docIds h' k', (j ∈ docIds h k ∨ j ∉ docIds h (.cons r F .nil)) ∧ j < h'.size) :
    ∃ F', DocTree h' r F' := by
  obtain ⟨hL, pre, post, e1, e2⟩ := modifyKids_linked hd.linked hd.nodup hk (fun _ => k') hs hip hia hic hl
  have hF : ∃ F', (Forest.cons r F .nil).modifyKids q (fun _ => k') = .cons r F' .nil := by
    simp only [Forest.modifyKids]; split <;> exact ⟨_, rfl⟩
  obtain ⟨F', hF⟩ := hF
  rw [hF] at hL e2
  have hn := hd.nodup
  have hn1 := hn
  rw [e1] at hn
  have hout : ∀ x ∈ pre ++ q :: (h.node q).attributes ++ post, x ∉ docIds h' k' := by
    intro x hx hm
    rcases (hmem x hm).1 with h1 | h1
    · simp only [List.append_assoc, List.nodup_append, List.cons_append, List.nodup_cons, List.mem_append, List.mem_cons,
        not_or] at hn
      simp only [List.append_assoc, List.mem_append, List.cons_append, List.mem_cons] at hx
      obtain ⟨_, ⟨hq, hat, ⟨hk1, hk2, hk3⟩, hak⟩, hpre⟩ := hn
      rcases hx with hx | rfl | hx | hx
      · exact hpre x hx x (by simp [h1]) rfl
      · exact hq.2.1 h1
      · exact hak x hx x (.inl h1) rfl
      · exact hk3 x h1 x hx rfl
    · apply h1; rw [e1]; simp only [List.append_assoc, List.mem_append, List.cons_append, List.mem_cons] at hx ⊢
      rcases hx with hx | hx | hx | hx <;> simp [hx]
  refine ⟨F', hL, ?_, ?_⟩
  · rw [e2]
    have hsub : (pre ++ q :: (h.node q).attributes ++ post).Nodup := by
      refine hn.sublist ?_
      refine List.Sublist.append ?_ (.refl _)
      exact List.sublist_append_left _ _
    have hp : (pre ++ q :: (h.node q).attributes ++ docIds h' k' ++ post).Perm
        ((pre ++ q :: (h.node q).attributes ++ post) ++ docIds h' k') := by
      rw [List.append_assoc, List.append_assoc (pre ++ q :: (h.node q).attributes) post]
      exact List.perm_append_comm.append_left _
    rw [hp.nodup_iff, List.nodup_append]
    exact ⟨hsub, hnd, fun a ha b hb e => hout a ha (e ▸ hb)⟩
  · intro i hi
    rw [e2] at hi
    by_cases hm : i ∈ docIds h' k'
    · exact (hmem i hm).2
    · have : i ∈ docIds h (.cons r F .nil) := by
        rw [e1]
        simp only [List.append_assoc, List.mem_append, List.cons_append, List.mem_cons] at hi ⊢
        rcases hi with hi | hi | hi | hi | hi
        · simp [hi]
        · simp [hi]
        · simp [hi]
        · exact absurd hi hm
        · simp [hi]
      have := hd.bound i this; omega

/-- The nodes below `q` are nodes of the document other than `q`. -/
theorem kids_sub {h : Heap} {r q : NodeId} {F k : Forest NodeId} (hd : DocTree h r F)
    (hk : (Forest.cons r F .nil).kidsOf q = some k) :
    (docIds h k).Nodup ∧ ∀ j ∈ docIds h k, j ∈ docIds h (.cons r F .nil) ∧ j ≠ q := by
  obtain ⟨_, hkl, hkc⟩ := kidsOf_spec hd.linked hk
  obtain ⟨_, pre, post, e, _⟩ := modifyKids_linked hd.linked hd.nodup hk id (h' := h)
    (fun j _ _ => .refl _ _) rfl rfl hkc hkl
  have hn := hd.nodup
  rw [e] at hn
  have hn' := hn
  simp only [List.append_assoc, List.nodup_append, List.cons_append, List.nodup_cons, List.mem_append, not_or] at hn
  refine ⟨hn.2.1.2.2.1.1, fun j hj => ⟨by rw [e]; simp [hj], ?_⟩⟩
  rintro rfl
  exact hn.2.1.1.2.1 hj

theorem docTree_untouched {h h' : Heap} {r q : NodeId} {F : Forest NodeId} (t : Effect h h' q) (hd : DocTree h r F)
    (hq : q ∉ (Forest.cons r F .nil).toList) : DocTree h' r F := by
  refine docTree_congr hd t.size (fun j hj => (t.old j (hd.bound j (mem_docIds_of_mem hj)) ?_).links) ?_
  · rintro rfl; exact hq hj
  · intro j hj a ha
    exact t.parent (hd.bound a (mem_docIds_attr hj ha))

theorem effect_links {h h' : Heap} {r q : NodeId} {F : Forest NodeId} (t : Effect h h' q) (hd : DocTree h r F) :
    ∀ j ∈ docIds h (.cons r F .nil), j ≠ q → SameLinks h h' j :=
  fun j hj hne => (t.old j (hd.bound j hj) hne).links

/-! ## attributes -/

theorem docTree_setAttribute {h : Heap} (hw : HeapWF h) {r : NodeId} {F : Forest NodeId} (hd : DocTree h r F) {i : NodeId}
    (hi : i < h.size) (n v : Str) : DocTree (h.setAttribute i n v) r F := by
  have t := effect_setAttribute hw hi n v
  by_cases hq : i ∈ (Forest.cons r F .nil).toList
  · obtain ⟨hsz, _, _, o, as, hnode, hcase⟩ := setAttribute_spec h hw i hi n v
    have hat : ((h.setAttribute i n v).node i).attributes = as := by rw [hnode]
    have hmem : ∀ a ∈ as, a = h.size ∨ a ∈ (h.node i).attributes := by
      intro a ha
      rcases hcase with ⟨x, b, c, e, _, _, rfl⟩ | ⟨_, rfl⟩
      · rw [e]; simp only [List.mem_append, List.mem_cons] at ha ⊢; rcases ha with h1 | h1 | h1 <;> simp [h1]
      · simp only [List.mem_append, List.mem_singleton] at ha; rcases ha with h1 | h1 <;> simp [h1]
    obtain ⟨hL, pre, post, e1, e2⟩ := modifyAttrs_linked (h' := h.setAttribute i n v) hd.linked hd.nodup hq
      (effect_links t hd) (t.parent hi) (by rw [hnode]) (by
        intro a ha
        rw [hat] at ha
        rcases hmem a ha with rfl | ha
        · exact t.new h.size (Nat.le_refl _) (by omega)
        · rw [t.parent (hd.bound a (mem_docIds_attr hq ha))]; exact linked_parent_attr hd.linked hq ha)
    rw [hat] at e2
    have hn := hd.nodup
    have hfresh : h.size ∉ docIds h (.cons r F .nil) := fun hm => by have := hd.bound _ hm; omega
    refine ⟨hL, ?_, ?_⟩
    · rw [e2]
      rw [e1] at hn hfresh
      rcases hcase with ⟨x, b, c, e, _, _, rfl⟩ | ⟨_, rfl⟩
      · rw [e] at hn hfresh
        have hsub : ((pre ++ i :: x) ++ [] ++ (c ++ post)).Nodup := by
          refine hn.sublist ?_
          simp only [List.append_nil, List.append_assoc, List.cons_append]
          refine List.Sublist.append (.refl _) (List.Sublist.cons_cons _ (List.Sublist.append (.refl _) ?_))
          exact List.sublist_cons_self _ _
        have := nodup_insert_mid (N := [h.size]) hsub (by simp) (by
          intro y hy hm
          simp only [List.mem_singleton] at hy; subst hy
          apply hfresh
          simp only [List.append_nil, List.append_assoc, List.cons_append, List.mem_append, List.mem_cons] at hm ⊢
          rcases hm with hm | hm | hm | hm | hm <;> simp [hm])
        simpa using this
      · have := nodup_insert_mid (A := pre ++ [i]) (B := (h.node i).attributes) (P := post) (N := [h.size])
          (by simpa using hn) (by simp) (by
            intro y hy hm
            simp only [List.mem_singleton] at hy; subst hy
            exact hfresh (by simpa using hm))
        simpa using this
    · intro j hj
      rw [e2] at hj
      by_cases hj' : j ∈ docIds h (.cons r F .nil)
      · have := hd.bound j hj'; omega
      · rw [e1] at hj'
        simp only [List.append_assoc, List.cons_append, List.mem_append, List.mem_cons, not_or] at hj hj'
        rcases hj with h1 | h1 | h1 | h1
        · exact absurd h1 hj'.1
        · exact absurd h1 hj'.2.1
        · rcases hmem j h1 with h2 | h2
          · omega
          · exact absurd h2 hj'.2.2.1
        · exact absurd h1 hj'.2.2.2
  · exact docTree_untouched t hd hq

theorem docTree_deleteAttribute {h : Heap} (hw : HeapWF h) {r : NodeId} {F : Forest NodeId} (hd : DocTree h r F) {i : NodeId}
    (hi : i < h.size) (n : Str) : DocTree (h.deleteAttribute i n) r F := by
  have t := effect_deleteAttribute hw hi n
  by_cases hq : i ∈ (Forest.cons r F .nil).toList
  · obtain ⟨hsz, _, o, as, hnode, hcase⟩ := deleteAttribute_spec h i n
    have hat : ((h.deleteAttribute i n).node i).attributes = as := by rw [hnode]
    have hsub : as.Sublist (h.node i).attributes := by
      rcases hcase with ⟨x, b, c, e, _, _, rfl⟩ | ⟨_, rfl⟩
      · rw [e]; exact List.Sublist.append (.refl _) (List.sublist_cons_self _ _)
      · exact .refl _
    obtain ⟨hL, pre, post, e1, e2⟩ := modifyAttrs_linked (h' := h.deleteAttribute i n) hd.linked hd.nodup hq
      (effect_links t hd) (t.parent hi) (by rw [hnode]) (by
        intro a ha
        rw [hat] at ha
        have ha := hsub.subset ha
        rw [t.parent (hd.bound a (mem_docIds_attr hq ha))]; exact linked_parent_attr hd.linked hq ha)
    rw [hat] at e2
    have hs : (docIds (h.deleteAttribute i n) (.cons r F .nil)).Sublist (docIds h (.cons r F .nil)) := by
      rw [e1, e2]
      exact List.Sublist.append (List.Sublist.append (.refl _) (hsub.cons_cons _)) (.refl _)
    exact ⟨hL, hd.nodup.sublist hs, fun j hj => by have := hd.bound j (hs.subset hj); omega⟩
  · exact docTree_untouched t hd hq

/-! ## children -/

theorem docTree_deleteChild {h : Heap} (hw : HeapWF h) {r : NodeId} {F : Forest NodeId} (hd : DocTree h r F) {i : NodeId}
    (hi : i < h.size) (c : NodeId) : ∃ F', DocTree (h.deleteChild i c) r F' := by
  have t := effect_deleteChild hw hi c
  by_cases hq : i ∈ (Forest.cons r F .nil).toList
  · obtain ⟨k, hk⟩ := kidsOf_isSome hq
    obtain ⟨_, hkl, hkc⟩ := kidsOf_spec hd.linked hk
    obtain ⟨hknd, hksub⟩ := kids_sub hd hk
    obtain ⟨hsz, _, o, hnode⟩ := deleteChild_spec h i c
    have hlk : ∀ j ∈ docIds h k, SameLinks h (h.deleteChild i c) j :=
      fun j hj => effect_links t hd j (hksub j hj).1 (hksub j hj).2
    by_cases hm : c ∈ (h.node i).children
    · obtain ⟨a, b, hna, e, _⟩ := List.exists_erase_eq hm
      rw [hkc] at e
      obtain ⟨A, kc, C, rfl, hA, hC⟩ := forest_split_cons e
      have hkl' := hkl
      rw [linked_append] at hkl'
      have hrem : Linked h (some i) (A ++ C) := linked_append.2 ⟨hkl'.1, hkl'.2.2.2.2.2⟩
      have hsub : (docIds h (A ++ C)).Sublist (docIds h (A ++ .cons c kc C)) := by
        rw [docIds_append, docIds_append]
        refine List.Sublist.append (.refl _) ?_
        simp only [docIds]
        refine List.Sublist.cons _ ?_
        exact (List.sublist_append_right _ _).trans (List.sublist_append_right _ _)
      have hlk' : ∀ j ∈ docIds h (A ++ C), SameLinks h (h.deleteChild i c) j := fun j hj => hlk j (hsub.subset hj)
      have hdoc : docIds (h.deleteChild i c) (A ++ C) = docIds h (A ++ C) :=
        docIds_congr_links fun j hj => hlk' j (mem_docIds_of_mem hj)
      refine docTree_setKids (k' := A ++ C) hd hk t.size (effect_links t hd) (t.parent hi) (by rw [hnode]) ?_
        (linked_congr hrem hlk') (by rw [hdoc]; exact hknd.sublist hsub) ?_
      · rw [hnode]
        simp only [Forest.roots_append, hA, hC, hkc, Forest.roots]
        rw [List.erase_append_right _ hna]; simp
      · intro j hj
        rw [hdoc] at hj
        have := hsub.subset hj
        exact ⟨.inl this, by have := hd.bound j (hksub j this).1; omega⟩
    · refine docTree_setKids (k' := k) hd hk t.size (effect_links t hd) (t.parent hi) (by rw [hnode]) ?_
        (linked_congr hkl hlk) ?_ ?_
      · rw [hnode, List.erase_of_not_mem hm]; exact hkc
      · rw [docIds_congr_links fun j hj => hlk j (mem_docIds_of_mem hj)]; exact hknd
      · intro j hj
        rw [docIds_congr_links fun j hj => hlk j (mem_docIds_of_mem hj)] at hj
        exact ⟨.inl hj, by have := hd.bound j (hksub j hj).1; omega⟩
  · exact ⟨F, docTree_untouched t hd hq⟩

/-- Inserting a childless copy between `a` and `c`. -/
theorem docTree_inserted {h h' : Heap} {r : NodeId} {F : Forest NodeId} (hd : DocTree h r F) {p x : NodeId}
    {a c m : List NodeId} (t : Effect h h' p) (hi : InsertedCopy h h' p x a c) (hsz : h'.size = h.size + 1)
    (hx : x ≠ p) (hxc : (h.node x).children = []) (hxa : (h.node x).attributes = [])
    (hch : (h.node p).children = a ++ m ++ c) : ∃ F', DocTree h' r F' := by
  by_cases hq : p ∈ (Forest.cons r F .nil).toList
  · obtain ⟨k, hk⟩ := kidsOf_isSome hq
    obtain ⟨_, hkl, hkc⟩ := kidsOf_spec hd.linked hk
    obtain ⟨hknd, hksub⟩ := kids_sub hd hk
    rw [hkc, List.append_assoc] at hch
    obtain ⟨A, MC, rfl, hA, hMC⟩ := forest_split hch
    obtain ⟨M, C, rfl, hM, hC⟩ := forest_split hMC
    have hkl' := hkl
    rw [linked_append, linked_append] at hkl'
    have hlk : ∀ j ∈ docIds h (A ++ (M ++ C)), SameLinks h h' j :=
      fun j hj => effect_links t hd j (hksub j hj).1 (hksub j hj).2
    simp only [docIds_append, List.mem_append] at hlk
    have hsub : (docIds h A ++ docIds h C).Sublist (docIds h (A ++ (M ++ C))) := by
      rw [docIds_append, docIds_append]
      exact List.Sublist.append (.refl _) (List.sublist_append_right _ _)
    have hdA : docIds h' A = docIds h A := docIds_congr_links fun j hj => hlk j (.inl (mem_docIds_of_mem hj))
    have hdC : docIds h' C = docIds h C := docIds_congr_links fun j hj => hlk j (.inr (.inr (mem_docIds_of_mem hj)))
    have hnew := hi.copy
    have hd' : docIds h' (A ++ .cons h.size .nil C) = docIds h A ++ ([] ++ [h.size]) ++ docIds h C := by
      simp [docIds_append, docIds, hdA, hdC, hnew.2.2.2.1, hxa]
    have hfresh : h.size ∉ docIds h A ++ [] ++ docIds h C := by
      intro hm
      have hm' : h.size ∈ docIds h A ++ docIds h C := by simpa using hm
      have := hd.bound _ (hksub _ (hsub.subset hm')).1
      omega
    refine docTree_setKids (k' := A ++ .cons h.size .nil C) hd hk t.size (effect_links t hd) (t.parent t.lt)
      hi.parentKept.2.2.2.1 ?_ ?_ ?_ ?_
    · rw [hi.children]; simp [Forest.roots, hA, hC]
    · rw [linked_append]
      refine ⟨linked_congr hkl'.1 fun j hj => hlk j (.inl hj), hnew.2.2.2.2.2, ?_, ?_, trivial,
        linked_congr hkl'.2.2 fun j hj => hlk j (.inr (.inr hj))⟩
      · rw [hnew.2.2.2.1, hxa]; simp
      · rw [hnew.2.2.2.2.1 hx, hxc]; rfl
    · rw [hd']
      refine nodup_insert_mid ?_ (by simp) ?_
      · simpa using hknd.sublist hsub
      · intro y hy; simp only [List.mem_singleton] at hy; subst hy; exact hfresh
    · intro j hj
      rw [hd'] at hj
      have : j = h.size ∨ j ∈ docIds h A ++ docIds h C := by
        simp only [List.append_assoc, List.mem_append, List.mem_singleton, List.nil_append] at hj ⊢
        rcases hj with h1 | h1 | h1 <;> simp [h1]
      rcases this with rfl | hj
      · exact ⟨.inr fun hm => by have := hd.bound _ hm; omega, by omega⟩
      · have := hsub.subset hj
        exact ⟨.inl this, by have := hd.bound j (hksub j this).1; omega⟩
  · exact ⟨F, docTree_untouched t hd hq⟩

/-- Appending a tree whose root has the right parent already and which is not part of the document. -/
theorem docTree_appendDetached {h : Heap} (hw : HeapWF h) {r : NodeId} {F : Forest NodeId} (hd : DocTree h r F)
    {i c : NodeId} {k : Forest NodeId} (hi : i ∈ (Forest.cons r F .nil).toList) (hl : Linked h (some i) (.cons c k .nil))
    (hn : (docIds h (.cons c k .nil)).Nodup)
    (hout : ∀ j ∈ docIds h (.cons c k .nil), j ∉ docIds h (.cons r F .nil) ∧ j < h.size) :
    ∃ F', DocTree (h.appendChild i c) r F' := by
  have hib := hd.bound i (mem_docIds_of_mem hi)
  have hcb := (hout c (by simp [docIds])).2
  have t := effect_appendChild hw hib hcb
  obtain ⟨k0, hk⟩ := kidsOf_isSome hi
  obtain ⟨_, hkl, hkc⟩ := kidsOf_spec hd.linked hk
  obtain ⟨hknd, hksub⟩ := kids_sub hd hk
  obtain ⟨hsz, hoth, o, hnode⟩ := appendChild_spec h i c
  have hlk : ∀ j ∈ docIds h (k0 ++ .cons c k .nil), SameLinks h (h.appendChild i c) j := by
    intro j hj
    rw [docIds_append, List.mem_append] at hj
    refine (hoth j ?_).links
    rcases hj with hj | hj
    · exact (hksub j hj).2
    · rintro rfl; exact (hout j hj).1 (mem_docIds_of_mem hi)
  have hdoc : docIds (h.appendChild i c) (k0 ++ .cons c k .nil) = docIds h (k0 ++ .cons c k .nil) :=
    docIds_congr_links fun j hj => hlk j (mem_docIds_of_mem hj)
  refine docTree_setKids (k' := k0 ++ .cons c k .nil) hd hk t.size (effect_links t hd) (t.parent hib) (by rw [hnode]) ?_
    (linked_congr (linked_append.2 ⟨hkl, hl⟩) hlk) ?_ ?_
  · rw [hnode]; simp [Forest.roots, hkc]
  · rw [hdoc, docIds_append, List.nodup_append]
    exact ⟨hknd, hn, fun a ha b hb e => (hout b hb).1 (e ▸ (hksub a ha).1)⟩
  · intro j hj
    rw [hdoc, docIds_append, List.mem_append] at hj
    rcases hj with hj | hj
    · exact ⟨.inl hj, by have := hd.bound j (hksub j hj).1; omega⟩
    · exact ⟨.inr (hout j hj).1, by have := (hout j hj).2; omega⟩

/-! ## C24 -/

/-- The edits that keep documents well linked: setting and deleting attributes, deleting children, and inserting or
replacing by a node without children and attributes. (`append_child` is treated separately.) -/
def Spec.Edit.KeepsLinks (h : Heap) : Edit → Prop
  | .setAttribute .. | .deleteAttribute .. | .deleteChild .. => True
  | .insertPrev _ x | .insertNext _ x | .replaceWith _ x => (h.node x).children = [] ∧ (h.node x).attributes = []
  | .appendChild .. => False

/-- **C24**, for these edits: every document stays well linked. -/
theorem C24_edits_keep_links_partial (h : Heap) (hw : HeapWF h) (e : Edit) (hv : e.Valid h) (hk : e.KeepsLinks h)
    (r : NodeId) (F : Forest NodeId) (hd : DocTree h r F) : ∃ F', DocTree (e.apply h) r F' := by
  have ins : ∀ i x : NodeId, i < h.size → x < h.size → (h.node x).children = [] → (h.node x).attributes = [] →
      (∃ F', DocTree (h.insertPrev i x) r F') ∧ (∃ F', DocTree (h.insertNext i x) r F') ∧
      (∃ F', DocTree (h.replaceWith i x) r F') := by
    intro i x hi hx hc ha
    have h19 := C19_insert_sibling h hw i x hi hx
    have h21 := C21_replace_with h hw i x hi hx
    cases hp : (h.node i).parent with
    | none => rw [(h19.2.1 hp).1, (h19.2.1 hp).2, h21.2 hp]; exact ⟨⟨F, hd⟩, ⟨F, hd⟩, ⟨F, hd⟩⟩
    | some p =>
      have hlt := hw.parent_lt i p hp
      have t1 := effect_insertPrev hw hi hx hp
      have t2 := effect_insertNext hw hi hx hp
      have t3 := effect_replaceWith hw hi hx hp
      by_cases hm : i ∈ (h.node p).children
      · obtain ⟨a, c, hna, e, _⟩ := List.exists_erase_eq hm
        have hxp : x ≠ p := by rintro rfl; rw [hc] at hm; simp at hm
        have i12 := h19.1 p a c hp e hna
        have i3 := h21.1 p a c hp e hna
        have hf := findChildIndex_of_split e hna
        have s1 : (h.insertPrev i x).size = h.size + 1 := by
          unfold Heap.insertPrev; simp only [hp, hf]; rfl
        have s2 : (h.insertNext i x).size = h.size + 1 := by
          unfold Heap.insertNext; simp only [hp, hf]; rfl
        have s3 : (h.replaceWith i x).size = h.size + 1 := by
          unfold Heap.replaceWith; simp only [hp, clearOrder_size, (deleteChild_spec _ _ _).1, s1]
        refine ⟨docTree_inserted (m := []) hd t1 i12.1 s1 hxp hc ha (by simpa using e),
          docTree_inserted (m := []) hd t2 i12.2 s2 hxp hc ha (by simpa using e),
          docTree_inserted (m := [i]) hd t3 i3 s3 hxp hc ha (by simpa using e)⟩
      · -- `i` is not listed: nothing changes but the cached number
        have h3 := h19.2.2 p hp hm
        have s1 : (h.insertPrev i x).size = h.size := by
          unfold Heap.insertPrev; simp only [hp, findChildIndex_none hm]; rfl
        have s2 : (h.insertNext i x).size = h.size := by
          unfold Heap.insertNext; simp only [hp, findChildIndex_none hm]; rfl
        have d1 : DocTree (h.insertPrev i x) r F :=
          docTree_congr hd (by omega) (fun j _ => (h3 j).1.links) (fun j _ a _ => (h3 a).1.links.1)
        have d2 : DocTree (h.insertNext i x) r F :=
          docTree_congr hd (by omega) (fun j _ => (h3 j).2.links) (fun j _ a _ => (h3 a).2.links.1)
        refine ⟨⟨F, d1⟩, ⟨F, d2⟩, ?_⟩
        obtain ⟨F', d3⟩ := docTree_deleteChild t1.wf d1 (i := p) (by omega) i
        refine ⟨F', ?_⟩
        have : h.replaceWith i x = ((h.insertPrev i x).deleteChild p i).clearOrder i := by
          unfold Heap.replaceWith; simp only [hp]
        rw [this]
        exact docTree_congr d3 (Nat.le_refl _) (fun j _ => (clearOrder_same _ _ j).links)
          (fun j _ a _ => (clearOrder_same _ _ a).links.1)
  cases e with
  | setAttribute i n v => exact ⟨F, docTree_setAttribute hw hd hv n v⟩
  | deleteAttribute i n => exact ⟨F, docTree_deleteAttribute hw hd hv n⟩
  | deleteChild i t => exact docTree_deleteChild hw hd hv.1 t
  | appendChild i c => exact absurd hk id
  | insertPrev i x => exact (ins i x hv.1 hv.2 hk.1 hk.2).1
  | insertNext i x => exact (ins i x hv.1 hv.2 hk.1 hk.2).2.1
  | replaceWith i x => exact (ins i x hv.1 hv.2 hk.1 hk.2).2.2

/-- **C24** for `append_child`: the document stays well linked when the appended tree is not part of it and its root's
`parent()` is already the node it is appended to, for example a child deleted before. -/
theorem C24_append_detached_partial (h : Heap) (hw : HeapWF h) (r : NodeId) (F : Forest NodeId) (hd : DocTree h r F)
    (i c : NodeId) (k : Forest NodeId) (hi : i ∈ (Forest.cons r F .nil).toList) (hl : Linked h (some i) (.cons c k .nil))
    (hn : (docIds h (.cons c k .nil)).Nodup)
    (hout : ∀ j ∈ docIds h (.cons c k .nil), j ∉ docIds h (.cons r F .nil) ∧ j < h.size) :
    ∃ F', DocTree (h.appendChild i c) r F' := docTree_appendDetached hw hd hi hl hn hout

/-- No document is well linked that contains, after `append_child(c)`, the node `i` to which a node `c` with another
parent was appended. -/
theorem C24_append_foreign_breaks (h : Heap) (i c : NodeId) (hp : (h.node c).parent ≠ some i) (hne : c ≠ i) :
    c ∈ ((h.appendChild i c).node i).children ∧ ((h.appendChild i c).node c).parent ≠ some i ∧
    ∀ r F, DocTree (h.appendChild i c) r F → i ∉ (Forest.cons r F .nil).toList := by
  obtain ⟨_, hoth, o, hnode⟩ := appendChild_spec h i c
  have hpc : ((h.appendChild i c).node c).parent ≠ some i := by rw [(hoth c hne).links.1]; exact hp
  have hmem : c ∈ ((h.appendChild i c).node i).children := by rw [hnode]; simp
  refine ⟨hmem, hpc, fun r F hd hi => hpc ?_⟩
  exact (linked_child hd.linked hi hmem).2

/-- Inserting a node with a child `g` (whose parent is that node): the copy lists `g`, but `g`'s parent is still the
original. -/
theorem C24_insert_breaks_grandchildren (h : Heap) (hw : HeapWF h) (self x p g : NodeId) (hs : self < h.size) (hx : x < h.size)
    (hp : (h.node self).parent = some p) (hm : self ∈ (h.node p).children) (hxp : x ≠ p) (hg : g ∈ (h.node x).children)
    (hgp : (h.node g).parent = some x) :
    g ∈ ((h.insertPrev self x).node h.size).children ∧ ((h.insertPrev self x).node g).parent = some x ∧ x ≠ h.size := by
  obtain ⟨a, c, hna, e, _⟩ := List.exists_erase_eq hm
  have hi := ((C19_insert_sibling h hw self x hs hx).1 p a c hp e hna).1
  have t := effect_insertPrev hw hs hx hp
  exact ⟨by rw [hi.copy.2.2.2.2.1 hxp]; exact hg, by rw [t.parent (hw.closed x g (.inl hg))]; exact hgp, by omega⟩

theorem editSample_doc : DocTree editSample 0 (.cons 1 (.cons 4 .nil (.cons 5 .nil .nil)) .nil) := by
  refine ⟨?_, by decide, by decide⟩
  simp only [Linked]
  refine ⟨by rfl, by decide, by rfl, ⟨by rfl, by decide, by rfl, ⟨by rfl, by decide, by rfl, trivial, by rfl, by decide, by rfl, trivial, trivial⟩,
    trivial⟩, trivial⟩

/-- The hypotheses are met: inserting a copy of `c` before `b`, and re-appending `b` after deleting it. -/
example : (Edit.insertPrev 4 5).Valid editSample ∧ (Edit.insertPrev 4 5).KeepsLinks editSample ∧
    ∃ F, DocTree ((editSample.deleteChild 1 4).appendChild 1 4) 0 F := by
  refine ⟨⟨by decide, by decide⟩, ⟨by rfl, by rfl⟩, ?_⟩
  have hw := edit_wf editSample_wf (.deleteChild 1 4) ⟨by decide, by decide⟩
  have hd : DocTree (editSample.deleteChild 1 4) 0 (.cons 1 (.cons 5 .nil .nil) .nil) := by
    refine ⟨?_, by decide, by decide⟩
    simp only [Linked]
    refine ⟨by rfl, by decide, by rfl, ⟨by rfl, by decide, by rfl, ⟨by rfl, by decide, by rfl, trivial, trivial⟩, trivial⟩, trivial⟩
  exact C24_append_detached_partial _ hw 0 _ hd 1 4 .nil (by decide) ⟨by rfl, by decide, by rfl, trivial, trivial⟩ (by decide)
    (by decide)

/-- The hypotheses of the negative parts are met: `b` (4), a child of `a` (1), is appended to `c` (5); and with a text
(6) below `c`, a copy (7) of `c` is inserted before `b`. -/
example : (editSample.node 4).parent ≠ some 5 ∧ ((editSample.appendChild 5 4).node 4).parent = some 1 ∧
    4 ∈ ((editSample.appendChild 5 4).node 5).children := by
  refine ⟨by decide, by rfl, by decide⟩
example : let h := editSample.makeChild .text 5 [] (S "t") none
    HeapWF h ∧ (h.node 4).parent = some 1 ∧ 4 ∈ (h.node 1).children ∧ 6 ∈ (h.node 5).children ∧ (h.node 6).parent = some 5 ∧
    6 ∈ ((h.insertPrev 4 5).node 7).children ∧ ((h.insertPrev 4 5).node 6).parent = some 5 := by
  refine ⟨?_, by rfl, by decide, by decide, by rfl, by decide, by rfl⟩
  exact (addLeaf_makeChild (by decide) .text [] (S "t")).heapWF editSample_wf (by decide)

end Amxml
