import Verif.Spec.Tree
import Mathlib.Tactic.Tauto
import Mathlib.Tactic.ByContra

namespace Amxml
open Spec

namespace Spec.Forest
variable {α β : Type}

@[simp] theorem nil_append (F : Forest α) : (Forest.nil ++ F : Forest α) = F := rfl
@[simp] theorem cons_append (a : α) (k r F : Forest α) :
    (Forest.cons a k r ++ F : Forest α) = .cons a k (r ++ F) := rfl
@[simp] theorem append_nil (F : Forest α) : (F ++ Forest.nil : Forest α) = F := by
  induction F with
  | nil => rfl
  | cons a k r _ ih => simp [ih]
theorem append_assoc (F G H : Forest α) : F ++ G ++ H = F ++ (G ++ H) := by
  induction F with
  | nil => rfl
  | cons a k r _ ih => simp [ih]
@[simp] theorem roots_append (F G : Forest α) : (F ++ G).roots = F.roots ++ G.roots := by
  induction F with
  | nil => rfl
  | cons a k r _ ih => simp [roots, ih]
@[simp] theorem toList_append (F G : Forest α) : (F ++ G).toList = F.toList ++ G.toList := by
  induction F with
  | nil => rfl
  | cons a k r _ ih => simp [toList, ih]
@[simp] theorem map_append (f : α → β) (F G : Forest α) : (F ++ G).map f = F.map f ++ G.map f := by
  induction F with
  | nil => rfl
  | cons a k r _ ih => simp [map, ih]
theorem roots_map (f : α → β) (F : Forest α) : (F.map f).roots = F.roots.map f := by
  induction F with
  | nil => rfl
  | cons a k r _ ih => simp [map, roots, ih]
theorem toList_map (f : α → β) (F : Forest α) : (F.map f).toList = F.toList.map f := by
  induction F with
  | nil => rfl
  | cons a k r ih1 ih2 => simp [map, toList, ih1, ih2]
theorem roots_eq_nil {F : Forest α} : F.roots = [] ↔ F = .nil := by
  cases F <;> simp [roots]
theorem map_congr {f g : α → β} {F : Forest α} (h : ∀ a ∈ F.toList, f a = g a) : F.map f = F.map g := by
  induction F with
  | nil => rfl
  | cons a k r ih1 ih2 =>
    simp only [toList, List.mem_cons, List.mem_append] at h
    simp only [map]
    rw [h a (by simp), ih1 (fun x hx => h x (by simp [hx])), ih2 (fun x hx => h x (by simp [hx]))]

/-- Replace the forest below the first node labelled `i`. -/
def modifyKids [DecidableEq α] (i : α) (g : Forest α → Forest α) : Forest α → Forest α
  | nil => nil
  | cons a k r => if a = i then cons a (g k) r else cons a (modifyKids i g k) (modifyKids i g r)

/-- The forest below the first node labelled `i`. -/
def kidsOf [DecidableEq α] (i : α) : Forest α → Option (Forest α)
  | nil => none
  | cons a k r => if a = i then some k else (kidsOf i k).or (kidsOf i r)

theorem kidsOf_none [DecidableEq α] {i : α} {F : Forest α} : kidsOf i F = none ↔ i ∉ F.toList := by
  induction F with
  | nil => simp [kidsOf, toList]
  | cons a k r ih1 ih2 =>
    simp only [kidsOf, toList]
    by_cases h : a = i
    · simp [h]
    · simp only [h, if_false, Option.or_eq_none_iff, ih1, ih2, List.mem_cons, List.mem_append]
      tauto

theorem modifyKids_of_not_mem [DecidableEq α] {i : α} {g : Forest α → Forest α} {F : Forest α}
    (h : i ∉ F.toList) : modifyKids i g F = F := by
  induction F with
  | nil => rfl
  | cons a k r ih1 ih2 =>
    simp only [toList, List.mem_cons, List.mem_append, not_or] at h
    simp [modifyKids, Ne.symm h.1, ih1 h.2.1, ih2 h.2.2]

theorem modifyKids_roots [DecidableEq α] (i : α) (g : Forest α → Forest α) (F : Forest α) :
    (modifyKids i g F).roots = F.roots := by
  induction F with
  | nil => rfl
  | cons a k r _ ih =>
    simp only [modifyKids]
    split <;> simp [roots, ih]

end Spec.Forest

/-! ### heap access -/

@[simp] theorem Heap.alloc_node (h : Heap) (n : Node) (j : NodeId) :
    (h.alloc n).node j = if j = h.size then n else h.node j := rfl
@[simp] theorem Heap.alloc_size (h : Heap) (n : Node) : (h.alloc n).size = h.size + 1 := rfl
@[simp] theorem Heap.modify_node (h : Heap) (i : NodeId) (f : Node → Node) (j : NodeId) :
    (h.modify i f).node j = if j = i then f (h.node i) else h.node j := rfl
@[simp] theorem Heap.modify_size (h : Heap) (i : NodeId) (f : Node → Node) : (h.modify i f).size = h.size := rfl

/-! ### linked forests -/

/-- The links of node `i` are the same in both heaps. -/
def SameLinks (h h' : Heap) (i : NodeId) : Prop :=
  (h'.node i).parent = (h.node i).parent ∧ (h'.node i).children = (h.node i).children ∧
  (h'.node i).attributes = (h.node i).attributes

theorem SameLinks.refl (h : Heap) (i : NodeId) : SameLinks h h i := ⟨rfl, rfl, rfl⟩
theorem SameLinks.of_eq {h h' : Heap} {i : NodeId} (e : h'.node i = h.node i) : SameLinks h h' i := by
  simp [SameLinks, e]
theorem SameLinks.trans {h h' h'' : Heap} {i : NodeId} (a : SameLinks h h' i) (b : SameLinks h' h'' i) :
    SameLinks h h'' i := ⟨b.1.trans a.1, b.2.1.trans a.2.1, b.2.2.trans a.2.2⟩

theorem mem_docIds_of_mem {h : Heap} {F : Forest NodeId} {i : NodeId} (hi : i ∈ F.toList) : i ∈ docIds h F := by
  induction F with
  | nil => simp [Forest.toList] at hi
  | cons a k r ih1 ih2 =>
    simp only [Forest.toList, List.mem_cons, List.mem_append] at hi
    simp only [docIds, List.mem_cons, List.mem_append]
    rcases hi with rfl | hi | hi
    · simp
    · simp [ih1 hi]
    · simp [ih2 hi]

theorem mem_docIds_attr {h : Heap} {F : Forest NodeId} {i a : NodeId} (hi : i ∈ F.toList)
    (ha : a ∈ (h.node i).attributes) : a ∈ docIds h F := by
  induction F with
  | nil => simp [Forest.toList] at hi
  | cons b k r ih1 ih2 =>
    simp only [Forest.toList, List.mem_cons, List.mem_append] at hi
    simp only [docIds, List.mem_cons, List.mem_append]
    rcases hi with rfl | hi | hi
    · simp [ha]
    · simp [ih1 hi]
    · simp [ih2 hi]

theorem mem_docIds {h : Heap} {F : Forest NodeId} {j : NodeId} :
    j ∈ docIds h F ↔ j ∈ F.toList ∨ ∃ i ∈ F.toList, j ∈ (h.node i).attributes := by
  constructor
  · intro hj
    induction F with
    | nil => simp [docIds] at hj
    | cons a k r ih1 ih2 =>
      simp only [docIds, List.mem_cons, List.mem_append] at hj
      simp only [Forest.toList, List.mem_cons, List.mem_append]
      rcases hj with rfl | hj | hj | hj
      · simp
      · exact .inr ⟨a, by simp, hj⟩
      · rcases ih1 hj with h | ⟨i, hi, ha⟩
        · simp [h]
        · exact .inr ⟨i, by simp [hi], ha⟩
      · rcases ih2 hj with h | ⟨i, hi, ha⟩
        · simp [h]
        · exact .inr ⟨i, by simp [hi], ha⟩
  · rintro (h | ⟨i, hi, ha⟩)
    · exact mem_docIds_of_mem h
    · exact mem_docIds_attr hi ha

theorem docIds_append (h : Heap) (F G : Forest NodeId) : docIds h (F ++ G) = docIds h F ++ docIds h G := by
  induction F with
  | nil => rfl
  | cons a k r _ ih => simp [docIds, ih]

theorem linked_append {h : Heap} {p : Option NodeId} {F G : Forest NodeId} :
    Linked h p (F ++ G) ↔ Linked h p F ∧ Linked h p G := by
  induction F with
  | nil => simp [Linked]
  | cons a k r _ ih =>
    simp only [Forest.cons_append, Linked, ih]
    tauto

theorem docIds_congr {h h' : Heap} {F : Forest NodeId}
    (hs : ∀ i ∈ F.toList, (h'.node i).attributes = (h.node i).attributes) : docIds h' F = docIds h F := by
  induction F with
  | nil => rfl
  | cons a k r ih1 ih2 =>
    simp only [Forest.toList, List.mem_cons, List.mem_append] at hs
    simp only [docIds]
    rw [hs a (by simp), ih1 (fun i hi => hs i (by simp [hi])), ih2 (fun i hi => hs i (by simp [hi]))]

theorem linked_congr {h h' : Heap} {p : Option NodeId} {F : Forest NodeId} (hl : Linked h p F)
    (hs : ∀ i ∈ docIds h F, SameLinks h h' i) : Linked h' p F := by
  induction F generalizing p with
  | nil => trivial
  | cons a k r ih1 ih2 =>
    obtain ⟨h1, h2, h3, h4, h5⟩ := hl
    simp only [docIds, List.mem_cons, List.mem_append] at hs
    have ha := hs a (by simp)
    refine ⟨ha.1.trans h1, ?_, ha.2.1.trans h3, ih1 h4 fun i hi => hs i (by simp [hi]),
      ih2 h5 fun i hi => hs i (by simp [hi])⟩
    intro b hb
    rw [ha.2.2] at hb
    rw [(hs b (by simp [hb])).1]
    exact h2 b hb

/-- Parent of a listed node or attribute. -/
theorem linked_parent_attr {h : Heap} {p : Option NodeId} {F : Forest NodeId} (hl : Linked h p F) {i a : NodeId}
    (hi : i ∈ F.toList) (ha : a ∈ (h.node i).attributes) : (h.node a).parent = some i := by
  induction F generalizing p with
  | nil => simp [Forest.toList] at hi
  | cons b k r ih1 ih2 =>
    obtain ⟨h1, h2, h3, h4, h5⟩ := hl
    simp only [Forest.toList, List.mem_cons, List.mem_append] at hi
    rcases hi with rfl | hi | hi
    · exact h2 a ha
    · exact ih1 h4 hi
    · exact ih2 h5 hi

theorem linked_roots_parent {h : Heap} {p : Option NodeId} {F : Forest NodeId} (hl : Linked h p F) {i : NodeId}
    (hi : i ∈ F.roots) : (h.node i).parent = p := by
  induction F generalizing p with
  | nil => simp [Forest.roots] at hi
  | cons b k r _ ih2 =>
    obtain ⟨h1, h2, h3, h4, h5⟩ := hl
    simp only [Forest.roots, List.mem_cons] at hi
    rcases hi with rfl | hi
    · exact h1
    · exact ih2 h5 hi

theorem roots_sub_toList {α : Type} {F : Forest α} {i : α} (hi : i ∈ F.roots) : i ∈ F.toList := by
  induction F with
  | nil => simp [Forest.roots] at hi
  | cons b k r _ ih2 =>
    simp only [Forest.roots, List.mem_cons] at hi
    simp only [Forest.toList, List.mem_cons, List.mem_append]
    rcases hi with rfl | hi
    · simp
    · simp [ih2 hi]

theorem linked_child {h : Heap} {p : Option NodeId} {F : Forest NodeId} (hl : Linked h p F) {i c : NodeId}
    (hi : i ∈ F.toList) (hc : c ∈ (h.node i).children) : c ∈ F.toList ∧ (h.node c).parent = some i := by
  induction F generalizing p with
  | nil => simp [Forest.toList] at hi
  | cons b k r ih1 ih2 =>
    obtain ⟨h1, h2, h3, h4, h5⟩ := hl
    simp only [Forest.toList, List.mem_cons, List.mem_append] at hi ⊢
    rcases hi with rfl | hi | hi
    · rw [h3] at hc
      exact ⟨.inr (.inl (roots_sub_toList hc)), linked_roots_parent h4 hc⟩
    · have := ih1 h4 hi; tauto
    · have := ih2 h5 hi; tauto

/-- The parent of a node in the forest is `p` or a node of the forest that lists it as a child. -/
theorem linked_parent {h : Heap} {p : Option NodeId} {F : Forest NodeId} (hl : Linked h p F) {i : NodeId}
    (hi : i ∈ F.toList) : (h.node i).parent = p ∧ i ∈ F.roots ∨
      ∃ j ∈ F.toList, (h.node i).parent = some j ∧ i ∈ (h.node j).children := by
  induction F generalizing p with
  | nil => simp [Forest.toList] at hi
  | cons b k r ih1 ih2 =>
    obtain ⟨h1, h2, h3, h4, h5⟩ := hl
    simp only [Forest.toList, List.mem_cons, List.mem_append] at hi
    rcases hi with rfl | hi | hi
    · exact .inl ⟨h1, by simp [Forest.roots]⟩
    · rcases ih1 h4 hi with ⟨e, hr⟩ | ⟨j, hj, e, hc⟩
      · exact .inr ⟨b, by simp [Forest.toList], e, by rw [h3]; exact hr⟩
      · exact .inr ⟨j, by simp [Forest.toList, hj], e, hc⟩
    · rcases ih2 h5 hi with ⟨e, hr⟩ | ⟨j, hj, e, hc⟩
      · exact .inl ⟨e, by simp [Forest.roots, hr]⟩
      · exact .inr ⟨j, by simp [Forest.toList, hj], e, hc⟩

theorem toList_sublist_docIds (h : Heap) (F : Forest NodeId) : F.toList.Sublist (docIds h F) := by
  induction F with
  | nil => simp [Forest.toList]
  | cons a k r ih1 ih2 =>
    simp only [Forest.toList, docIds]
    refine List.Sublist.cons_cons a ?_
    exact (ih1.append ih2).trans (List.sublist_append_right _ _)

theorem kidsOf_spec {h : Heap} {p : Option NodeId} {F : Forest NodeId} (hl : Linked h p F) {i : NodeId} {k : Forest NodeId}
    (hk : F.kidsOf i = some k) : i ∈ F.toList ∧ Linked h (some i) k ∧ (h.node i).children = k.roots := by
  induction F generalizing p with
  | nil => simp [Forest.kidsOf] at hk
  | cons a k' r ih1 ih2 =>
    obtain ⟨h1, h2, h3, h4, h5⟩ := hl
    simp only [Forest.kidsOf] at hk
    simp only [Forest.toList, List.mem_cons, List.mem_append]
    split at hk
    · rename_i e; subst e; simp at hk; subst hk; exact ⟨.inl rfl, h4, h3⟩
    · rw [Option.or_eq_some_iff] at hk
      rcases hk with hk | ⟨_, hk⟩
      · have := ih1 h4 hk; exact ⟨.inr (.inl this.1), this.2⟩
      · have := ih2 h5 hk; exact ⟨.inr (.inr this.1), this.2⟩

/-- Changing the children of one node `i` of a linked forest. -/
theorem modifyKids_linked {h h' : Heap} {p : Option NodeId} {F : Forest NodeId} (hl : Linked h p F)
    (hnd : (docIds h F).Nodup) {i : NodeId} {k : Forest NodeId} (hk : F.kidsOf i = some k) (g : Forest NodeId → Forest NodeId)
    (hs : ∀ j ∈ docIds h F, j ≠ i → SameLinks h h' j)
    (hip : (h'.node i).parent = (h.node i).parent) (hia : (h'.node i).attributes = (h.node i).attributes)
    (hic : (h'.node i).children = (g k).roots) (hgl : Linked h' (some i) (g k)) :
    Linked h' p (F.modifyKids i g) ∧
    ∃ pre post, docIds h F = pre ++ i :: (h.node i).attributes ++ docIds h k ++ post ∧
      docIds h' (F.modifyKids i g) = pre ++ i :: (h.node i).attributes ++ docIds h' (g k) ++ post := by
  induction F generalizing p with
  | nil => simp [Forest.kidsOf] at hk
  | cons a k' r ih1 ih2 =>
    obtain ⟨h1, h2, h3, h4, h5⟩ := hl
    have hnd0 := hnd
    simp only [docIds] at hnd hs
    simp only [List.nodup_cons, List.mem_append, not_or, List.nodup_append] at hnd
    obtain ⟨⟨ha1, ha2, ha3⟩, hn1, ⟨hn2, hn3, hd1⟩, hd2⟩ := hnd
    simp only [Forest.kidsOf] at hk
    by_cases e : a = i
    · subst e
      simp at hk; subst hk
      have hr : ∀ j ∈ docIds h r, SameLinks h h' j := fun j hj =>
        hs j (by simp [hj]) (by rintro rfl; exact ha3 hj)
      simp only [Forest.modifyKids, if_true]
      refine ⟨⟨hip.trans h1, ?_, hic, hgl, linked_congr h5 hr⟩, [], docIds h r, ?_, ?_⟩
      · intro b hb
        rw [hia] at hb
        rw [(hs b (by simp [hb]) (by rintro rfl; exact ha1 hb)).1]
        exact h2 b hb
      · simp [docIds]
      · simp only [docIds, hia, List.nil_append, List.cons_append, List.append_assoc]
        rw [docIds_congr (fun j hj => (hr j (mem_docIds_of_mem hj)).2.2)]
    · simp only [e, if_false, Option.or_eq_some_iff] at hk
      simp only [Forest.modifyKids, e, if_false]
      have hsa := hs a (by simp) e
      have hattr : ∀ (hi : i ∉ (h.node a).attributes), ∀ b ∈ (h'.node a).attributes, (h'.node b).parent = some a := by
        intro hi b hb
        rw [hsa.2.2] at hb
        rw [(hs b (by simp [hb]) (by rintro rfl; exact hi hb)).1]
        exact h2 b hb
      rcases hk with hk | ⟨hkn, hk⟩
      · have hik : i ∈ k'.toList := by
          by_contra hc; rw [← Forest.kidsOf_none] at hc; rw [hc] at hk; simp at hk
        have hir : i ∉ docIds h r := fun hm => hd1 i (mem_docIds_of_mem hik) i hm rfl
        have hia' : i ∉ (h.node a).attributes := fun hm => hd2 i hm i (by simp [mem_docIds_of_mem hik]) rfl
        obtain ⟨hL, pre, post, e1, e2⟩ := ih1 h4 hn2 hk (fun j hj hne => hs j (by simp [hj]) hne)
        have hr : ∀ j ∈ docIds h r, SameLinks h h' j := fun j hj =>
          hs j (by simp [hj]) (by rintro rfl; exact hir hj)
        rw [Forest.modifyKids_of_not_mem (fun hm => hir (mem_docIds_of_mem hm))]
        refine ⟨⟨hsa.1.trans h1, hattr hia', ?_, hL, linked_congr h5 hr⟩,
          a :: (h.node a).attributes ++ pre, post ++ docIds h r, ?_, ?_⟩
        · rw [Forest.modifyKids_roots]; exact hsa.2.1.trans h3
        · simp only [docIds, e1]; simp
        · simp only [docIds, e2, hsa.2.2]
          rw [docIds_congr (fun j hj => (hr j (mem_docIds_of_mem hj)).2.2)]; simp
      · have hir : i ∈ r.toList := by
          by_contra hc; rw [← Forest.kidsOf_none] at hc; rw [hc] at hk; simp at hk
        have hik : i ∉ docIds h k' := fun hm => hd1 i hm i (mem_docIds_of_mem hir) rfl
        have hia' : i ∉ (h.node a).attributes := fun hm => hd2 i hm i (by simp [mem_docIds_of_mem hir]) rfl
        obtain ⟨hL, pre, post, e1, e2⟩ := ih2 h5 hn3 hk (fun j hj hne => hs j (by simp [hj]) hne)
        have hr : ∀ j ∈ docIds h k', SameLinks h h' j := fun j hj =>
          hs j (by simp [hj]) (by rintro rfl; exact hik hj)
        rw [Forest.modifyKids_of_not_mem (F := k') (fun hm => hik (mem_docIds_of_mem hm))]
        refine ⟨⟨hsa.1.trans h1, hattr hia', hsa.2.1.trans h3, linked_congr h4 hr, hL⟩,
          a :: (h.node a).attributes ++ docIds h k' ++ pre, post, ?_, ?_⟩
        · simp only [docIds, e1]; simp
        · simp only [docIds, e2, hsa.2.2]
          rw [docIds_congr (fun j hj => (hr j (mem_docIds_of_mem hj)).2.2)]; simp

/-- Changing the attributes of one node `i` of a linked forest. -/
theorem modifyAttrs_linked {h h' : Heap} {p : Option NodeId} {F : Forest NodeId} (hl : Linked h p F)
    (hnd : (docIds h F).Nodup) {i : NodeId} (hi : i ∈ F.toList)
    (hs : ∀ j ∈ docIds h F, j ≠ i → SameLinks h h' j)
    (hip : (h'.node i).parent = (h.node i).parent) (hic : (h'.node i).children = (h.node i).children)
    (hia : ∀ a ∈ (h'.node i).attributes, (h'.node a).parent = some i) :
    Linked h' p F ∧
    ∃ pre post, docIds h F = pre ++ i :: (h.node i).attributes ++ post ∧
      docIds h' F = pre ++ i :: (h'.node i).attributes ++ post := by
  induction F generalizing p with
  | nil => simp [Forest.toList] at hi
  | cons a k r ih1 ih2 =>
    obtain ⟨h1, h2, h3, h4, h5⟩ := hl
    simp only [docIds] at hnd hs
    simp only [List.nodup_cons, List.mem_append, not_or, List.nodup_append] at hnd
    obtain ⟨⟨ha1, ha2, ha3⟩, hn1, ⟨hn2, hn3, hd1⟩, hd2⟩ := hnd
    by_cases e : a = i
    · subst e
      have hk : ∀ j ∈ docIds h k, SameLinks h h' j := fun j hj =>
        hs j (by simp [hj]) (by rintro rfl; exact ha2 hj)
      have hr : ∀ j ∈ docIds h r, SameLinks h h' j := fun j hj =>
        hs j (by simp [hj]) (by rintro rfl; exact ha3 hj)
      refine ⟨⟨hip.trans h1, hia, hic.trans h3, linked_congr h4 hk, linked_congr h5 hr⟩, [],
        docIds h k ++ docIds h r, ?_, ?_⟩
      · simp [docIds]
      · simp only [docIds, List.nil_append, List.cons_append]
        rw [docIds_congr (fun j hj => (hr j (mem_docIds_of_mem hj)).2.2),
          docIds_congr (fun j hj => (hk j (mem_docIds_of_mem hj)).2.2)]
    · have hsa := hs a (by simp) e
      have hattr : ∀ (hi : i ∉ (h.node a).attributes), ∀ b ∈ (h'.node a).attributes, (h'.node b).parent = some a := by
        intro hi b hb
        rw [hsa.2.2] at hb
        rw [(hs b (by simp [hb]) (by rintro rfl; exact hi hb)).1]
        exact h2 b hb
      simp only [Forest.toList, List.mem_cons, List.mem_append, Ne.symm e, false_or] at hi
      rcases hi with hik | hir
      · have hir : i ∉ docIds h r := fun hm => hd1 i (mem_docIds_of_mem hik) i hm rfl
        have hia' : i ∉ (h.node a).attributes := fun hm => hd2 i hm i (by simp [mem_docIds_of_mem hik]) rfl
        obtain ⟨hL, pre, post, e1, e2⟩ := ih1 h4 hn2 hik (fun j hj hne => hs j (by simp [hj]) hne)
        have hr : ∀ j ∈ docIds h r, SameLinks h h' j := fun j hj =>
          hs j (by simp [hj]) (by rintro rfl; exact hir hj)
        refine ⟨⟨hsa.1.trans h1, hattr hia', hsa.2.1.trans h3, hL, linked_congr h5 hr⟩,
          a :: (h.node a).attributes ++ pre, post ++ docIds h r, ?_, ?_⟩
        · simp only [docIds, e1]; simp
        · simp only [docIds, e2, hsa.2.2]
          rw [docIds_congr (fun j hj => (hr j (mem_docIds_of_mem hj)).2.2)]; simp
      · have hik : i ∉ docIds h k := fun hm => hd1 i hm i (mem_docIds_of_mem hir) rfl
        have hia' : i ∉ (h.node a).attributes := fun hm => hd2 i hm i (by simp [mem_docIds_of_mem hir]) rfl
        obtain ⟨hL, pre, post, e1, e2⟩ := ih2 h5 hn3 hir (fun j hj hne => hs j (by simp [hj]) hne)
        have hr : ∀ j ∈ docIds h k, SameLinks h h' j := fun j hj =>
          hs j (by simp [hj]) (by rintro rfl; exact hik hj)
        refine ⟨⟨hsa.1.trans h1, hattr hia', hsa.2.1.trans h3, linked_congr h4 hr, hL⟩,
          a :: (h.node a).attributes ++ docIds h k ++ pre, post, ?_, ?_⟩
        · simp only [docIds, e1]; simp
        · simp only [docIds, e2, hsa.2.2]
          rw [docIds_congr (fun j hj => (hr j (mem_docIds_of_mem hj)).2.2)]; simp

theorem kidsOf_isSome {α : Type} [DecidableEq α] {F : Forest α} {i : α} (hi : i ∈ F.toList) :
    ∃ k, F.kidsOf i = some k := by
  cases hk : F.kidsOf i with
  | none => rw [Forest.kidsOf_none] at hk; exact absurd hi hk
  | some k => exact ⟨k, rfl⟩

end Amxml
