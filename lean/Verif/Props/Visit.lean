import Verif.Spec.Visit
import Verif.Props.EditText
import Verif.Props.XQueries
import Verif.Props.XSame

/-!
# C102: editing what a query selects
-/

namespace Amxml
open Spec

namespace Visit

/-! ## Deleting -/

/-- The children of the node are its own, and each is there once. -/
def Good (h : Heap) (a : NodeId) : Prop := (∀ c ∈ (h.node a).children, (h.node c).parent = some a) ∧ (h.node a).children.Nodup

/-- All of a node but its children. -/
structure Keeps (h h' : Heap) : Prop where
  size : h'.size = h.size
  same : ∀ j, (h'.node j).ntype = (h.node j).ntype ∧ (h'.node j).name = (h.node j).name ∧ (h'.node j).value = (h.node j).value ∧
    (h'.node j).attributes = (h.node j).attributes ∧ (h'.node j).parent = (h.node j).parent

theorem Keeps.trans {h h' h'' : Heap} (a : Keeps h h') (b : Keeps h' h'') : Keeps h h'' :=
  ⟨b.size.trans a.size, fun j =>
    ⟨(b.same j).1.trans (a.same j).1, (b.same j).2.1.trans (a.same j).2.1, (b.same j).2.2.1.trans (a.same j).2.2.1,
      (b.same j).2.2.2.1.trans (a.same j).2.2.2.1, (b.same j).2.2.2.2.trans (a.same j).2.2.2.2⟩⟩

theorem delete_one (h : Heap) (c : NodeId) : Keeps h (deleteNode h c) ∧
    ∀ a, Good h a → ((deleteNode h c).node a).children = (h.node a).children.filter (fun x => decide (x ≠ c)) := by
  unfold deleteNode
  cases hp : (h.node c).parent with
  | none =>
    refine ⟨⟨rfl, fun j => ⟨rfl, rfl, rfl, rfl, rfl⟩⟩, ?_⟩
    intro a ha
    refine (List.filter_eq_self.2 ?_).symm
    rintro x hx
    rw [decide_eq_true_iff]
    rintro rfl
    rw [ha.1 x hx] at hp
    cases hp
  | some p =>
    obtain ⟨h1, h2, o, h3⟩ := deleteChild_spec h p c
    refine ⟨⟨h1, fun j => ?_⟩, ?_⟩
    · by_cases e : j = p
      · subst e; rw [h3]; exact ⟨rfl, rfl, rfl, rfl, rfl⟩
      · rw [h2 j e]; exact ⟨rfl, rfl, rfl, rfl, rfl⟩
    · intro a ha
      by_cases e : a = p
      · subst e
        rw [h3]
        show (h.node a).children.erase c = _
        rw [ha.2.erase_eq_filter]
        refine List.filter_congr fun x _ => ?_
        rw [Bool.eq_iff_iff]
        simp
      · rw [h2 a e]
        refine (List.filter_eq_self.2 ?_).symm
        rintro x hx
        rw [decide_eq_true_iff]
        rintro rfl
        rw [ha.1 x hx] at hp
        exact e (Option.some.inj hp)

theorem good_step {h : Heap} {a c : NodeId} (ha : Good h a) : Good (deleteNode h c) a := by
  obtain ⟨h1, h2⟩ := delete_one h c
  refine ⟨?_, ?_⟩
  · intro x hx
    rw [h2 a ha] at hx
    rw [(h1.same x).2.2.2.2]
    exact ha.1 x (List.mem_filter.1 hx).1
  · rw [h2 a ha]
    exact ha.2.filter _

theorem delete_all (l : List NodeId) (h : Heap) : Keeps h (l.foldl deleteNode h) ∧
    ∀ a, Good h a → ((l.foldl deleteNode h).node a).children = (h.node a).children.filter (fun x => decide (x ∉ l)) := by
  induction l generalizing h with
  | nil =>
    refine ⟨⟨rfl, fun j => ⟨rfl, rfl, rfl, rfl, rfl⟩⟩, fun a _ => ?_⟩
    exact (List.filter_eq_self.2 (by simp)).symm
  | cons c l ih =>
    obtain ⟨h1, h2⟩ := delete_one h c
    obtain ⟨h3, h4⟩ := ih (deleteNode h c)
    refine ⟨h1.trans h3, fun a ha => ?_⟩
    rw [List.foldl_cons, h4 a (good_step ha), h2 a ha, List.filter_filter]
    refine List.filter_congr fun x _ => ?_
    rw [Bool.eq_iff_iff]
    simp [and_comm]

theorem roots_prune (d : NodeId → Bool) (F : Forest NodeId) : (F.prune d).roots = F.roots.filter fun x => !d x := by
  induction F with
  | nil => rfl
  | cons a k r _ ih =>
    rw [Forest.prune, Forest.roots]
    cases e : d a with
    | true => rw [if_pos rfl, ih, List.filter_cons_of_neg (by simp [e])]
    | false =>
      rw [if_neg (by simp), Forest.roots, ih, List.filter_cons_of_pos (by simp [e])]

theorem linked_prune {h h' : Heap} {d : NodeId → Bool} (hk : Keeps h h')
    (F : Forest NodeId) (p : Option NodeId) (hl : Linked h p F)
    (hc : ∀ a ∈ F.toList, (h'.node a).children = (h.node a).children.filter fun x => !d x) : Linked h' p (F.prune d) := by
  induction F generalizing p with
  | nil => trivial
  | cons a k r ih1 ih2 =>
    obtain ⟨h1, h2, h3, h4, h5⟩ := hl
    simp only [Forest.toList, List.mem_cons, List.mem_append] at hc
    rw [Forest.prune]
    have hr := ih2 p h5 fun x hx => hc x (.inr (.inr hx))
    split
    · exact hr
    · refine ⟨(hk.same a).2.2.2.2.trans h1, ?_, ?_, ih1 _ h4 fun x hx => hc x (.inr (.inl hx)), hr⟩
      · rw [(hk.same a).2.2.2.1]
        intro x hx
        exact (hk.same x).2.2.2.2.trans (h2 x hx)
      · rw [hc a (.inl rfl), h3, roots_prune]

theorem docIds_prune {h h' : Heap} (d : NodeId → Bool) (hk : Keeps h h') (F : Forest NodeId) :
    (docIds h' (F.prune d)).Sublist (docIds h F) := by
  induction F with
  | nil => exact .slnil
  | cons a k r ih1 ih2 =>
    rw [Forest.prune]
    split
    · rw [docIds]
      exact (ih2.trans ((List.sublist_append_right _ _).trans (List.sublist_append_right _ _))).cons _
    · rw [docIds, docIds, (hk.same a).2.2.2.1]
      exact ((List.Sublist.refl _).append (ih1.append ih2)).cons_cons _

theorem keeps_content {h h' : Heap} (hk : Keeps h h') (j : NodeId) : contentOf h' j = contentOf h j :=
  contentOf_congr ⟨(hk.same j).1, (hk.same j).2.1, (hk.same j).2.2.1, (hk.same j).2.2.2.1⟩ fun a _ => ⟨(hk.same a).2.1, (hk.same a).2.2.1⟩

theorem good_of {h : Heap} {r : NodeId} {F : Forest NodeId} (hd : DocTree h r F) {a : NodeId} (ha : a ∈ (Forest.cons r F .nil).toList) : Good h a := by
  refine ⟨fun c hc => (linked_child hd.linked ha hc).2, C31_siblings.children_nodup hd ?_⟩
  simpa [Forest.toList] using ha

/-- The document after its nodes in `l` have been deleted. -/
theorem pruned {h : Heap} {r : NodeId} {F : Forest NodeId} (hd : DocTree h r F) (l : List NodeId) :
    DocTree (l.foldl deleteNode h) r (F.prune fun i => decide (i ∈ l)) ∧ (∀ j, contentOf (l.foldl deleteNode h) j = contentOf h j) := by
  obtain ⟨hk, hc⟩ := delete_all l h
  have hc' : ∀ a ∈ (Forest.cons r F .nil).toList, ((l.foldl deleteNode h).node a).children =
      (h.node a).children.filter fun x => !decide (x ∈ l) := by
    intro a ha
    rw [hc a (good_of hd ha)]
    simp
  have hsub : (docIds (l.foldl deleteNode h) (.cons r (F.prune fun i => decide (i ∈ l)) .nil)).Sublist (docIds h (.cons r F .nil)) := by
    rw [docIds, docIds, (hk.same r).2.2.2.1]
    exact ((List.Sublist.refl _).append ((docIds_prune _ hk F).append .slnil)).cons_cons _
  refine ⟨⟨?_, hd.nodup.sublist hsub, fun i hi => ?_⟩, keeps_content hk⟩
  · obtain ⟨h1, h2, h3, h4, -⟩ := hd.linked
    refine ⟨(hk.same r).2.2.2.2.trans h1, ?_, ?_, linked_prune hk F _ h4 fun a ha => hc' a (by simp [Forest.toList, ha]), trivial⟩
    · rw [(hk.same r).2.2.2.1]
      intro x hx
      exact (hk.same x).2.2.2.2.trans (h2 x hx)
    · rw [hc' r (by simp [Forest.toList]), h3, roots_prune]
  · rw [hk.size]
    exact hd.bound i (hsub.subset hi)

theorem delete_reach {h : Heap} (hr : Reach h) (c : NodeId) : Reach (deleteNode h c) := by
  unfold deleteNode
  cases hp : (h.node c).parent with
  | none => exact hr
  | some p =>
    have hc : c < h.size := by
      by_contra hn
      rw [(hr.inv.1.fresh c (Nat.le_of_not_lt hn)).1] at hp
      cases hp
    exact .edit (.deleteChild p c) hr ⟨Nat.lt_trans (hr.inv.1.parent_lt c p hp) hc, hc⟩

theorem deletes_reach {h : Heap} (hr : Reach h) (l : List NodeId) : Reach (l.foldl deleteNode h) := by
  induction l generalizing h with
  | nil => exact hr
  | cons c l ih => exact ih (delete_reach hr c)

end Visit

/-- **C102.** `each_node(q, delete the node from its parent)`: the nodes deleted are those that the query selects in the document as it was;
what is left is the document without the trees below them, every node left as it was; and that is what `to_string` writes. -/
theorem C102_delete (h : Heap) (hr : Reach h) (r : NodeId) (F : Forest NodeId) (hd : DocTree h r F) (n : Nat) (start : NodeId) (q : Str)
    (l : List NodeId) (hq : getNodeset h n start q = .ok l) :
    ∃ h', eachNode h n start q deleteNode h = .ok h' ∧ Reach h' ∧ DocTree h' r (F.prune fun i => decide (i ∈ l)) ∧
      (∀ j, contentOf h' j = contentOf h j) ∧
      ((h.node r).ntype = .documentRoot → ∀ fuel > F.toList.length,
        h'.toString fuel r = some (strOf ((F.prune fun i => decide (i ∈ l)).map (contentOf h)))) := by
  obtain ⟨h1, h2⟩ := Visit.pruned hd l
  refine ⟨l.foldl deleteNode h, by rw [eachNode, hq]; rfl, Visit.deletes_reach hr l, h1, h2, ?_⟩
  intro ht fuel hf
  have ht' : ((l.foldl deleteNode h).node r).ntype = .documentRoot := (((Visit.delete_all l h).1.same r).1).trans ht
  have hlen : (F.prune fun i => decide (i ∈ l)).toList.length ≤ F.toList.length := by
    generalize (fun i => decide (i ∈ l)) = d
    clear * -
    induction F with
    | nil => exact Nat.le_refl _
    | cons a k r ih1 ih2 =>
      rw [Forest.prune]
      split <;> simp only [Forest.toList, List.length_cons, List.length_append] <;> omega
  rw [toString_total h1 ht' fuel (by omega), Forest.map_congr fun a _ => h2 a]


namespace Visit

theorem leaves_of {h : Heap} {r : NodeId} {F : Forest NodeId} (hp : PlainAttrs h r F) : AttrLeaves h (.cons r F .nil) :=
  fun i hi a ha => hp.attr i (by simpa [Forest.toList] using hi) a ha

/-! ## Attributes -/

theorem setIn_eq (n v : Str) (l : List (Str × Str)) :
    setIn n v l = if n ∈ l.map (fun a => a.1) then replaceFirst n v l else l ++ [(n, v)] := by
  induction l with
  | nil => rfl
  | cons a l ih =>
    rw [setIn, replaceFirst]
    by_cases e : a.1 = n
    · rw [if_pos e, if_pos e, if_pos (by simp [e])]
    · rw [if_neg e, if_neg e, ih]
      by_cases hm : n ∈ l.map (fun a => a.1)
      · rw [if_pos hm, if_pos (by rw [List.map_cons]; exact .tail _ hm)]
      · rw [if_neg hm, if_neg (by rw [List.map_cons, List.mem_cons]; rintro (rfl | hx); exacts [e rfl, hm hx])]
        rfl

theorem setIn_twice (n v : Str) (l : List (Str × Str)) : setIn n v (setIn n v l) = setIn n v l := by
  induction l with
  | nil => simp [setIn]
  | cons a l ih =>
    rw [setIn]
    by_cases e : a.1 = n
    · rw [if_pos e, setIn, if_pos rfl]
    · rw [if_neg e, setIn, if_neg e, ih]

theorem set_one {h : Heap} (hr : Reach h) {r : NodeId} {F : Forest NodeId} (hd : DocTree h r F) {i : NodeId} (hi : i < h.size) (n v : Str) :
    Reach (h.setAttribute i n v) ∧ DocTree (h.setAttribute i n v) r F ∧ h.size ≤ (h.setAttribute i n v).size ∧
    (contentOf (h.setAttribute i n v) i = (contentOf h i).setAttr n v) ∧
    ∀ j, j < h.size → j ≠ i → contentOf (h.setAttribute i n v) j = contentOf h j := by
  have hw := hr.inv.1
  obtain ⟨h1, -, -, o, as, h2, -⟩ := setAttribute_spec h hw i hi n v
  refine ⟨.edit (.setAttribute i n v) hr hi, docTree_setAttribute hw hd hi n v, by omega, ?_, fun j hj hne => setAttribute_content_other h hw i hi n v j hj hne⟩
  have ha := setAttribute_attrs h hw i hi n v
  rw [← setIn_eq] at ha
  have e : contentOf (h.setAttribute i n v) i = { contentOf h i with attrs := (contentOf (h.setAttribute i n v) i).attrs } := by
    simp only [contentOf, h2]
  rw [e, ha]
  rfl

theorem set_all (n v : Str) (l : List NodeId) {h : Heap} (hr : Reach h) {r : NodeId} {F : Forest NodeId} (hd : DocTree h r F) (hl : ∀ i ∈ l, i < h.size) :
    Reach (l.foldl (fun h i => h.setAttribute i n v) h) ∧ DocTree (l.foldl (fun h i => h.setAttribute i n v) h) r F ∧
    ∀ j, j < h.size → contentOf (l.foldl (fun h i => h.setAttribute i n v) h) j = if j ∈ l then (contentOf h j).setAttr n v else contentOf h j := by
  induction l generalizing h with
  | nil => exact ⟨hr, hd, fun j _ => by rw [if_neg (List.not_mem_nil)]; rfl⟩
  | cons i l ih =>
    obtain ⟨a1, a2, a3, a4, a5⟩ := set_one hr hd (hl i (.head _)) n v
    obtain ⟨b1, b2, b3⟩ := ih a1 a2 fun j hj => Nat.lt_of_lt_of_le (hl j (.tail _ hj)) a3
    refine ⟨b1, b2, fun j hj => ?_⟩
    rw [List.foldl_cons, b3 j (Nat.lt_of_lt_of_le hj a3)]
    by_cases e : j = i
    · subst e
      rw [a4, if_pos (List.mem_cons_self)]
      by_cases hm : j ∈ l
      · rw [if_pos hm]
        simp only [Content.setAttr, setIn_twice]
      · rw [if_neg hm]
    · rw [a5 j hj e]
      by_cases hm : j ∈ l
      · rw [if_pos hm, if_pos (.tail _ hm)]
      · rw [if_neg hm, if_neg (by rw [List.mem_cons]; rintro (h1 | h1); exacts [e h1, hm h1])]

theorem removeFirst_filter (n : Str) (l : List (Str × Str)) (hn : (l.map fun a => a.1).Nodup) : Spec.removeFirst n l = l.filter fun a => a.1 ≠ n := by
  induction l with
  | nil => rfl
  | cons a l ih =>
    rw [List.map_cons, List.nodup_cons] at hn
    rw [Spec.removeFirst]
    by_cases e : a.1 = n
    · rw [if_pos e, List.filter_cons_of_neg (by simp [e])]
      refine (List.filter_eq_self.2 fun b hb => ?_).symm
      rw [decide_eq_true_iff]
      intro hb'
      exact hn.1 (List.mem_map.2 ⟨b, hb, hb'.trans e.symm⟩)
    · rw [if_neg e, List.filter_cons_of_pos (by simp [e]), ih hn.2]

theorem drop_one {h : Heap} (hr : Reach h) {r : NodeId} {F : Forest NodeId} (hd : DocTree h r F) {i : NodeId} (hi : i < h.size) (n : Str)
    (hn : ((contentOf h i).attrs.map fun a => a.1).Nodup) :
    Reach (h.deleteAttribute i n) ∧ DocTree (h.deleteAttribute i n) r F ∧ h.size ≤ (h.deleteAttribute i n).size ∧
    (contentOf (h.deleteAttribute i n) i = (contentOf h i).dropAttr n) ∧
    ∀ j, j ≠ i → contentOf (h.deleteAttribute i n) j = contentOf h j := by
  have hw := hr.inv.1
  obtain ⟨h1, -, o, as, h2, -⟩ := deleteAttribute_spec h i n
  refine ⟨.edit (.deleteAttribute i n) hr hi, docTree_deleteAttribute hw hd hi n, by omega, ?_, fun j hne => deleteAttribute_content_other h i n j hne⟩
  have ha := deleteAttribute_attrs h i n
  rw [removeFirst_filter _ _ hn] at ha
  have e : contentOf (h.deleteAttribute i n) i = { contentOf h i with attrs := (contentOf (h.deleteAttribute i n) i).attrs } := by
    simp only [contentOf, h2]
  rw [e, ha]
  rfl

theorem drop_all (n : Str) (l : List NodeId) {h : Heap} (hr : Reach h) {r : NodeId} {F : Forest NodeId} (hd : DocTree h r F) (hl : ∀ i ∈ l, i < h.size)
    (hn : ∀ i ∈ l, ((contentOf h i).attrs.map fun a => a.1).Nodup) :
    Reach (l.foldl (fun h i => h.deleteAttribute i n) h) ∧ DocTree (l.foldl (fun h i => h.deleteAttribute i n) h) r F ∧
    ∀ j, contentOf (l.foldl (fun h i => h.deleteAttribute i n) h) j = if j ∈ l then (contentOf h j).dropAttr n else contentOf h j := by
  induction l generalizing h with
  | nil => exact ⟨hr, hd, fun j => by rw [if_neg (List.not_mem_nil)]; rfl⟩
  | cons i l ih =>
    obtain ⟨a1, a2, a3, a4, a5⟩ := drop_one hr hd (hl i (.head _)) n (hn i (.head _))
    obtain ⟨b1, b2, b3⟩ := ih a1 a2 (fun j hj => Nat.lt_of_lt_of_le (hl j (.tail _ hj)) a3) (by
      intro j hj
      by_cases e : j = i
      · subst e
        rw [a4]
        exact (hn j (.head _)).sublist (List.filter_sublist.map _)
      · rw [a5 j e]; exact hn j (.tail _ hj))
    refine ⟨b1, b2, fun j => ?_⟩
    rw [List.foldl_cons, b3 j]
    by_cases e : j = i
    · subst e
      rw [a4, if_pos (List.mem_cons_self)]
      by_cases hm : j ∈ l
      · rw [if_pos hm]
        simp only [Content.dropAttr, List.filter_filter, Bool.and_self]
      · rw [if_neg hm]
    · rw [a5 j e]
      by_cases hm : j ∈ l
      · rw [if_pos hm, if_pos (.tail _ hm)]
      · rw [if_neg hm, if_neg (by rw [List.mem_cons]; rintro (h1 | h1); exacts [e h1, hm h1])]

end Visit

section
variable (h : Heap) (hr : Reach h) (r : NodeId) (F : Forest NodeId) (hd : DocTree h r F) (hp : PlainAttrs h r F) (k : Nat) (start : NodeId)
  (hs : start ∈ docIds h (.cons r F .nil)) (q : Str) (l : List NodeId) (hq : getNodeset h k start q = .ok l)
include hr hd hp hs hq

/-- **C102.** The nodes a query selects, from a node of a document, are nodes of that document. -/
theorem C102_stays : ∀ i ∈ l, i ∈ docIds h (.cons r F .nil) := by
  obtain ⟨m, hm⟩ := List.mem_iff_getElem?.1 hs
  have key := (C91_nodes h h hr hr r r F F hd hd (Visit.leaves_of hp) (Visit.leaves_of hp) rfl start start ⟨m, hm, hm⟩ k q).1
  rw [hq] at key
  cases key with
  | ok key =>
    intro i hi
    obtain ⟨a, ha, rfl⟩ := List.mem_iff_getElem.1 hi
    obtain ⟨b, hb, -⟩ := (List.forall₂_iff_get.1 key).2 a ha ha
    exact List.mem_of_getElem? hb

/-- **C102.** `each_node(q, set the attribute n to v)`: the tree is the same; the nodes that the query selects in the document as it was have
the attribute with that value (at its place, or last), and everything else of them and of the other nodes is as it was; and that is what
`to_string` writes. -/
theorem C102_set (n v : Str) :
    ∃ h', eachNode h k start q (fun h i => h.setAttribute i n v) h = .ok h' ∧ Reach h' ∧ DocTree h' r F ∧
      (∀ j ∈ docIds h (.cons r F .nil), contentOf h' j = if j ∈ l then (contentOf h j).setAttr n v else contentOf h j) ∧
      ((h.node r).ntype = .documentRoot → ∀ fuel > F.toList.length,
        h'.toString fuel r = some (strOf (F.map fun j => if j ∈ l then (contentOf h j).setAttr n v else contentOf h j))) := by
  have hl := C102_stays h hr r F hd hp k start hs q l hq
  obtain ⟨h1, h2, h3⟩ := Visit.set_all n v l hr hd fun i hi => hd.bound i (hl i hi)
  refine ⟨_, by rw [eachNode, hq]; rfl, h1, h2, fun j hj => h3 j (hd.bound j hj), ?_⟩
  intro ht fuel hf
  have hb := hd.bound r (by rw [docIds]; exact .head _)
  have ht' : (contentOf (l.foldl (fun h i => h.setAttribute i n v) h) r).ntype = .documentRoot := by
    rw [h3 r hb]
    split <;> exact ht
  rw [toString_total h2 ht' fuel (by omega), Forest.map_congr fun a ha => h3 a (hd.bound a (mem_docIds_of_mem (by simp [Forest.toList, ha])))]

/-- **C102.** `each_node(q, delete the attribute n)`, where the elements selected have no attribute twice: likewise. -/
theorem C102_drop (n : Str) (hn : ∀ i ∈ l, ((contentOf h i).attrs.map fun a => a.1).Nodup) :
    ∃ h', eachNode h k start q (fun h i => h.deleteAttribute i n) h = .ok h' ∧ Reach h' ∧ DocTree h' r F ∧
      (∀ j, contentOf h' j = if j ∈ l then (contentOf h j).dropAttr n else contentOf h j) ∧
      ((h.node r).ntype = .documentRoot → ∀ fuel > F.toList.length,
        h'.toString fuel r = some (strOf (F.map fun j => if j ∈ l then (contentOf h j).dropAttr n else contentOf h j))) := by
  have hl := C102_stays h hr r F hd hp k start hs q l hq
  obtain ⟨h1, h2, h3⟩ := Visit.drop_all n l hr hd (fun i hi => hd.bound i (hl i hi)) hn
  refine ⟨_, by rw [eachNode, hq]; rfl, h1, h2, h3, ?_⟩
  intro ht fuel hf
  have ht' : (contentOf (l.foldl (fun h i => h.deleteAttribute i n) h) r).ntype = .documentRoot := by
    rw [h3 r]
    split <;> exact ht
  rw [toString_total h2 ht' fuel (by omega), Forest.map_congr fun a _ => h3 a]

end

namespace Visit

theorem prune_toList {α : Type} (d : α → Bool) (F : Forest α) : ∀ i ∈ (F.prune d).toList, i ∈ F.toList ∧ d i = false := by
  induction F with
  | nil => intro i hi; cases hi
  | cons a k r ih1 ih2 =>
    intro i hi
    rw [Forest.prune] at hi
    simp only [Forest.toList, List.mem_cons, List.mem_append]
    split at hi
    · exact ⟨.inr (.inr (ih2 i hi).1), (ih2 i hi).2⟩
    · rename_i e
      simp only [Forest.toList, List.mem_cons, List.mem_append] at hi
      rcases hi with rfl | hi | hi
      · exact ⟨.inl rfl, by simpa using e⟩
      · exact ⟨.inr (.inl (ih1 i hi).1), (ih1 i hi).2⟩
      · exact ⟨.inr (.inr (ih2 i hi).1), (ih2 i hi).2⟩

theorem prune_map {α β : Type} (f : α → β) (d : α → Bool) (e : β → Bool) (F : Forest α) (hde : ∀ i ∈ F.toList, d i = e (f i)) :
    (F.prune d).map f = (F.map f).prune e := by
  induction F with
  | nil => rfl
  | cons a k r ih1 ih2 =>
    simp only [Forest.toList, List.mem_cons, List.mem_append] at hde
    have h1 := ih1 fun i hi => hde i (.inr (.inl hi))
    have h2 := ih2 fun i hi => hde i (.inr (.inr hi))
    rw [Forest.prune, Forest.map, Forest.prune, ← hde a (.inl rfl)]
    split
    · exact h2
    · rw [Forest.map, h1, h2]

end Visit

/-- **C102**, end to end: `each_node("//m", delete the node from its parent)` leaves the document without its elements `m` and what is in them
(which is what `to_string` then writes), and `//m` selects nothing any more. -/
theorem C102_named (h : Heap) (hr : Reach h) (r : NodeId) (F : Forest NodeId) (hd : DocTree h r F) (hp : PlainAttrs h r F)
    (ht : (h.node r).ntype = .documentRoot) (m : Str) (hm : IsNCName m) (start : NodeId) (hs : start ∈ docIds h (.cons r F .nil)) :
    ∃ N h', (∀ n ≥ N, eachNode h n start (S "//" ++ m) deleteNode h = .ok h' ∧ getNodeset h' n r (S "//" ++ m) = .ok []) ∧
      ∃ s, h.toString N r = some (strOf (F.map (contentOf h))) ∧ (∀ n ≥ N, h'.toString n r = some s) ∧
        s = strOf ((F.map (contentOf h)).prune fun c => decide (c.ntype = .element ∧ c.name = m)) := by
  obtain ⟨N, hN⟩ := C88_named h hr r F hd hp m hm start hs
  obtain ⟨h', e1, hr', hd', hc, htx⟩ := C102_delete h hr r F hd N start _ _ (hN N (Nat.le_refl _))
  have hall : ∀ n ≥ N, eachNode h n start (S "//" ++ m) deleteNode h = .ok h' := by
    intro n hn
    rw [eachNode, hN N (Nat.le_refl _)] at e1
    rw [eachNode, hN n hn]
    exact e1
  generalize el : (F.toList.filter fun j => decide ((h.node j).ntype = .element ∧ (h.node j).name = m)) = l at *
  have hmem : ∀ i ∈ F.toList, decide (i ∈ l) = decide ((contentOf h i).ntype = .element ∧ (contentOf h i).name = m) := by
    intro i hi
    rw [decide_eq_decide, ← el, List.mem_filter, decide_eq_true_iff]
    exact ⟨fun a => a.2, fun a => ⟨hi, a⟩⟩
  have hk : Visit.Keeps h h' := by
    have := e1
    rw [eachNode, hN N (Nat.le_refl _)] at this
    cases this
    exact (Visit.delete_all l h).1
  have hsub : ∀ i ∈ r :: (F.prune fun i => decide (i ∈ l)).toList, i ∈ r :: F.toList := by
    intro i hi
    rcases List.mem_cons.1 hi with rfl | hi
    · exact .head _
    · exact .tail _ (Visit.prune_toList _ F i hi).1
  have hp' : PlainAttrs h' r (F.prune fun i => decide (i ∈ l)) := by
    refine ⟨fun i hi => ?_, fun i hi a ha => ?_⟩
    · rw [(hk.same i).1]; exact hp.tree i (hsub i hi)
    · rw [(hk.same i).2.2.2.1] at ha
      obtain ⟨a1, a2, a3⟩ := hp.attr i (hsub i hi) a ha
      refine ⟨(hk.same a).1.trans a1, ?_, (hk.same a).2.2.2.1.trans a3⟩
      have hg : Visit.Good h a := ⟨by rw [a2]; simp, by rw [a2]; exact .nil⟩
      have := e1
      rw [eachNode, hN N (Nat.le_refl _)] at this
      cases this
      rw [(Visit.delete_all l h).2 a hg, a2]
      rfl
  obtain ⟨N', hN'⟩ := C88_named h' hr' r _ hd' hp' m hm r (by rw [docIds]; exact .head _)
  have hnone : ((F.prune fun i => decide (i ∈ l)).toList.filter fun j => decide ((h'.node j).ntype = .element ∧ (h'.node j).name = m)) = [] := by
    rw [List.filter_eq_nil_iff]
    intro i hi
    obtain ⟨h1, h2⟩ := Visit.prune_toList _ F i hi
    rw [hmem i h1, ← hc i] at h2
    exact Bool.eq_false_iff.1 h2
  rw [hnone] at hN'
  refine ⟨max (max N N') (F.toList.length + 1), h', fun n hn => ⟨hall n (by omega), hN' n (by omega)⟩, _, ?_, fun n hn => htx ht n (by omega), ?_⟩
  · exact toString_total hd ht _ (by omega)
  · rw [Visit.prune_map (contentOf h) _ (fun c : Content => decide (c.ntype = .element ∧ c.name = m)) F hmem]

/-- The premises of C102 hold of `<a x="1" y="2"><b/><c/></a>`, and what it says can be seen there. -/
example : Reach editSample ∧ DocTree editSample 0 (.cons 1 (.cons 4 .nil (.cons 5 .nil .nil)) .nil) ∧
    PlainAttrs editSample 0 (.cons 1 (.cons 4 .nil (.cons 5 .nil .nil)) .nil) :=
  ⟨.parse .empty editSample_parsed, editSample_doc, by decide, by decide⟩

example : getNodeset editSample 100 5 (S "//*[boolean(b)]/c") = .ok [5] := by
  rw [getNodeset, show evalXPath editSample 100 5 (S "//*[boolean(b)]/c") = .ok [.node 5] by run_query]; rfl

example : ([4].foldl deleteNode editSample).toString 9 0 = some (S "<a x=\"1\" y=\"2\"><c/></a>") ∧
    ([1, 5].foldl (fun h i => h.setAttribute i (S "x") (S "3")) editSample).toString 9 0 = some (S "<a x=\"3\" y=\"2\"><b/><c x=\"3\"/></a>") ∧
    ([1, 5].foldl (fun h i => h.deleteAttribute i (S "x")) editSample).toString 9 0 = some (S "<a y=\"2\"><b/><c/></a>") := by decide

end Amxml
