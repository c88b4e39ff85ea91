import Verif.Spec.Undo
import Verif.Props.Elsewhere

/-!
# C103: an edit can be taken back
-/

namespace Amxml
open Spec

namespace Undo

section
variable {h h' : Heap} {r : NodeId} {F : Forest NodeId}

theorem same_texts (hd : DocTree h r F) (hP : ∀ i ∈ r :: F.toList, contentOf h' i = contentOf h i ∧ (h'.node i).children = (h.node i).children) :
    ∀ i ∈ r :: F.toList, ∀ n, h'.toString n i = h.toString n i ∧ h'.toPrettyString n i = h.toPrettyString n i ∧ h'.innerXml n i = h.innerXml n i := by
  intro i hi n
  have hP' : ∀ i, i ∈ r :: F.toList → contentOf h' i = contentOf h i ∧ (h'.node i).children = (h.node i).children ∧ ∀ c ∈ (h.node i).children, c ∈ r :: F.toList :=
    fun i hi => ⟨(hP i hi).1, (hP i hi).2, fun c hc => (doc_child hd hi hc).1⟩
  have key := toStringF_keep hP' n
  refine ⟨key _ _ _ (by simpa using hi), key _ _ _ (by simpa using hi), ?_⟩
  unfold Heap.innerXml
  rw [(hP' i hi).2.1]
  have : ∀ (l : List NodeId) (acc : Option Str), (∀ c ∈ l, c ∈ r :: F.toList) →
      l.foldl (fun acc c => pushStr acc (h'.toString n c)) acc = l.foldl (fun acc c => pushStr acc (h.toString n c)) acc := by
    intro l
    induction l with
    | nil => intro acc _; rfl
    | cons c l ih =>
      intro acc hl
      simp only [List.foldl_cons]
      rw [ih _ fun j hj => hl j (by simp [hj])]
      congr 2
      exact key _ _ _ (by simpa using hl c (by simp))
  exact this _ _ (hP' i hi).2.2

theorem restored (hr : Reach h) (hr' : Reach h') (hd : DocTree h r F) (ha : AttrLeaves h (.cons r F .nil)) (k : Kept h h' r F) : Restored h h' r F := by
  refine ⟨k.doc, k.ids, fun i hi n q => ?_, same_texts hd fun i hi => k.content hi⟩
  obtain ⟨m, hm, e⟩ := List.mem_iff_getElem.1 hi
  have hp : SamePlace h r F h' r F i i := ⟨m, by rw [List.getElem?_eq_getElem hm, e], by rw [k.ids, List.getElem?_eq_getElem hm, e]⟩
  have key := C91_same_answers h h' hr hr' r r F F hd k.doc ha (k.leaves ha) k.contents i i hp n q
  refine ⟨?_, (C91_same_text h h' hr hr' r r F F hd k.doc ha (k.leaves ha) k.contents i i hp n q).symm⟩
  revert key
  generalize evalXPath h n i q = u
  generalize evalXPath h' n i q = v
  intro key
  cases key with
  | error e => rfl
  | ok hs =>
    rw [sameSeq_eq (fun a b ⟨m, h1, h2⟩ => ?_) hs]
    rw [k.ids, h1] at h2
    exact Option.some.inj h2

theorem reproduced (hr : Reach h) (hr' : Reach h') (hd : DocTree h r F) (ha : AttrLeaves h (.cons r F .nil)) (hd' : DocTree h' r F)
    (ha' : AttrLeaves h' (.cons r F .nil))
    (hP : ∀ i ∈ r :: F.toList, contentOf h' i = contentOf h i ∧ (h'.node i).children = (h.node i).children) : Reproduced h h' r F := by
  have hc : (Forest.cons r F .nil).map (contentOf h) = (Forest.cons r F .nil).map (contentOf h') :=
    forest_map_congr _ fun i hi => ((hP i (by simpa [Forest.toList] using hi)).1).symm
  exact ⟨hd', fun i j hp n q => ⟨C91_same_answers h h' hr hr' r r F F hd hd' ha ha' hc i j hp n q,
    C91_same_text h h' hr hr' r r F F hd hd' ha ha' hc i j hp n q⟩, same_texts hd hP⟩

end

end Undo

section
variable {h : Heap} {r : NodeId} {F : Forest NodeId}

/-- No attribute has the name. -/
theorem Undo.no_attribute {e : NodeId} {n : Str} (hn : h.attributeValue e n = none) : ∀ x ∈ (h.node e).attributes, (h.node x).name ≠ n := by
  intro x hx hxn
  rw [attributeValue_eq] at hn
  simp only [Option.map_eq_none_iff, List.find?_eq_none] at hn
  exact hn ((h.node x).name, (h.node x).value) (List.mem_map_of_mem hx) (by simpa using hxn)

end

/-- An attribute is no node of the tree. -/
theorem Undo.attr_apart {h : Heap} : ∀ (G : Forest NodeId), (docIds h G).Nodup → ∀ i ∈ G.toList, ∀ a ∈ (h.node i).attributes, a ∉ G.toList
  | .nil, _, i, hi, _, _, _ => by simp [Forest.toList] at hi
  | .cons x k s, hn, i, hi, a, hia, haG => by
    rw [docIds] at hn
    have hks : (docIds h k).Nodup ∧ (docIds h s).Nodup := by
      simp only [List.nodup_append, List.nodup_cons] at hn
      tauto
    simp only [Forest.toList, List.mem_cons, List.mem_append] at hi haG
    have key : ∀ y ∈ (h.node i).attributes, (i = x ∧ y ∈ (h.node x).attributes) ∨ (i ∈ k.toList ∧ y ∈ docIds h k) ∨ (i ∈ s.toList ∧ y ∈ docIds h s) := by
      intro y hy
      rcases hi with rfl | hi | hi
      · exact .inl ⟨rfl, hy⟩
      · exact .inr (.inl ⟨hi, mem_docIds_attr hi hy⟩)
      · exact .inr (.inr ⟨hi, mem_docIds_attr hi hy⟩)
    have hmem : a = x ∨ (a ∈ k.toList ∧ a ∈ docIds h k) ∨ (a ∈ s.toList ∧ a ∈ docIds h s) := by
      rcases haG with h1 | h1 | h1
      · exact .inl h1
      · exact .inr (.inl ⟨h1, mem_docIds_of_mem h1⟩)
      · exact .inr (.inr ⟨h1, mem_docIds_of_mem h1⟩)
    have dis := hn
    simp only [List.nodup_cons, List.nodup_append, List.mem_append, not_or] at dis
    rcases key a hia with ⟨rfl, k1⟩ | ⟨k0, k1⟩ | ⟨k0, k1⟩ <;> rcases hmem with m1 | ⟨m0, m1⟩ | ⟨m0, m1⟩ <;>
      first
      | exact Undo.attr_apart k hks.1 i k0 a hia m0
      | exact Undo.attr_apart s hks.2 i k0 a hia m0
      | (subst_vars; grind)

theorem Undo.leaves_set {h : Heap} (hw : HeapWF h) {r : NodeId} {F : Forest NodeId} (hd : DocTree h r F) (ha : AttrLeaves h (.cons r F .nil)) {e : NodeId}
    (he : e ∈ r :: F.toList) (n v : Str) : AttrLeaves (h.setAttribute e n v) (.cons r F .nil) := by
  have he' : e ∈ (Forest.cons r F .nil).toList := by simpa [Forest.toList] using he
  have hel : e < h.size := hd.bound e (mem_docIds_of_mem he')
  obtain ⟨s1, s2, ⟨o3, s3⟩, o, as, s4, s5⟩ := setAttribute_spec h hw e hel n v
  intro i hi a hia
  have hil := hd.bound i (mem_docIds_of_mem hi)
  have hor : a = h.size ∨ a ∈ (h.node i).attributes := by
    by_cases hie : i = e
    · subst hie
      rw [s4] at hia
      rcases s5 with ⟨x, b, c, e1, _, _, rfl⟩ | ⟨_, rfl⟩
      · rw [e1]; simp only [List.mem_append, List.mem_cons] at hia ⊢; tauto
      · simp only [List.mem_append, List.mem_singleton] at hia; tauto
    · have := s2 i hie (by omega)
      unfold SameNode at this
      rw [this] at hia
      exact .inr hia
  rcases hor with rfl | h1
  · rw [s3]; exact ⟨rfl, rfl, rfl⟩
  · have hne : a ≠ e := by rintro rfl; exact Undo.attr_apart _ hd.nodup i hi a h1 he'
    have := s2 a hne (by have := hw.closed i a (.inr h1); omega)
    unfold SameNode at this
    rw [this]
    exact ha i hi a h1

theorem Undo.replace_back {n v w : Str} : ∀ {l : List (Str × Str)}, ((l.find? fun a => a.1 == n).map fun a => a.2) = some w →
    replaceFirst n w (replaceFirst n v l) = l
  | [], hl => by simp at hl
  | (a, b) :: l, hl => by
    by_cases e : a = n
    · subst e
      simp at hl
      simp [replaceFirst, hl]
    · rw [List.find?_cons_of_neg (by simpa using e)] at hl
      simp only [replaceFirst, e, if_false]
      rw [Undo.replace_back hl]

theorem Undo.first {h : Heap} {r : NodeId} {F : Forest NodeId} (hd : DocTree h r F) {p e : NodeId} {a c : List NodeId} (hpm : p ∈ r :: F.toList)
    (hac : (h.node p).children = a ++ e :: c) : e ∉ a := by
  intro hx
  have hnd : (h.node p).children.Nodup := C31_siblings.children_nodup hd (by simpa [Forest.toList] using hpm)
  rw [hac] at hnd
  exact (List.nodup_append.1 hnd).2.2 e hx e (by simp) rfl

section
variable (h : Heap) (hr : Reach h) (r : NodeId) (F : Forest NodeId) (hd : DocTree h r F) (ha : AttrLeaves h (.cons r F .nil))
include hr hd ha

/-- **C103**: an attribute that was not there and is set and deleted again leaves no trace. -/
theorem C103_attribute (e : NodeId) (he : e ∈ r :: F.toList) (n v : Str) (hn : h.attributeValue e n = none) :
    Restored h ((h.setAttribute e n v).deleteAttribute e n) r F := by
  have hw := hr.inv.1
  have hel : e < h.size := hd.bound e (mem_docIds_of_mem (by simpa [Forest.toList] using he))
  have hr1 : Reach (h.setAttribute e n v) := .edit (.setAttribute e n v) hr hel
  obtain ⟨s1, s2, ⟨o3, s3⟩, o, as, s4, s5⟩ := setAttribute_spec h hw e hel n v
  have hr2 : Reach ((h.setAttribute e n v).deleteAttribute e n) := .edit (.deleteAttribute e n) hr1 (by show e < _; omega)
  obtain ⟨d1, d2, o', as', d4, d5⟩ := deleteAttribute_spec (h.setAttribute e n v) e n
  have hnone := Undo.no_attribute hn
  have has : as = (h.node e).attributes ++ [h.size] := by
    rcases s5 with ⟨a, b, c, e1, e2, -, -⟩ | ⟨-, e1⟩
    · exact absurd e2 (hnone b (by rw [e1]; simp))
    · exact e1
  have hat : ((h.setAttribute e n v).node e).attributes = (h.node e).attributes ++ [h.size] := by rw [s4, ← has]
  have hname : ∀ x ∈ (h.node e).attributes, ((h.setAttribute e n v).node x).name ≠ n := by
    intro x hx
    have hxl := hw.closed e x (.inr hx)
    by_cases hxe : x = e
    · subst hxe; rw [s4]; exact hnone x hx
    · have := s2 x hxe (by omega)
      unfold SameNode at this
      rw [this]; exact hnone x hx
  have has' : as' = (h.node e).attributes := by
    rw [hat] at d5
    rcases d5 with ⟨a, b, c, e1, e2, e3, e4⟩ | ⟨e1, -⟩
    · rcases List.append_eq_append_iff.1 e1 with ⟨t, t1, t2⟩ | ⟨t, t1, t2⟩
      · cases t with
        | nil =>
          simp only [List.nil_append, List.cons.injEq] at t2
          rw [e4, t1, ← t2.2]; simp
        | cons z t =>
          simp only [List.cons_append, List.cons.injEq] at t2
          have := t2.2
          simp at this
      · cases t with
        | nil =>
          simp only [List.nil_append] at t2
          cases t2
          rw [e4, t1]
        | cons z t =>
          simp only [List.cons_append, List.cons.injEq] at t2
          exact absurd e2 (hname b (by rw [t1, t2.1]; simp))
    · exact absurd (by rw [s3]; rfl) (e1 h.size (by simp))
  refine Undo.restored hr hr2 hd ha (.of hd (by omega) fun i hi => ?_)
  have hil := hd.bound i hi
  by_cases hie : i = e
  · subst hie
    unfold SameNode
    rw [d4, s4, has']
  · exact (s2 i hie (by omega)).trans (d2 i hie)

/-- **C103**: an attribute that is given another value and then its old one looks as before. -/
theorem C103_value (e : NodeId) (he : e ∈ r :: F.toList) (n v w : Str) (hn : h.attributeValue e n = some w) :
    Reproduced h ((h.setAttribute e n v).setAttribute e n w) r F := by
  have hw := hr.inv.1
  have hel : e < h.size := hd.bound e (mem_docIds_of_mem (by simpa [Forest.toList] using he))
  have hr1 : Reach (h.setAttribute e n v) := .edit (.setAttribute e n v) hr hel
  have s1 := (setAttribute_spec h hw e hel n v).1
  have hel1 : e < (h.setAttribute e n v).size := by omega
  have hr2 : Reach ((h.setAttribute e n v).setAttribute e n w) := .edit (.setAttribute e n w) hr1 hel1
  have hd1 := docTree_setAttribute hw hd hel n v
  have hw1 := hr1.inv.1
  have hnames : ((contentOf h e).attrs.find? fun a => a.1 == n).map (fun a => a.2) = some w := by rw [← attributeValue_eq]; exact hn
  have hmem : n ∈ (contentOf h e).attrs.map fun a => a.1 := by
    cases hf : (contentOf h e).attrs.find? fun a => a.1 == n with
    | none => rw [hf] at hnames; cases hnames
    | some p => exact List.mem_map.2 ⟨p, List.mem_of_find?_eq_some hf, by simpa using List.find?_some hf⟩
  have a1 := setAttribute_attrs h hw e hel n v
  have a2 := setAttribute_attrs _ hw1 e hel1 n w
  rw [if_pos hmem] at a1
  rw [a1, if_pos (by rw [replaceFirst_names]; exact hmem), Undo.replace_back hnames] at a2
  refine Undo.reproduced hr hr2 hd ha (docTree_setAttribute hw1 hd1 hel1 n w) (Undo.leaves_set hw1 hd1 (Undo.leaves_set hw hd ha he n v) he n w) fun i hi => ?_
  have hil : i < h.size := hd.bound i (mem_docIds_of_mem (by simpa [Forest.toList] using hi))
  have k1 := (C16_set_keeps_names h hw e hel n v).2.2.1
  have k2 := (C16_set_keeps_names _ hw1 e hel1 n w).2.2.1
  by_cases hie : i = e
  · subst hie
    refine ⟨?_, k2.2.2.2.1.trans k1.2.2.2.1⟩
    have t1 := k2.1.trans k1.1
    have t2 := k2.2.1.trans k1.2.1
    have t3 := k2.2.2.1.trans k1.2.2.1
    revert a2 t1 t2 t3
    unfold contentOf
    simp only
    intro a2 t1 t2 t3
    rw [a2, t1, t2, t3]
  · refine ⟨(setAttribute_content_other _ hw1 e hel1 n w i (by omega) hie).trans (setAttribute_content_other h hw e hel n v i hil hie), ?_⟩
    have q1 := (setAttribute_spec h hw e hel n v).2.1 i hie (by omega)
    have q2 := (setAttribute_spec _ hw1 e hel1 n w).2.1 i hie (by omega)
    exact q2.links.2.1.trans q1.links.2.1

/-- **C103**: a node that is appended and deleted again leaves no trace. -/
theorem C103_append (e c : NodeId) (he : e ∈ r :: F.toList) (hc : c < h.size) (hn : c ∉ (h.node e).children) :
    Restored h ((h.appendChild e c).deleteChild e c) r F := by
  have hel : e < h.size := hd.bound e (mem_docIds_of_mem (by simpa [Forest.toList] using he))
  have hr1 : Reach (h.appendChild e c) := .edit (.appendChild e c) hr ⟨hel, hc⟩
  obtain ⟨s1, s2, o, s3⟩ := appendChild_spec h e c
  have hr2 : Reach ((h.appendChild e c).deleteChild e c) := .edit (.deleteChild e c) hr1 ⟨by omega, by omega⟩
  obtain ⟨d1, d2, o', d3⟩ := deleteChild_spec (h.appendChild e c) e c
  refine Undo.restored hr hr2 hd ha (.of hd (by omega) fun i hi => ?_)
  by_cases hie : i = e
  · subst hie
    unfold SameNode
    rw [d3, s3]
    simp only [List.erase_append_right _ hn, List.erase_cons_head, List.append_nil]
  · exact (s2 i hie).trans (d2 i hie)

/-- **C103**: a copy that is inserted before or after a node, whatever it is a copy of, and deleted again leaves no trace. -/
theorem C103_insert (p e x : NodeId) (a c : List NodeId) (hpm : p ∈ r :: F.toList) (hac : (h.node p).children = a ++ e :: c) (hx : x < h.size) :
    (∃ new, ((h.insertPrev e x).node p).children = a ++ new :: e :: c ∧ Restored h ((h.insertPrev e x).deleteChild p new) r F) ∧
    ∃ new, ((h.insertNext e x).node p).children = a ++ e :: new :: c ∧ Restored h ((h.insertNext e x).deleteChild p new) r F := by
  have hw := hr.inv.1
  obtain ⟨hec, hp⟩ := doc_child hd hpm (c := e) (by rw [hac]; simp)
  have hel : e < h.size := hd.bound e (mem_docIds_of_mem (by simpa [Forest.toList] using hec))
  have hpl : p < h.size := by have := hw.parent_lt e p hp; omega
  have hna := Undo.first hd hpm hac
  obtain ⟨i1, i2⟩ := (C19_insert_sibling h hw e x hel hx).1 p a c hp hac hna
  have key : ∀ (h1 : Heap) (A C : List NodeId), Reach h1 → h1.size = h.size + 1 → A ++ C = (h.node p).children → InsertedCopy h h1 p x A C →
      Restored h (h1.deleteChild p h.size) r F := by
    intro h1 A C hr1 hs hAC hi
    have hnew : h.size ∉ A := fun hm => by
      have := hw.closed p h.size (.inl (by rw [← hAC]; simp [hm])); omega
    obtain ⟨d1, -, d3, d4⟩ := C20_delete_child h1 p h.size
    obtain ⟨z1, -⟩ := deleteChild_spec h1 p h.size
    have hr2 : Reach (h1.deleteChild p h.size) := .edit (.deleteChild p h.size) hr1 ⟨by omega, by omega⟩
    refine Undo.restored hr hr2 hd ha (.of hd (by omega) fun i hi' => ?_)
    have hil := hd.bound i hi'
    by_cases hip : i = p
    · subst hip
      have q0 := d1 A C hi.children hnew
      have q1 := hi.parentKept
      unfold SameNode
      revert q0 d3
      generalize ((h1.deleteChild i h.size).node i) = y
      generalize h1.node i = z at q1
      rcases y with ⟨⟩
      generalize h.node i = w at *
      rcases w with ⟨⟩
      simp only
      intro d3 q0
      simp_all
    · exact (hi.other i hip hil).trans (d4 i hip)
  refine ⟨⟨h.size, i1.children, key _ a (e :: c) (.edit (.insertPrev e x) hr ⟨hel, hx⟩) ?_ hac.symm i1⟩,
    ⟨h.size, by simpa using i2.children, key _ (a ++ [e]) c (.edit (.insertNext e x) hr ⟨hel, hx⟩) ?_ (by simp [hac]) i2⟩⟩
  · unfold Heap.insertPrev; simp only [hp, findChildIndex_of_split hac hna]; rfl
  · unfold Heap.insertNext; simp only [hp, findChildIndex_of_split hac hna]; rfl

/-- **C103**: the last child deleted and appended again: no trace. -/
theorem C103_last (p t : NodeId) (a : List NodeId) (hpm : p ∈ r :: F.toList) (hac : (h.node p).children = a ++ [t]) :
    Restored h ((h.deleteChild p t).appendChild p t) r F := by
  have hw := hr.inv.1
  have hpl : p < h.size := hd.bound p (mem_docIds_of_mem (by simpa [Forest.toList] using hpm))
  have htl : t < h.size := hw.closed p t (.inl (by rw [hac]; simp))
  have hna := Undo.first hd hpm hac
  have hr1 : Reach (h.deleteChild p t) := .edit (.deleteChild p t) hr ⟨hpl, htl⟩
  obtain ⟨d1, d2, o', d3⟩ := deleteChild_spec h p t
  have hr2 : Reach ((h.deleteChild p t).appendChild p t) := .edit (.appendChild p t) hr1 ⟨by omega, by omega⟩
  obtain ⟨s1, s2, o, s3⟩ := appendChild_spec (h.deleteChild p t) p t
  refine Undo.restored hr hr2 hd ha (.of hd (by omega) fun i hi => ?_)
  by_cases hie : i = p
  · subst hie
    unfold SameNode
    rw [s3, d3, hac]
    simp only [List.erase_append_right _ hna, List.erase_cons_head, List.append_nil, hac]
  · exact (d2 i hie).trans (s2 i hie)

end

section
variable (h : Heap) (hr : Reach h) (r : NodeId) (F : Forest NodeId) (hd : DocTree h r F) (hn : OnlyElementsNest h r F)
include hr hd hn

theorem Undo.text_back {p x : NodeId} (hpm : p ∈ r :: F.toList) {a c : List NodeId} (hac : (h.node p).children = a ++ x :: c) {g h' : Heap} (hg : Rekids h g p)
    (hgs : h.size ≤ g.size) (hi : InsertedCopy g h' p x a c) {T : Str} (hT : Writes h r T) : Writes h' r T := by
  have hw := hr.inv.1
  have hb := kids_below hw hd hpm
  have hx := hb x (by rw [hac]; simp)
  have hxp : x ≠ p := by rintro rfl; exact hx.2 .refl
  have hk : Rekids h h' p := by
    refine ⟨?_, fun j hj hjl => (hg.other j hj hjl).trans (hi.other j hj (by omega))⟩
    have k1 := hg.keep
    have k2 := hi.parentKept
    exact ⟨k2.1.trans k1.1, k2.2.1.trans k1.2.1, k2.2.2.1.trans k1.2.2.1, k2.2.2.2.1.trans k1.2.2.2⟩
  obtain ⟨kids, hkids⟩ := doc_writeAll hd hpm
  obtain ⟨pre, post, -, h1, h2⟩ := rekids_document hw hd hn hpm hkids
  rw [hac] at hkids hb
  obtain ⟨A, B, hA, hB, rfl⟩ := hkids.split
  cases hB with
  | @cons _ _ t C ht hC =>
  rw [hT.unique h1]
  refine h2 h' _ hk ?_
  rw [hi.children]
  refine (hk.writeAll hw (fun i hi => hb i (by simp [hi])) hA).append (.cons ?_ (hk.writeAll hw (fun i hi => hb i (by simp [hi])) hC))
  obtain ⟨c1, c2, c3, c4, c5, -⟩ := hi.copy
  have hgx := hg.other x hxp hx.1
  have hgc := hg.content hw hx.1
  refine hk.copy hw hx.1 hx.2 ⟨?_, (c5 hxp).trans hgx.links.2.1⟩ ht
  have hcx := hk.content hw hx.1
  have hxa : (h'.node x).attributes = (g.node x).attributes := (hi.other x hxp (by omega)).links.2.2
  rw [← hcx]
  have e1 := congrArg Content.ntype (hcx.trans hgc.symm)
  have e2 := congrArg Content.name (hcx.trans hgc.symm)
  have e3 := congrArg Content.value (hcx.trans hgc.symm)
  unfold contentOf
  simp_all [contentOf]

/-- **C103**, for the text: a child deleted and inserted again before its next sibling, or after its previous one: the text of the document is the old one. -/
theorem C103_delete_text (p t s : NodeId) (a c : List NodeId) (hpm : p ∈ r :: F.toList) (T : Str) (hT : Writes h r T) :
    ((h.node p).children = a ++ t :: s :: c → Writes ((h.deleteChild p t).insertPrev s t) r T) ∧
    ((h.node p).children = a ++ s :: t :: c → Writes ((h.deleteChild p t).insertNext s t) r T) := by
  have hw := hr.inv.1
  have hpl : p < h.size := hd.bound p (mem_docIds_of_mem (by simpa [Forest.toList] using hpm))
  obtain ⟨k1, -, k2, k3⟩ := C20_delete_child h p t
  have hg : Rekids h (h.deleteChild p t) p := ⟨⟨k2.1, k2.2.1, k2.2.2.1, k2.2.2.2.1⟩, fun j hj _ => k3 j hj⟩
  have hgs := (deleteChild_spec h p t).1
  have key : t ∈ (h.node p).children → s ∈ (h.node p).children → HeapWF (h.deleteChild p t) ∧ t < (h.deleteChild p t).size ∧ s < (h.deleteChild p t).size ∧
      ((h.deleteChild p t).node s).parent = some p := by
    intro h1 h2
    have htl := hw.closed p t (.inl h1)
    have hsl := hw.closed p s (.inl h2)
    have hr1 : Reach (h.deleteChild p t) := .edit (.deleteChild p t) hr ⟨hpl, htl⟩
    have hsp := (doc_child hd hpm h2).2
    have hne : s ≠ p := by rintro rfl; have := hw.parent_lt _ _ hsp; omega
    exact ⟨hr1.inv.1, by omega, by omega, by rw [(k3 s hne).links.1]; exact hsp⟩
  constructor
  · intro hac
    obtain ⟨hw1, htl, hsl, hsp⟩ := key (by rw [hac]; simp) (by rw [hac]; simp)
    have hna := Undo.first hd hpm hac
    have hns : s ∉ a := by have := Undo.first hd hpm (a := a ++ [t]) (e := s) (c := c) (by simp [hac]); simp at this; exact this.1
    exact Undo.text_back h hr r F hd hn hpm hac hg (by omega)
      ((C19_insert_sibling _ hw1 s t hsl htl).1 p a c hsp (k1 a (s :: c) hac hna) hns).1 hT
  · intro hac
    obtain ⟨hw1, htl, hsl, hsp⟩ := key (by rw [hac]; simp) (by rw [hac]; simp)
    have hna := Undo.first hd hpm (a := a ++ [s]) (e := t) (c := c) (by simp [hac])
    have hns : s ∉ a := Undo.first hd hpm hac
    exact Undo.text_back h hr r F hd hn hpm (a := a ++ [s]) (by simp [hac]) hg (by omega)
      ((C19_insert_sibling _ hw1 s t hsl htl).1 p a c hsp (by rw [k1 (a ++ [s]) c (by simp [hac]) hna]; simp) hns).2 hT

/-- **C103**, for the text: a child replaced by a copy of another node, and that copy by (a copy of) the child: the text of the document is the old one. -/
theorem C103_replace_text (p e x : NodeId) (a c : List NodeId) (hpm : p ∈ r :: F.toList) (hac : (h.node p).children = a ++ e :: c) (hx : x < h.size)
    (T : Str) (hT : Writes h r T) :
    ∃ new, ((h.replaceWith e x).node p).children = a ++ new :: c ∧ Writes ((h.replaceWith e x).replaceWith new e) r T := by
  have hw := hr.inv.1
  obtain ⟨hec, hp⟩ := doc_child hd hpm (c := e) (by rw [hac]; simp)
  have hel : e < h.size := hd.bound e (mem_docIds_of_mem (by simpa [Forest.toList] using hec))
  have hna := Undo.first hd hpm hac
  have hi := (C21_replace_with h hw e x hel hx).1 p a c hp hac hna
  have hr1 : Reach (h.replaceWith e x) := .edit (.replaceWith e x) hr ⟨hel, hx⟩
  have hw1 := hr1.inv.1
  have hs : (h.replaceWith e x).size = h.size + 1 := by
    have s1 : (h.insertPrev e x).size = h.size + 1 := by unfold Heap.insertPrev; simp only [hp, findChildIndex_of_split hac hna]; rfl
    unfold Heap.replaceWith; simp only [hp, clearOrder_size, (deleteChild_spec _ _ _).1, s1]
  have hnew : h.size ∉ a := fun hm => by
    have := hw.closed p h.size (.inl (by rw [hac]; simp [hm])); omega
  have hg : Rekids h (h.replaceWith e x) p := ⟨⟨hi.parentKept.1, hi.parentKept.2.1, hi.parentKept.2.2.1, hi.parentKept.2.2.2.1⟩, hi.other⟩
  exact ⟨h.size, hi.children, Undo.text_back h hr r F hd hn hpm hac hg (by omega)
    ((C21_replace_with _ hw1 h.size e (by omega) (by omega)).1 p a c hi.copy.2.2.2.2.2 hi.children hnew) hT⟩

end

/-! The hypotheses are met by the document `<a x="1" y="2"><b/><c/></a>` (node 1 is `a`, node 4 is `b`, node 5 is `c`). -/

example : Restored editSample ((editSample.setAttribute 1 (S "z") (S "3")).deleteAttribute 1 (S "z")) 0 sameForest :=
  C103_attribute editSample sameSample_reach.1 0 sameForest editSample_doc (by decide +kernel) 1 (by decide) _ _ (by decide +kernel)

example : Reproduced editSample ((editSample.setAttribute 1 (S "x") (S "3")).setAttribute 1 (S "x") (S "1")) 0 sameForest :=
  C103_value editSample sameSample_reach.1 0 sameForest editSample_doc (by decide +kernel) 1 (by decide) _ _ _ (by decide +kernel)

/-- Even the root of the document, appended to a node inside it, can be removed again. -/
example : Restored editSample ((editSample.appendChild 4 0).deleteChild 4 0) 0 sameForest :=
  C103_append editSample sameSample_reach.1 0 sameForest editSample_doc (by decide +kernel) 4 0 (by decide) (by decide +kernel) (by decide +kernel)

example : ∃ new, ((editSample.insertPrev 5 1).node 1).children = [4, new, 5] ∧ Restored editSample ((editSample.insertPrev 5 1).deleteChild 1 new) 0 sameForest :=
  (C103_insert editSample sameSample_reach.1 0 sameForest editSample_doc (by decide +kernel) 1 5 1 [4] [] (by decide) (by decide +kernel) (by decide +kernel)).1

example : Restored editSample ((editSample.deleteChild 1 5).appendChild 1 5) 0 sameForest :=
  C103_last editSample sameSample_reach.1 0 sameForest editSample_doc (by decide +kernel) 1 5 [4] (by decide) (by decide +kernel)

theorem editSample_nests : OnlyElementsNest editSample 0 sameForest := by
  intro i hi _
  have : i = 0 ∨ i = 1 ∨ i = 4 ∨ i = 5 := by revert hi; simp [sameForest, Forest.toList]
  rcases this with rfl | rfl | rfl | rfl
  · exact .inr (by decide +kernel)
  · exact .inl (by decide +kernel)
  · exact .inl (by decide +kernel)
  · exact .inl (by decide +kernel)

example (T : Str) (hT : Writes editSample 0 T) : Writes ((editSample.deleteChild 1 4).insertPrev 5 4) 0 T :=
  (C103_delete_text editSample sameSample_reach.1 0 sameForest editSample_doc editSample_nests 1 4 5 [] [] (by decide) T hT).1 (by decide +kernel)

example (T : Str) (hT : Writes editSample 0 T) : ∃ new, ((editSample.replaceWith 4 5).node 1).children = [new, 5] ∧
    Writes ((editSample.replaceWith 4 5).replaceWith new 4) 0 T :=
  C103_replace_text editSample sameSample_reach.1 0 sameForest editSample_doc editSample_nests 1 4 5 [] [5] (by decide) (by decide +kernel) (by decide +kernel) T hT

end Amxml
