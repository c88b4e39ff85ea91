import Verif.Props.Elsewhere

/-!
# C110: copying an element through its text

`new_document(e.to_string())` is the way to get a copy of an element with everything below it (`append_child` and the like copy one node only).
-/

namespace Amxml
open Spec

namespace Copy

theorem writes_tree {h : Heap} {p : Option NodeId} {e : NodeId} {k : Forest NodeId} (hl : Linked h p (.cons e k .nil)) :
    Writes h e (strOf ((Forest.cons e k .nil).map (contentOf h))) :=
  ⟨(Forest.cons e k .nil).toList.length, fun n hn => toStringF_forest (.cons e k .nil) hl n hn⟩

theorem joined_element {c : Content} (hc : c.ntype = .element) (k : Forest Content) : joinTexts [] (.cons c k .nil) = .cons c (joinTexts [] k) .nil := by
  simp [joinTexts, hc, consText]

theorem map_eq_cons {α β : Type} {f : α → β} {F : Forest α} {b : β} {K : Forest β} (h : F.map f = .cons b K .nil) :
    ∃ a k, F = .cons a k .nil ∧ f a = b ∧ k.map f = K := by
  cases F with
  | nil => cases h
  | cons a k r =>
    simp only [Forest.map, Forest.cons.injEq] at h
    obtain ⟨h1, h2, h3⟩ := h
    cases r with
    | nil => exact ⟨a, k, rfl, h1, h2⟩
    | cons => cases h3

theorem rootF_le {h : Heap} (hw : HeapWF h) : ∀ (n : Nat) (i : NodeId), rootF h n i ≤ i
  | 0, i => Nat.le_refl i
  | n + 1, i => by
    rw [rootF]
    cases e : (h.node i).parent with
    | none => exact Nat.le_refl i
    | some p => exact Nat.le_trans (rootF_le hw n p) (Nat.le_of_lt (hw.parent_lt i p e))

/-- Reading a text that is the text of one element. -/
theorem reads_element {h : Heap} (hw : HeapWF h) {c : Content} (hc : c.ntype = .element) {K : Forest Content} (hwr : WritableForest (.cons c K .nil)) :
    ∃ h' e' k', newDocument h (strOf (.cons c K .nil)) = some (.ok (h', h.size)) ∧ ParsedDoc h' h.size (.cons e' k' .nil) ∧ h'.rootElement h.size = e' ∧
      contentOf h' e' = c ∧ k'.map (contentOf h') = joinTexts [] K ∧ HeapWF h' ∧ (∀ j < h.size, h'.node j = h.node j) ∧
      ∀ j ∈ docIds h' (.cons h.size (.cons e' k' .nil) .nil), h.size ≤ j := by
  obtain ⟨h', F, hd, hp, hcont, hw'⟩ := newDocument_strOf h hw _ hwr
  rw [joined_element hc] at hcont
  obtain ⟨e', k', rfl, h1, h2⟩ := map_eq_cons hcont
  obtain ⟨F2, hp2, _, _, hold, _⟩ := C08_well_linked h hw _ h' _ hd
  have hF : F2 = .cons e' k' .nil := linked_unique hp2.linked.2.2.2.1 hp.linked.2.2.2.1 (by rw [← hp2.linked.2.2.1, ← hp.linked.2.2.1])
  subst hF
  refine ⟨h', e', k', hd, hp, ?_, h1, h2, hw', hold, fun j hj => ?_⟩
  rotate_left
  · have := rootF_le hw' (j + 1) j
    have e := root_eq hp.toDocTree hw' hj
    unfold Heap.root at e
    omega
  have hroot : h'.root h.size = h.size := root_eq hp.toDocTree hw' (by simp [docIds])
  refine (C29_child_access h' h.size).2.2.2.1 [] e' [] ?_ (by simp) (by rw [← hc, ← h1]; rfl)
  rw [hroot, hp.linked.2.2.1]; rfl

/-- The tree at a node of a forest. -/
theorem tree_at {h : Heap} {F : Forest NodeId} : ∀ {p : Option NodeId}, Linked h p F → ∀ {e : NodeId}, e ∈ F.toList →
    ∃ p' k, Linked h p' (.cons e k .nil) ∧ (∀ j ∈ k.toList, j ∈ F.toList) ∧
      (WritableForest (F.map (contentOf h)) → WritableForest ((Forest.cons e k .nil).map (contentOf h))) ∧
      (NormalForest (F.map (contentOf h)) → NormalForest (k.map (contentOf h))) := by
  induction F with
  | nil => intro p _ e he; cases he
  | cons a k r ih1 ih2 =>
    intro p hl e he
    obtain ⟨l1, l2, l3, l4, l5⟩ := hl
    simp only [Forest.toList, List.mem_cons, List.mem_append] at he ⊢
    rcases he with rfl | he | he
    · exact ⟨p, k, ⟨l1, l2, l3, l4, trivial⟩, fun j hj => .inr (.inl hj), fun hw => ⟨hw.1, hw.2.1, hw.2.2.1, trivial⟩, fun hn => hn.2.1⟩
    · obtain ⟨p', k', g1, g0, g2, g3⟩ := ih1 l4 he
      exact ⟨p', k', g1, fun j hj => .inr (.inl (g0 j hj)), fun hw => g2 hw.2.2.1, fun hn => g3 hn.2.1⟩
    · obtain ⟨p', k', g1, g0, g2, g3⟩ := ih2 l5 he
      exact ⟨p', k', g1, fun j hj => .inr (.inr (g0 j hj)), fun hw => g2 hw.2.2.2, fun hn => g3 hn.2.2⟩

theorem writes_inner {h : Heap} {p : Option NodeId} {e : NodeId} {k : Forest NodeId} (hl : Linked h p (.cons e k .nil)) :
    WritesInner h e (strOf (k.map (contentOf h))) := by
  refine ⟨k.toList.length, fun n hn => ?_⟩
  have := toStringF_forest k hl.2.2.2.1 n hn
  rw [← hl.2.2.1] at this
  simpa [Heap.innerXml] using innerXml_of (acc := []) this

/-- Below the copy there are nodes of the copy only. -/
theorem down_new {h : Heap} {r : NodeId} {F : Forest NodeId} (hd : DocTree h r F) {i j : NodeId} (hj : Down h i j) : i ∈ r :: F.toList → j ∈ r :: F.toList := by
  induction hj with
  | refl => exact id
  | child hc _ ih => exact fun hi => ih (doc_child hd hi hc).1

end Copy

/-- **C110.** The text of an element is the text of a document with a copy of the element: `new_document(e.to_string())` returns a document whose root element
has the type, name, value and attributes of `e`, and below it what is below `e` (adjacent texts joined, empty ones left out). It is made of new nodes; the nodes there were stay as they are. -/
theorem C110_copy (h : Heap) (hw : HeapWF h) (p : Option NodeId) (e : NodeId) (k : Forest NodeId) (hl : Linked h p (.cons e k .nil))
    (he : (h.node e).ntype = .element) (hwr : WritableForest ((Forest.cons e k .nil).map (contentOf h))) :
    ∃ s h' r' e' k', Writes h e s ∧ newDocument h s = some (.ok (h', r')) ∧ ParsedDoc h' r' (.cons e' k' .nil) ∧ h'.rootElement r' = e' ∧
      contentOf h' e' = contentOf h e ∧ k'.map (contentOf h') = joinTexts [] (k.map (contentOf h)) ∧
      (∀ j ∈ docIds h' (.cons r' (.cons e' k' .nil) .nil), h.size ≤ j) ∧ ∀ j < h.size, h'.node j = h.node j := by
  obtain ⟨h', e', k', g1, g2, g3, g4, g5, _, g7, g8⟩ := Copy.reads_element hw (c := contentOf h e) he hwr
  exact ⟨_, h', h.size, e', k', Copy.writes_tree hl, g1, g2, g3, g4, g5, g8, g7⟩

/-- **C110**, where no two texts are adjacent and none is empty: the copy is like the element, node for node, and has its text. -/
theorem C110_same (h : Heap) (hw : HeapWF h) (p : Option NodeId) (e : NodeId) (k : Forest NodeId) (hl : Linked h p (.cons e k .nil))
    (he : (h.node e).ntype = .element) (hwr : WritableForest ((Forest.cons e k .nil).map (contentOf h))) (hn : NormalForest (k.map (contentOf h))) :
    ∃ s h' r' e' k', Writes h e s ∧ newDocument h s = some (.ok (h', r')) ∧ ParsedDoc h' r' (.cons e' k' .nil) ∧ h'.rootElement r' = e' ∧
      (Forest.cons e' k' .nil).map (contentOf h') = (Forest.cons e k .nil).map (contentOf h) ∧ Writes h' e' s ∧ Writes h' r' s := by
  obtain ⟨h', e', k', g1, g2, g3, g4, g5, _, g7, g8⟩ := Copy.reads_element hw (c := contentOf h e) he hwr
  rw [joinTexts_of_normal hn hwr.2.2.1] at g5
  have e1 : (Forest.cons e' k' .nil).map (contentOf h') = (Forest.cons e k .nil).map (contentOf h) := by
    simp only [Forest.map, g4, g5]
  refine ⟨_, h', h.size, e', k', Copy.writes_tree hl, g1, g2, g3, e1, ?_, ?_⟩
  · have := Copy.writes_tree (h := h') (p := some h.size) (e := e') (k := k') g2.linked.2.2.2.1
    rwa [e1] at this
  · exact ⟨_, fun n hn => by rw [toString_total g2.toDocTree g2.root_type n hn, e1]⟩

/-- **C110**, `inner_xml`: `new_document(e.inner_xml())` returns a document with copies of what is below `e`. -/
theorem C110_inner (h : Heap) (hw : HeapWF h) (p : Option NodeId) (e : NodeId) (k : Forest NodeId) (hl : Linked h p (.cons e k .nil))
    (hwr : WritableForest (k.map (contentOf h))) :
    ∃ s h' r' F', WritesInner h e s ∧ newDocument h s = some (.ok (h', r')) ∧ ParsedDoc h' r' F' ∧ F'.map (contentOf h') = joinTexts [] (k.map (contentOf h)) ∧
      ∀ j < h.size, h'.node j = h.node j := by
  obtain ⟨h', F, hd, hp, hcont, hw'⟩ := newDocument_strOf h hw _ hwr
  obtain ⟨_, _, _, _, hold, _⟩ := C08_well_linked h hw _ h' _ hd
  exact ⟨_, h', h.size, F, Copy.writes_inner hl, hd, hp, hcont, hold⟩

/-- **C110** for a document that was read from a text: every element of it has a copy through its text. -/
theorem C110_parsed (h0 : Heap) (hw : HeapWF h0) (xml : Str) (hx : '\x00' ∉ xml) (h : Heap) (r : NodeId) (hd : newDocument h0 xml = some (.ok (h, r))) (F : Forest NodeId)
    (hp : ParsedDoc h r F) (hc : ∀ i ∈ F.toList, Readable (contentOf h i)) (e : NodeId) (hm : e ∈ F.toList) (he : (h.node e).ntype = .element) :
    ∃ p k s h' r' e' k', Linked h p (.cons e k .nil) ∧ Writes h e s ∧ newDocument h s = some (.ok (h', r')) ∧ ParsedDoc h' r' (.cons e' k' .nil) ∧ h'.rootElement r' = e' ∧
      contentOf h' e' = contentOf h e ∧ k'.map (contentOf h') = joinTexts [] (k.map (contentOf h)) := by
  obtain ⟨F2, hp2, hcont, hw'⟩ := newDocument_contents hw hx hd
  have hF : F2 = F := linked_unique hp2.linked.2.2.2.1 hp.linked.2.2.2.1 (by rw [← hp2.linked.2.2.1, ← hp.linked.2.2.1])
  subst hF
  obtain ⟨p, k, hl, _, hk, _⟩ := Copy.tree_at hp.linked.2.2.2.1 hm
  obtain ⟨s, h', r', e', k', g1, g2, g3, g4, g5, g6, _⟩ := C110_copy h hw' p e k hl he (hk (writable_of_parsed hp hcont hc))
  exact ⟨p, k, s, h', r', e', k', hl, g1, g2, g3, g4, g5, g6⟩

/-- The document of the copy, seen from another document of the program: what the theorems on edits (C89) ask for. -/
theorem Copy.ready {h : Heap} (hr : Reach h) {p : Option NodeId} {e : NodeId} {k : Forest NodeId} (hl : Linked h p (.cons e k .nil))
    (he : (h.node e).ntype = .element) (hwr : WritableForest ((Forest.cons e k .nil).map (contentOf h))) (hn : NormalForest (k.map (contentOf h)))
    {r : NodeId} {F : Forest NodeId} (hd : DocTree h r F) (ho : OnlyElementsNest h r F) :
    ∃ s h' r', Writes h e s ∧ newDocument h s = some (.ok (h', r')) ∧ Reach h' ∧ DocTree h' r F ∧ OnlyElementsNest h' r F ∧
      (∀ i ∈ r :: F.toList, contentOf h' i = contentOf h i ∧ (h'.node i).children = (h.node i).children ∧ ∀ t, Writes h' i t → Writes h i t) ∧
      h'.rootElement r' < h'.size ∧ (∀ x ∈ r :: F.toList, ¬ Down h' (h'.rootElement r') x) ∧ Writes h' (h'.rootElement r') s := by
  have hw := hr.inv.1
  obtain ⟨h', e', k', g1, g2, g3, g4, g5, g6, g7, g8⟩ := Copy.reads_element hw (c := contentOf h e) he hwr
  have hm : e' ∈ h.size :: (Forest.cons e' k' .nil).toList := by simp [Forest.toList]
  rw [joinTexts_of_normal hn hwr.2.2.1] at g5
  have e1 : (Forest.cons e' k' .nil).map (contentOf h') = (Forest.cons e k .nil).map (contentOf h) := by
    simp only [Forest.map, g4, g5]
  have kp := kept_parse hw hd g1
  have hold : ∀ i ∈ r :: F.toList, contentOf h' i = contentOf h i ∧ (h'.node i).children = (h.node i).children := by
    intro i hi
    have hlt := doc_lt hd hi
    refine ⟨contentOf_congr ?_ fun a ha => ?_, by rw [g7 i hlt]⟩
    · rw [g7 i hlt]; simp
    · rw [g7 a (hw.closed i a (.inr ha))]; simp
  refine ⟨_, h', h.size, Copy.writes_tree hl, g1, .parse hr g1, kp.doc, ?_, fun i hi => ⟨(hold i hi).1, (hold i hi).2, ?_⟩, ?_, ?_, ?_⟩
  · intro i hi hne
    rw [g7 i (doc_lt hd hi)] at hne ⊢
    exact ho i hi hne
  · rintro t ⟨N, hN⟩
    exact ⟨N, fun n hn => by rw [← (C93_same_text h h' hr r F hd (.parse .refl g1) i hi n).1]; exact hN n hn⟩
  · rw [g3]; exact doc_lt g2.toDocTree hm
  · rw [g3]
    intro x hx hdn
    have h1 := Copy.down_new g2.toDocTree hdn hm
    have h2 := g8 x (mem_docIds_of_mem (by simpa [Forest.toList] using h1))
    have h3 := doc_lt hd hx
    omega
  · rw [g3]
    have := Copy.writes_tree (h := h') (p := some h.size) (e := e') (k := k') g2.linked.2.2.2.1
    rwa [e1] at this

theorem Copy.writeAll_back {h h' : Heap} : ∀ {l : List NodeId} {ss : List Str}, (∀ i ∈ l, ∀ t, Writes h' i t → Writes h i t) → WriteAll h' l ss → WriteAll h l ss
  | _, _, _, .nil => .nil
  | _, _, hk, .cons h1 h2 => .cons (hk _ (by simp) _ h1) (writeAll_back (fun i hi => hk i (by simp [hi])) h2)

/-- **C110**, duplicating: a copy of an element can be put anywhere in any document the program holds, its own or another. Appended to the node `x`, the text of the
element appears behind the texts of the children of `x`, and nothing else of the text of the document changes. -/
theorem C110_append (h : Heap) (hr : Reach h) (p : Option NodeId) (e : NodeId) (k : Forest NodeId) (hl : Linked h p (.cons e k .nil))
    (he : (h.node e).ntype = .element) (hwr : WritableForest ((Forest.cons e k .nil).map (contentOf h))) (hn : NormalForest (k.map (contentOf h)))
    (r : NodeId) (F : Forest NodeId) (hd : DocTree h r F) (ho : OnlyElementsNest h r F) (x : NodeId) (hx : x ∈ r :: F.toList) :
    ∃ s h' r' pre kids post, Writes h e s ∧ newDocument h s = some (.ok (h', r')) ∧ Around h' r F x pre post ∧ WriteAll h (h.node x).children kids ∧
      Writes h r (pre ++ nodeText (contentOf h x) kids ++ post) ∧
      Writes (h'.appendChild x (h'.rootElement r')) r (pre ++ nodeText (contentOf h x) (kids ++ [s]) ++ post) := by
  obtain ⟨s, h', r', g1, g2, g3, g4, g5, g6, g7, g8, g9⟩ := Copy.ready hr hl he hwr hn hd ho
  obtain ⟨pre, kids, post, k1, k2, k3, k4, _⟩ := C89_append_child h' g3 r F g4 g5 x hx _ g7 (g8 x hx) s g9
  rw [(g6 x hx).1] at k3 k4
  rw [(g6 x hx).2.1] at k2
  exact ⟨s, h', r', pre, kids, post, g1, g2, k1, Copy.writeAll_back (fun i hi => (g6 i (doc_child hd hx hi).1).2.2) k2, (g6 r (by simp)).2.2 _ k3, k4⟩

/-- **C110**, duplicating: the copy before, behind or in place of a child `y` of the node `x`. -/
theorem C110_insert (h : Heap) (hr : Reach h) (p : Option NodeId) (e : NodeId) (k : Forest NodeId) (hl : Linked h p (.cons e k .nil))
    (he : (h.node e).ntype = .element) (hwr : WritableForest ((Forest.cons e k .nil).map (contentOf h))) (hn : NormalForest (k.map (contentOf h)))
    (r : NodeId) (F : Forest NodeId) (hd : DocTree h r F) (ho : OnlyElementsNest h r F) (x : NodeId) (hx : x ∈ r :: F.toList)
    (a : List NodeId) (y : NodeId) (c : List NodeId) (hac : (h.node x).children = a ++ y :: c) :
    ∃ s h' r' pre before t after post, Writes h e s ∧ newDocument h s = some (.ok (h', r')) ∧ Around h' r F x pre post ∧
      WriteAll h a before ∧ Writes h y t ∧ WriteAll h c after ∧
      Writes h r (pre ++ nodeText (contentOf h x) (before ++ t :: after) ++ post) ∧
      Writes (h'.insertPrev y (h'.rootElement r')) r (pre ++ nodeText (contentOf h x) (before ++ s :: t :: after) ++ post) ∧
      Writes (h'.insertNext y (h'.rootElement r')) r (pre ++ nodeText (contentOf h x) (before ++ t :: s :: after) ++ post) ∧
      Writes (h'.replaceWith y (h'.rootElement r')) r (pre ++ nodeText (contentOf h x) (before ++ s :: after) ++ post) := by
  obtain ⟨s, h', r', g1, g2, g3, g4, g5, g6, g7, g8, g9⟩ := Copy.ready hr hl he hwr hn hd ho
  obtain ⟨pre, before, t, after, post, k1, k2, k3, k4, k5, k6, k7, k8⟩ :=
    C89_siblings h' g3 r F g4 g5 y x hx a c ((g6 x hx).2.1.trans hac) _ g7 (g8 x hx) s g9
  rw [(g6 x hx).1] at k5 k6 k7 k8
  have hk : ∀ i ∈ (h.node x).children, ∀ t, Writes h' i t → Writes h i t := fun i hi => (g6 i (doc_child hd hx hi).1).2.2
  rw [hac] at hk
  exact ⟨s, h', r', pre, before, t, after, post, g1, g2, k1, Copy.writeAll_back (fun i hi => hk i (by simp [hi])) k2, hk y (by simp) t k3,
    Copy.writeAll_back (fun i hi => hk i (by simp [hi])) k4, (g6 r (by simp)).2.2 _ k5, k6, k7, k8⟩

/-! The hypotheses are met: the element `a` of `<a x="1" y="2"><b/><c/></a>`, copied below its own child `c`. -/

example : Reach editSample ∧ Linked editSample (some 0) (.cons 1 (.cons 4 .nil (.cons 5 .nil .nil)) .nil) ∧ (editSample.node 1).ntype = .element ∧
    WritableForest ((Forest.cons 1 (.cons 4 .nil (.cons 5 .nil .nil)) .nil).map (contentOf editSample)) ∧
    NormalForest ((Forest.cons 4 .nil (.cons 5 .nil .nil)).map (contentOf editSample)) ∧ 5 ∈ 0 :: (Forest.cons 1 (.cons 4 .nil (.cons 5 .nil .nil)) .nil).toList ∧
    OnlyElementsNest editSample 0 (.cons 1 (.cons 4 .nil (.cons 5 .nil .nil)) .nil) := by
  refine ⟨.parse .empty editSample_parsed, editSample_doc.linked.2.2.2.1, by decide, ?_, ⟨fun h => absurd h (by decide), trivial, fun h => absurd h (by decide), trivial, trivial⟩, by decide, by unfold OnlyElementsNest; decide⟩
  refine ⟨⟨⟨'a', [], rfl, by decide +kernel, by simp⟩, by decide +kernel, ?_⟩, by decide +kernel, ⟨⟨⟨'b', [], rfl, by decide +kernel, by simp⟩, by decide +kernel, fun a (h : a ∈ []) => by cases h⟩, by decide +kernel, trivial,
    ⟨⟨'c', [], rfl, by decide +kernel, by simp⟩, by decide +kernel, fun a (h : a ∈ []) => by cases h⟩, by decide +kernel, trivial, trivial⟩, trivial⟩
  show ∀ a ∈ [(S "x", S "1"), (S "y", S "2")], IsName a.1 ∧ CleanStr a.2
  intro a ha
  simp only [List.mem_cons, List.not_mem_nil, or_false] at ha
  rcases ha with rfl | rfl
  · exact ⟨⟨'x', [], rfl, by decide +kernel, by simp⟩, by decide, by decide⟩
  · exact ⟨⟨'y', [], rfl, by decide +kernel, by simp⟩, by decide, by decide⟩

/-- What C110 says about it. -/
example : (match newDocument editSample (S "<a x=\"1\" y=\"2\"><b/><c/></a>") with
      | some (.ok (g, r)) => (g.appendChild 5 (g.rootElement r)).toString 9 0
      | _ => none) = some (S "<a x=\"1\" y=\"2\"><b/><c><a x=\"1\" y=\"2\"><b/><c/></a></c></a>") := by decide +kernel

/-- Adjacent texts are joined in the copy, which then has the same text but one node less. -/
example : (match newDocument Heap.empty (S "<a>x<![CDATA[y]]></a>") with
      | some (.ok (g, _)) => ((g.node 1).children.length, (match newDocument g ((g.toString 9 1).getD []) with
          | some (.ok (g', r')) => (g'.node (g'.rootElement r')).children.length
          | _ => 0))
      | _ => (0, 0)) = (2, 1) := by decide +kernel

end Amxml
