import Verif.Model.Liveness
import Verif.Props.Links

/-!
# Navigation: C25, C26
-/

namespace Amxml
open Spec

/-! ## C25 -/

theorem docIds_parent {h : Heap} {r : NodeId} {F : Forest NodeId} (hd : DocTree h r F) {i p : NodeId}
    (hi : i ∈ docIds h (.cons r F .nil)) (hp : (h.node i).parent = some p) :
    p ∈ (Forest.cons r F .nil).toList ∧ (i ∈ (h.node p).children ∨ i ∈ (h.node p).attributes) := by
  rcases mem_docIds.1 hi with hi | ⟨j, hj, ha⟩
  · rcases linked_parent hd.linked hi with ⟨e, _⟩ | ⟨j, hj, e, hc⟩
    · rw [e] at hp; simp at hp
    · rw [e] at hp; simp at hp; subst hp; exact ⟨hj, .inl hc⟩
  · have := linked_parent_attr hd.linked hj ha
    rw [this] at hp; simp at hp; subst hp; exact ⟨hj, .inr ha⟩

theorem doc_reachable {h : Heap} {r : NodeId} {F : Forest NodeId} (hd : DocTree h r F) (held : NodeId → Prop)
    (hr : held r) : ∀ i ∈ docIds h (.cons r F .nil), Reachable h held i := by
  have gen : ∀ (G : Forest NodeId) (p : Option NodeId), Linked h p G → (∀ j ∈ G.roots, Reachable h held j) →
      ∀ j ∈ docIds h G, Reachable h held j := by
    intro G
    induction G with
    | nil => intro p _ _ j hj; simp [docIds] at hj
    | cons i k s ih1 ih2 =>
      intro p hl hroots j hj
      obtain ⟨l1, l2, l3, l4, l5⟩ := hl
      have hi := hroots i (by simp [Forest.roots])
      simp only [docIds, List.mem_cons, List.mem_append] at hj
      rcases hj with rfl | hj | hj | hj
      · exact hi
      · exact .attr hi hj
      · exact ih1 _ l4 (fun c hc => .child hi (l3 ▸ hc)) j hj
      · exact ih2 _ l5 (fun c hc => hroots c (by simp [Forest.roots, hc])) j hj
  refine gen _ _ hd.linked ?_
  intro j hj; simp [Forest.roots] at hj; subst hj; exact .held hr

theorem rootPF_ok {h : Heap} {alive : NodeId → Bool} {r : NodeId} {F : Forest NodeId} (hd : DocTree h r F)
    (ha : ∀ i ∈ docIds h (.cons r F .nil), alive i = true) (fuel : Nat) (i : NodeId) (hi : i ∈ docIds h (.cons r F .nil)) :
    rootPF h alive fuel i = some (rootF h fuel i) := by
  induction fuel generalizing i with
  | zero => rfl
  | succ fuel ih =>
    simp only [rootPF, rootF]
    cases e : (h.node i).parent with
    | none => rfl
    | some p =>
      have hp := mem_docIds_of_mem (h := h) (docIds_parent hd hi e).1
      simp only [upgrade, ha p hp, if_true]
      exact ih p hp

theorem namespaceLoopP_ok {h : Heap} {alive : NodeId → Bool} {r : NodeId} {F : Forest NodeId} (hd : DocTree h r F)
    (ha : ∀ i ∈ docIds h (.cons r F .nil), alive i = true) (attr : Str) (fuel : Nat) (i : NodeId)
    (hi : i ∈ docIds h (.cons r F .nil)) :
    namespaceLoopP h alive attr fuel i = some (namespaceLoop h attr fuel i) := by
  induction fuel generalizing i with
  | zero => rfl
  | succ fuel ih =>
    simp only [namespaceLoopP, namespaceLoop]
    split
    · cases h.attributeValue i attr with
      | some v => rfl
      | none =>
        simp only
        cases e : (h.node i).parent with
        | none => rfl
        | some p =>
          have hp := mem_docIds_of_mem (h := h) (docIds_parent hd hi e).1
          simp only [upgrade, ha p hp, if_true]
          exact ih p hp
    · rfl

/-- **C25**: while a handle of the document root is held, navigation from any node of a well-linked document does not
panic, and gives what the panic-free functions give. `alive` is any set of nodes that includes those kept alive by the
handles. -/
theorem C25_no_panic_while_root_held (h : Heap) (hw : HeapWF h) (r : NodeId) (F : Forest NodeId) (hd : DocTree h r F)
    (held : NodeId → Prop) (hr : held r) (alive : NodeId → Bool) (ha : ∀ i, Reachable h held i → alive i = true)
    (i : NodeId) (hi : i ∈ docIds h (.cons r F .nil)) :
    h.parentP alive i = some (h.node i).parent ∧ h.rootP alive i = some r ∧
    h.rootElementP alive i = some (h.rootElement i) ∧ h.namespaceUriP alive i = some (h.namespaceUri i) := by
  have hal : ∀ i ∈ docIds h (.cons r F .nil), alive i = true := fun i hi => ha i (doc_reachable hd held hr i hi)
  have hroot : h.rootP alive i = some r := by
    rw [Heap.rootP, rootPF_ok hd hal _ i hi]; exact congrArg some (root_eq hd hw hi)
  refine ⟨?_, hroot, ?_, ?_⟩
  · unfold Heap.parentP
    cases e : (h.node i).parent with
    | none => rfl
    | some p => simp [upgrade, hal p (mem_docIds_of_mem (docIds_parent hd hi e).1)]
  · simp only [Heap.rootElementP, hroot, Heap.rootElement, root_eq hd hw hi]
  · exact namespaceLoopP_ok hd hal _ _ i hi

/-- **C25**, negative part: if only the handle of one node of a document, other than the root, is held, `parent()` and
`root()` on it panic. -/
theorem C25_panics_when_root_dropped (h : Heap) (hw : HeapWF h) (r : NodeId) (F : Forest NodeId) (hd : ParsedDoc h r F)
    (i : NodeId) (hi : i ∈ F.toList) (alive : NodeId → Bool)
    (ha : ∀ j, alive j = true ↔ Reachable h (· = i) j) :
    h.parentP alive i = none ∧ h.rootP alive i = none := by
  have hmem : i ∈ (Forest.cons r F .nil).toList := by simp [Forest.toList, hi]
  have hdi := mem_docIds_of_mem (h := h) hmem
  have hne : i ≠ r := by
    rintro rfl
    have := (toList_sublist_docIds h (.cons i F .nil)).nodup hd.nodup
    simp [Forest.toList, hi] at this
  obtain ⟨p, hp⟩ : ∃ p, (h.node i).parent = some p := by
    cases e : (h.node i).parent with
    | none => exact absurd (docIds_parent_none hd.toDocTree hdi e) hne
    | some p => exact ⟨p, rfl⟩
  have hge : ∀ j, Reachable h (· = i) j → i ≤ j ∧ (j ∈ F.toList ∨ ((h.node j).children = [] ∧ (h.node j).attributes = [])) := by
    intro j hj
    induction hj with
    | held e => subst e; exact ⟨Nat.le_refl _, .inl hi⟩
    | child _ hc ih =>
      rename_i j c _
      rcases ih with ⟨hle, hj | hj⟩
      · have hjm : j ∈ (Forest.cons r F .nil).toList := by simp [Forest.toList, hj]
        have := linked_child hd.linked.2.2.2.1 hj hc
        have := hw.parent_lt _ _ this.2
        exact ⟨by omega, .inl (linked_child hd.linked.2.2.2.1 hj hc).1⟩
      · rw [hj.1] at hc; simp at hc
    | attr _ hc ih =>
      rename_i j a _
      rcases ih with ⟨hle, hj | hj⟩
      · have := hw.parent_lt _ _ (linked_parent_attr hd.linked.2.2.2.1 hj hc)
        have ht := (hd.typed j hj).attr a hc
        exact ⟨by omega, .inr ht.2⟩
      · rw [hj.2] at hc; simp at hc
  have hdead : alive p = false := by
    rw [Bool.eq_false_iff]
    intro e
    have := (hge p ((ha p).1 e)).1
    have := hw.parent_lt i p hp
    omega
  simp [Heap.parentP, Heap.rootP, rootPF, hp, upgrade, hdead]

/-- The hypotheses are met: the sample document, with the root held, and with only `b` (4) held. -/
example : (∀ i ∈ docIds editSample (.cons 0 (.cons 1 (.cons 4 .nil (.cons 5 .nil .nil)) .nil) .nil),
      editSample.rootP (fun _ => true) i = some 0) ∧ editSample.parentP (fun j => j = 4) 4 = none := by
  constructor
  · intro i hi
    exact (C25_no_panic_while_root_held _ editSample_wf 0 _ editSample_doc (· = 0) rfl (fun _ => true) (fun _ _ => rfl) i hi).2.1
  · rfl

/-! ## C26 -/

/-- `l` is the path from its first node up to `r`: each node is the parent of the one before. -/
def Spec.PathTo (h : Heap) (r : NodeId) : List NodeId → Prop
  | [] => False
  | [i] => i = r
  | i :: j :: l => (h.node i).parent = some j ∧ PathTo h r (j :: l)

theorem pathTo_exists {h : Heap} (hw : HeapWF h) {r : NodeId} {F : Forest NodeId} (hd : DocTree h r F) (n : Nat) :
    ∀ i ∈ docIds h (.cons r F .nil), i < n → ∃ l, PathTo h r (i :: l) := by
  induction n with
  | zero => intro i _ h; omega
  | succ n ih =>
    intro i hi hlt
    cases e : (h.node i).parent with
    | none => exact ⟨[], docIds_parent_none hd hi e⟩
    | some p =>
      have := hw.parent_lt i p e
      obtain ⟨l, hl⟩ := ih p (mem_docIds_of_mem (docIds_parent hd hi e).1) (by omega)
      exact ⟨p :: l, e, hl⟩

theorem namespaceLoop_path {h : Heap} (hw : HeapWF h) {r : NodeId} (attr : Str) (l : List NodeId) :
    ∀ i fuel, PathTo h r (i :: l) → i < fuel → (∀ j ∈ (i :: l).dropLast, (h.node j).ntype ≠ .documentRoot) →
      (h.node r).ntype = .documentRoot →
      namespaceLoop h attr fuel i = ((i :: l).dropLast.findSome? fun j => h.attributeValue j attr).getD [] := by
  induction l with
  | nil =>
    intro i fuel hp hf _ hr
    obtain ⟨f, rfl⟩ : ∃ f, fuel = f + 1 := ⟨fuel - 1, by omega⟩
    simp only [PathTo] at hp
    subst hp
    simp [namespaceLoop, hr]
  | cons j l ih =>
    intro i fuel hp hf ht hr
    obtain ⟨f, rfl⟩ : ∃ f, fuel = f + 1 := ⟨fuel - 1, by omega⟩
    obtain ⟨hp, hl⟩ := hp
    have hlt := hw.parent_lt i j hp
    have hti := ht i (by simp [List.dropLast])
    simp only [namespaceLoop, hti, ne_eq, not_false_eq_true, if_true, hp]
    have hdl : (i :: j :: l).dropLast = i :: (j :: l).dropLast := rfl
    rw [hdl, List.findSome?_cons]
    cases h.attributeValue i attr with
    | some v => rfl
    | none =>
      simp only
      exact ih j f hl (by omega) (fun x hx => ht x (by rw [hdl]; simp [hx])) hr

/-- **C26**: in a parsed document let `i :: l` be the path from a node (attributes included) up to the document root.
`namespace_uri()` is the value of `xmlns` (`xmlns:p` if the node's name has the prefix `p`) on the first node of the
path, the document root excepted, that has this attribute; and empty if none has. Every node has such a path. -/
theorem C26_namespace_uri (h : Heap) (hw : HeapWF h) (r : NodeId) (F : Forest NodeId) (hd : ParsedDoc h r F) (i : NodeId)
    (hi : i ∈ docIds h (.cons r F .nil)) :
    (∃ l, PathTo h r (i :: l)) ∧
    ∀ l, PathTo h r (i :: l) →
      let decl := if spaceName (h.node i).name = [] then S "xmlns" else S "xmlns:" ++ spaceName (h.node i).name
      h.namespaceUri i = ((i :: l).dropLast.findSome? fun j => h.attributeValue j decl).getD [] := by
  refine ⟨pathTo_exists hw hd.toDocTree (i + 1) i hi (by omega), ?_⟩
  intro l hl
  have htype : ∀ (l : List NodeId) (i : NodeId), i ∈ docIds h (.cons r F .nil) → PathTo h r (i :: l) →
      ∀ j ∈ (i :: l).dropLast, (h.node j).ntype ≠ .documentRoot := by
    intro l
    induction l with
    | nil => intro i _ _ j hj; simp at hj
    | cons k l ih =>
      intro i hi hp j hj
      obtain ⟨hp, hl⟩ := hp
      have hdl : (i :: k :: l).dropLast = i :: (k :: l).dropLast := rfl
      rw [hdl, List.mem_cons] at hj
      rcases hj with rfl | hj
      · rcases mem_docIds.1 hi with hm | ⟨x, hx, hxa⟩
        · simp only [Forest.toList, List.mem_cons, List.append_nil] at hm
          rcases hm with rfl | hm
          · rw [hd.linked.1] at hp; simp at hp
          · exact (hd.typed j hm).type.1
        · simp only [Forest.toList, List.mem_cons, List.append_nil] at hx
          rcases hx with rfl | hx
          · rw [hd.root_attrs] at hxa; simp at hxa
          · rw [((hd.typed x hx).attr j hxa).1]; simp
      · exact ih k (mem_docIds_of_mem (docIds_parent hd.toDocTree hi hp).1) hl j hj
  have := namespaceLoop_path hw (r := r) (if spaceName (h.node i).name ≠ [] then S "xmlns" ++ S ":" ++ spaceName (h.node i).name else S "xmlns")
    l i (i + 1) hl (by omega) (htype l i hi hl) hd.root_type
  have hS : S "xmlns" ++ S ":" = S "xmlns:" := by decide
  simp only [Heap.namespaceUri]
  rw [this, hS]
  by_cases e : spaceName (h.node i).name = []
  · simp [e]
  · simp [e]

/-- The hypotheses are met, and the innermost declaration wins: `<a xmlns="1"><p:b xmlns="2" xmlns:p="3"/><c/></a>`. -/
example : ∃ h F, HeapWF h ∧ ParsedDoc h 0 F ∧ 3 ∈ docIds h (.cons 0 F .nil) ∧ 6 ∈ docIds h (.cons 0 F .nil) ∧
    h.namespaceUri 3 = S "3" ∧ h.namespaceUri 6 = S "1" := by
  let h := Heap.empty.alloc (mkNode .documentRoot none [] [])
  let h := (h.makeChild .element 0 (S "a") [] none).pushAttr 1 (S "xmlns", S "1")
  let h := ((h.makeChild .element 1 (S "p:b") [] none).pushAttr 3 (S "xmlns", S "2")).pushAttr 3 (S "xmlns:p", S "3")
  let h := h.makeChild .element 1 (S "c") [] none
  have hd : ParsedDoc h 0 (.cons 1 (.cons 3 .nil (.cons 6 .nil .nil)) .nil) := by
    refine ⟨⟨?_, by decide, by decide⟩, by rfl, by rfl, ?_⟩
    · simp only [Linked]
      refine ⟨by rfl, by decide, by rfl, ⟨by rfl, by decide, by rfl, ⟨by rfl, by decide, by rfl, trivial, by rfl, by decide, by rfl, trivial, trivial⟩,
        trivial⟩, trivial⟩
    · intro i hi
      simp [Forest.toList] at hi
      rcases hi with rfl | rfl | rfl
      all_goals exact ⟨by decide, by decide, by decide⟩
  have w0 : HeapWF (Heap.empty.alloc (mkNode .documentRoot none [] [])) := (BuildInv.init (fun _ => True) _ .empty).wf
  have w1 := (addLeaf_element (h := Heap.empty.alloc (mkNode .documentRoot none [] [])) (cur := 0) (by decide) (S "a") [(S "xmlns", S "1")]).heapWF w0 (by decide)
  have w2 := (addLeaf_element (cur := 1) (by decide) (S "p:b") [(S "xmlns", S "2"), (S "xmlns:p", S "3")]).heapWF w1 (by decide)
  have w3 := (addLeaf_element (cur := 1) (by decide) (S "c") []).heapWF w2 (by decide)
  exact ⟨h, _, w3, hd, by decide, by decide, by rfl, by rfl⟩

end Amxml
