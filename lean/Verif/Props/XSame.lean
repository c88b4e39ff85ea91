import Verif.Lemmas.Shift
import Verif.Lemmas.Decide
import Verif.Props.Links

/-!
# C91: queries depend on the content of a document only
-/

namespace Amxml
open Spec
open List (Forall₂)

section
variable {h h' : Heap} {r r' : NodeId} {F F' : Forest NodeId}

theorem queried (hr : Reach h) (hd : DocTree h r F) (ha : AttrLeaves h (.cons r F .nil)) : Queried h r F :=
  ⟨hr.inv.1, hd, C23_never_stale h hr r F hd, ha⟩

theorem Spec.ParsedDoc.leaves (hd : ParsedDoc h r F) : AttrLeaves h (.cons r F .nil) := by
  intro i hi a ha
  simp only [Forest.toList, List.append_nil, List.mem_cons] at hi
  rcases hi with rfl | hi
  · rw [hd.root_attrs] at ha; simp at ha
  · exact (hd.typed i hi).attr a ha

theorem same_map {α β γ : Type} {P : α → β → Prop} {x : Except XErr α} {y : Except XErr β} {f : α → γ} {g : β → γ} (hx : SameOutcome P x y)
    (hf : ∀ a b, P a b → f a = g b) : x.map f = y.map g := (hx.map (Q := Eq) hf).eq

end

/-- **C91.** Two documents, in two states of the program (or in one), each reached by parsing, editing and querying in whatever way. If the
trees of their contents are equal, then every XPath expression, asked at the same place of both, has the same outcome: the same error, or
values that differ only in that each node of the one stands where the other has the node at the same place. -/
theorem C91_same_answers (h h' : Heap) (hr : Reach h) (hr' : Reach h') (r r' : NodeId) (F F' : Forest NodeId) (hd : DocTree h r F) (hd' : DocTree h' r' F')
    (ha : AttrLeaves h (.cons r F .nil)) (ha' : AttrLeaves h' (.cons r' F' .nil))
    (hc : (Forest.cons r F .nil).map (contentOf h) = (Forest.cons r' F' .nil).map (contentOf h')) (i j : NodeId) (hij : SamePlace h r F h' r' F' i j)
    (n : Nat) (q : Str) :
    SameOutcome (SameSeq (SamePlace h r F h' r' F')) (evalXPath h n i q) (evalXPath h' n j q) :=
  evalXPath_same (iso_of (queried hr hd ha) (queried hr' hd' ha') hc) n hij q

/-- **C91**, for `to_string()` of the value: the texts are equal. -/
theorem C91_same_text (h h' : Heap) (hr : Reach h) (hr' : Reach h') (r r' : NodeId) (F F' : Forest NodeId) (hd : DocTree h r F) (hd' : DocTree h' r' F')
    (ha : AttrLeaves h (.cons r F .nil)) (ha' : AttrLeaves h' (.cons r' F' .nil))
    (hc : (Forest.cons r F .nil).map (contentOf h) = (Forest.cons r' F' .nil).map (contentOf h')) (i j : NodeId) (hij : SamePlace h r F h' r' F' i j)
    (n : Nat) (q : Str) :
    (evalXPath h n i q).map (displaySeq h) = (evalXPath h' n j q).map (displaySeq h') := by
  have I := iso_of (queried hr hd ha) (queried hr' hd' ha') hc
  exact same_map (evalXPath_same I n hij q) fun a b hab => displaySeq_same I hab

/-- **C91**, for `get_nodeset` and `get_first_node`: the nodes at the same places, in the same order. -/
theorem C91_nodes (h h' : Heap) (hr : Reach h) (hr' : Reach h') (r r' : NodeId) (F F' : Forest NodeId) (hd : DocTree h r F) (hd' : DocTree h' r' F')
    (ha : AttrLeaves h (.cons r F .nil)) (ha' : AttrLeaves h' (.cons r' F' .nil))
    (hc : (Forest.cons r F .nil).map (contentOf h) = (Forest.cons r' F' .nil).map (contentOf h')) (i j : NodeId) (hij : SamePlace h r F h' r' F' i j)
    (n : Nat) (q : Str) :
    SameOutcome (Forall₂ (SamePlace h r F h' r' F')) (getNodeset h n i q) (getNodeset h' n j q) ∧
    SameOutcome (Option.Rel (SamePlace h r F h' r' F')) (getFirstNode h n i q) (getFirstNode h' n j q) := by
  have I := iso_of (queried hr hd ha) (queried hr' hd' ha') hc
  have key : SameOutcome (Forall₂ (SamePlace h r F h' r' F')) (getNodeset h n i q) (getNodeset h' n j q) :=
    (evalXPath_same I n hij q).map fun a b hab => toNodeset_same hab
  refine ⟨key, ?_⟩
  unfold getFirstNode
  revert key
  generalize getNodeset h n i q = u
  generalize getNodeset h' n j q = v
  intro key
  cases key with
  | ok hl =>
    cases hl with
    | nil => exact .ok .none
    | cons h1 _ => exact .ok (.some h1)
  | error e => cases e <;> first | exact .error _ | exact .ok .none

/-- The two loops of the parser end alike. -/
inductive Ends (n m : Nat) : Option (Except DocErr Heap) → Option (Except DocErr Heap) → Prop where
  | none : Ends n m none none
  | error (e : DocErr) : Ends n m (some (.error e)) (some (.error e))
  | ok {h h' : Heap} : Shifted n m h h' → Ends n m (some (.ok h)) (some (.ok h'))

theorem buildLoop_shift {n m : Nat} (fuel : Nat) : ∀ (d : Dec) {h h' : Heap}, HeapWF h → Shifted n m h h' → ∀ {cur}, n ≤ cur → cur < h.size →
    Ends n m (buildLoop fuel d h cur) (buildLoop fuel d h' (shiftId n m cur)) := by
  induction fuel with
  | zero => intro d h h' _ _ cur _ _; exact .none
  | succ fuel ih =>
    intro d h h' hw s cur hc hlt
    rw [buildLoop, buildLoop]
    split
    · exact .none
    · exact .error _
    · exact .ok s
    · rename_i tok d' _ _
      have h1 := stepToken_shift hw s hc hlt tok
      have h2 := fun a b => stepToken_cur_lt (t := tok) (h' := a) (cur' := b) hw hlt
      revert h1 h2
      generalize stepToken h cur tok = a
      generalize stepToken h' (shiftId n m cur) tok = b
      intro h1 h2
      cases h1 with
      | error e => exact .error _
      | ok s' hc' hlt' => exact ih d' (h2 _ _ rfl).2.1 s' hc' hlt'

/-- **C91**, for parsing: what the program has done before does not matter. In two states, `new_document` of the same text does not return in
both, fails with the same error in both, or returns documents with the same tree of contents in both. -/
theorem C91_parse_anywhere (h h' : Heap) (hr : Reach h) (hr' : Reach h') (xml : Str) :
    (newDocument h xml = none ∧ newDocument h' xml = none) ∨
    (∃ e, newDocument h xml = some (.error e) ∧ newDocument h' xml = some (.error e)) ∨
    ∃ g r F g' r' F', newDocument h xml = some (.ok (g, r)) ∧ newDocument h' xml = some (.ok (g', r')) ∧ ParsedDoc g r F ∧ ParsedDoc g' r' F' ∧
      (Forest.cons r F .nil).map (contentOf g) = (Forest.cons r' F' .nil).map (contentOf g') := by
  have hw := hr.inv.1
  have hw' := hr'.inv.1
  have key := buildLoop_shift (2 * xml.length + 2) (Dec.new xml) (BuildInv.init (fun _ => True) h hw).wf (shifted_start h h') (cur := h.size) (Nat.le_refl _) (by simp [Heap.alloc])
  rw [show shiftId h.size h'.size h.size = h'.size by simp [shiftId]] at key
  revert key
  generalize ea : buildLoop (2 * xml.length + 2) (Dec.new xml) (h.alloc (mkNode .documentRoot none [] [])) h.size = a
  generalize eb : buildLoop (2 * xml.length + 2) (Dec.new xml) (h'.alloc (mkNode .documentRoot none [] [])) h'.size = b
  intro key
  cases key with
  | none => exact .inl ⟨by simp [newDocument, ea], by simp [newDocument, eb]⟩
  | error e => exact .inr (.inl ⟨e, by simp [newDocument, ea, Except.map], by simp [newDocument, eb, Except.map]⟩)
  | @ok g g' s =>
    have d : newDocument h xml = some (.ok (g, h.size)) := by simp [newDocument, ea, Except.map]
    have d' : newDocument h' xml = some (.ok (g', h'.size)) := by simp [newDocument, eb, Except.map]
    obtain ⟨F, hp, _, hroot, _, hg⟩ := C08_well_linked h hw xml g _ d
    obtain ⟨F', hp', _, _, _, hg'⟩ := C08_well_linked h' hw' xml g' _ d'
    refine .inr (.inr ⟨g, h.size, F, g', h'.size, F', d, d', hp, hp', ?_⟩)
    have hb : ∀ i ∈ docIds g (.cons h.size F .nil), h.size ≤ i ∧ i < g.size := fun i hi => ⟨hroot i hi ▸ rootF_le hg _ i, hp.bound i hi⟩
    obtain ⟨hl, hm⟩ := s.forest _ _ hb hp.linked
    rw [← hm]
    have : (Forest.cons h.size F .nil).map (shiftId h.size h'.size) = .cons h'.size F' .nil := by
      refine linked_unique hl hp'.linked ?_
      simp [Forest.map, Forest.roots, shiftId]
    rw [this]

/-- **C91**: the same text, parsed in two states, gives documents that answer every query alike. -/
theorem C91_parsed_text (h h' : Heap) (hr : Reach h) (hr' : Reach h') (xml : Str) (g g' : Heap) (r r' : NodeId)
    (hd : newDocument h xml = some (.ok (g, r))) (hd' : newDocument h' xml = some (.ok (g', r'))) (n : Nat) (q : Str) :
    (evalXPath g n r q).map (displaySeq g) = (evalXPath g' n r' q).map (displaySeq g') := by
  rcases C91_parse_anywhere h h' hr hr' xml with ⟨e, _⟩ | ⟨x, e, _⟩ | ⟨a, b, F, a', b', F', e, e', hp, hp', hc⟩
  · rw [e] at hd; cases hd
  · rw [e] at hd; cases hd
  · rw [e] at hd; cases hd
    rw [e'] at hd'; cases hd'
    exact C91_same_text g g' (.parse hr e) (.parse hr' e') r r' F F' hp.toDocTree hp'.toDocTree hp.leaves hp'.leaves hc r r' ⟨0, rfl, rfl⟩ n q

/-- **C91**: a document, however it came about, and the document read back from its `to_string()` answer every query alike: for every place,
the nodes at that place in the two documents are equally good starting points. The document is writable and in normal form (the conditions
under which it can be read back at all, C03). -/
theorem C91_reparsed (h : Heap) (hr : Reach h) (r : NodeId) (F : Forest NodeId) (hd : DocTree h r F) (hroot : contentOf h r = ⟨.documentRoot, [], [], []⟩)
    (ha : AttrLeaves h F) (hwr : WritableForest (F.map (contentOf h))) (hn : NormalForest (F.map (contentOf h))) :
    ∃ s, (∃ n, ∀ m ≥ n, h.toString m r = some s) ∧ ∃ h' r' F', newDocument h s = some (.ok (h', r')) ∧ ParsedDoc h' r' F' ∧
      ∀ i ∈ docIds h (.cons r F .nil), ∃ j, SamePlace h r F h' r' F' i j ∧ ∀ n q,
        SameOutcome (SameSeq (SamePlace h r F h' r' F')) (evalXPath h n i q) (evalXPath h' n j q) ∧
        (evalXPath h n i q).map (displaySeq h) = (evalXPath h' n j q).map (displaySeq h') := by
  have ht : (h.node r).ntype = .documentRoot := congrArg Content.ntype hroot
  have hra : (h.node r).attributes = [] := by simpa [contentOf] using congrArg Content.attrs hroot
  obtain ⟨s, hs, h', r', F', hnew, hp', hc⟩ := C03_parse_of_serialise h hr.inv.1 r F hd ht hwr hn
  have ha1 : AttrLeaves h (.cons r F .nil) := by
    intro i hi a hia
    simp only [Forest.toList, List.append_nil, List.mem_cons] at hi
    rcases hi with rfl | hi
    · rw [hra] at hia; simp at hia
    · exact ha i hi a hia
  have hcc : (Forest.cons r F .nil).map (contentOf h) = (Forest.cons r' F' .nil).map (contentOf h') := by
    simp only [Forest.map, hroot, newDocument_root hr.inv.1 hnew hp', hc]
  refine ⟨s, hs, h', r', F', hnew, hp', fun i hi => ?_⟩
  obtain ⟨k, hk, e⟩ := List.mem_iff_getElem.1 hi
  have hl := (zip_docIds _ _ hcc).1
  refine ⟨(docIds h' (.cons r' F' .nil))[k]'(by omega), ⟨k, by rw [List.getElem?_eq_getElem hk, e], List.getElem?_eq_getElem _⟩, fun n q => ⟨?_, ?_⟩⟩
  · exact C91_same_answers h h' hr (.parse hr hnew) r r' F F' hd hp'.toDocTree ha1 hp'.leaves hcc _ _ ⟨k, by rw [List.getElem?_eq_getElem hk, e], List.getElem?_eq_getElem _⟩ n q
  · exact C91_same_text h h' hr (.parse hr hnew) r r' F F' hd hp'.toDocTree ha1 hp'.leaves hcc _ _ ⟨k, by rw [List.getElem?_eq_getElem hk, e], List.getElem?_eq_getElem _⟩ n q

/-! The hypotheses are met: the sample document, and the same document after `set_attribute` with the old value (which replaces the attribute
node: the node 3 of the one corresponds to the node 6 of the other). -/

def sameSample : Heap := editSample.setAttribute 1 (S "y") (S "2")

def sameForest : Forest NodeId := .cons 1 (.cons 4 .nil (.cons 5 .nil .nil)) .nil

theorem sameSample_reach : Reach editSample ∧ Reach sameSample :=
  ⟨.parse .empty editSample_parsed, .edit (.setAttribute 1 (S "y") (S "2")) (.parse .empty editSample_parsed) (by show 1 < editSample.size; decide)⟩

theorem sameSample_doc : DocTree sameSample 0 sameForest := by
  refine ⟨?_, by decide, by decide⟩
  simp only [sameForest, Linked]
  refine ⟨by rfl, by decide, by rfl, ⟨by rfl, by decide, by rfl, ⟨by rfl, by decide, by rfl, trivial, by rfl, by decide, by rfl, trivial, trivial⟩,
    trivial⟩, trivial⟩

theorem sameSample_content : (Forest.cons 0 sameForest .nil).map (contentOf editSample) = (Forest.cons 0 sameForest .nil).map (contentOf sameSample) := by
  decide +kernel

instance (h : Heap) (F : Forest NodeId) : Decidable (AttrLeaves h F) := by unfold AttrLeaves; infer_instance

/-- The second attribute is at the same place in both, and is a different node. -/
example : SamePlace editSample 0 sameForest sameSample 0 sameForest 3 6 ∧
    evalXPath editSample 20 0 (S "//@*[. = '2']") = .ok [.node 3] ∧ evalXPath sameSample 20 0 (S "//@*[. = '2']") = .ok [.node 6] :=
  ⟨⟨3, by decide, by decide⟩, by run_query, by run_query⟩

example (n : Nat) (q : Str) : (evalXPath editSample n 3 q).map (displaySeq editSample) = (evalXPath sameSample n 6 q).map (displaySeq sameSample) :=
  C91_same_text _ _ sameSample_reach.1 sameSample_reach.2 0 0 sameForest sameForest editSample_doc sameSample_doc (by decide +kernel) (by decide +kernel)
    sameSample_content 3 6 ⟨3, by decide, by decide⟩ n q

/-- The hypotheses of the theorem on documents read back are met. -/
example : contentOf sameSample 0 = ⟨.documentRoot, [], [], []⟩ ∧ AttrLeaves sameSample sameForest ∧
    WritableForest (sameForest.map (contentOf sameSample)) ∧ NormalForest (sameForest.map (contentOf sameSample)) := by
  have n : ∀ c : Char, isNameFirstChar c = true → IsName [c] := fun c h => ⟨c, [], rfl, h, by simp⟩
  have e : sameForest.map (contentOf sameSample) = .cons ⟨.element, S "a", [], [(S "x", S "1"), (S "y", S "2")]⟩
      (.cons ⟨.element, S "b", [], []⟩ .nil (.cons ⟨.element, S "c", [], []⟩ .nil .nil)) .nil := by decide +kernel
  rw [e]
  refine ⟨by decide +kernel, by decide +kernel, ?_, by simp [NormalForest]⟩
  simp only [WritableForest, Content.Writable]
  refine ⟨⟨n _ (by decide +kernel), trivial, ?_⟩, by simp, ⟨⟨n _ (by decide +kernel), by simp⟩, by simp, trivial, ⟨n _ (by decide +kernel), by simp⟩, by simp, trivial, trivial⟩, trivial⟩
  intro a ha
  simp only [List.mem_cons, List.not_mem_nil, or_false] at ha
  rcases ha with rfl | rfl
  · exact ⟨n _ (by decide +kernel), clean_of_check (by decide)⟩
  · exact ⟨n _ (by decide +kernel), clean_of_check (by decide)⟩

end Amxml
