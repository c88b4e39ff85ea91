import Verif.Lemmas.Touch
import Verif.Props.Edit

/-!
# Document order: C22, C23
-/

namespace Amxml
open Spec

/-! ## C22 -/

theorem setupOrderF_mono (n : Nat) : ∀ h is o x, setupOrderF n h is o = some x → ∀ m ≥ n, setupOrderF m h is o = some x := by
  induction n with
  | zero =>
    intro h is o x hx m _
    cases is with
    | nil => cases m <;> simpa [setupOrderF] using hx
    | cons => simp [setupOrderF] at hx
  | succ n ih =>
    intro h is o x hx m hm
    obtain ⟨m, rfl⟩ : ∃ m', m = m' + 1 := ⟨m - 1, by omega⟩
    cases is with
    | nil => simpa [setupOrderF] using hx
    | cons c cs =>
      simp only [setupOrderF] at hx ⊢
      split at hx
      · simp at hx
      · rename_i h3 o3 e3
        rw [ih _ _ _ _ e3 m (by omega)]
        exact ih _ _ _ _ hx m (by omega)

theorem setupOrder_doc {h : Heap} {r : NodeId} {F : Forest NodeId} (hd : DocTree h r F) :
    ∃ h', (∀ fuel > F.toList.length, setupOrder fuel h r = some h') ∧ h'.size = h.size ∧ (∀ j, SameNode h h' j) ∧
      (∀ j, j ∉ docIds h (.cons r F .nil) → h'.node j = h.node j) ∧
      (docIds h (.cons r F .nil)).Pairwise (fun i j => (h'.node i).order < (h'.node j).order) ∧
      (∀ j ∈ docIds h (.cons r F .nil), 0 < (h'.node j).order) := by
  obtain ⟨h', o', e, _, hs, hsame, ho, hp, hb⟩ := setupOrderF_forest (.cons r F .nil) h none hd.linked hd.nodup
    (F.toList.length + 1) (by simp [Forest.toList]) 0
  refine ⟨h', ?_, hs, hsame, ho, hp, fun j hj => (hb j hj).1⟩
  intro fuel hf
  have := setupOrderF_mono _ _ _ _ _ e fuel (by omega)
  simp only [Forest.roots] at this
  simp [setupOrder, this]

/-- The numbers of a document are valid: still to be computed, or increasing along document order. -/
def OrderInv (h : Heap) (r : NodeId) (F : Forest NodeId) : Prop :=
  (h.node r).order = 0 ∨
  ((docIds h (.cons r F .nil)).Pairwise (fun i j => (h.node i).order < (h.node j).order) ∧ 0 < (h.node r).order)

theorem OrderInv.correct {h : Heap} {r : NodeId} {F : Forest NodeId} (hd : DocTree h r F) (hw : HeapWF h)
    (ho : OrderInv h r F) : OrderCorrect h r F := by
  by_cases e : (h.node r).order = 0
  · obtain ⟨h', hf, _, _, _, hp, _⟩ := setupOrder_doc hd
    refine ⟨fun i => (h'.node i).order, hp, ?_⟩
    intro i hi fuel hfuel
    refine ⟨h', ?_⟩
    unfold Heap.documentOrder
    simp [root_eq hd hw hi, e, hf fuel hfuel]
  · rcases ho with h0 | ⟨hp, _⟩
    · exact absurd h0 e
    · refine ⟨fun i => (h.node i).order, hp, ?_⟩
      intro i hi fuel _
      refine ⟨h, ?_⟩
      unfold Heap.documentOrder
      simp [root_eq hd hw hi, e]

/-- **C22**: in a well-linked document whose numbers have not been computed yet, `document_order` numbers all nodes,
attributes included, strictly increasingly along document order; the call returns, and changes nothing but the cached
numbers. -/
theorem C22_document_order (h : Heap) (hw : HeapWF h) (r : NodeId) (F : Forest NodeId) (hd : DocTree h r F)
    (h0 : (h.node r).order = 0) :
    OrderCorrect h r F ∧
    (∀ i ∈ docIds h (.cons r F .nil), ∀ fuel > F.toList.length, ∃ o h', h.documentOrder fuel i = some (o, h') ∧
      h'.size = h.size ∧ ∀ j, SameNode h h' j) := by
  refine ⟨OrderInv.correct hd hw (.inl h0), ?_⟩
  obtain ⟨h', hf, hs, hsame, _⟩ := setupOrder_doc hd
  intro i hi fuel hfuel
  refine ⟨(h'.node i).order, h', ?_, hs, hsame⟩
  unfold Heap.documentOrder
  simp [root_eq hd hw hi, h0, hf fuel hfuel]

/-- Equal numbers only for equal nodes. -/
theorem C22_injective (h : Heap) (r : NodeId) (F : Forest NodeId) (hc : OrderCorrect h r F) :
    ∀ i ∈ docIds h (.cons r F .nil), ∀ j ∈ docIds h (.cons r F .nil), ∀ fuel > F.toList.length,
      (h.documentOrder fuel i).map (·.1) = (h.documentOrder fuel j).map (·.1) → i = j := by
  obtain ⟨o, hp, hv⟩ := hc
  intro i hi j hj fuel hf he
  obtain ⟨h1, e1⟩ := hv i hi fuel hf
  obtain ⟨h2, e2⟩ := hv j hj fuel hf
  rw [e1, e2] at he
  simp at he
  by_contra hne
  have key : ∀ l : List NodeId, l.Pairwise (fun i j => o i < o j) → i ∈ l → j ∈ l → False := by
    intro l
    induction l with
    | nil => simp
    | cons x l ih =>
      intro hpw h1 h2
      rw [List.pairwise_cons] at hpw
      simp only [List.mem_cons] at h1 h2
      rcases h1 with rfl | h1 <;> rcases h2 with rfl | h2
      · exact hne rfl
      · have := hpw.1 j h2; omega
      · have := hpw.1 i h1; omega
      · exact ih hpw.2 h1 h2
  exact key _ hp hi hj

/-! ### fresh documents have no numbers yet -/

theorem stepToken_order {h h' : Heap} {cur cur' : NodeId} {t : Token} {n0 : Nat} (hc : cur < h.size)
    (hs : stepToken h cur t = .ok (h', cur')) (h0 : ∀ j, n0 ≤ j → j < h.size → (h.node j).order = 0) :
    ∀ j, n0 ≤ j → j < h'.size → (h'.node j).order = 0 := by
  rcases stepToken_cases hc hs with ⟨c, _, hl, _⟩ | ⟨rfl, _⟩
  · intro j hj hj'
    have hsz := hl.size
    by_cases e : j = cur
    · subst e; rw [hl.atCur]; exact h0 j hj hc
    · by_cases e1 : j < h.size
      · rw [hl.other j e (.inl e1)]; exact h0 j hj e1
      · by_cases e2 : j = h.size
        · subst e2; rw [hl.new]; rfl
        · have hk : j - (h.size + 1) < c.attrs.length := by omega
          have := hl.attr (j - (h.size + 1)) _ (List.getElem?_eq_getElem hk)
          rw [show h.size + 1 + (j - (h.size + 1)) = j by omega] at this
          rw [this]; rfl
  · exact h0

theorem stepToken_cur_lt {h h' : Heap} {cur cur' : NodeId} {t : Token} (hw : HeapWF h) (hc : cur < h.size)
    (hs : stepToken h cur t = .ok (h', cur')) : cur' < h'.size ∧ HeapWF h' ∧ h.size ≤ h'.size := by
  rcases stepToken_cases hc hs with ⟨c, _, hl, hcur⟩ | ⟨rfl, _, hcur⟩
  · have := hl.size
    refine ⟨?_, hl.heapWF hw hc, by omega⟩
    subst hcur
    split <;> omega
  · refine ⟨?_, hw, Nat.le_refl _⟩
    rcases hcur with rfl | hp
    · exact hc
    · have := hw.parent_lt _ _ hp; omega

theorem buildTokens_order {ts : List Token} {h h' : Heap} {cur cur' : NodeId} {n0 : Nat} (hw : HeapWF h) (hc : cur < h.size)
    (hs : buildTokens ts h cur = .ok (h', cur')) (h0 : ∀ j, n0 ≤ j → j < h.size → (h.node j).order = 0) :
    (∀ j, n0 ≤ j → j < h'.size → (h'.node j).order = 0) ∧ h.size ≤ h'.size := by
  induction ts generalizing h cur with
  | nil => simp [buildTokens] at hs; obtain ⟨rfl, rfl⟩ := hs; exact ⟨h0, Nat.le_refl _⟩
  | cons t ts ih =>
    simp only [buildTokens] at hs
    split at hs
    · simp at hs
    · rename_i h1 c1 e
      have hc1 := stepToken_cur_lt hw hc e
      have := ih hc1.2.1 hc1.1 hs (stepToken_order hc e h0)
      exact ⟨this.1, by omega⟩

theorem newDocument_order {h h' : Heap} {xml : Str} {r : NodeId} (hw : HeapWF h)
    (hd : newDocument h xml = some (.ok (h', r))) :
    (∀ j, h.size ≤ j → j < h'.size → (h'.node j).order = 0) ∧ h.size < h'.size := by
  obtain ⟨rfl, ts, cur, _, hb⟩ := newDocument_ok hd
  have hinit := BuildInv.init (fun _ => True) h hw
  have := buildTokens_order hinit.wf (by simp) hb (n0 := h.size) (by
    intro j h1 h2
    have : j = h.size := by simp at h2; omega
    subst this; simp [mkNode])
  refine ⟨this.1, ?_⟩
  have := this.2; simp at this; omega

/-- **C22** for a document just parsed. -/
theorem C22_parsed (h : Heap) (hw : HeapWF h) (xml : Str) (h' : Heap) (r : NodeId)
    (hd : newDocument h xml = some (.ok (h', r))) : ∃ F, ParsedDoc h' r F ∧ OrderCorrect h' r F := by
  obtain ⟨F, hF, _, _, _, hw'⟩ := C08_well_linked h hw xml h' r hd
  have hz := newDocument_order hw hd
  have hr : r = h.size := (newDocument_ok hd).1
  exact ⟨F, hF, (C22_document_order h' hw' r F hF.toDocTree (hz.1 r (by omega) (by omega))).1⟩

/-! ## C23 -/

theorem docTree_congr {h h' : Heap} {r : NodeId} {F : Forest NodeId} (hd : DocTree h r F) (hs : h.size ≤ h'.size)
    (hl : ∀ j ∈ (Forest.cons r F .nil).toList, SameLinks h h' j)
    (ha : ∀ j ∈ (Forest.cons r F .nil).toList, ∀ a ∈ (h.node j).attributes, (h'.node a).parent = (h.node a).parent) :
    DocTree h' r F := by
  have gen : ∀ (G : Forest NodeId) (p : Option NodeId), Linked h p G → (∀ j ∈ G.toList, SameLinks h h' j) →
      (∀ j ∈ G.toList, ∀ a ∈ (h.node j).attributes, (h'.node a).parent = (h.node a).parent) → Linked h' p G := by
    intro G
    induction G with
    | nil => intros; trivial
    | cons i k s ih1 ih2 =>
      intro p hlk h1 h2
      obtain ⟨l1, l2, l3, l4, l5⟩ := hlk
      simp only [Forest.toList, List.mem_cons, List.mem_append] at h1 h2
      have hi := h1 i (.inl rfl)
      refine ⟨hi.1.trans l1, ?_, hi.2.1.trans l3, ih1 _ l4 (fun j hj => h1 j (.inr (.inl hj))) (fun j hj => h2 j (.inr (.inl hj))),
        ih2 _ l5 (fun j hj => h1 j (.inr (.inr hj))) (fun j hj => h2 j (.inr (.inr hj)))⟩
      intro a hm
      rw [hi.2.2] at hm
      rw [h2 i (.inl rfl) a hm]; exact l2 a hm
  have hdoc : docIds h' (.cons r F .nil) = docIds h (.cons r F .nil) := docIds_congr fun j hj => (hl j hj).2.2
  exact ⟨gen _ _ hd.linked hl ha, by rw [hdoc]; exact hd.nodup, fun i hi => by rw [hdoc] at hi; have := hd.bound i hi; omega⟩

theorem docIds_congr_links {h h' : Heap} {F : Forest NodeId} (hl : ∀ j ∈ F.toList, SameLinks h h' j) :
    docIds h' F = docIds h F := docIds_congr fun j hj => (hl j hj).2.2

/-- In a document only the root has no parent. -/
theorem docIds_parent_none {h : Heap} {r : NodeId} {F : Forest NodeId} (hd : DocTree h r F) {i : NodeId}
    (hi : i ∈ docIds h (.cons r F .nil)) (hp : (h.node i).parent = none) : i = r := by
  rcases mem_docIds.1 hi with hi | ⟨j, hj, ha⟩
  · rcases linked_parent hd.linked hi with ⟨_, hr⟩ | ⟨j, _, e, _⟩
    · simpa [Forest.roots] using hr
    · rw [e] at hp; simp at hp
  · rw [linked_parent_attr hd.linked hj ha] at hp; simp at hp

/-- The invariant over all documents. -/
def AllOrderInv (h : Heap) : Prop := HeapWF h ∧ ∀ r F, DocTree h r F → OrderInv h r F

theorem Effect.orderInv {h h' : Heap} {q : NodeId} (t : Effect h h' q) (hi : AllOrderInv h) : AllOrderInv h' := by
  refine ⟨t.wf, fun r F hd => ?_⟩
  have hqr : (q ∈ docIds h' (.cons r F .nil)) → (h'.node r).order = 0 := by
    intro hq
    have : h'.root q = r := root_eq hd t.wf hq
    rw [t.root hi.1 t.lt] at this
    rw [← this]; exact t.cleared
  by_cases hq : q ∈ docIds h' (.cons r F .nil)
  · exact .inl (hqr hq)
  · -- no node of the document is new
    have hold : ∀ j ∈ docIds h' (.cons r F .nil), j < h.size := by
      intro j hj
      by_contra hge
      have hlt := hd.bound j hj
      have hp := t.new j (by omega) hlt
      apply hq
      rcases mem_docIds.1 hj with hj | ⟨i, hi, ha⟩
      · rcases linked_parent hd.linked hj with ⟨e, _⟩ | ⟨i, hi, e, _⟩
        · rw [e] at hp; simp at hp
        · rw [e] at hp; simp at hp; exact hp ▸ mem_docIds_of_mem hi
      · rw [linked_parent_attr hd.linked hi ha] at hp
        simp at hp; exact hp ▸ mem_docIds_of_mem hi
    have hsame : ∀ j ∈ docIds h' (.cons r F .nil), SameNode h h' j := fun j hj =>
      t.old j (hold j hj) (fun e => hq (e ▸ hj))
    have hlinks : ∀ j ∈ docIds h' (.cons r F .nil), SameLinks h' h j := fun j hj =>
      ⟨(hsame j hj).links.1.symm, (hsame j hj).links.2.1.symm, (hsame j hj).links.2.2.symm⟩
    have hdoc : docIds h (.cons r F .nil) = docIds h' (.cons r F .nil) :=
      docIds_congr_links fun j hj => hlinks j (mem_docIds_of_mem hj)
    have hd0 : DocTree h r F := by
      refine ⟨linked_congr hd.linked hlinks, by rw [hdoc]; exact hd.nodup, fun i hi => hold i (by rwa [hdoc] at hi)⟩
    by_cases hr : r = h.root q
    · left; rw [hr]; exact t.cleared
    · have hord : ∀ j ∈ docIds h (.cons r F .nil), (h'.node j).order = (h.node j).order := by
        intro j hj
        refine t.order j (hd0.bound j hj) (fun e => hr ?_)
        have := docIds_parent_none hd0 hj (by rw [e]; exact root_parent_none hi.1 q)
        rw [← this, e]
      rcases hi.2 r F hd0 with h1 | ⟨h1, h2⟩
      · left; rw [hord r (by simp [docIds])]; exact h1
      · right
        rw [← hdoc]
        refine ⟨h1.imp_of_mem fun {x y} hx hy hlt => ?_, ?_⟩
        · rw [hord x hx, hord y hy]; exact hlt
        · rw [hord r (by simp [docIds])]; exact h2

theorem AllOrderInv.parse {h h' : Heap} {xml : Str} {r0 : NodeId} (hi : AllOrderInv h)
    (hp : newDocument h xml = some (.ok (h', r0))) : AllOrderInv h' := by
  obtain ⟨_, _, _, _, hold, hw'⟩ := C08_well_linked h hi.1 xml h' r0 hp
  have hz := newDocument_order hi.1 hp
  refine ⟨hw', fun r F hd => ?_⟩
  have hrb : r < h'.size := hd.bound r (by simp [docIds])
  by_cases hr : h.size ≤ r
  · exact .inl (hz.1 r hr hrb)
  · -- a document with an old root has only old nodes
    have hnode : ∀ j < h.size, h'.node j = h.node j := hold
    have hall : ∀ (G : Forest NodeId) (p : Option NodeId), Linked h' p G → (∀ j ∈ G.roots, j < h.size) →
        ∀ j ∈ docIds h' G, j < h.size := by
      intro G
      induction G with
      | nil => intro p _ _ j hj; simp [docIds] at hj
      | cons i k s ih1 ih2 =>
        intro p hl hroots j hj
        obtain ⟨l1, l2, l3, l4, l5⟩ := hl
        have hi' : i < h.size := hroots i (by simp [Forest.roots])
        have hn := hnode i hi'
        simp only [docIds, List.mem_cons, List.mem_append] at hj
        rcases hj with rfl | hj | hj | hj
        · exact hi'
        · rw [hn] at hj; exact hi.1.closed i j (.inr hj)
        · refine ih1 _ l4 (fun c hc => ?_) j hj
          rw [← l3, hn] at hc; exact hi.1.closed i c (.inl hc)
        · exact ih2 _ l5 (fun c hc => hroots c (by simp [Forest.roots, hc])) j hj
    have hlt := hall _ _ hd.linked (by intro j hj; simp [Forest.roots] at hj; omega)
    have hlinks : ∀ j ∈ docIds h' (.cons r F .nil), SameLinks h' h j := fun j hj => .of_eq (hnode j (hlt j hj)).symm
    have hdoc : docIds h (.cons r F .nil) = docIds h' (.cons r F .nil) :=
      docIds_congr_links fun j hj => hlinks j (mem_docIds_of_mem hj)
    have hd0 : DocTree h r F :=
      ⟨linked_congr hd.linked hlinks, by rw [hdoc]; exact hd.nodup, fun i hi => hlt i (by rwa [hdoc] at hi)⟩
    have hord : ∀ j ∈ docIds h (.cons r F .nil), (h'.node j).order = (h.node j).order :=
      fun j hj => by rw [hnode j (hd0.bound j hj)]
    rcases hi.2 r F hd0 with h1 | ⟨h1, h2⟩
    · left; rw [hord r (by simp [docIds])]; exact h1
    · right
      rw [← hdoc]
      refine ⟨h1.imp_of_mem fun {x y} hx hy hlt => ?_, ?_⟩
      · rw [hord x hx, hord y hy]; exact hlt
      · rw [hord r (by simp [docIds])]; exact h2

theorem setupOrder_fuel {h : Heap} {r : NodeId} {F : Forest NodeId} {fuel : Nat} {h' h'' : Heap}
    (hs : setupOrder fuel h r = some h') (ht : ∀ f > F.toList.length, setupOrder f h r = some h'') : h' = h'' := by
  simp only [setupOrder, Option.map_eq_some_iff] at hs
  obtain ⟨x, hx, rfl⟩ := hs
  have h1 := setupOrderF_mono _ _ _ _ _ hx (fuel + F.toList.length + 1) (by omega)
  have h2 := ht (fuel + F.toList.length + 1) (by omega)
  simp only [setupOrder, h1, Option.map_some, Option.some.injEq] at h2
  exact h2

theorem AllOrderInv.query {h h' : Heap} {r0 : NodeId} {F0 : Forest NodeId} {i : NodeId} {fuel : Nat} {o : Int}
    (hi : AllOrderInv h) (hd0 : DocTree h r0 F0) (hm : i ∈ docIds h (.cons r0 F0 .nil))
    (hq : h.documentOrder fuel i = some (o, h')) : AllOrderInv h' := by
  unfold Heap.documentOrder at hq
  simp only [root_eq hd0 hi.1 hm] at hq
  by_cases e : (h.node r0).order = 0
  · rw [if_pos e] at hq
    simp only [Option.map_eq_some_iff, Prod.mk.injEq] at hq
    obtain ⟨h2, hs, _, rfl⟩ := hq
    obtain ⟨h3, hf, hsz, hsame, hout, hpw, hpos⟩ := setupOrder_doc hd0
    have : h2 = h3 := setupOrder_fuel hs hf
    subst this
    refine ⟨HeapWF.congr hi.1 hsz fun j => (hsame j).links, fun r F hd => ?_⟩
    have hlinks : ∀ j, SameLinks h2 h j := fun j =>
      ⟨(hsame j).links.1.symm, (hsame j).links.2.1.symm, (hsame j).links.2.2.symm⟩
    have hdoc : docIds h2 (.cons r F .nil) = docIds h (.cons r F .nil) := docIds_same _ hsame
    have hd1 : DocTree h r F :=
      ⟨linked_congr hd.linked fun j _ => hlinks j, by rw [← hdoc]; exact hd.nodup,
        fun k hk => by rw [← hdoc] at hk; have := hd.bound k hk; omega⟩
    by_cases er : r = r0
    · subst er
      have hFF : F = F0 := linked_unique hd1.linked.2.2.2.1 hd0.linked.2.2.2.1
        (hd1.linked.2.2.1.symm.trans hd0.linked.2.2.1)
      subst hFF
      right
      rw [hdoc]
      exact ⟨hpw, hpos r (by simp [docIds])⟩
    · have hno : ∀ j ∈ docIds h (.cons r F .nil), j ∉ docIds h (.cons r0 F0 .nil) := by
        intro j h1 h2
        exact er ((root_eq hd1 hi.1 h1).symm.trans (root_eq hd0 hi.1 h2))
      have hord : ∀ j ∈ docIds h (.cons r F .nil), (h2.node j).order = (h.node j).order :=
        fun j hj => by rw [hout j (hno j hj)]
      rcases hi.2 r F hd1 with h1 | ⟨h1, h2'⟩
      · left; rw [hord r (by simp [docIds])]; exact h1
      · right
        rw [hdoc]
        refine ⟨h1.imp_of_mem fun {x y} hx hy hlt => ?_, ?_⟩
        · rw [hord x hx, hord y hy]; exact hlt
        · rw [hord r (by simp [docIds])]; exact h2'
  · rw [if_neg e] at hq
    simp at hq
    rw [← hq.2]; exact hi

theorem AllOrderInv.empty : AllOrderInv Heap.empty := by
  refine ⟨.empty, fun r F hd => ?_⟩
  have := hd.bound r (by simp [docIds])
  simp [Heap.empty] at this

theorem Spec.Reach.inv {h : Heap} (hr : Reach h) : AllOrderInv h := by
  induction hr with
  | empty => exact .empty
  | parse _ hp ih => exact ih.parse hp
  | edit e _ hv ih =>
    rcases effect_edit ih.1 e hv with h1 | ⟨q, h1⟩
    · rw [h1]; exact ih
    · exact h1.orderInv ih
  | query _ hd hm hq ih => exact ih.query hd hm hq

/-- **C23**: in every state reached by parsing, editing (any nodes as arguments) and order queries on well-linked
documents, the order of every document that is well linked now is the order of the current tree. -/
theorem C23_never_stale (h : Heap) (hr : Reach h) (r : NodeId) (F : Forest NodeId) (hd : DocTree h r F) :
    OrderCorrect h r F := OrderInv.correct hd hr.inv.1 (hr.inv.2 r F hd)

/-- The hypotheses of C22 and C23 are met: the sample document, in a state after a query, an edit and another query. -/
example : ∃ h r F, Reach h ∧ DocTree h r F ∧ (docIds h (.cons r F .nil)).length = 7 ∧ (h.node r).order ≠ 0 := by
  have r0 : Reach editSample := .parse .empty editSample_parsed
  let F : Forest NodeId := .cons 1 (.cons 4 .nil (.cons 5 .nil .nil)) .nil
  have d0 : DocTree editSample 0 F := by
    refine ⟨?_, by decide, by decide⟩
    simp only [F, Linked]
    refine ⟨by rfl, by decide, by rfl, ⟨by rfl, by decide, by rfl, ⟨by rfl, by decide, by rfl, trivial, by rfl, by decide, by rfl, trivial, trivial⟩,
      trivial⟩, trivial⟩
  obtain ⟨o1, h1, q1, s1, n1⟩ := (C22_document_order editSample editSample_wf 0 F d0 (by rfl)).2 5 (by decide) 9 (by decide)
  have r1 : Reach h1 := .query r0 d0 (by decide) q1
  have v1 : (Edit.setAttribute 5 (S "z") []).Valid h1 := by show 5 < h1.size; rw [s1]; decide
  have r2 : Reach (h1.setAttribute 5 (S "z") []) := .edit (.setAttribute 5 (S "z") []) r1 v1
  have : h1 = ((editSample.documentOrder 9 5).get (by rfl)).2 := by simp [q1]
  subst this
  let h2 := ((editSample.documentOrder 9 5).get (by rfl)).2.setAttribute 5 (S "z") []
  have d2 : DocTree h2 0 F := by
    refine ⟨?_, by decide, by decide⟩
    simp only [F, Linked]
    refine ⟨by rfl, by decide, by rfl, ⟨by rfl, by decide, by rfl, ⟨by rfl, by decide, by rfl, trivial, by rfl, by decide, by rfl, trivial, trivial⟩,
      trivial⟩, trivial⟩
  obtain ⟨o3, h3, q3, s3, n3⟩ := (C22_document_order h2 r2.inv.1 0 F d2 (by rfl)).2 6 (by decide) 9 (by decide)
  have hd3 : docIds h3 (.cons 0 F .nil) = docIds h2 (.cons 0 F .nil) := docIds_same _ n3
  refine ⟨h3, 0, F, .query r2 d2 (by decide) q3, ⟨linked_same n3 d2.linked, by rw [hd3]; exact d2.nodup, ?_⟩, by rw [hd3]; rfl, ?_⟩
  · intro i hi; rw [hd3] at hi; have := d2.bound i hi; omega
  · have : h3 = ((h2.documentOrder 9 6).get (by rfl)).2 := by simp [q3]
    rw [this]; decide

/-- Two documents, `<a/>` (nodes 0, 1) and `<b/><c/>` (nodes 2, 3, 4); then `c` and `b` are appended to `a`. -/
def sharedSample : Heap :=
  let h := Heap.empty.alloc (mkNode .documentRoot none [] [])
  let h := h.makeChild .element 0 (S "a") [] none
  let h := h.alloc (mkNode .documentRoot none [] [])
  let h := h.makeChild .element 2 (S "b") [] none
  let h := h.makeChild .element 2 (S "c") [] none
  (h.appendChild 1 4).appendChild 1 3

/-- **C23**, why queries are restricted to well-linked documents: the document of `b` and `c` is well linked, but
after an order query on it and one on the document `<a>`, which now shares its nodes, `b`, which precedes `c`, has the
larger number. -/
theorem C23_shared_nodes_counterexample :
    DocTree sharedSample 2 (.cons 3 .nil (.cons 4 .nil .nil)) ∧
    ∃ o1 h1 o2 h2, sharedSample.documentOrder 9 3 = some (o1, h1) ∧ h1.documentOrder 9 1 = some (o2, h2) ∧
      DocTree h2 2 (.cons 3 .nil (.cons 4 .nil .nil)) ∧
      ∃ x y, h2.documentOrder 9 3 = some (x, h2) ∧ h2.documentOrder 9 4 = some (y, h2) ∧ y < x := by
  refine ⟨?_, _, _, _, _, rfl, rfl, ?_, 7, 5, by rfl, by rfl, by decide⟩
  all_goals
    refine ⟨?_, by decide, by decide⟩
    simp only [Linked]
    refine ⟨by rfl, by decide, by rfl, ⟨by rfl, by decide, by rfl, trivial, by rfl, by decide, by rfl, trivial, trivial⟩, trivial⟩

end Amxml
