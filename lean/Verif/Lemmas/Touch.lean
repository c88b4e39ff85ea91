import Verif.Lemmas.Order

/-!
# What an edit can change

`Touch h h' q`: apart from new nodes, whose parent is `q`, only the children and attributes of `q` change.
-/

namespace Amxml
open Spec

structure Touch (h h' : Heap) (q : NodeId) : Prop where
  size : h.size ≤ h'.size
  lt : q < h.size
  old : ∀ j < h.size, j ≠ q → h'.node j = h.node j
  atq : ∃ cs as, h'.node q = { h.node q with children := cs, attributes := as }
  new : ∀ j, h.size ≤ j → j < h'.size → (h'.node j).parent = some q
  wf : HeapWF h'

theorem Touch.parent {h h' : Heap} {q : NodeId} (t : Touch h h' q) {j : NodeId} (hj : j < h.size) :
    (h'.node j).parent = (h.node j).parent := by
  by_cases e : j = q
  · subst e; obtain ⟨cs, as, e⟩ := t.atq; rw [e]
  · rw [t.old j hj e]

theorem Touch.order {h h' : Heap} {q : NodeId} (t : Touch h h' q) {j : NodeId} (hj : j < h.size) :
    (h'.node j).order = (h.node j).order := by
  by_cases e : j = q
  · subst e; obtain ⟨cs, as, e⟩ := t.atq; rw [e]
  · rw [t.old j hj e]

theorem Touch.refl {h : Heap} (hw : HeapWF h) {q : NodeId} (hq : q < h.size) : Touch h h q :=
  ⟨Nat.le_refl _, hq, fun _ _ _ => rfl, ⟨_, _, rfl⟩, fun j h1 h2 => by omega, hw⟩

theorem Touch.trans {h h1 h2 : Heap} {q : NodeId} (a : Touch h h1 q) (b : Touch h1 h2 q) : Touch h h2 q := by
  have := a.size; have := b.size; have := a.lt
  refine ⟨by omega, a.lt, fun j hj hne => ?_, ?_, fun j hj1 hj2 => ?_, b.wf⟩
  · rw [b.old j (by omega) hne, a.old j hj hne]
  · obtain ⟨cs, as, e⟩ := a.atq
    obtain ⟨cs', as', e'⟩ := b.atq
    exact ⟨cs', as', by rw [e', e]⟩
  · by_cases e : j < h1.size
    · rw [b.old j e (by omega)]; exact a.new j hj1 e
    · exact b.new j (by omega) hj2

/-- Changing children and attributes of an existing node. -/
theorem Touch.modify {h : Heap} (hw : HeapWF h) {q : NodeId} (hq : q < h.size) (f : Node → Node) (cs as : List NodeId)
    (hf : f (h.node q) = { h.node q with children := cs, attributes := as })
    (hc : ∀ x, x ∈ cs ∨ x ∈ as → x < h.size) : Touch h (h.modify q f) q := by
  refine ⟨Nat.le_refl _, hq, fun j _ hne => by simp [hne], ⟨cs, as, by simp [hf]⟩, fun j h1 h2 => by simp at h2; omega, ?_⟩
  refine ⟨?_, ?_, ?_⟩
  · intro i p hp
    by_cases e : i = q
    · subst e; simp [hf] at hp; exact hw.parent_lt _ _ hp
    · simp [e] at hp; exact hw.parent_lt _ _ hp
  · intro i hi
    simp only [Heap.modify_size] at hi
    have : i ≠ q := by omega
    simp only [Heap.modify_node, this, if_false]; exact hw.fresh i hi
  · intro i j hj
    by_cases e : i = q
    · subst e; simp [hf] at hj; exact hc j hj
    · simp [e] at hj; exact hw.closed i j hj

/-- A new leaf with parent `q`. -/
theorem Touch.alloc {h : Heap} (hw : HeapWF h) {q : NodeId} (hq : q < h.size) (n : Node) (hp : n.parent = some q)
    (hc : n.children = []) (ha : n.attributes = []) : Touch h (h.alloc n) q := by
  refine ⟨by simp, hq, fun j hj _ => ?_, ⟨(h.node q).children, (h.node q).attributes, ?_⟩, fun j h1 h2 => ?_, ?_⟩
  · have : j ≠ h.size := by omega
    simp [this]
  · have : q ≠ h.size := by omega
    simp [this]
  · have : j = h.size := by simp at h2; omega
    simp [this, hp]
  refine ⟨?_, ?_, ?_⟩
  · intro i p hpp
    by_cases e : i = h.size
    · subst e; simp [hp] at hpp; omega
    · simp [e] at hpp; exact hw.parent_lt _ _ hpp
  · intro i hi
    simp only [Heap.alloc_size] at hi
    have : i ≠ h.size := by omega
    simp only [Heap.alloc_node, this, if_false]; exact hw.fresh i (by omega)
  · intro i j hj
    simp only [Heap.alloc_size]
    by_cases e : i = h.size
    · simp [e, hc, ha] at hj
    · simp [e] at hj; have := hw.closed i j hj; omega

theorem Touch.insertCopy {h : Heap} (hw : HeapWF h) {p x : NodeId} (hp : p < h.size) (hx : x < h.size) {n : Nat}
    (hn : n ≤ (h.node p).children.length) : Touch h (h.insertCopy p x n) p := by
  obtain ⟨a, c, e, hl⟩ : ∃ a c, (h.node p).children = a ++ c ∧ a.length = n :=
    ⟨(h.node p).children.take n, (h.node p).children.drop n, by simp, by simp [hn]⟩
  subst hl
  obtain ⟨h1, h2, h3, h4⟩ := insertCopy_spec h p x hp hx a c e
  have hmem : ∀ y ∈ a ++ h.size :: c, y < h.size + 1 := by
    intro y hy
    have : y = h.size ∨ y ∈ a ++ c := by
      simp only [List.mem_append, List.mem_cons] at hy ⊢; tauto
    rcases this with rfl | hy
    · omega
    · have := hw.closed p y (.inl (e ▸ hy)); omega
  refine ⟨by omega, hp, fun j hj hne => h2 j hne (by omega), ⟨_, _, h3⟩, fun j hj1 hj2 => ?_, ?_⟩
  · have : j = h.size := by omega
    subst this; rw [h4]; rfl
  refine ⟨?_, ?_, ?_⟩
  · intro i q hq
    by_cases e1 : i = p
    · subst e1; rw [h3] at hq; exact hw.parent_lt _ _ hq
    · by_cases e2 : i = h.size
      · subst e2; rw [h4] at hq; simp [mkNode] at hq; omega
      · rw [h2 i e1 e2] at hq; exact hw.parent_lt _ _ hq
  · intro i hi
    rw [h2 i (by omega) (by omega)]; exact hw.fresh i (by omega)
  · intro i j hj
    by_cases e1 : i = p
    · subst e1; rw [h3] at hj; simp only at hj
      rcases hj with hj | hj
      · have := hmem j hj; omega
      · have := hw.closed i j (.inr hj); omega
    · by_cases e2 : i = h.size
      · subst e2; rw [h4] at hj; simp only at hj
        rcases hj with hj | hj
        · split at hj
          · have := hmem j hj; omega
          · have := hw.closed x j (.inl hj); omega
        · have := hw.closed x j (.inr hj); omega
      · rw [h2 i e1 e2] at hj; have := hw.closed i j hj; omega

/-! ### clearing the order -/

theorem rootF_congr {h h' : Heap} {n : Nat} (hw : HeapWF h) (hp : ∀ j < n, (h'.node j).parent = (h.node j).parent)
    (fuel : Nat) (i : NodeId) (hi : i < n) : rootF h' fuel i = rootF h fuel i := by
  induction fuel generalizing i with
  | zero => rfl
  | succ fuel ih =>
    simp only [rootF, hp i hi]
    cases e : (h.node i).parent with
    | none => rfl
    | some p => have := hw.parent_lt i p e; exact ih p (by omega)

theorem rootF_stable {h : Heap} (hw : HeapWF h) (fuel : Nat) (i : NodeId) (hf : i < fuel) : rootF h fuel i = h.root i := by
  unfold Heap.root
  have gen : ∀ f1 f2 i, i < f1 → i < f2 → rootF h f1 i = rootF h f2 i := by
    intro f1
    induction f1 with
    | zero => intro f2 i h1; omega
    | succ f1 ih =>
      intro f2 i h1 h2
      obtain ⟨f2, rfl⟩ : ∃ f, f2 = f + 1 := ⟨f2 - 1, by omega⟩
      simp only [rootF]
      cases e : (h.node i).parent with
      | none => rfl
      | some p => have := hw.parent_lt i p e; exact ih f2 p (by omega) (by omega)
  exact gen _ _ i hf (by omega)

theorem root_parent {h : Heap} (hw : HeapWF h) {i p : NodeId} (hp : (h.node i).parent = some p) : h.root i = h.root p := by
  have := hw.parent_lt i p hp
  rw [← rootF_stable hw i p this]
  show rootF h (i + 1) i = _
  simp [rootF, hp]

theorem rootF_parent_none {h : Heap} (hw : HeapWF h) (fuel : Nat) (i : NodeId) (hf : i < fuel) :
    (h.node (rootF h fuel i)).parent = none := by
  induction fuel generalizing i with
  | zero => omega
  | succ fuel ih =>
    simp only [rootF]
    cases e : (h.node i).parent with
    | none => exact e
    | some p => have := hw.parent_lt i p e; exact ih p (by omega)

theorem root_parent_none {h : Heap} (hw : HeapWF h) (i : NodeId) : (h.node (h.root i)).parent = none :=
  rootF_parent_none hw _ i (by omega)

theorem rootF_le {h : Heap} (hw : HeapWF h) (fuel : Nat) (i : NodeId) : rootF h fuel i ≤ i := by
  induction fuel generalizing i with
  | zero => simp [rootF]
  | succ fuel ih =>
    simp only [rootF]
    cases e : (h.node i).parent with
    | none => exact Nat.le_refl _
    | some p => have := hw.parent_lt i p e; have := ih p; simp only; omega

theorem Touch.root {h h' : Heap} {q : NodeId} (t : Touch h h' q) (hw : HeapWF h) {i : NodeId} (hi : i < h.size) :
    h'.root i = h.root i := rootF_congr hw (fun _ hj => t.parent hj) _ i hi

/-- The effect of an edit, order numbers included. -/
structure Effect (h h' : Heap) (q : NodeId) : Prop where
  size : h.size ≤ h'.size
  lt : q < h.size
  old : ∀ j < h.size, j ≠ q → SameNode h h' j
  atq : ∃ cs as o, h'.node q = { h.node q with children := cs, attributes := as, order := o }
  new : ∀ j, h.size ≤ j → j < h'.size → (h'.node j).parent = some q
  wf : HeapWF h'
  order : ∀ j < h.size, j ≠ h.root q → (h'.node j).order = (h.node j).order
  cleared : (h'.node (h.root q)).order = 0

theorem HeapWF.congr {h h' : Heap} (hw : HeapWF h) (hs : h'.size = h.size) (hl : ∀ j, SameLinks h h' j) : HeapWF h' := by
  refine ⟨?_, ?_, ?_⟩
  · intro i p hp; rw [(hl i).1] at hp; exact hw.parent_lt i p hp
  · intro i hi; rw [(hl i).1, (hl i).2.1, (hl i).2.2]; exact hw.fresh i (by omega)
  · intro i j hj; rw [(hl i).2.1, (hl i).2.2] at hj; have := hw.closed i j hj; omega

theorem Touch.clear {h h' : Heap} {q s : NodeId} (t : Touch h h' q) (hw : HeapWF h) (hs : s < h.size)
    (hr : h.root s = h.root q) : Effect h (h'.clearOrder s) q := by
  have hroot : h'.root s = h.root q := by rw [t.root hw hs, hr]
  have ho : ∀ j, ((h'.clearOrder s).node j).order = if j = h.root q then 0 else (h'.node j).order := by
    intro j
    simp only [Heap.clearOrder, Heap.modify_node, hroot]
    split
    · rfl
    · rfl
  refine ⟨t.size, t.lt, fun j hj hne => ?_, ?_, ?_, ?_, ?_, ?_⟩
  · exact Spec.SameNode.trans (.of_eq (t.old j hj hne)) (clearOrder_same _ _ _)
  · obtain ⟨cs, as, e⟩ := t.atq
    obtain ⟨o, ho⟩ := clearOrder_node_eq s e
    exact ⟨cs, as, o, ho⟩
  · intro j h1 h2; rw [clearOrder_parent]; exact t.new j h1 h2
  · exact HeapWF.congr t.wf rfl fun j => (clearOrder_same h' s j).links
  · intro j hj hne; rw [ho, if_neg hne]; exact t.order hj
  · rw [ho, if_pos rfl]

theorem Effect.parent {h h' : Heap} {q : NodeId} (t : Effect h h' q) {j : NodeId} (hj : j < h.size) :
    (h'.node j).parent = (h.node j).parent := by
  by_cases e : j = q
  · subst e; obtain ⟨cs, as, o, e⟩ := t.atq; rw [e]
  · exact (t.old j hj e).links.1

theorem Effect.root {h h' : Heap} {q : NodeId} (t : Effect h h' q) (hw : HeapWF h) {i : NodeId} (hi : i < h.size) :
    h'.root i = h.root i := rootF_congr hw (fun _ hj => t.parent hj) _ i hi

theorem Effect.trans {h h1 h2 : Heap} {q : NodeId} (hw : HeapWF h) (a : Effect h h1 q) (b : Effect h1 h2 q) :
    Effect h h2 q := by
  have := a.size; have := b.size; have := a.lt
  have hr := a.root hw a.lt
  have hle := rootF_le hw (q + 1) q
  refine ⟨by omega, a.lt, fun j hj hne => (a.old j hj hne).trans (b.old j (by omega) hne), ?_, fun j hj1 hj2 => ?_, b.wf, ?_, ?_⟩
  · obtain ⟨cs, as, o, e⟩ := a.atq
    obtain ⟨cs', as', o', e'⟩ := b.atq
    exact ⟨cs', as', o', by rw [e', e]⟩
  · by_cases e : j < h1.size
    · rw [(b.old j e (by omega)).links.1]; exact a.new j hj1 e
    · exact b.new j (by omega) hj2
  · intro j hj hne
    rw [b.order j (by omega) (by rw [hr]; exact hne), a.order j hj hne]
  · rw [← hr]; exact b.cleared

/-! ### the edits -/

theorem findIdx?_lt {α : Type} {p : α → Bool} {l : List α} {n : Nat} (h : l.findIdx? p = some n) : n < l.length := by
  obtain ⟨a, b, c, rfl, rfl, _⟩ := findIdx?_split h
  simp

theorem mem_of_mem_eraseIdx' {α : Type} {l : List α} {n : Nat} {x : α} (h : x ∈ l.eraseIdx n) : x ∈ l :=
  List.mem_of_mem_eraseIdx h

theorem effect_setAttribute {h : Heap} (hw : HeapWF h) {i : NodeId} (hi : i < h.size) (n v : Str) :
    Effect h (h.setAttribute i n v) i := by
  let h1 := h.alloc (mkNode .attribute (some i) n v)
  have t1 : Touch h h1 i := Touch.alloc hw hi _ rfl rfl rfl
  have hi1 : i < h1.size := by show i < h.size + 1; omega
  have hcl := t1.wf.closed i
  have hsz : h.size < h1.size := by show h.size < h.size + 1; omega
  unfold Heap.setAttribute
  refine Touch.clear (t1.trans ?_) hw hi rfl
  show Touch h1 (match h1.findAttributeIndex i n with
    | some k => _
    | none => _) i
  cases hf : h1.findAttributeIndex i n with
  | none =>
    refine Touch.modify t1.wf hi1 _ (h1.node i).children ((h1.node i).attributes ++ [h.size]) rfl ?_
    intro x hx
    simp only [List.mem_append, List.mem_singleton] at hx
    rcases hx with hx | hx | rfl
    · exact hcl x (.inl hx)
    · exact hcl x (.inr hx)
    · exact hsz
  | some k =>
    refine Touch.modify t1.wf hi1 _ (h1.node i).children _ rfl ?_
    intro x hx
    simp only [List.mem_append, List.mem_cons] at hx
    rcases hx with hx | hx | rfl | hx
    · exact hcl x (.inl hx)
    · exact hcl x (.inr (List.mem_of_mem_eraseIdx (List.mem_of_mem_take hx)))
    · exact hsz
    · exact hcl x (.inr (List.mem_of_mem_eraseIdx (List.mem_of_mem_drop hx)))

theorem effect_deleteAttribute {h : Heap} (hw : HeapWF h) {i : NodeId} (hi : i < h.size) (n : Str) :
    Effect h (h.deleteAttribute i n) i := by
  have hcl := hw.closed i
  unfold Heap.deleteAttribute
  refine Touch.clear ?_ hw hi rfl
  cases hf : h.findAttributeIndex i n with
  | none => exact .refl hw hi
  | some k =>
    refine Touch.modify hw hi _ (h.node i).children _ rfl ?_
    intro x hx
    rcases hx with hx | hx
    · exact hcl x (.inl hx)
    · exact hcl x (.inr (List.mem_of_mem_eraseIdx hx))

theorem effect_appendChild {h : Heap} (hw : HeapWF h) {i c : NodeId} (hi : i < h.size) (hc : c < h.size) :
    Effect h (h.appendChild i c) i := by
  have hcl := hw.closed i
  unfold Heap.appendChild
  refine Touch.clear ?_ hw hi rfl
  refine Touch.modify hw hi _ _ (h.node i).attributes rfl ?_
  intro x hx
  simp only [List.mem_append, List.mem_singleton] at hx
  rcases hx with (hx | rfl) | hx
  · exact hcl x (.inl hx)
  · exact hc
  · exact hcl x (.inr hx)

theorem effect_deleteChild {h : Heap} (hw : HeapWF h) {i : NodeId} (hi : i < h.size) (t : NodeId) :
    Effect h (h.deleteChild i t) i := by
  have hcl := hw.closed i
  unfold Heap.deleteChild
  refine Touch.clear ?_ hw hi rfl
  cases hf : h.findChildIndex i t with
  | none => exact .refl hw hi
  | some k =>
    refine Touch.modify hw hi _ _ (h.node i).attributes rfl ?_
    intro x hx
    rcases hx with hx | hx
    · exact hcl x (.inl (List.mem_of_mem_eraseIdx hx))
    · exact hcl x (.inr hx)

theorem effect_insertPrev {h : Heap} (hw : HeapWF h) {i x p : NodeId} (hi : i < h.size) (hx : x < h.size)
    (hp : (h.node i).parent = some p) : Effect h (h.insertPrev i x) p := by
  have hlt := hw.parent_lt i p hp
  unfold Heap.insertPrev
  simp only [hp]
  refine Touch.clear ?_ hw hi (root_parent hw hp)
  cases hf : h.findChildIndex p i with
  | none => exact .refl hw (by omega)
  | some k => exact Touch.insertCopy hw (by omega) hx (Nat.le_of_lt (findIdx?_lt hf))

theorem effect_insertNext {h : Heap} (hw : HeapWF h) {i x p : NodeId} (hi : i < h.size) (hx : x < h.size)
    (hp : (h.node i).parent = some p) : Effect h (h.insertNext i x) p := by
  have hlt := hw.parent_lt i p hp
  unfold Heap.insertNext
  simp only [hp]
  refine Touch.clear ?_ hw hi (root_parent hw hp)
  cases hf : h.findChildIndex p i with
  | none => exact .refl hw (by omega)
  | some k => exact Touch.insertCopy hw (by omega) hx (findIdx?_lt hf)

theorem effect_replaceWith {h : Heap} (hw : HeapWF h) {i x p : NodeId} (hi : i < h.size) (hx : x < h.size)
    (hp : (h.node i).parent = some p) : Effect h (h.replaceWith i x) p := by
  have hlt := hw.parent_lt i p hp
  have e1 := effect_insertPrev hw hi hx hp
  have := e1.size
  have e2 := effect_deleteChild e1.wf (i := p) (by omega) i
  have e12 := e1.trans hw e2
  unfold Heap.replaceWith
  simp only [hp]
  refine e12.trans hw ?_
  have := e12.size
  have hp' : (((h.insertPrev i x).deleteChild p i).node i).parent = some p := by rw [e12.parent hi]; exact hp
  exact Touch.clear (.refl e12.wf (by omega)) e12.wf (by omega) (root_parent e12.wf hp')

/-- The effect of every valid edit: none, or on one node and its new children. -/
theorem effect_edit {h : Heap} (hw : HeapWF h) (e : Edit) (hv : e.Valid h) :
    e.apply h = h ∨ ∃ q, Effect h (e.apply h) q := by
  cases e with
  | setAttribute i n v => exact .inr ⟨i, effect_setAttribute hw hv n v⟩
  | deleteAttribute i n => exact .inr ⟨i, effect_deleteAttribute hw hv n⟩
  | appendChild i c => exact .inr ⟨i, effect_appendChild hw hv.1 hv.2⟩
  | deleteChild i t => exact .inr ⟨i, effect_deleteChild hw hv.1 t⟩
  | insertPrev i x =>
    cases hp : (h.node i).parent with
    | none => left; simp [Edit.apply, Heap.insertPrev, hp]
    | some p => exact .inr ⟨p, effect_insertPrev hw hv.1 hv.2 hp⟩
  | insertNext i x =>
    cases hp : (h.node i).parent with
    | none => left; simp [Edit.apply, Heap.insertNext, hp]
    | some p => exact .inr ⟨p, effect_insertNext hw hv.1 hv.2 hp⟩
  | replaceWith i x =>
    cases hp : (h.node i).parent with
    | none => left; simp [Edit.apply, Heap.replaceWith, hp]
    | some p => exact .inr ⟨p, effect_replaceWith hw hv.1 hv.2 hp⟩

theorem edit_wf {h : Heap} (hw : HeapWF h) (e : Edit) (hv : e.Valid h) : HeapWF (e.apply h) := by
  rcases effect_edit hw e hv with h1 | ⟨q, h1⟩
  · rw [h1]; exact hw
  · exact h1.wf

end Amxml
