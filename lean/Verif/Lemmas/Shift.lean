import Verif.Lemmas.SamePlace
import Verif.Props.Serial

/-!
# Parsing the same text in two states

The nodes of the two documents have the same content and the same links up to a shift of their ids.
-/

namespace Amxml
open Spec

/-- Ids from `n` on, moved to `m`. -/
def shiftId (n m : Nat) (j : NodeId) : NodeId := j - n + m

def shiftNode (n m : Nat) (x : Node) : Node :=
  { x with parent := x.parent.map (shiftId n m), children := x.children.map (shiftId n m), attributes := x.attributes.map (shiftId n m) }

/-- The nodes of `h` from `n` on are those of `h'` from `m` on. -/
structure Shifted (n m : Nat) (h h' : Heap) : Prop where
  low : n ≤ h.size
  size : h'.size + n = h.size + m
  node : ∀ j, n ≤ j → j < h.size → h'.node (shiftId n m j) = shiftNode n m (h.node j)
  up : ∀ j, n ≤ j → j < h.size → ∀ p, (h.node j).parent = some p → n ≤ p

variable {n m : Nat} {h h' : Heap}

theorem Shifted.last (s : Shifted n m h h') : shiftId n m h.size = h'.size := by
  have := s.low; have := s.size; unfold shiftId; omega

theorem Shifted.alloc (s : Shifted n m h h') (x : Node) (hx : ∀ p, x.parent = some p → n ≤ p) : Shifted n m (h.alloc x) (h'.alloc (shiftNode n m x)) := by
  have hlow := s.low
  have hsize := s.size
  refine ⟨by simp [Heap.alloc]; omega, by simp only [Heap.alloc]; omega, ?_, ?_⟩
  · intro j hj hlt
    simp only [Heap.alloc] at hlt ⊢
    by_cases e : j = h.size
    · subst e; simp [s.last]
    · have : shiftId n m j ≠ h'.size := by unfold shiftId; omega
      rw [if_neg this, if_neg e]
      exact s.node j hj (by omega)
  · intro j hj hlt p hp
    simp only [Heap.alloc] at hlt hp
    by_cases e : j = h.size
    · rw [if_pos e] at hp; exact hx p hp
    · rw [if_neg e] at hp; exact s.up j hj (by omega) p hp

theorem Shifted.modify (s : Shifted n m h h') {i : NodeId} (hi : n ≤ i) (hlt : i < h.size) {f g : Node → Node}
    (hf : ∀ x, shiftNode n m (f x) = g (shiftNode n m x)) (hp : ∀ x, (f x).parent = x.parent) :
    Shifted n m (h.modify i f) (h'.modify (shiftId n m i) g) := by
  refine ⟨s.low, s.size, ?_, ?_⟩
  · intro j hj hjl
    simp only [Heap.modify]
    by_cases e : j = i
    · subst e; simp only [if_true]; rw [s.node j hj hjl, hf]
    · have : shiftId n m j ≠ shiftId n m i := by unfold shiftId; omega
      rw [if_neg this, if_neg e]; exact s.node j hj hjl
  · intro j hj hjl p hjp
    simp only [Heap.modify] at hjp
    by_cases e : j = i
    · rw [if_pos e, hp] at hjp; exact s.up i hi hlt p hjp
    · rw [if_neg e] at hjp; exact s.up j hj hjl p hjp

theorem Shifted.makeChild (s : Shifted n m h h') {cur : NodeId} (hc : n ≤ cur) (hlt : cur < h.size) (t : NodeType) (name value : Str) :
    Shifted n m (h.makeChild t cur name value none) (h'.makeChild t (shiftId n m cur) name value none) := by
  unfold Heap.makeChild
  refine (s.alloc (mkNode t (some cur) name value) (by intro p hp; cases hp; exact hc)).modify hc (by simp [Heap.alloc]; omega) ?_ (fun _ => rfl)
  intro x
  simp only [shiftNode, insertHint, List.map_append, List.map_cons, List.map_nil, s.last]

theorem Shifted.pushAttr (s : Shifted n m h h') {cur : NodeId} (hc : n ≤ cur) (hlt : cur < h.size) (a : Str × Str) :
    Shifted n m (h.pushAttr cur a) (h'.pushAttr (shiftId n m cur) a) := by
  unfold Heap.pushAttr
  refine (s.alloc (mkNode .attribute (some cur) a.1 a.2) (by intro p hp; cases hp; exact hc)).modify hc (by simp [Heap.alloc]; omega) ?_ (fun _ => rfl)
  intro x
  simp only [shiftNode, List.map_append, List.map_cons, List.map_nil, s.last]

theorem Shifted.pushAttrs (as : List (Str × Str)) : ∀ {h h'}, Shifted n m h h' → ∀ {cur}, n ≤ cur → cur < h.size →
    Shifted n m (as.foldl (fun x a => x.pushAttr cur a) h) (as.foldl (fun x a => x.pushAttr (shiftId n m cur) a) h') ∧
      h.size ≤ (as.foldl (fun x a => x.pushAttr cur a) h).size := by
  induction as with
  | nil => intro h h' s cur _ _; exact ⟨s, Nat.le_refl _⟩
  | cons a as ih =>
    intro h h' s cur hc hlt
    obtain ⟨h1, h2⟩ := ih (s.pushAttr hc hlt a) hc (by simp [Heap.pushAttr, Heap.alloc, Heap.modify]; omega)
    exact ⟨h1, Nat.le_trans (Nat.le_succ _) h2⟩

/-- The two runs of the parser stay in step. -/
inductive Steps (n m : Nat) : Except DocErr (Heap × NodeId) → Except DocErr (Heap × NodeId) → Prop where
  | error (e : DocErr) : Steps n m (.error e) (.error e)
  | ok {h h' cur} : Shifted n m h h' → n ≤ cur → cur < h.size → Steps n m (.ok (h, cur)) (.ok (h', shiftId n m cur))

theorem stepToken_shift (hw : HeapWF h) (s : Shifted n m h h') {cur : NodeId} (hc : n ≤ cur) (hlt : cur < h.size) (t : Token) :
    Steps n m (stepToken h cur t) (stepToken h' (shiftId n m cur) t) := by
  have child : ∀ t name value, Steps n m (.ok (h.makeChild t cur name value none, cur)) (.ok (h'.makeChild t (shiftId n m cur) name value none, shiftId n m cur)) :=
    fun t name value => .ok (s.makeChild hc hlt t name value) hc (by simp [Heap.makeChild, Heap.alloc, Heap.modify]; omega)
  cases t with
  | eof => exact .ok s hc hlt
  | startElement name attr =>
    have s1 := s.makeChild hc hlt .element name []
    have := Shifted.pushAttrs attr s1 (cur := h.size) s.low (by simp [Heap.makeChild, Heap.alloc, Heap.modify])
    simp only [stepToken]
    rw [← s.last]
    exact .ok this.1 s.low (by have := this.2; simp only [Heap.makeChild, Heap.alloc, Heap.modify] at this ⊢; omega)
  | endElement name =>
    simp only [stepToken]
    have e1 : (h'.node (shiftId n m cur)).name = (h.node cur).name := by rw [s.node cur hc hlt]; rfl
    have e2 : (h'.node (shiftId n m cur)).parent = (h.node cur).parent.map (shiftId n m) := by rw [s.node cur hc hlt]; rfl
    rw [e1, e2]
    by_cases hn : (h.node cur).name ≠ name
    · rw [if_pos hn, if_pos hn]; exact .error _
    · rw [if_neg hn, if_neg hn]
      cases e : (h.node cur).parent with
      | none => exact .ok s hc hlt
      | some p => exact .ok s (s.up cur hc hlt p e) (Nat.lt_trans (hw.parent_lt _ _ e) hlt)
  | charData x => exact child _ _ _
  | procInst a b =>
    simp only [stepToken]
    split
    · exact child _ _ _
    · exact child _ _ _
  | comment x => exact child _ _ _
  | directive x => exact .ok s hc hlt

theorem buildTokens_shift (ts : List Token) : ∀ {h h'}, HeapWF h → Shifted n m h h' → ∀ {cur}, n ≤ cur → cur < h.size →
    Steps n m (buildTokens ts h cur) (buildTokens ts h' (shiftId n m cur)) := by
  induction ts with
  | nil => intro h h' _ s cur hc hlt; exact .ok s hc hlt
  | cons t ts ih =>
    intro h h' hw s cur hc hlt
    have h1 := stepToken_shift hw s hc hlt t
    have h2 := fun a b => stepToken_cur_lt (t := t) (h' := a) (cur' := b) hw hlt
    simp only [buildTokens]
    revert h1 h2
    generalize stepToken h cur t = a
    generalize stepToken h' (shiftId n m cur) t = b
    intro h1 h2
    cases h1 with
    | error e => exact .error e
    | ok s' hc' hlt' => exact ih (h2 _ _ rfl).2.1 s' hc' hlt'

theorem shifted_start (h h' : Heap) : Shifted h.size h'.size (h.alloc (mkNode .documentRoot none [] [])) (h'.alloc (mkNode .documentRoot none [] [])) := by
  refine Shifted.alloc (n := h.size) (m := h'.size) (h := h) (h' := h') ⟨Nat.le_refl _, by omega, ?_, ?_⟩ (mkNode .documentRoot none [] []) (by intro p hp; cases hp)
  · intro j h1 h2; omega
  · intro j h1 h2; omega

/-- Links and contents of a forest, moved along the shift. -/
theorem Shifted.forest (s : Shifted n m h h') (G : Forest NodeId) : ∀ p, (∀ i ∈ docIds h G, n ≤ i ∧ i < h.size) → Linked h p G →
    Linked h' (p.map (shiftId n m)) (G.map (shiftId n m)) ∧ (G.map (shiftId n m)).map (contentOf h') = G.map (contentOf h) := by
  induction G with
  | nil => intro p _ _; exact ⟨trivial, rfl⟩
  | cons i k r ih1 ih2 =>
    intro p hb hl
    obtain ⟨l1, l2, l3, l4, l5⟩ := hl
    have hi := hb i (by simp [docIds])
    have hn := s.node i hi.1 hi.2
    obtain ⟨a1, a2⟩ := ih1 _ (fun j hj => hb j (by simp [docIds, hj])) l4
    obtain ⟨b1, b2⟩ := ih2 _ (fun j hj => hb j (by simp [docIds, hj])) l5
    have hattr : ∀ a ∈ (h.node i).attributes, h'.node (shiftId n m a) = shiftNode n m (h.node a) :=
      fun a ha => s.node a (hb a (by simp [docIds, ha])).1 (hb a (by simp [docIds, ha])).2
    refine ⟨⟨by rw [hn]; simp [shiftNode, l1], ?_, ?_, a1, b1⟩, ?_⟩
    · intro x hx
      rw [hn] at hx
      obtain ⟨a, ha, rfl⟩ := List.mem_map.1 hx
      rw [hattr a ha]
      simp [shiftNode, l2 a ha]
    · rw [hn]
      simp only [shiftNode, l3]
      clear ih1 ih2 l3 a1 a2 l4
      induction k with
      | nil => rfl
      | cons x y z _ ihz =>
        simp only [Forest.roots, Forest.map, List.map_cons]
        rw [ihz (fun j hj => hb j (by revert hj; simp only [docIds, List.mem_cons, List.mem_append]; tauto))]
    · simp only [Forest.map]
      rw [a2, b2]
      congr 1
      simp only [contentOf, hn, shiftNode, List.map_map]
      congr 1
      apply List.map_congr_left
      intro a ha
      simp only [Function.comp, hattr a ha, shiftNode]

/-- The contents of the document root of a new document. -/
theorem stepToken_content {cur cur' : NodeId} {t : Token} (hc : cur < h.size) (hs : stepToken h cur t = .ok (h', cur')) {j : NodeId} (hj : j < h.size) :
    (h'.node j).name = (h.node j).name ∧ (h'.node j).value = (h.node j).value := by
  rcases stepToken_cases hc hs with ⟨c, _, hl, _⟩ | ⟨rfl, _⟩
  · by_cases e : j = cur
    · subst e; rw [hl.atCur]; exact ⟨rfl, rfl⟩
    · rw [hl.other j e (.inl hj)]; exact ⟨rfl, rfl⟩
  · exact ⟨rfl, rfl⟩

theorem buildTokens_content {ts : List Token} {cur cur' : NodeId} (hw : HeapWF h) (hc : cur < h.size) (hs : buildTokens ts h cur = .ok (h', cur')) {j : NodeId} (hj : j < h.size) :
    (h'.node j).name = (h.node j).name ∧ (h'.node j).value = (h.node j).value := by
  induction ts generalizing h cur with
  | nil => simp [buildTokens] at hs; obtain ⟨rfl, rfl⟩ := hs; exact ⟨rfl, rfl⟩
  | cons t ts ih =>
    simp only [buildTokens] at hs
    split at hs
    · simp at hs
    · rename_i h1 c1 e
      obtain ⟨k1, k2, k3⟩ := stepToken_cur_lt hw hc e
      obtain ⟨a, b⟩ := stepToken_content hc e hj
      obtain ⟨c, d⟩ := ih k2 k1 hs (by omega)
      exact ⟨c.trans a, d.trans b⟩

theorem newDocument_root {xml : Str} {r : NodeId} {F : Forest NodeId} (hw : HeapWF h) (hd : newDocument h xml = some (.ok (h', r))) (hp : ParsedDoc h' r F) :
    contentOf h' r = ⟨.documentRoot, [], [], []⟩ := by
  obtain ⟨rfl, ts, cur, _, hb⟩ := newDocument_ok hd
  have hi := BuildInv.init (fun _ => True) h hw
  obtain ⟨h1, h2⟩ := buildTokens_content hi.wf (by simp) hb (j := h.size) (by simp)
  unfold contentOf
  rw [hp.root_type, hp.root_attrs, h1, h2]
  simp [Heap.alloc, mkNode]

end Amxml
