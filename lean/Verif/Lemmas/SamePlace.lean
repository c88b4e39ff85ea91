import Verif.Lemmas.SameEval
import Verif.Lemmas.Axes
import Verif.Props.EditText

/-!
# Documents with equal trees of contents agree in everything the evaluator reads
-/

namespace Amxml
open Spec
open List (Forall₂)

section
variable {h h' : Heap}

/-- The corresponding nodes of two forests of the same shape. -/
def pairs (h h' : Heap) : Forest NodeId → Forest NodeId → List (NodeId × NodeId)
  | .cons i k r, .cons j k' r' => (i, j) :: ((h.node i).attributes.zip (h'.node j).attributes ++ (pairs h h' k k' ++ pairs h h' r r'))
  | _, _ => []

theorem content_attrs {i j : NodeId} (e : contentOf h i = contentOf h' j) :
    Forall₂ (fun a b => (h.node a).name = (h'.node b).name ∧ (h.node a).value = (h'.node b).value) (h.node i).attributes (h'.node j).attributes := by
  have e := congrArg Content.attrs e
  simp only [contentOf] at e
  revert e
  generalize (h.node i).attributes = l
  generalize (h'.node j).attributes = m
  intro e
  induction l generalizing m with
  | nil => cases m with | nil => exact .nil | cons b m => simp at e
  | cons a l ih =>
    cases m with
    | nil => simp at e
    | cons b m =>
      simp only [List.map_cons, List.cons.injEq, Prod.mk.injEq] at e
      exact .cons e.1 (ih m e.2)

theorem zip_docIds (G : Forest NodeId) : ∀ G', G.map (contentOf h) = G'.map (contentOf h') →
    (docIds h G).length = (docIds h' G').length ∧ (docIds h G).zip (docIds h' G') = pairs h h' G G' := by
  induction G with
  | nil => intro G' e; cases G' with | nil => exact ⟨rfl, rfl⟩ | cons => cases e
  | cons i k r ih1 ih2 =>
    intro G' e
    cases G' with
    | nil => cases e
    | cons j k' r' =>
      simp only [Forest.map, Forest.cons.injEq] at e
      obtain ⟨l1, z1⟩ := ih1 _ e.2.1
      obtain ⟨l2, z2⟩ := ih2 _ e.2.2
      have la := (content_attrs e.1).length_eq
      refine ⟨by simp only [docIds, List.length_cons, List.length_append]; omega, ?_⟩
      simp only [docIds, pairs, List.zip_cons_cons]
      rw [List.zip_append la, List.zip_append l1, z1, z2]

theorem pairs_roots {R : NodeId → NodeId → Prop} (K : Forest NodeId) : ∀ K', K.map (contentOf h) = K'.map (contentOf h') →
    (∀ i j, (i, j) ∈ pairs h h' K K' → R i j) → Forall₂ R K.roots K'.roots := by
  induction K with
  | nil => intro K' e _; cases K' with | nil => exact .nil | cons => cases e
  | cons i k r _ ih2 =>
    intro K' e hR
    cases K' with
    | nil => cases e
    | cons j k' r' =>
      simp only [Forest.map, Forest.cons.injEq] at e
      exact .cons (hR _ _ (by simp [pairs])) (ih2 _ e.2.2 fun a b hab => hR a b (by simp [pairs, hab]))

theorem pairs_toList {R : NodeId → NodeId → Prop} (K : Forest NodeId) : ∀ K', K.map (contentOf h) = K'.map (contentOf h') →
    (∀ i j, (i, j) ∈ pairs h h' K K' → R i j) → Forall₂ R K.toList K'.toList := by
  induction K with
  | nil => intro K' e _; cases K' with | nil => exact .nil | cons => cases e
  | cons i k r ih1 ih2 =>
    intro K' e hR
    cases K' with
    | nil => cases e
    | cons j k' r' =>
      simp only [Forest.map, Forest.cons.injEq] at e
      exact .cons (hR _ _ (by simp [pairs])) (List.rel_append (ih1 _ e.2.1 fun a b hab => hR a b (by simp [pairs, hab]))
        (ih2 _ e.2.2 fun a b hab => hR a b (by simp [pairs, hab])))

/-- Two corresponding nodes that are not attributes. -/
structure NodePair (h h' : Heap) (G G' : Forest NodeId) (i j : NodeId) (K K' : Forest NodeId) : Prop where
  left : i ∈ G.toList
  right : j ∈ G'.toList
  linked : Linked h (some i) K
  linked' : Linked h' (some j) K'
  kids : (h.node i).children = K.roots
  kids' : (h'.node j).children = K'.roots
  shape : K.map (contentOf h) = K'.map (contentOf h')
  content : contentOf h i = contentOf h' j
  below : ∀ x ∈ pairs h h' K K', x ∈ pairs h h' G G'
  attrs : ∀ x ∈ (h.node i).attributes.zip (h'.node j).attributes, x ∈ pairs h h' G G'
  attrUp : ∀ a ∈ (h.node i).attributes, (h.node a).parent = some i
  attrUp' : ∀ a ∈ (h'.node j).attributes, (h'.node a).parent = some j
  self : (i, j) ∈ pairs h h' G G'
  part : K.toList.Sublist G.toList
  part' : K'.toList.Sublist G'.toList

theorem pair_cases (G : Forest NodeId) : ∀ G' p p', G.map (contentOf h) = G'.map (contentOf h') → Linked h p G → Linked h' p' G' →
    ∀ i j, (i, j) ∈ pairs h h' G G' →
      (∃ K K', NodePair h h' G G' i j K K' ∧
        ((h.node i).parent = p ∧ (h'.node j).parent = p' ∨
          ∃ q q', (h.node i).parent = some q ∧ (h'.node j).parent = some q' ∧ (q, q') ∈ pairs h h' G G')) ∨
      ∃ e e' K K', NodePair h h' G G' e e' K K' ∧ (i, j) ∈ (h.node e).attributes.zip (h'.node e').attributes := by
  induction G with
  | nil => intro G' p p' _ _ _ i j hij; simp [pairs] at hij
  | cons a k r ih1 ih2 =>
    intro G' p p' e hl hl' i j hij
    cases G' with
    | nil => cases e
    | cons b k' r' =>
      simp only [Forest.map, Forest.cons.injEq] at e
      obtain ⟨l1, l2, l3, l4, l5⟩ := hl
      obtain ⟨m1, m2, m3, m4, m5⟩ := hl'
      have here : NodePair h h' (.cons a k r) (.cons b k' r') a b k k' :=
        ⟨by simp [Forest.toList], by simp [Forest.toList], l4, m4, l3, m3, e.2.1, e.1, fun x hx => by simp [pairs, hx],
          fun x hx => by simp [pairs, hx], l2, m2, by simp [pairs], (List.sublist_append_left _ _).cons _, (List.sublist_append_left _ _).cons _⟩
      have up1 : ∀ {i j K K'}, NodePair h h' k k' i j K K' → NodePair h h' (.cons a k r) (.cons b k' r') i j K K' := fun n =>
        ⟨by simp [Forest.toList, n.left], by simp [Forest.toList, n.right], n.linked, n.linked', n.kids, n.kids', n.shape, n.content,
          fun x hx => by simp [pairs, n.below x hx], fun x hx => by simp [pairs, n.attrs x hx], n.attrUp, n.attrUp', by simp [pairs, n.self],
          (n.part.trans (List.sublist_append_left _ _)).cons _, (n.part'.trans (List.sublist_append_left _ _)).cons _⟩
      have up2 : ∀ {i j K K'}, NodePair h h' r r' i j K K' → NodePair h h' (.cons a k r) (.cons b k' r') i j K K' := fun n =>
        ⟨by simp [Forest.toList, n.left], by simp [Forest.toList, n.right], n.linked, n.linked', n.kids, n.kids', n.shape, n.content,
          fun x hx => by simp [pairs, n.below x hx], fun x hx => by simp [pairs, n.attrs x hx], n.attrUp, n.attrUp', by simp [pairs, n.self],
          (n.part.trans (List.sublist_append_right _ _)).cons _, (n.part'.trans (List.sublist_append_right _ _)).cons _⟩
      simp only [pairs, List.mem_cons, List.mem_append] at hij
      rcases hij with hij | hij | hij | hij
      · cases hij
        exact .inl ⟨k, k', here, .inl ⟨l1, m1⟩⟩
      · exact .inr ⟨a, b, k, k', here, hij⟩
      · rcases ih1 _ _ _ e.2.1 l4 m4 i j hij with ⟨K, K', hn, hp⟩ | ⟨x, y, K, K', hn, hxy⟩
        · refine .inl ⟨K, K', up1 hn, .inr ?_⟩
          rcases hp with ⟨h1, h2⟩ | ⟨q, q', h1, h2, h3⟩
          · exact ⟨a, b, h1, h2, by simp [pairs]⟩
          · exact ⟨q, q', h1, h2, by simp [pairs, h3]⟩
        · exact .inr ⟨x, y, K, K', up1 hn, hxy⟩
      · rcases ih2 _ _ _ e.2.2 l5 m5 i j hij with ⟨K, K', hn, hp⟩ | ⟨x, y, K, K', hn, hxy⟩
        · refine .inl ⟨K, K', up2 hn, ?_⟩
          rcases hp with hp | ⟨q, q', h1, h2, h3⟩
          · exact .inl hp
          · exact .inr ⟨q, q', h1, h2, by simp [pairs, h3]⟩
        · exact .inr ⟨x, y, K, K', up2 hn, hxy⟩

theorem forall₂_zip {α β : Type} {R : α → β → Prop} {l : List α} {m : List β} (hl : l.length = m.length) (hz : ∀ a b, (a, b) ∈ l.zip m → R a b) :
    Forall₂ R l m := by
  induction l generalizing m with
  | nil => cases m with | nil => exact .nil | cons => simp at hl
  | cons a l ih =>
    cases m with
    | nil => simp at hl
    | cons b m => exact .cons (hz a b (by simp)) (ih (by simpa using hl) fun x y hxy => hz x y (by simp [hxy]))

theorem zip_forall₂ {α β : Type} {R : α → β → Prop} {l : List α} {m : List β} (hr : Forall₂ R l m) {a : α} {b : β} (hz : (a, b) ∈ l.zip m) : R a b := by
  induction hr with
  | nil => simp at hz
  | cons h1 _ ih =>
    simp only [List.zip_cons_cons, List.mem_cons, Prod.mk.injEq] at hz
    rcases hz with ⟨rfl, rfl⟩ | hz
    · exact h1
    · exact ih hz

theorem samePlace_iff {r r' : NodeId} {F F' : Forest NodeId} {i j : NodeId} :
    SamePlace h r F h' r' F' i j ↔ (i, j) ∈ (docIds h (.cons r F .nil)).zip (docIds h' (.cons r' F' .nil)) := by
  rw [List.mem_iff_getElem?]
  simp only [List.getElem?_zip_eq_some]
  exact Iff.rfl

end

section
variable {h h' : Heap} {r r' : NodeId} {F F' : Forest NodeId}

/-- The local facts: all that is needed besides the bounds. -/
structure Near (h h' : Heap) (R : NodeId → NodeId → Prop) : Prop where
  wf : HeapWF h
  wf' : HeapWF h'
  ntype : ∀ {i j}, R i j → (h.node i).ntype = (h'.node j).ntype
  name : ∀ {i j}, R i j → (h.node i).name = (h'.node j).name
  value : ∀ {i j}, R i j → (h.node i).value = (h'.node j).value
  parent : ∀ {i j}, R i j → Option.Rel R (h.node i).parent (h'.node j).parent
  children : ∀ {i j}, R i j → Forall₂ R (h.node i).children (h'.node j).children
  attributes : ∀ {i j}, R i j → Forall₂ R (h.node i).attributes (h'.node j).attributes
  down : ∀ {i j}, R i j → ∀ c ∈ (h.node i).children, (h.node c).parent = some i
  down' : ∀ {i j}, R i j → ∀ c ∈ (h'.node j).children, (h'.node c).parent = some j
  bound : ∀ {i j}, R i j → i < h.size
  bound' : ∀ {i j}, R i j → j < h'.size

variable {R : NodeId → NodeId → Prop}

theorem Near.text (N : Near h h' R) : ∀ (n m : Nat) {i j}, R i j → h.size < n + i → h'.size < m + j → stringValueF h n i = stringValueF h' m j := by
  intro n
  induction n with
  | zero => intro m i j hr hn; have := N.bound hr; omega
  | succ n ih =>
    intro m i j hr hn hm
    obtain ⟨m, rfl⟩ : ∃ k, m = k + 1 := ⟨m - 1, by have := N.bound' hr; omega⟩
    have key : (h.node i).children.flatMap (stringValueF h n) = (h'.node j).children.flatMap (stringValueF h' m) := by
      have hc := N.children hr
      have d1 := N.down hr
      have d2 := N.down' hr
      revert hc d1 d2
      generalize (h.node i).children = l
      generalize (h'.node j).children = l'
      intro hc d1 d2
      induction hc with
      | nil => rfl
      | @cons x y l l' h1 _ ih' =>
        rw [List.flatMap_cons, List.flatMap_cons, ih' (fun c hc => d1 c (by simp [hc])) (fun c hc => d2 c (by simp [hc]))]
        have p1 := N.wf.parent_lt _ _ (d1 x (by simp))
        have p2 := N.wf'.parent_lt _ _ (d2 y (by simp))
        rw [ih m h1 (by omega) (by omega)]
    rw [stringValueF, stringValueF, N.ntype hr, N.name hr, N.value hr, key]

theorem Near.typed (N : Near h h' R) : ∀ (n m : Nat) {i j}, R i j → h.size < n + i → h'.size < m + j → typedValueF h n i = typedValueF h' m j := by
  intro n
  induction n with
  | zero => intro m i j hr hn; have := N.bound hr; omega
  | succ n ih =>
    intro m i j hr hn hm
    obtain ⟨m, rfl⟩ : ∃ k, m = k + 1 := ⟨m - 1, by have := N.bound' hr; omega⟩
    have key : (h.node i).children.flatMap (typedValueF h n) = (h'.node j).children.flatMap (typedValueF h' m) := by
      have hc := N.children hr
      have d1 := N.down hr
      have d2 := N.down' hr
      revert hc d1 d2
      generalize (h.node i).children = l
      generalize (h'.node j).children = l'
      intro hc d1 d2
      induction hc with
      | nil => rfl
      | @cons x y l l' h1 _ ih' =>
        rw [List.flatMap_cons, List.flatMap_cons, ih' (fun c hc => d1 c (by simp [hc])) (fun c hc => d2 c (by simp [hc]))]
        have p1 := N.wf.parent_lt _ _ (d1 x (by simp))
        have p2 := N.wf'.parent_lt _ _ (d2 y (by simp))
        rw [ih m h1 (by omega) (by omega)]
    rw [typedValueF, typedValueF, N.ntype hr, N.name hr, N.value hr, key]

theorem Near.ancestor (N : Near h h' R) : ∀ (n m : Nat) {i j}, R i j → i < n → j < m → Forall₂ R (ancestorF h n i) (ancestorF h' m j) := by
  intro n
  induction n with
  | zero => intro m i j _ hn; omega
  | succ n ih =>
    intro m i j hr hn hm
    obtain ⟨m, rfl⟩ : ∃ k, m = k + 1 := ⟨m - 1, by omega⟩
    have hp := N.parent hr
    rw [ancestorF, ancestorF]
    have q1 := N.wf.parent_lt i
    have q2 := N.wf'.parent_lt j
    revert hp q1 q2
    generalize (h.node i).parent = a
    generalize (h'.node j).parent = b
    intro hp q1 q2
    cases hp with
    | none => exact .nil
    | some hpq =>
      have := q1 _ rfl
      have := q2 _ rfl
      exact List.rel_append (ih m hpq (by omega) (by omega)) (.cons hpq .nil)

theorem Near.root (N : Near h h' R) : ∀ (n m : Nat) {i j}, R i j → i < n → j < m → R (rootF h n i) (rootF h' m j) := by
  intro n
  induction n with
  | zero => intro m i j _ hn; omega
  | succ n ih =>
    intro m i j hr hn hm
    obtain ⟨m, rfl⟩ : ∃ k, m = k + 1 := ⟨m - 1, by omega⟩
    have hp := N.parent hr
    rw [rootF, rootF]
    have q1 := N.wf.parent_lt i
    have q2 := N.wf'.parent_lt j
    revert hp q1 q2
    generalize (h.node i).parent = a
    generalize (h'.node j).parent = b
    intro hp q1 q2
    cases hp with
    | none => exact hr
    | some hpq =>
      have := q1 _ rfl
      have := q2 _ rfl
      exact ih m hpq (by omega) (by omega)

theorem Near.attr (N : Near h h' R) {i j} (hr : R i j) (n : Str) : h.attributeValue i n = h'.attributeValue j n := by
  unfold Heap.attributeValue Heap.findAttributeIndex
  have ha := N.attributes hr
  revert ha
  generalize (h.node i).attributes = l
  generalize (h'.node j).attributes = m
  intro ha
  induction ha with
  | nil => rfl
  | @cons a b l m h1 _ ih =>
    simp only [List.findIdx?_cons]
    rw [N.name h1]
    by_cases hn : (h'.node b).name == n
    · simp [hn, N.value h1]
    · simp only [hn, Bool.false_eq_true, ↓reduceIte]
      revert ih
      cases List.findIdx? (fun a => (h.node a).name == n) l <;> cases List.findIdx? (fun a => (h'.node a).name == n) m <;> simp

theorem Near.uri (N : Near h h' R) (attr : Str) : ∀ (n m : Nat) {i j}, R i j → i < n → j < m → namespaceLoop h attr n i = namespaceLoop h' attr m j := by
  intro n
  induction n with
  | zero => intro m i j _ hn; omega
  | succ n ih =>
    intro m i j hr hn hm
    obtain ⟨m, rfl⟩ : ∃ k, m = k + 1 := ⟨m - 1, by omega⟩
    have hp := N.parent hr
    rw [namespaceLoop, namespaceLoop, N.ntype hr, N.attr hr attr]
    split
    · cases h'.attributeValue j attr with
      | some v => rfl
      | none =>
        have q1 := N.wf.parent_lt i
        have q2 := N.wf'.parent_lt j
        revert hp q1 q2
        generalize (h.node i).parent = a
        generalize (h'.node j).parent = b
        intro hp q1 q2
        cases hp with
        | none => rfl
        | some hpq =>
          have := q1 _ rfl
          have := q2 _ rfl
          exact ih m hpq (by omega) (by omega)
    · rfl

end

/-- What is assumed of each of the two documents. -/
structure Queried (h : Heap) (r : NodeId) (F : Forest NodeId) : Prop where
  wf : HeapWF h
  doc : DocTree h r F
  order : OrderCorrect h r F
  leaves : AttrLeaves h (.cons r F .nil)

section
variable {h h' : Heap} {r r' : NodeId} {F F' : Forest NodeId}

theorem near_of (q : Queried h r F) (q' : Queried h' r' F')
    (e : (Forest.cons r F .nil).map (contentOf h) = (Forest.cons r' F' .nil).map (contentOf h')) :
    Near h h' (SamePlace h r F h' r' F') := by
  have hz := (zip_docIds _ _ e).2
  have hR : ∀ i j, SamePlace h r F h' r' F' i j ↔ (i, j) ∈ pairs h h' (.cons r F .nil) (.cons r' F' .nil) := fun i j => by rw [samePlace_iff, hz]
  have hcase := fun i j (hij : SamePlace h r F h' r' F' i j) => pair_cases _ _ _ _ e q.doc.linked q'.doc.linked i j ((hR i j).1 hij)
  have hattr : ∀ {e e' K K' a b}, NodePair h h' (.cons r F .nil) (.cons r' F' .nil) e e' K K' → (a, b) ∈ (h.node e).attributes.zip (h'.node e').attributes →
      (a ∈ (h.node e).attributes ∧ b ∈ (h'.node e').attributes) ∧ (h.node a).name = (h'.node b).name ∧ (h.node a).value = (h'.node b).value :=
    fun hn hab => ⟨List.of_mem_zip hab, zip_forall₂ (content_attrs hn.content) hab⟩
  refine ⟨q.wf, q'.wf, ?_, ?_, ?_, ?_, ?_, ?_, ?_, ?_, ?_, ?_⟩
  · intro i j hij
    rcases hcase i j hij with ⟨K, K', hn, hp⟩ | ⟨x, y, K, K', hn, hxy⟩
    · exact congrArg Content.ntype hn.content
    · have := hattr hn hxy
      rw [(q.leaves x hn.left i this.1.1).1, (q'.leaves y hn.right j this.1.2).1]
  · intro i j hij
    rcases hcase i j hij with ⟨K, K', hn, hp⟩ | ⟨x, y, K, K', hn, hxy⟩
    · exact congrArg Content.name hn.content
    · exact (hattr hn hxy).2.1
  · intro i j hij
    rcases hcase i j hij with ⟨K, K', hn, hp⟩ | ⟨x, y, K, K', hn, hxy⟩
    · exact congrArg Content.value hn.content
    · exact (hattr hn hxy).2.2
  · intro i j hij
    rcases hcase i j hij with ⟨K, K', hn, hp⟩ | ⟨x, y, K, K', hn, hxy⟩
    · rcases hp with ⟨h1, h2⟩ | ⟨p, p', h1, h2, h3⟩
      · rw [h1, h2]; exact .none
      · rw [h1, h2]; exact .some ((hR _ _).2 h3)
    · have := hattr hn hxy
      rw [hn.attrUp _ this.1.1, hn.attrUp' _ this.1.2]
      exact .some ((hR _ _).2 hn.self)
  · intro i j hij
    rcases hcase i j hij with ⟨K, K', hn, hp⟩ | ⟨x, y, K, K', hn, hxy⟩
    · rw [hn.kids, hn.kids']
      exact pairs_roots K K' hn.shape fun a b hab => (hR _ _).2 (hn.below _ hab)
    · have := hattr hn hxy
      rw [(q.leaves x hn.left i this.1.1).2.1, (q'.leaves y hn.right j this.1.2).2.1]
      exact .nil
  · intro i j hij
    rcases hcase i j hij with ⟨K, K', hn, hp⟩ | ⟨x, y, K, K', hn, hxy⟩
    · exact forall₂_zip (content_attrs hn.content).length_eq fun a b hab => (hR _ _).2 (hn.attrs _ hab)
    · have := hattr hn hxy
      rw [(q.leaves x hn.left i this.1.1).2.2, (q'.leaves y hn.right j this.1.2).2.2]
      exact .nil
  · intro i j hij c hc
    rcases hcase i j hij with ⟨K, K', hn, hp⟩ | ⟨x, y, K, K', hn, hxy⟩
    · rw [hn.kids] at hc
      exact linked_roots_parent hn.linked hc
    · rw [(q.leaves x hn.left i (hattr hn hxy).1.1).2.1] at hc
      simp at hc
  · intro i j hij c hc
    rcases hcase i j hij with ⟨K, K', hn, hp⟩ | ⟨x, y, K, K', hn, hxy⟩
    · rw [hn.kids'] at hc
      exact linked_roots_parent hn.linked' hc
    · rw [(q'.leaves y hn.right j (hattr hn hxy).1.2).2.1] at hc
      simp at hc
  · intro i j hij
    exact q.doc.bound _ (List.of_mem_zip (samePlace_iff.1 hij)).1
  · intro i j hij
    exact q'.doc.bound _ (List.of_mem_zip (samePlace_iff.1 hij)).2

theorem order_place {h : Heap} {r : NodeId} {F : Forest NodeId} (q : Queried h r F) {a b : Nat} {i j : NodeId}
    (hi : (docIds h (.cons r F .nil))[a]? = some i) (hj : (docIds h (.cons r F .nil))[b]? = some j) :
    orderOf h i ≤ orderOf h j ↔ a ≤ b := by
  obtain ⟨o, hp, ho⟩ := q.order
  have hl := doc_length_le q.doc
  simp only [List.length_cons] at hl
  have value : ∀ x ∈ docIds h (.cons r F .nil), orderOf h x = o x := by
    intro x hx
    obtain ⟨h1, e1⟩ := ho x hx (h.size + 1) (by omega)
    simp [orderOf, e1]
  rw [value i (List.mem_of_getElem? hi), value j (List.mem_of_getElem? hj)]
  obtain ⟨la, ea⟩ := List.getElem?_eq_some_iff.1 hi
  obtain ⟨lb, eb⟩ := List.getElem?_eq_some_iff.1 hj
  rw [List.pairwise_iff_getElem] at hp
  rcases Nat.lt_trichotomy a b with hab | rfl | hab
  · have := hp a b la lb hab
    rw [ea, eb] at this
    constructor <;> intro <;> omega
  · rw [← ea, ← eb]; simp
  · have := hp b a lb la hab
    rw [ea, eb] at this
    constructor <;> intro <;> omega

theorem iso_of (q : Queried h r F) (q' : Queried h' r' F')
    (e : (Forest.cons r F .nil).map (contentOf h) = (Forest.cons r' F' .nil).map (contentOf h')) :
    Iso h h' (SamePlace h r F h' r' F') := by
  have N := near_of q q' e
  have hz := (zip_docIds _ _ e).2
  have hR : ∀ i j, SamePlace h r F h' r' F' i j ↔ (i, j) ∈ pairs h h' (.cons r F .nil) (.cons r' F' .nil) := fun i j => by rw [samePlace_iff, hz]
  refine ⟨?_, N.ntype, N.name, N.value, N.parent, N.children, N.attributes, ?_, ?_, ?_, ?_, ?_, ?_, N.attr, ?_⟩
  · rintro i j i' j' ⟨a, h1, h2⟩ ⟨b, h3, h4⟩
    constructor
    · rintro rfl
      obtain ⟨la, ea⟩ := List.getElem?_eq_some_iff.1 h1
      obtain ⟨lb, eb⟩ := List.getElem?_eq_some_iff.1 h3
      have : a = b := (List.getElem_inj q.doc.nodup).1 (ea.trans eb.symm)
      subst this
      rw [h2] at h4; exact Option.some.inj h4
    · rintro rfl
      obtain ⟨la, ea⟩ := List.getElem?_eq_some_iff.1 h2
      obtain ⟨lb, eb⟩ := List.getElem?_eq_some_iff.1 h4
      have : a = b := (List.getElem_inj q'.doc.nodup).1 (ea.trans eb.symm)
      subst this
      rw [h1] at h3; exact Option.some.inj h3
  · intro i j hij; exact N.text _ _ hij (by omega) (by omega)
  · intro i j hij; exact N.typed _ _ hij (by omega) (by omega)
  · rintro i j i' j' ⟨a, h1, h2⟩ ⟨b, h3, h4⟩
    rw [order_place q h1 h3, order_place q' h2 h4]
  · intro i j hij; exact N.root _ _ hij (by omega) (by omega)
  · intro i j hij; exact N.ancestor _ _ hij (by omega) (by omega)
  · intro i j hij
    rcases pair_cases _ _ _ _ e q.doc.linked q'.doc.linked i j ((hR i j).1 hij) with ⟨K, K', hn, hp⟩ | ⟨x, y, K, K', hn, hxy⟩
    · unfold arrayDescendant
      rw [hn.kids, hn.kids']
      have l1 : K.toList.length ≤ h.size + 1 := by
        have := hn.part.length_le
        have := doc_length_le q.doc
        simp only [Forest.toList, List.length_cons, List.append_nil] at *
        omega
      have l2 : K'.toList.length ≤ h'.size + 1 := by
        have := hn.part'.length_le
        have := doc_length_le q'.doc
        simp only [Forest.toList, List.length_cons, List.append_nil] at *
        omega
      rw [descendantF_forest K _ _ hn.linked l1, descendantF_forest K' _ _ hn.linked' l2]
      exact pairs_toList K K' hn.shape fun a b hab => (hR _ _).2 (hn.below _ hab)
    · unfold arrayDescendant
      have := List.of_mem_zip hxy
      rw [(q.leaves x hn.left i this.1).2.1, (q'.leaves y hn.right j this.2).2.1]
      simp [descendantF]
  · intro i j hij
    unfold Heap.namespaceUri
    rw [N.name hij]
    exact N.uri _ _ _ hij (by omega) (by omega)

end

end Amxml
