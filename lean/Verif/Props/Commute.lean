import Verif.Spec.Commute
import Verif.Props.Undo

/-!
# C104: independent edits can be done in any order
-/

namespace Amxml
open Spec

namespace Commute

/-- What is seen of a node. -/
abbrev View := NodeId → Content × List NodeId

/-- The attributes after `set_attribute`. -/
def setAttrs (n v : Str) (l : List (Str × Str)) : List (Str × Str) :=
  if n ∈ l.map (fun a => a.1) then replaceFirst n v l else l ++ [(n, v)]

/-- One node changes. -/
def upd (i : NodeId) (g : Content × List NodeId → Content × List NodeId) (f : View) : View := fun j => if j = i then g (f i) else f j

/-- The effect of an edit on what is seen. -/
def act : Edit → View → View
  | .setAttribute i n v => upd i fun c => ({ c.1 with attrs := setAttrs n v c.1.attrs }, c.2)
  | .deleteAttribute i n => upd i fun c => ({ c.1 with attrs := Spec.removeFirst n c.1.attrs }, c.2)
  | .deleteChild i t => upd i fun c => (c.1, c.2.erase t)
  | _ => id

theorem upd_comm {i j : NodeId} {g g' : Content × List NodeId → Content × List NodeId} (h : i = j → ∀ c, g (g' c) = g' (g c)) (f : View) :
    upd i g (upd j g' f) = upd j g' (upd i g f) := by
  funext x
  by_cases hij : i = j
  · subst hij
    by_cases hx : x = i
    · subst hx; simp [upd, h rfl]
    · simp [upd, hx]
  · by_cases hx : x = i
    · subst hx; simp [upd, hij]
    · by_cases hy : x = j
      · subst hy; simp [upd, Ne.symm hij]
      · simp [upd, hx, hy]

theorem replace_remove {n m v : Str} (hne : n ≠ m) : ∀ l : List (Str × Str),
    replaceFirst n v (Spec.removeFirst m l) = Spec.removeFirst m (replaceFirst n v l)
  | [] => rfl
  | a :: l => by
    by_cases h1 : a.1 = m
    · simp [Spec.removeFirst, replaceFirst, h1, Ne.symm hne]
    · by_cases h2 : a.1 = n
      · simp [Spec.removeFirst, replaceFirst, h2, hne]
      · simp [Spec.removeFirst, replaceFirst, h1, h2, replace_remove hne l]

theorem remove_append {n m v : Str} (hne : n ≠ m) : ∀ l : List (Str × Str),
    Spec.removeFirst m (l ++ [(n, v)]) = Spec.removeFirst m l ++ [(n, v)]
  | [] => by simp [Spec.removeFirst, hne]
  | a :: l => by
    by_cases h1 : a.1 = m
    · simp [Spec.removeFirst, h1]
    · simp [Spec.removeFirst, h1, remove_append hne l]

theorem remove_comm (n m : Str) : ∀ l : List (Str × Str), Spec.removeFirst m (Spec.removeFirst n l) = Spec.removeFirst n (Spec.removeFirst m l)
  | [] => rfl
  | a :: l => by
    by_cases h1 : a.1 = m <;> by_cases h2 : a.1 = n <;> simp [Spec.removeFirst, h1, h2, remove_comm n m l]
    · subst h1; simp [h2]
    all_goals simp_all [Spec.removeFirst]

theorem names_remove {n m : Str} (hne : n ≠ m) : ∀ l : List (Str × Str), n ∈ (Spec.removeFirst m l).map (fun a => a.1) ↔ n ∈ l.map (fun a => a.1)
  | [] => Iff.rfl
  | a :: l => by
    by_cases h1 : a.1 = m
    · simp only [Spec.removeFirst, h1, if_true, List.map_cons, List.mem_cons]
      exact ⟨.inr, fun h => h.resolve_left hne⟩
    · simp only [Spec.removeFirst, h1, if_false, List.map_cons, List.mem_cons, names_remove hne l]

theorem set_remove {n m v : Str} (hne : n ≠ m) (l : List (Str × Str)) : setAttrs n v (Spec.removeFirst m l) = Spec.removeFirst m (setAttrs n v l) := by
  unfold setAttrs
  by_cases hm : n ∈ l.map (fun a => a.1)
  · rw [if_pos ((names_remove hne _).2 hm), if_pos hm, replace_remove hne]
  · rw [if_neg fun h => hm ((names_remove hne _).1 h), if_neg hm, remove_append hne]

theorem comm {e e' : Edit} (ha : e.Apart e') (f : View) : act e (act e' f) = act e' (act e f) := by
  cases e <;> cases e' <;> first
    | rfl
    | skip
  all_goals
    simp only [act]
    refine upd_comm (fun h c => ?_) f
    first
    | rfl
    | exact absurd h ha
    | (dsimp only; rw [set_remove (ha h)])
    | (dsimp only; rw [set_remove (Ne.symm (ha h))])
    | (rw [remove_comm])
    | (rw [List.erase_comm])

theorem act_perm {es es' : List Edit} (hp : es.Perm es') (hsym : ∀ e ∈ es, ∀ e' ∈ es, e ≠ e' → e.Apart e') (f : View) :
    es.foldl (fun f e => act e f) f = es'.foldl (fun f e => act e f) f := by
  induction hp generalizing f with
  | nil => rfl
  | cons x _ ih => simp only [List.foldl_cons]; exact ih (fun e he e' he' => hsym e (by simp [he]) e' (by simp [he'])) _
  | swap x y l =>
    simp only [List.foldl_cons]
    by_cases hxy : x = y
    · rw [hxy]
    · rw [comm (hsym x (by simp) y (by simp) hxy)]
  | trans h1 _ ih1 ih2 => exact (ih1 hsym f).trans (ih2 (fun e he e' he' => hsym e (h1.mem_iff.2 he) e' (h1.mem_iff.2 he')) f)

/-- What is seen of the nodes of a state. -/
def view (h : Heap) : View := fun j => (contentOf h j, (h.node j).children)

/-- The old nodes are seen as the view says. -/
def Agrees (N : Nat) (h : Heap) (f : View) : Prop := ∀ j < N, view h j = f j

theorem agrees_apply {N : Nat} {h : Heap} {f : View} (hw : HeapWF h) (hN : N ≤ h.size) (ha : Agrees N h f) {e : Edit} (hs : e.Simple) (he : e.self < N) :
    Agrees N (e.apply h) (act e f) := by
  intro j hj
  cases e with
  | setAttribute i n v =>
    have hil : i < h.size := Nat.lt_of_lt_of_le he hN
    obtain ⟨-, -, ⟨k1, k2, k3, k4, -⟩, -⟩ := C16_set_keeps_names h hw i hil n v
    have fi := ha i he
    by_cases hji : j = i
    · subst hji
      have a1 := setAttribute_attrs h hw j hil n v
      simp only [Edit.apply, act]
      simp only [upd, if_true, ← fi]
      unfold view
      simp only [k4]
      congr 1
      revert a1
      unfold contentOf setAttrs
      simp only [k1, k2, k3]
      intro a1
      rw [a1]
    · simp only [Edit.apply, act]
      simp only [upd, hji, if_false, ← ha j hj]
      unfold view
      rw [setAttribute_content_other h hw i hil n v j (by omega) hji,
        ((setAttribute_spec h hw i hil n v).2.1 j hji (by omega)).links.2.1]
  | deleteAttribute i n =>
    have fi := ha i he
    obtain ⟨-, a1, -, -, ⟨k1, k2, k3, k4, -⟩, k6⟩ := C17_delete_attribute_partial h i n
    by_cases hji : j = i
    · subst hji
      simp only [Edit.apply, act]
      simp only [upd, if_true, ← fi]
      unfold view
      simp only [k4]
      congr 1
      revert a1
      unfold contentOf
      simp only [k1, k2, k3]
      intro a1
      rw [a1]
    · simp only [Edit.apply, act]
      simp only [upd, hji, if_false, ← ha j hj]
      unfold view
      rw [deleteAttribute_content_other h i n j hji, (k6 j hji).links.2.1]
  | deleteChild i t =>
    have fi := ha i he
    obtain ⟨-, -, ⟨k1, k2, k3, k4, -⟩, k6⟩ := C20_delete_child h i t
    obtain ⟨-, -, o, hnode⟩ := deleteChild_spec h i t
    have hk : Rekids h (h.deleteChild i t) i := ⟨⟨k1, k2, k3, k4⟩, fun j hj _ => k6 j hj⟩
    simp only [Edit.apply, act]
    by_cases hji : j = i
    · subst hji
      simp only [upd, if_true, ← fi]
      unfold view
      rw [hk.content hw (by omega), hnode]
    · simp only [upd, hji, if_false, ← ha j hj]
      unfold view
      rw [hk.content hw (by omega), (k6 j hji).links.2.1]
  | _ => exact hs.elim

/-- The forest is given by the children. -/
theorem forest_same {g g' : Heap} : ∀ {p p' : Option NodeId} {F G : Forest NodeId}, Linked g p F → Linked g' p' G → F.roots = G.roots →
    (∀ j ∈ F.toList, (g'.node j).children = (g.node j).children) → F = G
  | _, _, .nil, .nil, _, _, _, _ => rfl
  | _, _, .nil, .cons .., _, _, hr, _ => by simp [Forest.roots] at hr
  | _, _, .cons .., .nil, _, _, hr, _ => by simp [Forest.roots] at hr
  | _, _, .cons i k s, .cons j l t, hF, hG, hr, hc => by
    simp only [Forest.roots, List.cons.injEq] at hr
    obtain ⟨rfl, hr⟩ := hr
    obtain ⟨-, -, f3, f4, f5⟩ := hF
    obtain ⟨-, -, g3, g4, g5⟩ := hG
    have e1 : k.roots = l.roots := by rw [← f3, ← g3, hc i (by simp [Forest.toList])]
    rw [forest_same f4 g4 e1 fun j hj => hc j (by simp [Forest.toList, hj]), forest_same f5 g5 hr fun j hj => hc j (by simp [Forest.toList, hj])]

theorem within {g : Heap} {S : NodeId → Prop} (hS : ∀ i, S i → ∀ c ∈ (g.node i).children, S c) :
    ∀ {p : Option NodeId} {F : Forest NodeId}, Linked g p F → (∀ i ∈ F.roots, S i) → ∀ i ∈ F.toList, S i
  | _, .nil, _, _, i, hi => by simp [Forest.toList] at hi
  | _, .cons j k s, ⟨_, _, f3, f4, f5⟩, hr, i, hi => by
    simp only [Forest.toList, List.mem_cons, List.mem_append] at hi
    have hj := hr j (by simp [Forest.roots])
    rcases hi with rfl | hi | hi
    · exact hj
    · exact within hS f4 (fun c hc => hS j hj c (by rw [f3]; exact hc)) i hi
    · exact within hS f5 (fun c hc => hr c (by simp [Forest.roots, hc])) i hi

/-- What stays so while the nodes of the document are edited. -/
structure Inv (h : Heap) (r : NodeId) (F : Forest NodeId) (g : Heap) : Prop where
  reach : Reach g
  size : h.size ≤ g.size
  doc : ∃ F', DocTree g r F'
  kids : ∀ i ∈ r :: F.toList, (g.node i).children.Sublist (h.node i).children
  leaves : ∀ i ∈ r :: F.toList, ∀ a ∈ (g.node i).attributes, ((g.node a).ntype = .attribute ∧ (g.node a).children = [] ∧ (g.node a).attributes = []) ∧ a ∉ r :: F.toList

section
variable {h : Heap} {r : NodeId} {F : Forest NodeId}

theorem Inv.init (hr : Reach h) (hd : DocTree h r F) (ha : AttrLeaves h (.cons r F .nil)) : Inv h r F h := by
  have e : (Forest.cons r F .nil).toList = r :: F.toList := by simp [Forest.toList]
  exact ⟨hr, Nat.le_refl _, ⟨F, hd⟩, fun i _ => .refl _, fun i hi a hia => ⟨ha i (e ▸ hi) a hia, e ▸ Undo.attr_apart _ hd.nodup i (e ▸ hi) a hia⟩⟩

theorem Inv.step (hd : DocTree h r F) {g : Heap} (v : Inv h r F g) {e : Edit} (hs : e.Simple) (hv : e.Valid h) (he : e.self ∈ r :: F.toList) : Inv h r F (e.apply g) := by
  have hw := v.reach.inv.1
  obtain ⟨F', hd'⟩ := v.doc
  have lt : ∀ {i}, i ∈ r :: F.toList → i < h.size := fun hi => hd.bound _ (mem_docIds_of_mem (by simpa [Forest.toList] using hi))
  have hvg : e.Valid g := by
    have := v.size
    cases e with
    | setAttribute => exact Nat.lt_of_lt_of_le hv this
    | deleteAttribute => exact Nat.lt_of_lt_of_le hv this
    | _ => exact ⟨Nat.lt_of_lt_of_le hv.1 this, Nat.lt_of_lt_of_le hv.2 this⟩
  have hr' : Reach (e.apply g) := .edit e v.reach hvg
  cases e with
  | setAttribute i n w =>
    have hil : i < g.size := hvg
    obtain ⟨s1, s2, ⟨o3, s3⟩, o, as, s4, s5⟩ := setAttribute_spec g hw i hil n w
    refine ⟨hr', by show h.size ≤ (g.setAttribute i n w).size; have := v.size; omega, ⟨F', docTree_setAttribute hw hd' hil n w⟩, fun j hj => ?_, fun j hj a hja => ?_⟩
    · have hjl := lt hj
      have := v.size
      show ((g.setAttribute i n w).node j).children.Sublist _
      by_cases e : j = i
      · subst e; rw [s4]; exact v.kids j hj
      · rw [(s2 j e (by omega)).links.2.1]; exact v.kids j hj
    · have hjl := lt hj
      have hsz := v.size
      have hja' : a ∈ ((g.setAttribute i n w).node j).attributes := hja
      have hor : a = g.size ∨ a ∈ (g.node j).attributes := by
        by_cases hie : j = i
        · subst hie
          rw [s4] at hja'
          rcases s5 with ⟨x, b, c, e1, _, _, rfl⟩ | ⟨_, rfl⟩
          · rw [e1]; simp only [List.mem_append, List.mem_cons] at hja' ⊢; tauto
          · simp only [List.mem_append, List.mem_singleton] at hja'; tauto
        · rw [(s2 j hie (by omega)).links.2.2] at hja'
          exact .inr hja'
      show ((((g.setAttribute i n w).node a).ntype = .attribute) ∧ ((g.setAttribute i n w).node a).children = [] ∧ ((g.setAttribute i n w).node a).attributes = []) ∧ _
      rcases hor with rfl | h1
      · rw [s3]; exact ⟨⟨rfl, rfl, rfl⟩, fun hm => by have := lt hm; omega⟩
      · obtain ⟨l1, l2⟩ := v.leaves j hj a h1
        refine ⟨?_, l2⟩
        have hne : a ≠ i := by rintro rfl; exact l2 he
        have := s2 a hne (by have := hw.closed j a (.inr h1); omega)
        unfold SameNode at this
        rw [this]
        exact l1
  | deleteAttribute i n =>
    have hil : i < g.size := hvg
    obtain ⟨s1, s2, o, as, s4, s5⟩ := deleteAttribute_spec g i n
    refine ⟨hr', by show h.size ≤ (g.deleteAttribute i n).size; have := v.size; omega, ⟨F', docTree_deleteAttribute hw hd' hil n⟩, fun j hj => ?_, fun j hj a hja => ?_⟩
    · show ((g.deleteAttribute i n).node j).children.Sublist _
      by_cases e : j = i
      · subst e; rw [s4]; exact v.kids j hj
      · rw [(s2 j e).links.2.1]; exact v.kids j hj
    · have hja' : a ∈ ((g.deleteAttribute i n).node j).attributes := hja
      have h1 : a ∈ (g.node j).attributes := by
        by_cases hie : j = i
        · subst hie
          rw [s4] at hja'
          rcases s5 with ⟨x, b, c, e1, _, _, rfl⟩ | ⟨_, rfl⟩
          · rw [e1]; simp only [List.mem_append, List.mem_cons] at hja' ⊢; tauto
          · exact hja'
        · rw [(s2 j hie).links.2.2] at hja'
          exact hja'
      show ((((g.deleteAttribute i n).node a).ntype = .attribute) ∧ ((g.deleteAttribute i n).node a).children = [] ∧ ((g.deleteAttribute i n).node a).attributes = []) ∧ _
      obtain ⟨l1, l2⟩ := v.leaves j hj a h1
      refine ⟨?_, l2⟩
      have hne : a ≠ i := by rintro rfl; exact l2 he
      have := s2 a hne
      unfold SameNode at this
      rw [this]
      exact l1
  | deleteChild i t =>
    have hil : i < g.size := hvg.1
    obtain ⟨s1, s2, o, s4⟩ := deleteChild_spec g i t
    refine ⟨hr', by show h.size ≤ (g.deleteChild i t).size; have := v.size; omega, docTree_deleteChild hw hd' hil t, fun j hj => ?_, fun j hj a hja => ?_⟩
    · show ((g.deleteChild i t).node j).children.Sublist _
      by_cases e : j = i
      · subst e; rw [s4]; exact List.erase_sublist.trans (v.kids j hj)
      · rw [(s2 j e).links.2.1]; exact v.kids j hj
    · have hja' : a ∈ ((g.deleteChild i t).node j).attributes := hja
      have h1 : a ∈ (g.node j).attributes := by
        by_cases hie : j = i
        · subst hie; rw [s4] at hja'; exact hja'
        · rw [(s2 j hie).links.2.2] at hja'; exact hja'
      show ((((g.deleteChild i t).node a).ntype = .attribute) ∧ ((g.deleteChild i t).node a).children = [] ∧ ((g.deleteChild i t).node a).attributes = []) ∧ _
      obtain ⟨l1, l2⟩ := v.leaves j hj a h1
      refine ⟨?_, l2⟩
      have hne : a ≠ i := by rintro rfl; exact l2 he
      have := s2 a hne
      unfold SameNode at this
      rw [this]
      exact l1
  | _ => exact hs.elim

theorem Inv.all (hd : DocTree h r F) : ∀ (es : List Edit) {g : Heap} {f : View}, Inv h r F g → Agrees h.size g f →
    (∀ e ∈ es, e.Simple ∧ e.Valid h ∧ e.self ∈ r :: F.toList) → Inv h r F (applyAll g es) ∧ Agrees h.size (applyAll g es) (es.foldl (fun f e => act e f) f)
  | [], _, _, v, a, _ => ⟨v, a⟩
  | e :: es, _, _, v, a, hes => by
    obtain ⟨h1, h2, h3⟩ := hes e (by simp)
    have hlt : e.self < h.size := hd.bound _ (mem_docIds_of_mem (by simpa [Forest.toList] using h3))
    exact Inv.all hd es (v.step hd h1 h2 h3) (agrees_apply v.reach.inv.1 v.size a h1 hlt) fun e he => hes e (by simp [he])

theorem Inv.nodes {g : Heap} (v : Inv h r F g) (hd : DocTree h r F) {F' : Forest NodeId} (hd' : DocTree g r F') : ∀ i ∈ r :: F'.toList, i ∈ r :: F.toList := by
  have := within (S := fun i => i ∈ r :: F.toList) (fun i hi c hc => (doc_child hd hi ((v.kids i hi).subset hc)).1) hd'.linked (by simp [Forest.roots])
  simpa [Forest.toList] using this

end

end Commute

/-- **C104.** Attributes are set and deleted and children deleted at nodes of a document, in some order: if no two of the edits interfere then every other order
would have given a document that nothing but the identity of nodes tells from this one - the same tree of the same nodes with the same contents, the same
texts, the same answers to all queries. -/
theorem C104_any_order (h : Heap) (hr : Reach h) (r : NodeId) (F : Forest NodeId) (hd : DocTree h r F) (ha : AttrLeaves h (.cons r F .nil)) (es es' : List Edit)
    (hes : ∀ e ∈ es, e.Simple ∧ e.Valid h ∧ e.self ∈ r :: F.toList) (hap : ∀ e ∈ es, ∀ e' ∈ es, e ≠ e' → e.Apart e') (hp : es.Perm es') :
    ∃ F', DocTree (applyAll h es) r F' ∧ Reproduced (applyAll h es) (applyAll h es') r F' := by
  have v0 := Commute.Inv.init hr hd ha
  have a0 : Commute.Agrees h.size h (Commute.view h) := fun _ _ => rfl
  obtain ⟨v1, a1⟩ := Commute.Inv.all hd es v0 a0 hes
  obtain ⟨v2, a2⟩ := Commute.Inv.all hd es' v0 a0 fun e he => hes e (hp.mem_iff.2 he)
  rw [← Commute.act_perm hp hap] at a2
  obtain ⟨F1, hd1⟩ := v1.doc
  obtain ⟨F2, hd2⟩ := v2.doc
  have same : ∀ i ∈ r :: F1.toList, contentOf (applyAll h es') i = contentOf (applyAll h es) i ∧ ((applyAll h es').node i).children = ((applyAll h es).node i).children := by
    intro i hi
    have hlt : i < h.size := hd.bound _ (mem_docIds_of_mem (by simpa [Forest.toList] using v1.nodes hd hd1 i hi))
    have := (a2 i hlt).trans (a1 i hlt).symm
    exact ⟨congrArg Prod.fst this, congrArg Prod.snd this⟩
  have hF : Forest.cons r F1 .nil = .cons r F2 .nil :=
    Commute.forest_same hd1.linked hd2.linked rfl fun j hj => (same j (by simpa [Forest.toList] using hj)).2
  obtain rfl : F1 = F2 := by injection hF
  exact ⟨F1, hd1, Undo.reproduced v1.reach v2.reach hd1 (fun i hi a hia => (v1.leaves i (v1.nodes hd hd1 i (by simpa [Forest.toList] using hi)) a hia).1) hd2
    (fun i hi a hia => (v2.leaves i (v2.nodes hd hd2 i (by simpa [Forest.toList] using hi)) a hia).1) same⟩

/-! The hypotheses are met: four edits of `<a x="1" y="2"><b/><c/></a>`, one of them of a child that another one deletes. -/

def commuteSample : List Edit := [.setAttribute 1 (S "z") (S "3"), .deleteAttribute 1 (S "x"), .deleteChild 1 4, .setAttribute 4 (S "k") (S "v")]

example : ∃ F', DocTree (applyAll editSample commuteSample) 0 F' ∧ Reproduced (applyAll editSample commuteSample) (applyAll editSample commuteSample.reverse) 0 F' := by
  refine C104_any_order editSample sameSample_reach.1 0 sameForest editSample_doc (by decide +kernel) commuteSample _ ?_ ?_ (List.reverse_perm _).symm
  · simp only [commuteSample, List.mem_cons, List.not_mem_nil, or_false]
    rintro e (rfl | rfl | rfl | rfl)
    · exact ⟨trivial, by show 1 < editSample.size; decide +kernel, by decide⟩
    · exact ⟨trivial, by show 1 < editSample.size; decide +kernel, by decide⟩
    · exact ⟨trivial, by show 1 < editSample.size ∧ 4 < editSample.size; decide +kernel, by decide⟩
    · exact ⟨trivial, by show 4 < editSample.size; decide +kernel, by decide⟩
  · simp only [commuteSample, List.mem_cons, List.not_mem_nil, or_false]
    rintro e (rfl | rfl | rfl | rfl) e' (rfl | rfl | rfl | rfl) hne <;> first
      | exact absurd rfl hne
      | trivial
      | (show (1 : Nat) = 1 → _ ≠ _; intro _; decide)
      | (show (_ : Nat) ≠ _; decide)
      | (show (_ : Nat) = _ → _ ≠ _; decide)

/-- Both orders give the same text. -/
example : (applyAll editSample commuteSample).toString 9 0 = some (S "<a y=\"2\" z=\"3\"><c/></a>") ∧
    (applyAll editSample commuteSample.reverse).toString 9 0 = some (S "<a y=\"2\" z=\"3\"><c/></a>") := by
  refine ⟨by decide +kernel, by decide +kernel⟩

/-- Without the condition it is false: two new attributes come in the order in which they are set. -/
theorem C104_new_attributes :
    (applyAll editSample [.setAttribute 1 (S "u") (S "1"), .setAttribute 1 (S "v") (S "2")]).toString 9 0 = some (S "<a x=\"1\" y=\"2\" u=\"1\" v=\"2\"><b/><c/></a>") ∧
    (applyAll editSample [.setAttribute 1 (S "v") (S "2"), .setAttribute 1 (S "u") (S "1")]).toString 9 0 = some (S "<a x=\"1\" y=\"2\" v=\"2\" u=\"1\"><b/><c/></a>") := by
  refine ⟨by decide +kernel, by decide +kernel⟩

end Amxml
