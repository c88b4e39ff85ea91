import Verif.Model.Depth
import Verif.Lemmas.Serial
import Verif.Lemmas.Order
import Verif.Spec.EditText
import Verif.Props.Sizes
import Verif.Props.Order
import Verif.Props.EditText

/-!
# C118: recursion over a document is as deep as its elements are nested
-/

namespace Amxml
open Spec

/-- How deep the trees of a forest are: the number of nodes on its longest way down. -/
def Spec.nesting {α : Type} : Forest α → Nat
  | .nil => 0
  | .cons _ k r => max (nesting k + 1) (nesting r)

namespace Depth

/-- A recursion that goes down from some of the nodes. -/
def walk {σ α : Type} (h : Heap) (rec : NodeId → Bool) (down : σ → NodeId → σ) (wrap : NodeId → σ → List α → List α) (leaf : NodeId → σ → List α) :
    Nat → NodeId → σ → Option (List α)
  | 0, _, _ => none
  | n + 1, i, s => if rec i then (eachD (fun c => walk h rec down wrap leaf n c (down s i)) (h.node i).children).map (wrap i s) else some (leaf i s)

/-- What it gives for a forest. -/
def full {σ α : Type} (rec : NodeId → Bool) (down : σ → NodeId → σ) (wrap : NodeId → σ → List α → List α) (leaf : NodeId → σ → List α) :
    Forest NodeId → σ → List α
  | .nil, _ => []
  | .cons i k r, s => (if rec i then wrap i s (full rec down wrap leaf k (down s i)) else leaf i s) ++ full rec down wrap leaf r s

variable {σ α : Type} {h : Heap} {rec : NodeId → Bool} {down : σ → NodeId → σ} {wrap : NodeId → σ → List α → List α} {leaf : NodeId → σ → List α}

theorem walk_enough {F : Forest NodeId} {p : Option NodeId} (hl : Linked h p F) {n : Nat} (hn : nesting F ≤ n) (s : σ) :
    eachD (fun c => walk h rec down wrap leaf n c s) F.roots = some (full rec down wrap leaf F s) := by
  induction F generalizing p n s with
  | nil => rfl
  | cons i k r ih1 ih2 =>
    obtain ⟨-, -, h3, h4, h5⟩ := hl
    simp only [nesting] at hn
    obtain ⟨m, rfl⟩ : ∃ m, n = m + 1 := ⟨n - 1, by omega⟩
    have e1 : walk h rec down wrap leaf (m + 1) i s = some (if rec i then wrap i s (full rec down wrap leaf k (down s i)) else leaf i s) := by
      rw [walk]
      split
      · rw [h3, ih1 h4 (by omega)]; rfl
      · rfl
    simp only [Forest.roots, eachD]
    rw [e1, ih2 h5 (by omega)]
    rfl

theorem walk_short {F : Forest NodeId} {p : Option NodeId} (hl : Linked h p F) (hr : ∀ i ∈ F.toList, (h.node i).children ≠ [] → rec i = true) {n : Nat}
    (hn : n < nesting F) (s : σ) : eachD (fun c => walk h rec down wrap leaf n c s) F.roots = none := by
  induction F generalizing p n s with
  | nil => exact absurd hn (by simp [nesting])
  | cons i k r ih1 ih2 =>
    obtain ⟨-, -, h3, h4, h5⟩ := hl
    simp only [nesting] at hn
    simp only [Forest.roots, eachD]
    cases n with
    | zero => rfl
    | succ m =>
      by_cases hk : m < nesting k
      · have hne : (h.node i).children ≠ [] := by
          rw [h3]
          cases k with
          | nil => exact absurd hk (by simp [nesting])
          | cons => simp [Forest.roots]
        have e1 : walk h rec down wrap leaf (m + 1) i s = none := by
          rw [walk, if_pos (hr i (by simp [Forest.toList]) hne), h3, ih1 h4 (fun j hj => hr j (by simp [Forest.toList, hj])) hk]
          rfl
        rw [e1]
      · rw [ih2 h5 (fun j hj => hr j (by simp [Forest.toList, hj])) (by omega)]
        cases walk h rec down wrap leaf (m + 1) i s <;> rfl

theorem walk_one {i : NodeId} {k : Forest NodeId} {p : Option NodeId} (hl : Linked h p (.cons i k .nil)) {n : Nat} (s : σ) :
    (nesting (.cons i k .nil) ≤ n → walk h rec down wrap leaf n i s = some (full rec down wrap leaf (.cons i k .nil) s)) ∧
    ((∀ j ∈ i :: k.toList, (h.node j).children ≠ [] → rec j = true) → n < nesting (.cons i k .nil) → walk h rec down wrap leaf n i s = none) := by
  have e : ∀ o : Option (List α), (match o with
      | none => none
      | some a => match (some [] : Option (List α)) with
        | none => none
        | some b => some (a ++ b)) = o := by
    intro o; cases o <;> simp
  refine ⟨fun hn => ?_, fun hr hn => ?_⟩
  · have := walk_enough (rec := rec) (down := down) (wrap := wrap) (leaf := leaf) hl hn s
    simp only [Forest.roots, eachD] at this
    rw [← this]; exact (e _).symm
  · have := walk_short (rec := rec) (down := down) (wrap := wrap) (leaf := leaf) hl (by simpa [Forest.toList] using hr) hn s
    simp only [Forest.roots, eachD] at this
    rw [← this]; exact (e _).symm

/-! ## The functions are such recursions -/

def nodal (h : Heap) (i : NodeId) : Bool := (h.node i).ntype = .element || (h.node i).ntype = .documentRoot

theorem eachD_congr {f g : NodeId → Option (List α)} (e : ∀ i, f i = g i) (l : List NodeId) : eachD f l = eachD g l := by
  rw [show f = g from funext e]

/-- The indentation below a node. -/
def inner (h : Heap) (step : Nat) (a : Nat) (i : NodeId) : Nat := if (h.node i).ntype = .documentRoot then a else a + step

def wrapText (h : Heap) (step : Nat) (i : NodeId) (indent : Nat) (t : Str) : Str :=
  if (h.node i).ntype = .documentRoot then t
  else
    let start := List.replicate indent ' ' ++ S "<" ++ (h.node i).name ++ attrsToString h (h.node i).attributes
    if (h.node i).children.length = 0 then start ++ S "/>" ++ nlIfPositive step
    else start ++ S ">" ++ nlIfPositive step ++ t ++ List.replicate indent ' ' ++ S "</" ++ (h.node i).name ++ S ">" ++ nlIfPositive step

def leafText (h : Heap) (step : Nat) (i : NodeId) (indent : Nat) : Str :=
  let n := h.node i
  let sp := List.replicate indent ' '
  let nl := nlIfPositive step
  match n.ntype with
  | .text => sp ++ encodeEntity n.value ++ nl
  | .comment => sp ++ S "<!--" ++ n.value ++ S "-->" ++ nl
  | .xmlDecl => sp ++ S "<?xml " ++ n.value ++ S "?>" ++ nl
  | .instruction => sp ++ S "<?" ++ n.name ++ S " " ++ n.value ++ S "?>" ++ nl
  | _ => []

theorem toStringD_walk (h : Heap) (step : Nat) : ∀ (n : Nat) (i : NodeId) (a : Nat),
    toStringD h step n i a = walk h (nodal h) (inner h step) (wrapText h step) (leafText h step) n i a := by
  intro n
  induction n with
  | zero => intro i a; rfl
  | succ n ih =>
    intro i a
    rw [walk, toStringD]
    simp only [ih]
    unfold nodal wrapText leafText inner
    cases ht : (h.node i).ntype
    case element =>
      by_cases hc : (h.node i).children.length = 0
      · have hn : (h.node i).children = [] := List.length_eq_zero_iff.1 hc
        simp [hn, eachD]
      · simp [hc]
    all_goals simp [ht]

theorem toStringF_full {F : Forest NodeId} {p : Option NodeId} (hl : Linked h p F) (step fuel a : Nat) (hf : F.toList.length ≤ fuel) :
    toStringF fuel h F.roots a step = some (full (nodal h) (inner h step) (wrapText h step) (leafText h step) F a) := by
  induction F generalizing p fuel a with
  | nil => cases fuel <;> rfl
  | cons i k r ih1 ih2 =>
    obtain ⟨h1, h2, h3, h4, h5⟩ := hl
    simp only [Forest.toList, List.length_cons, List.length_append] at hf
    obtain ⟨f, rfl⟩ : ∃ f, fuel = f + 1 := ⟨fuel - 1, by omega⟩
    simp only [Forest.roots, toStringF, h3]
    rw [ih2 h5 f a (by omega), ih1 h4 f a (by omega), ih1 h4 f (a + step) (by omega)]
    simp only [full]
    unfold nodal wrapText leafText inner
    cases ht : (h.node i).ntype
    case element =>
      by_cases hc : k.roots.length = 0
      · simp [hc, h3]
      · simp [hc, h3]
    all_goals simp [ht]

def leafString (h : Heap) (i : NodeId) : Str :=
  match (h.node i).ntype with
  | .text | .attribute | .comment => (h.node i).value
  | .xmlDecl | .instruction => (h.node i).name ++ ' ' :: (h.node i).value
  | _ => []

def leafTyped (h : Heap) (i : NodeId) : Str :=
  match (h.node i).ntype with
  | .text | .attribute | .comment => (h.node i).value
  | .instruction => (h.node i).name ++ ' ' :: (h.node i).value
  | _ => []

theorem stringValueD_walk (h : Heap) : ∀ (n : Nat) (i : NodeId), stringValueD h n i =
    walk h (nodal h) (fun _ _ => ()) (fun _ _ t => t) (fun i _ => leafString h i) n i () := by
  intro n
  induction n with
  | zero => intro i; rfl
  | succ n ih =>
    intro i
    rw [walk, stringValueD, show stringValueD h n = fun i => walk h (nodal h) (fun _ _ => ()) (fun _ _ t => t) (fun i _ => leafString h i) n i () from
      funext ih]
    unfold nodal
    cases ht : (h.node i).ntype <;> simp [leafString, ht]

theorem typedValueD_walk (h : Heap) : ∀ (n : Nat) (i : NodeId), typedValueD h n i =
    walk h (nodal h) (fun _ _ => ()) (fun _ _ t => t) (fun i _ => leafTyped h i) n i () := by
  intro n
  induction n with
  | zero => intro i; rfl
  | succ n ih =>
    intro i
    rw [walk, typedValueD, show typedValueD h n = fun i => walk h (nodal h) (fun _ _ => ()) (fun _ _ t => t) (fun i _ => leafTyped h i) n i () from
      funext ih]
    unfold nodal
    cases ht : (h.node i).ntype <;> simp [leafTyped, ht]

theorem stringValueF_full {F : Forest NodeId} {p : Option NodeId} (hl : Linked h p F) (fuel : Nat) (hf : nesting F ≤ fuel) :
    F.roots.flatMap (stringValueF h fuel) = full (nodal h) (fun _ _ => ()) (fun _ _ t => t) (fun i _ => leafString h i) F () := by
  induction F generalizing p fuel with
  | nil => rfl
  | cons i k r ih1 ih2 =>
    obtain ⟨h1, h2, h3, h4, h5⟩ := hl
    simp only [nesting] at hf
    obtain ⟨f, rfl⟩ : ∃ f, fuel = f + 1 := ⟨fuel - 1, by omega⟩
    simp only [Forest.roots, List.flatMap_cons, full]
    rw [ih2 h5 _ (by omega)]
    have := ih1 h4 f (by omega)
    rw [← h3] at this
    congr 1
    show _ = if nodal h i then full (nodal h) (fun _ _ => ()) (fun _ _ t => t) (fun i _ => leafString h i) k () else leafString h i
    rw [← this, stringValueF]
    unfold nodal
    cases ht : (h.node i).ntype <;> simp [leafString, ht]

theorem typedValueF_full {F : Forest NodeId} {p : Option NodeId} (hl : Linked h p F) (fuel : Nat) (hf : nesting F ≤ fuel) :
    F.roots.flatMap (typedValueF h fuel) = full (nodal h) (fun _ _ => ()) (fun _ _ t => t) (fun i _ => leafTyped h i) F () := by
  induction F generalizing p fuel with
  | nil => rfl
  | cons i k r ih1 ih2 =>
    obtain ⟨h1, h2, h3, h4, h5⟩ := hl
    simp only [nesting] at hf
    obtain ⟨f, rfl⟩ : ∃ f, fuel = f + 1 := ⟨fuel - 1, by omega⟩
    simp only [Forest.roots, List.flatMap_cons, full]
    rw [ih2 h5 _ (by omega)]
    have := ih1 h4 f (by omega)
    rw [← h3] at this
    congr 1
    show _ = if nodal h i then full (nodal h) (fun _ _ => ()) (fun _ _ t => t) (fun i _ => leafTyped h i) k () else leafTyped h i
    rw [← this, typedValueF]
    unfold nodal
    cases ht : (h.node i).ntype <;> simp [leafTyped, ht]

theorem nesting_le {α : Type} : ∀ F : Forest α, nesting F ≤ F.toList.length
  | .nil => Nat.le_refl 0
  | .cons _ k r => by
    have h1 := nesting_le k
    have h2 := nesting_le r
    simp only [nesting, Forest.toList, List.length_cons, List.length_append]
    omega

/-! ## Descendants -/

theorem descendantD_walk (h : Heap) : ∀ (n : Nat) (i : NodeId), (descendantD h n i).map (i :: ·) =
    walk h (fun _ => true) (fun _ _ => ()) (fun i _ t => i :: t) (fun _ _ => []) n i () := by
  intro n
  induction n with
  | zero => intro i; rfl
  | succ n ih =>
    intro i
    rw [walk, descendantD, if_pos rfl]
    simp only [ih]

theorem descendantF_full {F : Forest NodeId} {p : Option NodeId} (hl : Linked h p F) (fuel : Nat) (hf : F.toList.length ≤ fuel) :
    descendantF h fuel F.roots = full (fun _ => true) (fun _ _ => ()) (fun i _ t => i :: t) (fun _ _ => []) F () := by
  induction F generalizing p fuel with
  | nil => cases fuel <;> rfl
  | cons i k r ih1 ih2 =>
    obtain ⟨h1, h2, h3, h4, h5⟩ := hl
    simp only [Forest.toList, List.length_cons, List.length_append] at hf
    obtain ⟨f, rfl⟩ : ∃ f, fuel = f + 1 := ⟨fuel - 1, by omega⟩
    simp only [Forest.roots, descendantF, h3, full, if_true]
    rw [ih2 h5 f (by omega), ih1 h4 f (by omega)]
    rfl

/-! ## Order numbers -/

theorem setupOrderD_step (m : Nat) (h : Heap) (i : NodeId) (o : Int) : setupOrderD (m + 1) h i (o + 1) = turnsD (setupOrderD m)
      ((setAttrOrders (h.modify i fun n => { n with order := o + 1 }) ((h.modify i fun n => { n with order := o + 1 }).node i).attributes (o + 1 + 1)).1.node i).children
      (setAttrOrders (h.modify i fun n => { n with order := o + 1 }) ((h.modify i fun n => { n with order := o + 1 }).node i).attributes (o + 1 + 1)).1
      (setAttrOrders (h.modify i fun n => { n with order := o + 1 }) ((h.modify i fun n => { n with order := o + 1 }).node i).attributes (o + 1 + 1)).2 := rfl

theorem turns_enough (F : Forest NodeId) (h : Heap) (p : Option NodeId) (hl : Linked h p F) (hnd : (docIds h F).Nodup) {n : Nat} (hn : nesting F ≤ n) (o : Int) :
    turnsD (setupOrderD n) F.roots h o = setupOrderF F.toList.length h F.roots o := by
  induction F generalizing h p n o with
  | nil => rfl
  | cons i k r ih1 ih2 =>
    obtain ⟨l1, l2, l3, l4, l5⟩ := hl
    simp only [nesting] at hn
    obtain ⟨m, rfl⟩ : ∃ m, n = m + 1 := ⟨n - 1, by omega⟩
    simp only [docIds, List.nodup_cons, List.mem_append, not_or, List.nodup_append] at hnd
    obtain ⟨⟨ni1, ni2, ni3⟩, na, ⟨nk, nr, dkr⟩, dak⟩ := hnd
    simp only [Forest.roots, turnsD, Forest.toList, List.length_cons, setupOrderF]
    rw [setupOrderD_step]
    have s1 : ∀ j, SameNode h (h.modify i fun n => { n with order := o + 1 }) j := setOrder_same h i (o + 1)
    have hat : ((h.modify i fun n => { n with order := o + 1 }).node i).attributes = (h.node i).attributes := (s1 i).links.2.2
    rw [hat]
    obtain ⟨a1, a2, a3, a4, a5, a6⟩ := setAttrOrders_spec (h.node i).attributes (h.modify i fun n => { n with order := o + 1 }) (o + 1 + 1) na
    generalize setAttrOrders (h.modify i fun n => { n with order := o + 1 }) (h.node i).attributes (o + 1 + 1) = h2 at a1 a2 a3 a4 a5 a6 ⊢
    have s2 : ∀ j, SameNode h h2.1 j := fun j => (s1 j).trans (a3 j)
    have hch : (h2.1.node i).children = k.roots := by rw [(s2 i).links.2.1, l3]
    rw [hch]
    have hnk : (docIds h2.1 k).Nodup := by rw [docIds_same k s2]; exact nk
    obtain ⟨h3, o3, e3, b1, b2, b3, -⟩ := setupOrderF_forest k h2.1 (some i) (linked_same s2 l4) hnk k.toList.length (Nat.le_refl _) h2.2
    rw [ih1 h2.1 (some i) (linked_same s2 l4) hnk (by omega), e3,
      setupOrderF_mono _ _ _ _ _ e3 (k.toList ++ r.toList).length (by simp)]
    have s3 : ∀ j, SameNode h h3 j := fun j => (s2 j).trans (b3 j)
    have hnr : (docIds h3 r).Nodup := by rw [docIds_same r s3]; exact nr
    obtain ⟨h4, o4, e4, -⟩ := setupOrderF_forest r h3 p (linked_same s3 l5) hnr r.toList.length (Nat.le_refl _) o3
    simp only
    rw [ih2 h3 p (linked_same s3 l5) hnr (by omega), e4, setupOrderF_mono _ _ _ _ _ e4 (k.toList ++ r.toList).length (by simp)]

theorem turns_short (F : Forest NodeId) (h : Heap) (p : Option NodeId) (hl : Linked h p F) (hnd : (docIds h F).Nodup) {n : Nat} (hn : n < nesting F) (o : Int) :
    turnsD (setupOrderD n) F.roots h o = none := by
  induction F generalizing h p n o with
  | nil => exact absurd hn (by simp [nesting])
  | cons i k r ih1 ih2 =>
    obtain ⟨l1, l2, l3, l4, l5⟩ := hl
    simp only [nesting] at hn
    simp only [Forest.roots, turnsD]
    cases n with
    | zero => rfl
    | succ m =>
      simp only [docIds, List.nodup_cons, List.mem_append, not_or, List.nodup_append] at hnd
      obtain ⟨⟨ni1, ni2, ni3⟩, na, ⟨nk, nr, dkr⟩, dak⟩ := hnd
      rw [setupOrderD_step]
      have s1 : ∀ j, SameNode h (h.modify i fun n => { n with order := o + 1 }) j := setOrder_same h i (o + 1)
      have hat : ((h.modify i fun n => { n with order := o + 1 }).node i).attributes = (h.node i).attributes := (s1 i).links.2.2
      rw [hat]
      obtain ⟨a1, a2, a3, a4, a5, a6⟩ := setAttrOrders_spec (h.node i).attributes (h.modify i fun n => { n with order := o + 1 }) (o + 1 + 1) na
      generalize setAttrOrders (h.modify i fun n => { n with order := o + 1 }) (h.node i).attributes (o + 1 + 1) = h2 at a1 a2 a3 a4 a5 a6 ⊢
      have s2 : ∀ j, SameNode h h2.1 j := fun j => (s1 j).trans (a3 j)
      have hch : (h2.1.node i).children = k.roots := by rw [(s2 i).links.2.1, l3]
      have hnk : (docIds h2.1 k).Nodup := by rw [docIds_same k s2]; exact nk
      rw [hch]
      by_cases hk : m < nesting k
      · rw [ih1 h2.1 (some i) (linked_same s2 l4) hnk hk]
      · obtain ⟨h3, o3, e3, b1, b2, b3, -⟩ := setupOrderF_forest k h2.1 (some i) (linked_same s2 l4) hnk k.toList.length (Nat.le_refl _) h2.2
        rw [turns_enough (n := m) k h2.1 (some i) (linked_same s2 l4) hnk (by omega), e3]
        have s3 : ∀ j, SameNode h h3 j := fun j => (s2 j).trans (b3 j)
        exact ih2 h3 p (linked_same s3 l5) (by rw [docIds_same r s3]; exact nr) (by omega) o3

end Depth
open Depth

/-- **C118**: in every well-linked document, and from every node `i` of it with the trees `k` below it: `to_string`, the string value, the descendants and the
order numbers are computed with as many nested calls as nodes are nested below `i`, itself counted, and give then what they give with any number. With
fewer they do not return: where only elements have children, exactly that many are needed. -/
theorem C118_depth (h : Heap) (p : Option NodeId) (i : NodeId) (k : Forest NodeId) (hl : Linked h p (.cons i k .nil)) :
    (∀ n, nesting (.cons i k .nil) ≤ n →
      (∀ indent step fuel, (i :: k.toList).length ≤ fuel → toStringD h step n i indent = toStringF fuel h [i] indent step ∧ toStringF fuel h [i] indent step ≠ none) ∧
      (∀ fuel, (i :: k.toList).length ≤ fuel → stringValueD h n i = some (stringValueF h fuel i) ∧ typedValueD h n i = some (typedValueF h fuel i) ∧
        descendantD h n i = some (descendantF h fuel (h.node i).children))) ∧
    (∀ n, n < nesting (.cons i k .nil) →
      descendantD h n i = none ∧
      ((∀ j ∈ i :: k.toList, (h.node j).children ≠ [] → (h.node j).ntype = .element ∨ (h.node j).ntype = .documentRoot) →
        stringValueD h n i = none ∧ typedValueD h n i = none ∧ ∀ indent step, toStringD h step n i indent = none)) := by
  have le := nesting_le (Forest.cons i k .nil)
  have len : (Forest.cons i k .nil).toList.length = (i :: k.toList).length := by simp [Forest.toList]
  refine ⟨fun n hn => ⟨fun a step fuel hf => ?_, fun fuel hf => ⟨?_, ?_, ?_⟩⟩, fun n hn => ⟨?_, fun hk => ⟨?_, ?_, fun a step => ?_⟩⟩⟩
  · have e := toStringF_full hl step fuel a (by omega)
    simp only [Forest.roots] at e
    rw [e, toStringD_walk, (walk_one hl _).1 hn]
    exact ⟨rfl, by simp⟩
  · rw [stringValueD_walk, (walk_one hl _).1 hn, ← stringValueF_full hl fuel (by omega)]
    simp [Forest.roots]
  · rw [typedValueD_walk, (walk_one hl _).1 hn, ← typedValueF_full hl fuel (by omega)]
    simp [Forest.roots]
  · have := descendantD_walk h n i
    rw [(walk_one hl _).1 hn] at this
    have e := descendantF_full hl (fuel + 1) (by omega)
    simp only [Forest.roots, descendantF] at e
    rw [← e] at this
    cases hd : descendantD h n i with
    | none => rw [hd] at this; cases this
    | some l =>
      rw [hd] at this
      simp only [Option.map_some, Option.some.injEq, List.cons.injEq, true_and] at this
      rw [this]
      simp
  · have := descendantD_walk h n i
    rw [(walk_one hl _).2 (fun _ _ _ => rfl) hn] at this
    simpa using this
  · rw [stringValueD_walk]
    exact (walk_one hl _).2 (fun j hj hc => by unfold nodal; simpa using hk j hj hc) hn
  · rw [typedValueD_walk]
    exact (walk_one hl _).2 (fun j hj hc => by unfold nodal; simpa using hk j hj hc) hn
  · rw [toStringD_walk]
    exact (walk_one hl _).2 (fun j hj hc => by unfold nodal; simpa using hk j hj hc) hn

/-- **C118**, order numbers: they are given with as many nested calls as nodes are nested, and not with fewer. -/
theorem C118_order (h : Heap) (r : NodeId) (F : Forest NodeId) (hd : DocTree h r F) (n : Nat) :
    (nesting (.cons r F .nil) ≤ n → (setupOrderD n h r 1).map (·.1) = setupOrder (r :: F.toList).length h r) ∧
    (n < nesting (.cons r F .nil) → setupOrderD n h r 1 = none) := by
  have one : turnsD (setupOrderD n) [r] h 0 = setupOrderD n h r 1 := by
    simp only [turnsD, show (0 : Int) + 1 = 1 from rfl]
    cases setupOrderD n h r 1 <;> rfl
  refine ⟨fun hn => ?_, fun hn => ?_⟩
  · have := turns_enough (.cons r F .nil) h none hd.linked hd.nodup hn 0
    simp only [Forest.roots, one] at this
    rw [this]
    simp only [Forest.toList, List.append_nil]
    rfl
  · have := turns_short (.cons r F .nil) h none hd.linked hd.nodup hn 0
    simpa only [Forest.roots, one] using this

theorem Depth.nesting_map {α β : Type} (f : α → β) : ∀ F : Forest α, nesting (F.map f) = nesting F
  | .nil => rfl
  | .cons a k r => by simp only [Forest.map, nesting, nesting_map f k, nesting_map f r]

theorem Depth.toList_docIds (h : Heap) : ∀ F : Forest NodeId, F.toList.length ≤ (docIds h F).length
  | .nil => Nat.le_refl _
  | .cons i k r => by
    have h1 := toList_docIds h k
    have h2 := toList_docIds h r
    simp only [Forest.toList, docIds, List.length_cons, List.length_append]
    omega

/-- **C118**: with one nested call per character of the text, and one more, the document read from it is written and all its strings, descendants and orders are found. -/
theorem C118_text (h : Heap) (hw : HeapWF h) (xml : Str) (h0 : '\x00' ∉ xml) (h' : Heap) (r : NodeId) (hd : newDocument h xml = some (.ok (h', r))) :
    ∃ F, ParsedDoc h' r F ∧ nesting (.cons r F .nil) ≤ xml.length + 1 := by
  obtain ⟨F, h1, h2, -⟩ := C114_no_larger h hw xml h0 h' r hd
  refine ⟨F, h1, ?_⟩
  have a := nesting_le F
  have b := Depth.toList_docIds h' F
  simp only [nesting]
  omega

/-- An empty element `a` in `d` elements `a`, as text. -/
def Spec.nestedText : Nat → Str
  | 0 => S "<a/>"
  | d + 1 => S "<a>" ++ nestedText d ++ S "</a>"

namespace Depth

def nested : Nat → Forest Content
  | 0 => .cons ⟨.element, S "a", [], []⟩ .nil .nil
  | d + 1 => .cons ⟨.element, S "a", [], []⟩ (nested d) .nil

theorem nested_roots (d : Nat) : (nested d).roots = [⟨.element, S "a", [], []⟩] := by cases d <;> rfl

theorem nested_str (d : Nat) : strOf (nested d) = nestedText d := by
  induction d with
  | zero => decide
  | succ d ih => simp only [nested, strOf, nested_roots, ih, nestedText]; simp [attrsStr, S]

theorem nested_joined (d : Nat) : joinTexts [] (nested d) = nested d := by
  induction d with
  | zero => rfl
  | succ d ih => simp only [nested, joinTexts, ih]; rfl

theorem nested_writable (d : Nat) : WritableForest (nested d) := by
  have one : Content.Writable ⟨.element, S "a", [], []⟩ := ⟨⟨'a', [], rfl, by decide +kernel, by simp⟩, rfl, fun a ha => by cases ha⟩
  induction d with
  | zero => exact ⟨one, fun _ => rfl, trivial, trivial⟩
  | succ d ih => exact ⟨one, fun h => absurd rfl h, ih, trivial⟩

theorem nested_nesting (d : Nat) : nesting (nested d) = d + 1 := by
  induction d with
  | zero => rfl
  | succ d ih => simp only [nested, nesting, ih]; omega

theorem nestedText_length (d : Nat) : (nestedText d).length = 7 * d + 4 := by
  induction d with
  | zero => rfl
  | succ d ih => simp only [nestedText, List.length_append, ih]; simp [S]; omega

end Depth

/-- **C118**: no depth is enough for all documents. With at most `d + 1` nested calls, the document of `7d + 4` characters whose elements are nested `d + 1` deep is
read, but neither written, nor given a string value, nor searched, nor numbered. -/
theorem C118_unbounded (h : Heap) (hw : HeapWF h) (d : Nat) :
    (nestedText d).length = 7 * d + 4 ∧
    ∃ h' r, newDocument h (nestedText d) = some (.ok (h', r)) ∧ ∀ n, n ≤ d + 1 →
      stringValueD h' n r = none ∧ typedValueD h' n r = none ∧ descendantD h' n r = none ∧ setupOrderD n h' r 1 = none ∧
      ∀ indent step, toStringD h' step n r indent = none := by
  obtain ⟨h', F, h1, h2, h3, -⟩ := newDocument_strOf h hw (nested d) (nested_writable d)
  rw [nested_str] at h1
  rw [nested_joined] at h3
  have hF : nesting F = d + 1 := by rw [← nesting_map (contentOf h'), h3, nested_nesting]
  refine ⟨nestedText_length d, h', _, h1, fun n hn => ?_⟩
  have hlt : n < nesting (.cons h.size F .nil) := by simp only [nesting, hF]; omega
  obtain ⟨a1, a2⟩ := (C118_depth h' none h.size F h2.linked).2 n hlt
  obtain ⟨b1, b2, b3⟩ := a2 (fun j hj hc => by
    rcases List.mem_cons.1 hj with rfl | hj
    · exact .inr h2.root_type
    · by_cases he : (h'.node j).ntype = .element
      · exact .inl he
      · exact absurd ((h2.typed j hj).leaf he).1 hc)
  exact ⟨b1, b2, a1, (C118_order h' _ F h2.toDocTree n).2 hlt, b3⟩

/-- `<a x="1" y="2"><b/><c/></a>`: three nested nodes, so three nested calls, and not two. -/
example : toStringD editSample 0 3 0 0 = some (S "<a x=\"1\" y=\"2\"><b/><c/></a>") ∧ toStringD editSample 0 2 0 0 = none ∧ descendantD editSample 3 0 = some [1, 4, 5] ∧
    descendantD editSample 2 0 = none ∧ nesting (.cons 0 (.cons 1 (.cons 4 .nil (.cons 5 .nil .nil)) .nil) .nil) = 3 ∧
    Linked editSample none (.cons 0 (.cons 1 (.cons 4 .nil (.cons 5 .nil .nil)) .nil) .nil) := by
  refine ⟨by decide, by decide, by decide, by decide, by decide, editSample_doc.linked⟩

example : nestedText 2 = S "<a><a><a/></a></a>" := by decide

end Amxml
