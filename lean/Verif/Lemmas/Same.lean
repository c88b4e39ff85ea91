import Verif.Spec.Same
import Verif.Model.Eval
import Verif.Model.Display

/-!
# Evaluation does not depend on the identity of nodes

`Iso h h' R`: the relation `R` between the nodes of two heaps respects everything the evaluator reads. Then every function of the evaluator maps
related arguments to related results.
-/

namespace Amxml
open Spec
open List (Forall₂)

/-- What the evaluator reads of the documents agrees along `R`. -/
structure Iso (h h' : Heap) (R : NodeId → NodeId → Prop) : Prop where
  inj : ∀ {i j i' j'}, R i j → R i' j' → (i = i' ↔ j = j')
  ntype : ∀ {i j}, R i j → (h.node i).ntype = (h'.node j).ntype
  name : ∀ {i j}, R i j → (h.node i).name = (h'.node j).name
  value : ∀ {i j}, R i j → (h.node i).value = (h'.node j).value
  parent : ∀ {i j}, R i j → Option.Rel R (h.node i).parent (h'.node j).parent
  children : ∀ {i j}, R i j → Forall₂ R (h.node i).children (h'.node j).children
  attributes : ∀ {i j}, R i j → Forall₂ R (h.node i).attributes (h'.node j).attributes
  text : ∀ {i j}, R i j → stringValue h i = stringValue h' j
  typed : ∀ {i j}, R i j → typedValue h i = typedValue h' j
  order : ∀ {i j i' j'}, R i j → R i' j' → (orderOf h i ≤ orderOf h i' ↔ orderOf h' j ≤ orderOf h' j')
  root : ∀ {i j}, R i j → R (h.root i) (h'.root j)
  ancestor : ∀ {i j}, R i j → Forall₂ R (arrayAncestor h i) (arrayAncestor h' j)
  descendant : ∀ {i j}, R i j → Forall₂ R (arrayDescendant h i) (arrayDescendant h' j)
  attr : ∀ {i j}, R i j → ∀ n, h.attributeValue i n = h'.attributeValue j n
  uri : ∀ {i j}, R i j → h.namespaceUri i = h'.namespaceUri j

/-! ## outcomes -/

theorem Spec.SameOutcome.bind {α β γ δ : Type} {P : α → β → Prop} {Q : γ → δ → Prop} {x : Except XErr α} {y : Except XErr β}
    {f : α → Except XErr γ} {g : β → Except XErr δ} (hx : SameOutcome P x y) (hf : ∀ a b, P a b → SameOutcome Q (f a) (g b)) :
    SameOutcome Q (x.bind f) (y.bind g) := by
  cases hx with
  | ok h => exact hf _ _ h
  | error e => exact .error e

theorem Spec.SameOutcome.map {α β γ δ : Type} {P : α → β → Prop} {Q : γ → δ → Prop} {x : Except XErr α} {y : Except XErr β}
    {f : α → γ} {g : β → δ} (hx : SameOutcome P x y) (hf : ∀ a b, P a b → Q (f a) (g b)) :
    SameOutcome Q (x.map f) (y.map g) := by
  cases hx with
  | ok h => exact .ok (hf _ _ h)
  | error e => exact .error e

theorem same_eq {α : Type} (x : Except XErr α) : SameOutcome Eq x x := by
  cases x with
  | ok a => exact .ok rfl
  | error e => exact .error e

theorem Spec.SameOutcome.eq {α : Type} {x y : Except XErr α} (h : SameOutcome Eq x y) : x = y := by
  cases h with
  | ok h => rw [h]
  | error e => rfl

theorem same_of_eq {α : Type} {x y : Except XErr α} (h : x = y) : SameOutcome Eq x y := h ▸ same_eq x

theorem same_if {α β : Type} {P : α → β → Prop} {c c' : Prop} [Decidable c] [Decidable c'] {x y : Except XErr α} {x' y' : Except XErr β} (hc : c ↔ c')
    (h1 : SameOutcome P x x') (h2 : SameOutcome P y y') : SameOutcome P (if c then x else y) (if c' then x' else y') := by
  by_cases h : c
  · rw [if_pos h, if_pos (hc.1 h)]; exact h1
  · rw [if_neg h, if_neg (mt hc.2 h)]; exact h2

section
variable {h h' : Heap} {R : NodeId → NodeId → Prop}

/-! ## items -/

theorem Spec.SameItem.xsType {x y} (hx : SameItem R x y) : x.xsType = y.xsType := by cases hx <;> rfl
theorem Spec.SameItem.isItem {x y} (hx : SameItem R x y) : x.isItem = y.isItem := by cases hx <;> rfl
theorem Spec.SameItem.isNumeric {x y} (hx : SameItem R x y) : x.isNumeric = y.isNumeric := by cases hx <;> rfl
theorem Spec.SameItem.isFunctionItem {x y} (hx : SameItem R x y) : isFunctionItem x = isFunctionItem y := by cases hx <;> rfl
theorem Spec.SameItem.asNode {x y} (hx : SameItem R x y) : Option.Rel R x.asNode y.asNode := by
  cases hx <;> first | exact .none | exact .some ‹_›
theorem Spec.SameItem.atomize (I : Iso h h' R) {x y} (hx : SameItem R x y) : SameItem R (x.atomize h) (y.atomize h') := by
  cases hx with
  | node hr => show SameItem R (.string _) (.string _); rw [I.typed hr]; constructor
  | map hm => exact .map hm
  | array hm => exact .array hm
  | _ => constructor
theorem Spec.SameItem.rawString (I : Iso h h' R) {x y} (hx : SameItem R x y) : x.rawString h = y.rawString h' := by
  cases hx <;> first | rfl | (rename_i hr; simp only [XItem.rawString, I.text hr])
theorem Spec.SameItem.rawDouble (I : Iso h h' R) {x y} (hx : SameItem R x y) : x.rawDouble h = y.rawDouble h' := by
  cases hx <;> first | rfl | (rename_i hr; simp only [XItem.rawDouble, I.text hr])
theorem Spec.SameItem.rawInteger (I : Iso h h' R) {x y} (hx : SameItem R x y) : x.rawInteger h = y.rawInteger h' := by
  cases hx <;> first | rfl | (rename_i hr; simp only [XItem.rawInteger, I.text hr])
theorem Spec.SameItem.rawBoolean (I : Iso h h' R) {x y} (hx : SameItem R x y) : x.rawBoolean h = y.rawBoolean h' := by
  cases hx <;> first | rfl | (rename_i hr; simp only [XItem.rawBoolean, I.text hr])
theorem Spec.SameItem.sameKey (I : Iso h h' R) {x y} (hx : SameItem R x y) {k l} (hk : SameItem R k l) : x.sameKey h k = y.sameKey h' l := by
  simp only [XItem.sameKey, hx.rawString I, hk.rawString I]

/-- Values without nodes, maps and arrays. -/
def XItem.simple : XItem → Bool
  | .map _ | .array _ | .node _ => false
  | _ => true

theorem same_simple {x : XItem} (hx : x.simple = true) : SameItem R x x := by
  cases x <;> first | cases hx; done | constructor

theorem castErr_same {x : Except XErr XItem} (hx : ∀ a, x = .ok a → a.simple = true) : SameOutcome (SameItem R) (XItem.castErr x) (XItem.castErr x) := by
  cases x with
  | ok a => exact .ok (same_simple (hx a rfl))
  | error e => exact .error _

theorem map_simple {α : Type} {x : Except XErr α} {f : α → XItem} (hf : ∀ a, (f a).simple = true) : ∀ a, x.map f = .ok a → a.simple = true := by
  intro a ha
  cases x with
  | ok b => cases ha; exact hf b
  | error e => cases ha

theorem Spec.SameItem.castAs (I : Iso h h' R) {x y} (hx : SameItem R x y) (t : Str) : SameOutcome (SameItem R) (x.castAs h t) (y.castAs h' t) := by
  unfold XItem.castAs
  rw [hx.rawString I, hx.rawDouble I, hx.rawInteger I, hx.rawBoolean I]
  repeat' split
  all_goals first | exact .error _ | exact castErr_same (map_simple fun _ => rfl)

theorem Spec.SameItem.castableAs (I : Iso h h' R) {x y} (hx : SameItem R x y) (t : Str) : x.castableAs h t = y.castableAs h' t := by
  have := hx.castAs I t
  unfold XItem.castableAs
  revert this
  generalize x.castAs h t = a
  generalize y.castAs h' t = b
  intro this
  cases this <;> rfl

/-! ## maps and arrays -/

theorem mapGet_same (I : Iso h h' R) {m m'} (hm : Forall₂ (Both (SameItem R) (SameSeq R)) m m') {k l} (hk : SameItem R k l) :
    Option.Rel (SameSeq R) (mapGet h m k) (mapGet h' m' l) := by
  unfold mapGet
  induction hm with
  | nil => exact .none
  | cons he _ ih =>
    cases he with
    | mk h1 h2 =>
      simp only [List.find?_cons, h1.sameKey I hk]
      split
      · exact .some h2
      · exact ih

theorem mapContains_same (I : Iso h h' R) {m m'} (hm : Forall₂ (Both (SameItem R) (SameSeq R)) m m') {k l} (hk : SameItem R k l) :
    mapContains h m k = mapContains h' m' l := by
  unfold mapContains
  induction hm with
  | nil => rfl
  | cons he _ ih =>
    cases he with
    | mk h1 h2 => simp only [List.any_cons, h1.sameKey I hk, ih]

theorem getElem?_same {α β : Type} {P : α → β → Prop} {l l'} (hl : Forall₂ P l l') : ∀ n : Nat, Option.Rel P l[n]? l'[n]? := by
  induction hl with
  | nil => intro n; simp
  | cons h1 _ ih =>
    intro n
    cases n with
    | zero => simpa using Option.Rel.some h1
    | succ n => simpa using ih n

theorem getD_same {α β : Type} {P : α → β → Prop} {a : Option α} {b : Option β} (hab : Option.Rel P a b) {x y} (hxy : P x y) : P (a.getD x) (b.getD y) := by
  cases hab with
  | some h => exact h
  | none => exact hxy

theorem arrayGet_same (I : Iso h h' R) {a a'} (ha : Forall₂ (SameSeq R) a a') {k l} (hk : SameItem R k l) :
    Option.Rel (SameSeq R) (arrayGet h a k) (arrayGet h' a' l) := by
  unfold arrayGet
  rw [hk.rawInteger I, ha.length_eq]
  split
  · split
    · exact getElem?_same ha _
    · exact .none
  · exact .none

theorem Forall₂.append {α β : Type} {P : α → β → Prop} {a b c d} (h1 : Forall₂ P a b) (h2 : Forall₂ P c d) : Forall₂ P (a ++ c) (b ++ d) :=
  List.rel_append h1 h2

mutual
theorem flattenArray_same : ∀ {a a'}, Forall₂ (SameSeq R) a a' → SameSeq R (flattenArray a) (flattenArray a')
  | [], [], _ => by rw [flattenArray]; exact .nil
  | s :: r, s' :: r', hm => by
    rw [flattenArray, flattenArray]
    cases hm with
    | cons h1 h2 => exact Forall₂.append (flattenSeq_same h1) (flattenArray_same h2)
theorem flattenSeq_same : ∀ {a a'}, SameSeq R a a' → SameSeq R (flattenSeq a) (flattenSeq a')
  | [], [], _ => by rw [flattenSeq]; exact .nil
  | s :: r, s' :: r', hm => by
    rw [flattenSeq, flattenSeq]
    cases hm with
    | cons h1 h2 => exact Forall₂.append (flattenItem_same h1) (flattenSeq_same h2)
theorem flattenItem_same : ∀ {x y}, SameItem R x y → SameSeq R (flattenItem x) (flattenItem y)
  | .array a, y, hx => by
    cases hx with
    | array ha => rw [flattenItem, flattenItem]; exact flattenArray_same ha
  | .fn _, y, hx => by cases hx; exact .cons (.fn _) .nil
  | .map _, y, hx => by cases hx with | map hm => exact .cons (.map hm) .nil
  | .node _, y, hx => by cases hx with | node hm => exact .cons (.node hm) .nil
  | .string _, y, hx => by cases hx; exact .cons (.string _) .nil
  | .integer _, y, hx => by cases hx; exact .cons (.integer _) .nil
  | .decimal _, y, hx => by cases hx; exact .cons (.decimal _) .nil
  | .double _, y, hx => by cases hx; exact .cons (.double _) .nil
  | .boolean _, y, hx => by cases hx; exact .cons (.boolean _) .nil
end

/-! ## numbers -/

theorem xitemCompare_same {x y u v} (hx : SameItem R x y) (hu : SameItem R u v) : xitemCompare x u = xitemCompare y v := by
  cases hx <;> cases hu <;> rfl
theorem numCmp_same (f g) {x y u v} (hx : SameItem R x y) (hu : SameItem R u v) : numCmp f g x u = numCmp f g y v := by
  cases hx <;> cases hu <;> rfl
theorem boolCmp_same (f) {x y u v} (hx : SameItem R x y) (hu : SameItem R u v) : boolCmp f x u = boolCmp f y v := by
  cases hx <;> cases hu <;> rfl
theorem numOp_same (f g) {x y u v} (hx : SameItem R x y) (hu : SameItem R u v) : numOp f g x u = numOp f g y v := by
  cases hx <;> cases hu <;> rfl
theorem numDiv_same {x y u v} (hx : SameItem R x y) (hu : SameItem R u v) : numDiv x u = numDiv y v := by
  cases hx <;> cases hu <;> rfl
theorem numIDiv_same {x y u v} (hx : SameItem R x y) (hu : SameItem R u v) : numIDiv x u = numIDiv y v := by
  cases hx <;> cases hu <;> rfl
theorem numMod_same {x y u v} (hx : SameItem R x y) (hu : SameItem R u v) : numMod x u = numMod y v := by
  cases hx <;> cases hu <;> rfl
theorem numUPlus_same {x y} (hx : SameItem R x y) : numUPlus x = numUPlus y := by
  cases hx <;> rfl
theorem numUMinus_same {x y} (hx : SameItem R x y) : numUMinus x = numUMinus y := by
  cases hx <;> rfl

theorem same_of_simple {x y : Except XErr XItem} (e : x = y) (hs : ∀ a, x = .ok a → a.simple = true) : SameOutcome (SameItem R) x y := by
  subst e
  cases x with
  | ok a => exact .ok (same_simple (hs a rfl))
  | error e => exact .error e

theorem numOp_simple (f g) (x y : XItem) : ∀ a, numOp f g x y = .ok a → a.simple = true := by
  intro a ha
  unfold numOp at ha
  split at ha
  · exact map_simple (fun _ => rfl) a ha
  all_goals first | (cases ha; done) | (cases ha; rfl)

theorem numDiv_simple (x y : XItem) : ∀ a, numDiv x y = .ok a → a.simple = true := by
  intro a ha
  unfold numDiv at ha
  split at ha
  · split at ha
    · cases ha
    · exact numOp_simple _ _ _ _ a ha
  · split at ha
    · cases ha
    · exact numOp_simple _ _ _ _ a ha
  · exact numOp_simple _ _ _ _ a ha
  · cases ha

theorem numIDiv_simple (x y : XItem) : ∀ a, numIDiv x y = .ok a → a.simple = true := by
  intro a ha
  unfold numIDiv at ha
  revert ha
  simp only
  generalize ((match x with | .double d => d.isNan || !d.isFinite | _ => false) || (match y with | .double d => d.isNan | _ => false) : Bool) = bad
  intro ha
  cases bad with
  | true => cases ha
  | false =>
    by_cases hc : idivOperand y ≠ 0
    · rw [if_neg (by decide), if_pos hc] at ha; exact map_simple (fun _ => rfl) a ha
    · rw [if_neg (by decide), if_neg hc] at ha; cases ha

theorem numMod_simple (x y : XItem) : ∀ a, numMod x y = .ok a → a.simple = true := by
  intro a ha
  unfold numMod at ha
  split at ha
  · cases ha
  · exact numOp_simple _ _ _ _ a ha

theorem numUPlus_simple (x : XItem) : ∀ a, numUPlus x = .ok a → a.simple = true := by
  intro a ha
  cases x <;> cases ha <;> rfl

theorem numUMinus_simple (x : XItem) : ∀ a, numUMinus x = .ok a → a.simple = true := by
  intro a ha
  unfold numUMinus at ha
  split at ha
  · exact map_simple (fun _ => rfl) a ha
  all_goals first | (cases ha; done) | (cases ha; rfl)

/-! ## sequences -/

theorem oneOf {x y : XItem} (hx : SameItem R x y) : SameSeq R [x] [y] := .cons hx .nil

theorem item1_same {s t} (hs : SameSeq R s t) : SameOutcome (SameItem R) (XSeq.item1 s) (XSeq.item1 t) := by
  cases hs with
  | nil => exact .error _
  | cons h1 h2 =>
    cases h2 with
    | nil => exact .ok h1
    | cons _ _ => exact .error _

theorem fn1_same {s t} (hs : SameSeq R s t) : SameOutcome Eq (XSeq.fn1 s) (XSeq.fn1 t) := by
  cases hs with
  | nil => exact .error _
  | cons h1 h2 =>
    cases h2 with
    | nil => cases h1 <;> first | exact .error _ | exact .ok rfl
    | cons _ _ => cases h1 <;> exact .error _

theorem node1_same {s t} (hs : SameSeq R s t) : SameOutcome R (XSeq.node1 s) (XSeq.node1 t) := by
  cases hs with
  | nil => exact .error _
  | cons h1 h2 =>
    cases h2 with
    | nil => cases h1 <;> first | exact .error _ | exact .ok ‹_›
    | cons _ _ => cases h1 <;> exact .error _

theorem map1_same {s t} (hs : SameSeq R s t) : SameOutcome (Forall₂ (Both (SameItem R) (SameSeq R))) (XSeq.map1 s) (XSeq.map1 t) := by
  cases hs with
  | nil => exact .error _
  | cons h1 h2 =>
    cases h2 with
    | nil => cases h1 <;> first | exact .error _ | exact .ok ‹_›
    | cons _ _ => cases h1 <;> exact .error _

theorem array1_same {s t} (hs : SameSeq R s t) : SameOutcome (Forall₂ (SameSeq R)) (XSeq.array1 s) (XSeq.array1 t) := by
  cases hs with
  | nil => exact .error _
  | cons h1 h2 =>
    cases h2 with
    | nil => cases h1 <;> first | exact .error _ | exact .ok ‹_›
    | cons _ _ => cases h1 <;> exact .error _

theorem string1_same {s t} (hs : SameSeq R s t) : XSeq.string1 s = XSeq.string1 t := by
  cases hs with
  | nil => rfl
  | cons h1 h2 =>
    cases h2 with
    | nil => cases h1 <;> rfl
    | cons _ _ => cases h1 <;> rfl

theorem integer1_same {s t} (hs : SameSeq R s t) : XSeq.integer1 s = XSeq.integer1 t := by
  cases hs with
  | nil => rfl
  | cons h1 h2 =>
    cases h2 with
    | nil => cases h1 <;> rfl
    | cons _ _ => cases h1 <;> rfl

theorem boolean1_same {s t} (hs : SameSeq R s t) : XSeq.boolean1 s = XSeq.boolean1 t := by
  cases hs with
  | nil => rfl
  | cons h1 h2 =>
    cases h2 with
    | nil => cases h1 <;> rfl
    | cons _ _ => cases h1 <;> rfl

theorem ebv_same {s t} (hs : SameSeq R s t) : XSeq.ebv s = XSeq.ebv t := by
  cases hs with
  | nil => rfl
  | cons h1 h2 =>
    cases h2 with
    | nil => cases h1 <;> rfl
    | cons _ _ => cases h1 <;> rfl

theorem keeps_same (p : Nat) {s t} (hs : SameSeq R s t) : keeps p s = keeps p t := by
  cases hs with
  | nil => rfl
  | cons h1 h2 =>
    cases h2 with
    | nil => cases h1 <;> rfl
    | cons _ _ => cases h1 <;> rfl

theorem isEmpty_same {α β : Type} {P : α → β → Prop} {s t} (hs : Forall₂ P s t) : s.isEmpty = t.isEmpty := by
  cases hs <;> rfl

theorem atomize_same (I : Iso h h' R) {s t} (hs : SameSeq R s t) : SameSeq R (XSeq.atomize h s) (XSeq.atomize h' t) :=
  List.rel_map (fun _ _ hx => hx.atomize I) hs

theorem all_same {α β : Type} {P : α → β → Prop} {s t} (hs : Forall₂ P s t) {f : α → Bool} {g : β → Bool} (hf : ∀ a b, P a b → f a = g b) : s.all f = t.all g := by
  induction hs with
  | nil => rfl
  | cons h1 _ ih => simp only [List.all_cons, hf _ _ h1, ih]

theorem any_same {α β : Type} {P : α → β → Prop} {s t} (hs : Forall₂ P s t) {f : α → Bool} {g : β → Bool} (hf : ∀ a b, P a b → f a = g b) : s.any f = t.any g := by
  induction hs with
  | nil => rfl
  | cons h1 _ ih => simp only [List.any_cons, hf _ _ h1, ih]

theorem isNoAtom_same {s t} (hs : SameSeq R s t) : XSeq.isNoAtom s = XSeq.isNoAtom t :=
  all_same hs fun x y hx => by cases hx <;> rfl

theorem toNodeset_same {s t} (hs : SameSeq R s t) : Forall₂ R (XSeq.toNodeset s) (XSeq.toNodeset t) :=
  List.rel_filterMap (fun _ _ hx => hx.asNode) hs

theorem ofNodes_same {l m} (hl : Forall₂ R l m) : SameSeq R (XSeq.ofNodes l) (XSeq.ofNodes m) :=
  List.rel_map (fun _ _ hx => .node hx) hl

theorem castableAs_same (I : Iso h h' R) {s t} (hs : SameSeq R s t) (n : Str) : XSeq.castableAs h s n = XSeq.castableAs h' t n := by
  cases hs with
  | nil => rfl
  | cons h1 h2 =>
    cases h2 with
    | nil => exact h1.castableAs I _
    | cons _ _ => rfl

theorem castAs_same (I : Iso h h' R) {s t} (hs : SameSeq R s t) (n : Str) : SameOutcome (SameSeq R) (XSeq.castAs h s n) (XSeq.castAs h' t n) := by
  cases hs with
  | nil =>
    show SameOutcome _ (if _ then _ else _) (if _ then _ else _)
    exact same_if Iff.rfl (.ok .nil) (.error _)
  | cons h1 h2 =>
    cases h2 with
    | nil =>
      have := (h1.atomize I).castAs I (XSeq.trimQ n)
      revert this
      simp only [XSeq.castAs]
      generalize XItem.castAs h _ _ = a
      generalize XItem.castAs h' _ _ = b
      intro this
      cases this with
      | ok h => exact .ok (oneOf h)
      | error e => exact .error _
    | cons _ _ => exact .error _

theorem xbool_same (b : Bool) : SameSeq R (xbool b) (xbool b) := oneOf (.boolean b)

theorem same_bools {x y : Except XErr Bool} (e : x = y) (f : Bool → Bool) : SameOutcome (SameSeq R) (x.map fun b => xbool (f b)) (y.map fun b => xbool (f b)) := by
  subst e; exact (same_eq x).map fun a b hab => hab ▸ xbool_same _

theorem fnCompare_same {a b a' b'} (ha : SameSeq R a a') (hb : SameSeq R b b') : SameOutcome (SameSeq R) (fnCompare a b) (fnCompare a' b') := by
  unfold fnCompare
  rw [isEmpty_same ha, isEmpty_same hb, string1_same ha, string1_same hb]
  split
  · exact .ok .nil
  · refine (same_eq _).bind fun s s' e => ?_
    subst e
    refine (same_eq _).bind fun t t' e => ?_
    subst e
    exact .ok (oneOf (.integer _))

theorem fnNot_same {a a'} (ha : SameSeq R a a') : SameOutcome (SameSeq R) (fnNot a) (fnNot a') := same_bools (ebv_same ha) _

theorem opNumeric_same {f : XItem → XItem → Except XErr XItem} (hf : ∀ {x y u v}, SameItem R x y → SameItem R u v → f x u = f y v)
    (hs : ∀ x y a, f x y = .ok a → a.simple = true) {a b a' b'} (ha : SameSeq R a a') (hb : SameSeq R b b') :
    SameOutcome (SameSeq R) (opNumeric f a b) (opNumeric f a' b') :=
  (item1_same ha).bind fun _ _ hx => (item1_same hb).bind fun _ _ hy =>
    (same_of_simple (hf hx hy) (hs _ _)).map fun _ _ hr => oneOf hr

theorem opUnary_same {f : XItem → Except XErr XItem} (hf : ∀ {x y}, SameItem R x y → f x = f y)
    (hs : ∀ x a, f x = .ok a → a.simple = true) {a a'} (ha : SameSeq R a a') :
    SameOutcome (SameSeq R) (opUnary f a) (opUnary f a') :=
  (item1_same ha).bind fun _ _ hx => (same_of_simple (hf hx) (hs _)).map fun _ _ hr => oneOf hr

theorem opNumCmp_same (f g) {a b a' b'} (ha : SameSeq R a a') (hb : SameSeq R b b') :
    SameOutcome (SameSeq R) (opNumCmp (numCmp f g) a b) (opNumCmp (numCmp f g) a' b') :=
  (item1_same ha).bind fun _ _ hx => (item1_same hb).bind fun _ _ hy => same_bools (numCmp_same f g hx hy) id

theorem opBool_same (f) {a b a' b'} (ha : SameSeq R a a') (hb : SameSeq R b b') :
    SameOutcome (SameSeq R) (opBool f a b) (opBool f a' b') := by
  unfold opBool
  rw [boolean1_same ha, boolean1_same hb]
  exact (same_eq _).bind fun x y e => (same_eq _).map fun u v e' => e ▸ e' ▸ xbool_same _

theorem valueComparison_same (I : Iso h h' R) {num bool : XSeq → XSeq → Except XErr XSeq} (str)
    (hn : ∀ {a b a' b'}, SameSeq R a a' → SameSeq R b b' → SameOutcome (SameSeq R) (num a b) (num a' b'))
    (hb : ∀ {a b a' b'}, SameSeq R a a' → SameSeq R b b' → SameOutcome (SameSeq R) (bool a b) (bool a' b'))
    {a b a' b'} (ha : SameSeq R a a') (hc : SameSeq R b b') :
    SameOutcome (SameSeq R) (valueComparison h num str bool a b) (valueComparison h' num str bool a' b') := by
  unfold valueComparison
  rw [isEmpty_same ha, isEmpty_same hc, ha.length_eq, hc.length_eq]
  split
  · exact .ok .nil
  split
  · exact .error _
  have h1 := hn (atomize_same I ha) (atomize_same I hc)
  have h2 := fnCompare_same (atomize_same I ha) (atomize_same I hc)
  have h3 := hb (atomize_same I ha) (atomize_same I hc)
  revert h1 h2 h3
  simp only
  generalize num _ _ = n1
  generalize num _ _ = n2
  generalize fnCompare _ _ = c1
  generalize fnCompare _ _ = c2
  generalize bool _ _ = b1
  generalize bool _ _ = b2
  intro h1 h2 h3
  cases h1 with
  | ok h => exact .ok h
  | error e =>
    cases h2 with
    | ok h =>
      simp only
      rw [integer1_same h]
      exact (same_eq _).map fun _ _ e => e ▸ xbool_same _
    | error e =>
      cases h3 with
      | ok h => exact .ok h
      | error e => exact .error _

theorem valueEq_same (I : Iso h h' R) {a b a' b'} (ha : SameSeq R a a') (hb : SameSeq R b b') : SameOutcome (SameSeq R) (valueEq h a b) (valueEq h' a' b') :=
  valueComparison_same I _ (opNumCmp_same _ _) (opBool_same _) ha hb
theorem valueLt_same (I : Iso h h' R) {a b a' b'} (ha : SameSeq R a a') (hb : SameSeq R b b') : SameOutcome (SameSeq R) (valueLt h a b) (valueLt h' a' b') :=
  valueComparison_same I _ (opNumCmp_same _ _) (opBool_same _) ha hb
theorem valueGt_same (I : Iso h h' R) {a b a' b'} (ha : SameSeq R a a') (hb : SameSeq R b b') : SameOutcome (SameSeq R) (valueGt h a b) (valueGt h' a' b') :=
  valueComparison_same I _ (opNumCmp_same _ _) (opBool_same _) ha hb
theorem valueNe_same (I : Iso h h' R) {a b a' b'} (ha : SameSeq R a a') (hb : SameSeq R b b') : SameOutcome (SameSeq R) (valueNe h a b) (valueNe h' a' b') :=
  (valueEq_same I ha hb).bind fun _ _ h => fnNot_same h
theorem valueLe_same (I : Iso h h' R) {a b a' b'} (ha : SameSeq R a a') (hb : SameSeq R b b') : SameOutcome (SameSeq R) (valueLe h a b) (valueLe h' a' b') :=
  (valueGt_same I ha hb).bind fun _ _ h => fnNot_same h
theorem valueGe_same (I : Iso h h' R) {a b a' b'} (ha : SameSeq R a a') (hb : SameSeq R b b') : SameOutcome (SameSeq R) (valueGe h a b) (valueGe h' a' b') :=
  (valueLt_same I ha hb).bind fun _ _ h => fnNot_same h

theorem generalComparison_same (I : Iso h h' R) {num bool : XItem → XItem → Except XErr Bool} (str)
    (hn : ∀ {x y u v}, SameItem R x y → SameItem R u v → num x u = num y v)
    (hb : ∀ {x y u v}, SameItem R x y → SameItem R u v → bool x u = bool y v)
    {a b a' b'} (ha : SameSeq R a a') (hc : SameSeq R b b') :
    SameOutcome (SameSeq R) (generalComparison h num str bool a b) (generalComparison h' num str bool a' b') := by
  unfold generalComparison
  rw [any_same (atomize_same I ha) fun x y hx => any_same (atomize_same I hc) fun u v hu => ?_]
  · exact .ok (xbool_same _)
  · simp only [pairHolds, hn hx hu, hb hx hu, xitemCompare_same hx hu]

theorem negCmp_same {f : XItem → XItem → Except XErr Bool} (hf : ∀ {x y u v}, SameItem R x y → SameItem R u v → f x u = f y v) {x y u v}
    (hx : SameItem R x y) (hu : SameItem R u v) : negCmp f x u = negCmp f y v := by
  unfold negCmp; rw [hf hx hu]

/-! ## document order -/

theorem insertByOrder_same (I : Iso h h' R) {i j} (hi : R i j) {l m} (hl : Forall₂ R l m) : Forall₂ R (insertByOrder h i l) (insertByOrder h' j m) := by
  induction hl with
  | nil => exact .cons hi .nil
  | cons h1 h2 ih =>
    simp only [insertByOrder]
    rename_i a b _ _
    by_cases hc : orderOf h a ≤ orderOf h i
    · rw [if_pos hc, if_pos ((I.order h1 hi).1 hc)]; exact .cons h1 ih
    · rw [if_neg hc, if_neg (mt (I.order h1 hi).2 hc)]; exact .cons hi (.cons h1 h2)

theorem sortByOrder_same (I : Iso h h' R) {l m} (hl : Forall₂ R l m) : Forall₂ R (sortByOrder h l) (sortByOrder h' m) :=
  List.rel_foldl (P := Forall₂ R) (R := R) (fun _ _ ha _ _ hb => insertByOrder_same I hb ha) .nil hl

theorem dedupe_same (I : Iso h h' R) {l m} (hl : Forall₂ R l m) : Forall₂ R (dedupe l) (dedupe m) := by
  induction hl with
  | nil => exact .nil
  | cons h1 h2 ih =>
    simp only [dedupe]
    revert ih
    generalize dedupe _ = a
    generalize dedupe _ = b
    intro ih
    cases ih with
    | nil => exact .cons h1 .nil
    | cons g1 g2 =>
      simp only
      rename_i x y _ _ u v _ _
      by_cases hc : x = u
      · rw [if_pos hc, if_pos ((I.inj h1 g1).1 hc)]; exact .cons h1 g2
      · rw [if_neg hc, if_neg (mt (I.inj h1 g1).2 hc)]; exact .cons h1 (.cons g1 g2)

theorem sortByDocOrder_same (I : Iso h h' R) {l m} (hl : Forall₂ R l m) : Forall₂ R (sortByDocOrder h l) (sortByDocOrder h' m) := by
  unfold sortByDocOrder
  rw [hl.length_eq]
  split
  · exact hl
  · exact dedupe_same I (sortByOrder_same I hl)

theorem contains_same (I : Iso h h' R) {l m} (hl : Forall₂ R l m) {i j} (hi : R i j) : l.contains i = m.contains j := by
  induction hl with
  | nil => rfl
  | cons h1 h2 ih =>
    simp only [List.contains_cons, ih]
    congr 1
    have := I.inj hi h1
    rename_i a b _ _
    by_cases hc : j = b
    · rw [this.2 hc, hc]; simp
    · rw [beq_eq_false_iff_ne.2 hc, beq_eq_false_iff_ne.2 (mt this.1 hc)]

theorem opNodeCompare_same (ok : Int → Int → Bool)
    (hok : ∀ {i j i' j'}, R i j → R i' j' → ok (orderOf h i) (orderOf h i') = ok (orderOf h' j) (orderOf h' j'))
    {a b a' b'} (ha : SameSeq R a a') (hb : SameSeq R b b') : SameOutcome (SameSeq R) (opNodeCompare h ok a b) (opNodeCompare h' ok a' b') := by
  refine (node1_same ha).bind fun _ _ h1 => (node1_same hb).map fun _ _ h2 => ?_
  rw [hok h1 h2]
  exact xbool_same _

theorem opIs_same (I : Iso h h' R) {a b a' b'} (ha : SameSeq R a a') (hb : SameSeq R b b') : SameOutcome (SameSeq R) (opIs h a b) (opIs h' a' b') := by
  refine opNodeCompare_same _ (fun h1 h2 => ?_) ha hb
  have e1 := I.order h1 h2
  have e2 := I.order h2 h1
  rw [Bool.eq_iff_iff, beq_iff_eq, beq_iff_eq]
  omega

theorem opBefore_same (I : Iso h h' R) {a b a' b'} (ha : SameSeq R a a') (hb : SameSeq R b b') : SameOutcome (SameSeq R) (opBefore h a b) (opBefore h' a' b') := by
  refine opNodeCompare_same _ (fun h1 h2 => ?_) ha hb
  have e1 := I.order h1 h2
  have e2 := I.order h2 h1
  rw [decide_eq_decide]
  omega

theorem opAfter_same (I : Iso h h' R) {a b a' b'} (ha : SameSeq R a a') (hb : SameSeq R b b') : SameOutcome (SameSeq R) (opAfter h a b) (opAfter h' a' b') := by
  refine opNodeCompare_same _ (fun h1 h2 => ?_) ha hb
  have e1 := I.order h1 h2
  have e2 := I.order h2 h1
  rw [decide_eq_decide]
  omega

theorem filter_same {α β : Type} {P : α → β → Prop} {s t} (hs : Forall₂ P s t) {f : α → Bool} {g : β → Bool} (hf : ∀ a b, P a b → f a = g b) :
    Forall₂ P (s.filter f) (t.filter g) := by
  induction hs with
  | nil => exact .nil
  | cons h1 _ ih =>
    simp only [List.filter_cons, hf _ _ h1]
    split
    · exact .cons h1 ih
    · exact ih

theorem opUnion_same (I : Iso h h' R) {a b a' b'} (ha : SameSeq R a a') (hb : SameSeq R b b') : SameOutcome (SameSeq R) (opUnion h a b) (opUnion h' a' b') :=
  .ok (ofNodes_same (sortByDocOrder_same I (Forall₂.append (toNodeset_same ha) (toNodeset_same hb))))
theorem opIntersect_same (I : Iso h h' R) {a b a' b'} (ha : SameSeq R a a') (hb : SameSeq R b b') : SameOutcome (SameSeq R) (opIntersect a b) (opIntersect a' b') :=
  .ok (ofNodes_same (filter_same (toNodeset_same ha) fun _ _ hi => contains_same I (toNodeset_same hb) hi))
theorem opExcept_same (I : Iso h h' R) {a b a' b'} (ha : SameSeq R a a') (hb : SameSeq R b b') : SameOutcome (SameSeq R) (opExcept a b) (opExcept a' b') :=
  .ok (ofNodes_same (filter_same (toNodeset_same ha) fun _ _ hi => by rw [contains_same I (toNodeset_same hb) hi]))

theorem integers_same (l : List Int) : SameSeq R (l.map .integer) (l.map .integer) := by
  induction l with
  | nil => exact .nil
  | cons n l ih => exact .cons (.integer n) ih

theorem opTo_same {a b a' b'} (ha : SameSeq R a a') (hb : SameSeq R b b') : SameOutcome (SameSeq R) (opTo a b) (opTo a' b') := by
  unfold opTo
  rw [integer1_same ha, integer1_same hb]
  exact (same_eq _).bind fun x y e => (same_eq _).map fun u v e' => e ▸ e' ▸ integers_same _

end

end Amxml
