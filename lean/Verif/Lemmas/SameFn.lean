import Verif.Lemmas.Same

/-!
# Axes, node tests, types and functions do not depend on the identity of nodes
-/

namespace Amxml
open Spec
open List (Forall₂)

section
variable {h h' : Heap} {R : NodeId → NodeId → Prop}

/-! ## axes -/

theorem beq_same (I : Iso h h' R) {i j i' j'} (h1 : R i j) (h2 : R i' j') : (i == i') = (j == j') := by
  rw [Bool.eq_iff_iff, beq_iff_eq, beq_iff_eq]; exact I.inj h1 h2

theorem ancestorOrSelf_same (I : Iso h h' R) {i j} (hi : R i j) : Forall₂ R (arrayAncestorOrSelf h i) (arrayAncestorOrSelf h' j) :=
  Forall₂.append (I.ancestor hi) (.cons hi .nil)
theorem descendantOrSelf_same (I : Iso h h' R) {i j} (hi : R i j) : Forall₂ R (arrayDescendantOrSelf h i) (arrayDescendantOrSelf h' j) :=
  .cons hi (I.descendant hi)

theorem followingLoop_same (I : Iso h h' R) {i j} (hi : R i j) {d d'} (hd : Forall₂ R d d') {l m} (hl : Forall₂ R l m) :
    ∀ o, Forall₂ R (followingLoop i d o l) (followingLoop j d' o m) := by
  induction hl with
  | nil => intro o; exact .nil
  | cons h1 _ ih =>
    intro o
    simp only [followingLoop, beq_same I h1 hi, contains_same I hd h1]
    split
    · exact .cons h1 (ih _)
    · exact ih _

theorem followingSiblingLoop_same (I : Iso h h' R) {i j} (hi : R i j) {l m} (hl : Forall₂ R l m) :
    ∀ o, Forall₂ R (followingSiblingLoop i o l) (followingSiblingLoop j o m) := by
  induction hl with
  | nil => intro o; exact .nil
  | cons h1 _ ih =>
    intro o
    simp only [followingSiblingLoop, beq_same I h1 hi]
    split
    · exact .cons h1 (ih _)
    · exact ih _

theorem precedingLoop_same (I : Iso h h' R) {i j} (hi : R i j) {d d'} (hd : Forall₂ R d d') {l m} (hl : Forall₂ R l m) :
    ∀ o, Forall₂ R (precedingLoop i d o l) (precedingLoop j d' o m) := by
  induction hl with
  | nil => intro o; exact .nil
  | cons h1 _ ih =>
    intro o
    simp only [precedingLoop, beq_same I h1 hi, contains_same I hd h1]
    split
    · exact .cons h1 (ih _)
    · exact ih _

theorem precedingSiblingLoop_same (I : Iso h h' R) {i j} (hi : R i j) {l m} (hl : Forall₂ R l m) :
    ∀ o, Forall₂ R (precedingSiblingLoop i o l) (precedingSiblingLoop j o m) := by
  induction hl with
  | nil => intro o; exact .nil
  | cons h1 _ ih =>
    intro o
    simp only [precedingSiblingLoop, beq_same I h1 hi]
    split
    · exact .cons h1 (ih _)
    · exact ih _

theorem following_same (I : Iso h h' R) {i j} (hi : R i j) : Forall₂ R (arrayFollowing h i) (arrayFollowing h' j) := by
  unfold arrayFollowing
  rw [I.ntype hi]
  split
  · exact followingLoop_same I hi (descendantOrSelf_same I hi) (descendantOrSelf_same I (I.root hi)) _
  · exact .nil

theorem preceding_same (I : Iso h h' R) {i j} (hi : R i j) : Forall₂ R (arrayPreceding h i) (arrayPreceding h' j) := by
  unfold arrayPreceding
  rw [I.ntype hi]
  split
  · exact precedingLoop_same I hi (I.ancestor hi) (descendantOrSelf_same I (I.root hi)) _
  · exact .nil

theorem followingSibling_same (I : Iso h h' R) {i j} (hi : R i j) : Forall₂ R (arrayFollowingSibling h i) (arrayFollowingSibling h' j) := by
  unfold arrayFollowingSibling
  rw [I.ntype hi]
  split
  · have := I.parent hi
    revert this
    generalize (h.node i).parent = p
    generalize (h'.node j).parent = q
    intro this
    cases this with
    | none => exact .nil
    | some hp => exact followingSiblingLoop_same I hi (I.children hp) _
  · exact .nil

theorem precedingSibling_same (I : Iso h h' R) {i j} (hi : R i j) : Forall₂ R (arrayPrecedingSibling h i) (arrayPrecedingSibling h' j) := by
  unfold arrayPrecedingSibling
  rw [I.ntype hi]
  split
  · have := I.parent hi
    revert this
    generalize (h.node i).parent = p
    generalize (h'.node j).parent = q
    intro this
    cases this with
    | none => exact .nil
    | some hp => exact precedingSiblingLoop_same I hi (I.children hp) _
  · exact .nil

/-! ## node tests -/

theorem matchNameTest_same (I : Iso h h' R) {i j} (hi : R i j) (x : XNode) : matchNameTest h i x = matchNameTest h' j x := by
  unfold matchNameTest
  rw [I.ntype hi, I.name hi]

theorem matchKindTest_same (I : Iso h h' R) {i j} (hi : R i j) (x : XNode) : matchKindTest h i x = matchKindTest h' j x := by
  unfold matchKindTest
  rw [I.ntype hi, I.name hi, I.attr hi]

theorem matchNodeTest_same (I : Iso h h' R) {i j} (hi : R i j) (x : XNode) : matchNodeTest h i x = matchNodeTest h' j x := by
  unfold matchNodeTest
  rw [matchNameTest_same I hi, matchKindTest_same I hi]

theorem matchAlongAxis_same (I : Iso h h' R) {i j} (x : XNode) {ax : Heap → NodeId → List NodeId} (ha : Forall₂ R (ax h i) (ax h' j)) :
    Forall₂ R (matchAlongAxis h i x ax) (matchAlongAxis h' j x ax) :=
  filter_same ha fun _ _ hk => matchNodeTest_same I hk x

theorem axisNodes_same (I : Iso h h' R) {i j} (hi : R i j) (x : XNode) : Option.Rel (Forall₂ R) (axisNodes h i x) (axisNodes h' j x) := by
  unfold axisNodes
  split
  · exact .some (matchAlongAxis_same I x (I.ancestor hi))
  · exact .some (matchAlongAxis_same I x (ancestorOrSelf_same I hi))
  · exact .some (matchAlongAxis_same I x (I.attributes hi))
  · exact .some (matchAlongAxis_same I x (I.children hi))
  · exact .some (matchAlongAxis_same I x (I.descendant hi))
  · exact .some (matchAlongAxis_same I x (descendantOrSelf_same I hi))
  · exact .some (matchAlongAxis_same I x (following_same I hi))
  · exact .some (matchAlongAxis_same I x (followingSibling_same I hi))
  · have := I.parent hi
    revert this
    generalize (h.node i).parent = p
    generalize (h'.node j).parent = q
    intro this
    cases this with
    | none => exact .some .nil
    | some hp =>
      simp only [matchNodeTest_same I hp]
      split
      · exact .some (.cons hp .nil)
      · exact .some .nil
  · exact .some (matchAlongAxis_same I x (preceding_same I hi))
  · exact .some (matchAlongAxis_same I x (precedingSibling_same I hi))
  · exact .some (.cons (I.root hi) .nil)
  · simp only [matchNodeTest_same I hi]
    split
    · exact .some (.cons hi .nil)
    · exact .some .nil
  · exact .none

/-! ## types -/

theorem allE_same {α β : Type} {P : α → β → Prop} {f : α → Except XErr Bool} {g : β → Except XErr Bool} (hf : ∀ a b, P a b → f a = g b)
    {l m} (hl : Forall₂ P l m) : allE f l = allE g m := by
  induction hl with
  | nil => rfl
  | cons h1 _ ih => simp only [allE, hf _ _ h1, ih]

theorem matchMapEntries_same (I : Iso h h' R) {m m' : XSeq → XNode → Except XErr Bool} (hm : ∀ {s t} x, SameSeq R s t → m s x = m' t x)
    {e e'} (he : Forall₂ (Both (SameItem R) (SameSeq R)) e e') (key : Str) (t : XNode) : matchMapEntries h m e key t = matchMapEntries h' m' e' key t := by
  unfold matchMapEntries
  refine allE_same (P := SameItem R) (fun k l hk => ?_) (List.rel_map (fun a b hab => by cases hab; assumption) he)
  rw [hk.xsType]
  split
  · have := mapGet_same I he hk
    revert this
    generalize mapGet h e k = a
    generalize mapGet h' e' l = b
    intro this
    cases this with
    | none => rfl
    | some hv => exact hm t hv
  · rfl

theorem matchTypedFunction_same (I : Iso h h' R) {m m' : XSeq → XNode → Except XErr Bool} (hm : ∀ {s t} x, SameSeq R s t → m s x = m' t x)
    (sig) {x y} (hx : SameItem R x y) : matchTypedFunction h m sig x = matchTypedFunction h' m' sig y := by
  cases hx with
  | map he =>
    simp only [matchTypedFunction]
    congr 1
    funext r p
    exact matchMapEntries_same I hm he _ _
  | array ha =>
    simp only [matchTypedFunction]
    congr 1
    funext r p
    rw [hm _ (oneOf (.integer 1))]
    split
    · exact allE_same (fun s t hs => hm _ hs) ha
    · rfl
    · rfl
  | _ => rfl

theorem matchItems_same (I : Iso h h' R) {m m' : XSeq → XNode → Except XErr Bool} (hm : ∀ {s t} x, SameSeq R s t → m s x = m' t x)
    {s s'} (hs : SameSeq R s s') (t : XNode) : matchItems h m s t = matchItems h' m' s' t := by
  unfold matchItems
  split
  · unfold matchKindAll
    rw [all_same hs fun x y hx => ?_]
    cases hx <;> first | rfl | exact matchKindTest_same I ‹_› t
  · rw [all_same hs fun x y hx => hx.isItem]
  · rw [all_same hs fun x y hx => hx.isFunctionItem]
  · exact allE_same (fun x y hx => matchTypedFunction_same I hm _ hx) hs
  · refine allE_same (fun x y hx => ?_) hs
    cases hx <;> first | rfl | exact allE_same (fun s t hs => hm _ hs) ‹_›
  · refine allE_same (fun x y hx => ?_) hs
    cases hx <;> first | rfl | exact matchMapEntries_same I hm ‹_› _ _
  · rw [all_same hs fun x y hx => by rw [hx.xsType]]
  · rfl
  · rfl

theorem matchSequenceTypeF_same (I : Iso h h' R) (n : Nat) : ∀ {s s'} (x : XNode), SameSeq R s s' → matchSequenceTypeF h n s x = matchSequenceTypeF h' n s' x := by
  induction n with
  | zero => intro s s' x hs; rfl
  | succ n ih =>
    intro s s' x hs
    unfold matchSequenceTypeF
    rw [isEmpty_same hs, hs.length_eq, matchItems_same I ih hs]

theorem matchSequenceType_same (I : Iso h h' R) {s s'} (hs : SameSeq R s s') (x : XNode) : matchSequenceType h s x = matchSequenceType h' s' x :=
  matchSequenceTypeF_same I _ x hs

/-! ## functions -/

theorem arg_same {a a'} (ha : Forall₂ (SameSeq R) a a') (n : Nat) : SameSeq R (arg a n) (arg a' n) := getD_same (getElem?_same ha n) .nil

theorem string_out {x y : Except XErr Str} (e : x = y) (f : Str → XSeq) (hf : ∀ s, SameSeq R (f s) (f s)) : SameOutcome (SameSeq R) (x.map f) (y.map f) := by
  subst e; exact (same_eq x).map fun a b e => e ▸ hf a

theorem fnNilled_same (I : Iso h h' R) {a a'} (ha : SameSeq R a a') : SameOutcome (SameSeq R) (fnNilled h a) (fnNilled h' a') := by
  unfold fnNilled
  rw [isEmpty_same ha]
  split
  · exact .ok .nil
  have := node1_same ha
  revert this
  generalize XSeq.node1 a = x
  generalize XSeq.node1 a' = y
  intro this
  cases this with
  | error e => exact .error _
  | ok hi =>
    simp only [I.ntype hi, I.attr hi]
    split
    · split <;> exact .ok (xbool_same _)
    · exact .ok .nil

theorem fnString_same (I : Iso h h' R) {a a'} (ha : SameSeq R a a') : SameOutcome (SameSeq R) (fnString h a) (fnString h' a') := by
  unfold fnString
  rw [isEmpty_same ha]
  split
  · exact .ok (oneOf (.string _))
  · exact (item1_same ha).bind fun x y hx => string_out (hx.rawString I) _ fun s => oneOf (.string s)

theorem fnNumericUnary_same (f g k) {a a'} (ha : SameSeq R a a') : SameOutcome (SameSeq R) (fnNumericUnary f g k a) (fnNumericUnary f g k a') := by
  unfold fnNumericUnary
  have := item1_same ha
  revert this
  generalize XSeq.item1 a = x
  generalize XSeq.item1 a' = y
  intro this
  cases this with
  | error e => exact .ok .nil
  | ok hx =>
    cases hx <;> first | exact .ok .nil | exact .ok (oneOf (.decimal _)) | exact .ok (oneOf (.double _)) | exact (same_eq _).map fun _ _ e => e ▸ oneOf (.integer _)

theorem fnNumber_same (I : Iso h h' R) {a a'} (ha : SameSeq R a a') : SameOutcome (SameSeq R) (fnNumber h a) (fnNumber h' a') := by
  unfold fnNumber
  rw [isEmpty_same ha]
  split
  · exact .ok (oneOf (.double _))
  have := item1_same ha
  revert this
  generalize XSeq.item1 a = x
  generalize XSeq.item1 a' = y
  intro this
  cases this with
  | error e => exact .ok (oneOf (.double _))
  | ok hx => simp only [hx.rawDouble I]; exact (same_eq _).map fun _ _ e => e ▸ oneOf (.double _)

theorem mapM_same {α β γ : Type} {P : α → β → Prop} {f : α → Except XErr γ} {g : β → Except XErr γ} (hf : ∀ a b, P a b → f a = g b)
    {l m} (hl : Forall₂ P l m) : l.mapM f = m.mapM g := by
  induction hl with
  | nil => rfl
  | cons h1 _ ih => simp only [List.mapM_cons, hf _ _ h1, ih]

theorem fnCodepointsToString_same (I : Iso h h' R) {a a'} (ha : SameSeq R a a') : SameOutcome (SameSeq R) (fnCodepointsToString h a) (fnCodepointsToString h' a') := by
  unfold fnCodepointsToString
  rw [mapM_same (fun x y hx => SameItem.rawInteger I hx) ha]
  refine (same_eq _).bind fun x y e => ?_
  subst e
  split
  · exact .ok (oneOf (.string _))
  · exact .error _

theorem fnStringToCodepoints_same {a a'} (ha : SameSeq R a a') : SameOutcome (SameSeq R) (fnStringToCodepoints a) (fnStringToCodepoints a') := by
  unfold fnStringToCodepoints
  rw [isEmpty_same ha]
  split
  · exact .ok .nil
  · refine string_out (string1_same ha) _ fun s => ?_
    have := integers_same (R := R) (s.map fun c => (codepointOf c : Int))
    rwa [List.map_map] at this

theorem fnCodepointEqual_same {a a' b b'} (ha : SameSeq R a a') (hb : SameSeq R b b') : SameOutcome (SameSeq R) (fnCodepointEqual a b) (fnCodepointEqual a' b') := by
  unfold fnCodepointEqual
  rw [isEmpty_same ha, isEmpty_same hb, string1_same ha]
  split
  · exact .ok .nil
  · refine (same_eq _).bind fun x y e => ?_
    subst e
    exact string_out (string1_same hb) _ fun s => xbool_same _

theorem concatPiece_same (I : Iso h h' R) {a a'} (ha : SameSeq R a a') : concatPiece h a = concatPiece h' a' := by
  unfold concatPiece
  rw [isEmpty_same ha]
  split
  · rfl
  · exact ((item1_same ha).bind (Q := Eq) fun x y hx => same_of_eq (hx.rawString I)).eq

theorem fnConcat_same (I : Iso h h' R) {a a'} (ha : Forall₂ (SameSeq R) a a') : SameOutcome (SameSeq R) (fnConcat h a) (fnConcat h' a') := by
  unfold fnConcat
  rw [mapM_same (fun x y hx => concatPiece_same I hx) ha]
  exact (same_eq _).map fun x y e => oneOf (e ▸ .string _)

theorem fnStringJoin_same (I : Iso h h' R) {a a'} (ha : Forall₂ (SameSeq R) a a') : SameOutcome (SameSeq R) (fnStringJoin h a) (fnStringJoin h' a') := by
  unfold fnStringJoin
  rw [ha.length_eq, string1_same (arg_same ha 1), mapM_same (fun x y hx => SameItem.rawString I hx) (arg_same ha 0)]
  exact (same_eq _).bind fun x y e => (same_eq _).map fun u v e' => oneOf (e ▸ e' ▸ .string _)

theorem startLength_same (I : Iso h h' R) {a a'} (ha : Forall₂ (SameSeq R) a a') : startLength h a = startLength h' a' := by
  refine SameOutcome.eq ((item1_same (arg_same ha 1)).bind fun x y hx => ?_)
  rw [hx.rawDouble I]
  refine (same_eq _).bind fun s s' e => ?_
  subst e
  rw [ha.length_eq]
  split
  · exact .ok rfl
  · refine (item1_same (arg_same ha 2)).bind fun x y hx => ?_
    rw [hx.rawDouble I]
    exact same_eq _

theorem fnSubstring_same (I : Iso h h' R) {a a'} (ha : Forall₂ (SameSeq R) a a') : SameOutcome (SameSeq R) (fnSubstring h a) (fnSubstring h' a') := by
  unfold fnSubstring
  rw [isEmpty_same (arg_same ha 0), string1_same (arg_same ha 0), startLength_same I ha]
  split
  · exact .ok (oneOf (.string _))
  · refine (same_eq _).bind fun s s' e => ?_
    subst e
    refine (same_eq _).bind fun p p' e => ?_
    subst e
    exact (same_eq _).map fun x y e => oneOf (e ▸ .string _)

theorem fnStringLength_same {a a'} (ha : SameSeq R a a') : SameOutcome (SameSeq R) (fnStringLength a) (fnStringLength a') := by
  unfold fnStringLength
  rw [isEmpty_same ha]
  split
  · exact .ok (oneOf (.integer _))
  · exact string_out (string1_same ha) _ fun s => oneOf (.integer _)

theorem fnNormalizeSpace_same {a a'} (ha : SameSeq R a a') : SameOutcome (SameSeq R) (fnNormalizeSpace a) (fnNormalizeSpace a') := by
  unfold fnNormalizeSpace
  rw [isEmpty_same ha]
  split
  · exact .ok (oneOf (.string _))
  · exact string_out (string1_same ha) _ fun s => oneOf (.string _)

theorem fnUpperCase_same {a a'} (ha : SameSeq R a a') : SameOutcome (SameSeq R) (fnUpperCase a) (fnUpperCase a') := by
  unfold fnUpperCase
  rw [isEmpty_same ha]
  split
  · exact .ok (oneOf (.string _))
  · exact string_out (string1_same ha) _ fun s => oneOf (.string _)

theorem fnLowerCase_same {a a'} (ha : SameSeq R a a') : SameOutcome (SameSeq R) (fnLowerCase a) (fnLowerCase a') := by
  unfold fnLowerCase
  rw [isEmpty_same ha]
  split
  · exact .ok (oneOf (.string _))
  · exact string_out (string1_same ha) _ fun s => oneOf (.string _)

theorem fnTranslate_same {a a' b b' c c'} (ha : SameSeq R a a') (hb : SameSeq R b b') (hc : SameSeq R c c') :
    SameOutcome (SameSeq R) (fnTranslate a b c) (fnTranslate a' b' c') := by
  unfold fnTranslate
  rw [isEmpty_same ha, string1_same ha, string1_same hb]
  split
  · exact .ok (oneOf (.string _))
  · refine (same_eq _).bind fun s s' e => ?_
    subst e
    refine (same_eq _).bind fun s s' e => ?_
    subst e
    exact string_out (string1_same hc) _ fun s => oneOf (.string _)

theorem optString_same {a a'} (ha : SameSeq R a a') : optString a = optString a' := by
  unfold optString
  rw [isEmpty_same ha, string1_same ha]

theorem twoStrings_same {a a' b b'} (ha : SameSeq R a a') (hb : SameSeq R b b') (f : Str → Str → XSeq) (hf : ∀ s t, SameSeq R (f s t) (f s t)) :
    SameOutcome (SameSeq R) ((optString a).bind fun s => (optString b).map fun t => f s t) ((optString a').bind fun s => (optString b').map fun t => f s t) := by
  rw [optString_same ha]
  refine (same_eq _).bind fun s s' e => ?_
  subst e
  exact string_out (optString_same hb) _ fun t => hf s t

theorem fnNodeString_same {f f' : NodeId → Str} (hf : ∀ {i j}, R i j → f i = f' j) {a a'} (ha : SameSeq R a a') :
    SameOutcome (SameSeq R) (fnNodeString f a) (fnNodeString f' a') := by
  unfold fnNodeString
  rw [isEmpty_same ha]
  split
  · exact .ok (oneOf (.string _))
  have := node1_same ha
  revert this
  generalize XSeq.node1 a = x
  generalize XSeq.node1 a' = y
  intro this
  cases this with
  | error e => exact .error _
  | ok hi => simp only [hf hi]; exact .ok (oneOf (.string _))

theorem langOf_same (I : Iso h h' R) {l m} (hl : Forall₂ R l m) : langOf h l = langOf h' m := by
  induction hl with
  | nil => rfl
  | cons h1 _ ih => simp only [langOf, I.attr h1, ih]

theorem fnLang_same (I : Iso h h' R) {a a' b b'} (ha : SameSeq R a a') (hb : SameSeq R b b') : SameOutcome (SameSeq R) (fnLang h a b) (fnLang h' a' b') := by
  unfold fnLang
  rw [isEmpty_same ha, string1_same ha]
  split
  · exact .ok (oneOf (.string _))
  · refine (same_eq _).bind fun s s' e => ?_
    subst e
    refine (node1_same hb).map fun i j hi => ?_
    rw [langOf_same I (ancestorOrSelf_same I hi)]
    exact xbool_same _

theorem fnRoot_same (I : Iso h h' R) {a a'} (ha : SameSeq R a a') : SameOutcome (SameSeq R) (fnRoot h a) (fnRoot h' a') := by
  unfold fnRoot
  rw [isEmpty_same ha]
  split
  · exact .ok .nil
  have := node1_same ha
  revert this
  generalize XSeq.node1 a = x
  generalize XSeq.node1 a' = y
  intro this
  cases this with
  | error e => exact .error _
  | ok hi => exact .ok (oneOf (.node (I.root hi)))

theorem fnInsertBefore_same {a a' b b' c c'} (ha : SameSeq R a a') (hb : SameSeq R b b') (hc : SameSeq R c c') :
    SameOutcome (SameSeq R) (fnInsertBefore a b c) (fnInsertBefore a' b' c') := by
  unfold fnInsertBefore
  rw [integer1_same hb]
  refine (same_eq _).bind fun n n' e => ?_
  subst e
  refine (same_eq _).map fun p p' e => ?_
  subst e
  simp only [ha.length_eq]
  exact Forall₂.append (Forall₂.append (List.forall₂_take _ ha) hc) (List.forall₂_drop _ ha)

theorem removeLoop_same (p : Int) {a a'} (ha : SameSeq R a a') : ∀ n, SameSeq R (removeLoop p n a) (removeLoop p n a') := by
  induction ha with
  | nil => intro n; exact .nil
  | cons h1 _ ih =>
    intro n
    simp only [removeLoop]
    split
    · exact .cons h1 (ih _)
    · exact ih _

theorem fnSubsequence_same (I : Iso h h' R) {a a'} (ha : Forall₂ (SameSeq R) a a') : SameOutcome (SameSeq R) (fnSubsequence h a) (fnSubsequence h' a') := by
  unfold fnSubsequence
  rw [isEmpty_same (arg_same ha 0), startLength_same I ha, (arg_same ha 0).length_eq]
  split
  · exact .ok .nil
  · refine (same_eq _).bind fun p p' e => ?_
    subst e
    refine (same_eq _).map fun p p' e => ?_
    subst e
    exact List.forall₂_take _ (List.forall₂_drop _ (arg_same ha 0))

theorem indexOfLoop_same (I : Iso h h' R) {b b'} (hb : SameSeq R b b') {a a'} (ha : SameSeq R a a') :
    ∀ n, SameOutcome (SameSeq R) (indexOfLoop h b n a) (indexOfLoop h' b' n a') := by
  induction ha with
  | nil => intro n; exact .ok .nil
  | cons h1 _ ih =>
    intro n
    simp only [indexOfLoop]
    refine ((valueEq_same I (oneOf h1) hb).bind (Q := Eq) fun x y hx => same_of_eq (boolean1_same hx)).bind fun x y e => ?_
    subst e
    refine (ih _).map fun u v hu => ?_
    split
    · exact .cons (.integer _) hu
    · exact hu

theorem sumLoop_same (I : Iso h h' R) {a a'} (ha : SameSeq R a a') : ∀ {x y}, SameItem R x y → SameOutcome (SameItem R) (sumLoop h x a) (sumLoop h' y a') := by
  induction ha with
  | nil => intro x y hx; exact .ok hx
  | cons h1 _ ih =>
    intro x y hx
    simp only [sumLoop]
    rw [h1.isNumeric]
    refine SameOutcome.bind (P := SameItem R) ?_ fun u v hu => ih hu
    split
    · exact same_of_simple (numOp_same _ _ hx h1) (numOp_simple _ _ _ _)
    · exact (h1.castAs I _).bind fun u v hu => same_of_simple (numOp_same _ _ hx hu) (numOp_simple _ _ _ _)

theorem fnSum_same (I : Iso h h' R) {a a'} (ha : Forall₂ (SameSeq R) a a') : SameOutcome (SameSeq R) (fnSum h a) (fnSum h' a') := by
  unfold fnSum
  rw [isEmpty_same (arg_same ha 0), ha.length_eq]
  split
  · split
    · exact .ok (oneOf (.integer _))
    · exact .ok (arg_same ha 1)
  · exact (sumLoop_same I (arg_same ha 0) (.integer 0)).map fun u v hu => oneOf hu

theorem fnAvg_same (I : Iso h h' R) {a a'} (ha : SameSeq R a a') : SameOutcome (SameSeq R) (fnAvg h a) (fnAvg h' a') := by
  unfold fnAvg
  rw [isEmpty_same ha, ha.length_eq]
  split
  · exact .ok .nil
  · exact (fnSum_same I (.cons ha .nil)).bind fun s t hs => (item1_same hs).bind fun x y hx =>
      (same_of_simple (numDiv_same hx (.integer _)) (numDiv_simple _ _)).map fun u v hu => oneOf hu

theorem extremeLoop_same {cmp cmp' : XSeq → XSeq → Except XErr XSeq}
    (hc : ∀ {a b a' b'}, SameSeq R a a' → SameSeq R b b' → SameOutcome (SameSeq R) (cmp a b) (cmp' a' b')) {a a'} (ha : SameSeq R a a') :
    ∀ {x y}, SameItem R x y → SameOutcome (SameItem R) (extremeLoop cmp x a) (extremeLoop cmp' y a') := by
  induction ha with
  | nil => intro x y hx; exact .ok hx
  | cons h1 _ ih =>
    intro x y hx
    simp only [extremeLoop]
    refine ((hc (oneOf hx) (oneOf h1)).bind (Q := Eq) fun u v hu => same_of_eq (ebv_same hu)).bind fun u v e => ?_
    subst e
    refine ih ?_
    split
    · exact h1
    · exact hx

theorem fnMax_same (I : Iso h h' R) {a a'} (ha : SameSeq R a a') : SameOutcome (SameSeq R) (fnMax h a) (fnMax h' a') := by
  cases ha with
  | nil => exact .ok .nil
  | cons h1 h2 => exact (extremeLoop_same (valueLt_same I) (.cons h1 h2) h1).map fun u v hu => oneOf hu

theorem fnMin_same (I : Iso h h' R) {a a'} (ha : SameSeq R a a') : SameOutcome (SameSeq R) (fnMin h a) (fnMin h' a') := by
  cases ha with
  | nil => exact .ok .nil
  | cons h1 h2 => exact (extremeLoop_same (valueGt_same I) (.cons h1 h2) h1).map fun u v hu => oneOf hu

/-- A function of the table maps related arguments to related results. -/
def SameFn (h h' : Heap) (R : NodeId → NodeId → Prop) (f : PureFn) : Prop :=
  ∀ a a', Forall₂ (SameSeq R) a a' → SameOutcome (SameSeq R) (f h a) (f h' a')

theorem funcTbl_same (I : Iso h h' R) : ∀ e ∈ funcTbl, SameFn h h' R e.2.2 := by
  intro e he
  simp only [funcTbl, List.mem_cons, List.not_mem_nil, or_false] at he
  rcases he with he | he | he | he | he | he | he | he | he | he | he | he | he | he | he | he | he | he | he | he | he | he | he | he | he | he | he | he | he | he | he | he |
    he | he | he | he | he | he | he | he | he | he | he | he | he | he | he | he | he | he | he | he | he | he | he | he | he | he | he | he | he | he
  all_goals
    rw [he]
    intro a a' ha
    have a0 := arg_same ha 0
    have a1 := arg_same ha 1
    have a2 := arg_same ha 2
    simp only
  · exact fnNilled_same I a0
  · exact fnString_same I a0
  · exact .ok (atomize_same I a0)
  · exact fnNumericUnary_same _ _ _ a0
  · exact fnNumericUnary_same _ _ _ a0
  · exact fnNumericUnary_same _ _ _ a0
  · exact fnNumericUnary_same _ _ _ a0
  · exact fnNumber_same I a0
  · exact fnCodepointsToString_same I a0
  · exact fnStringToCodepoints_same a0
  · exact fnCompare_same a0 a1
  · exact fnCodepointEqual_same a0 a1
  · exact fnConcat_same I ha
  · exact fnStringJoin_same I ha
  · exact fnStringJoin_same I ha
  · exact fnSubstring_same I ha
  · exact fnSubstring_same I ha
  · exact fnStringLength_same a0
  · exact fnNormalizeSpace_same a0
  · exact fnUpperCase_same a0
  · exact fnLowerCase_same a0
  · exact fnTranslate_same a0 a1 a2
  · exact twoStrings_same a0 a1 _ fun _ _ => xbool_same _
  · exact twoStrings_same a0 a1 _ fun _ _ => xbool_same _
  · exact twoStrings_same a0 a1 _ fun _ _ => xbool_same _
  · exact twoStrings_same a0 a1 _ fun _ _ => oneOf (.string _)
  · exact twoStrings_same a0 a1 _ fun _ _ => oneOf (.string _)
  · exact .ok (xbool_same _)
  · exact .ok (xbool_same _)
  · exact same_bools (ebv_same a0) id
  · exact fnNot_same a0
  · exact fnNodeString_same (fun hi => I.name hi) a0
  · exact fnNodeString_same (fun hi => by rw [I.name hi]) a0
  · exact fnNodeString_same (fun hi => I.uri hi) a0
  · exact fnLang_same I a0 a1
  · exact fnRoot_same I a0
  · rw [fnEmpty, fnEmpty, a0.length_eq]; exact .ok (xbool_same _)
  · rw [fnExists, fnExists, a0.length_eq]; exact .ok (xbool_same _)
  · exact .ok (List.forall₂_take _ a0)
  · exact .ok (List.forall₂_drop _ a0)
  · exact fnInsertBefore_same a0 a1 a2
  · rw [fnRemove, fnRemove, integer1_same a1]
    exact (same_eq _).map fun n m e => e ▸ removeLoop_same n a0 0
  · exact .ok (List.rel_reverse a0)
  · exact fnSubsequence_same I ha
  · exact fnSubsequence_same I ha
  · exact indexOfLoop_same I a1 a0 0
  · rw [fnZeroOrOne, fnZeroOrOne, a0.length_eq]; exact same_if Iff.rfl (.ok a0) (.error _)
  · rw [fnOneOrMore, fnOneOrMore, a0.length_eq]; exact same_if Iff.rfl (.ok a0) (.error _)
  · rw [fnExactlyOne, fnExactlyOne, a0.length_eq]; exact same_if Iff.rfl (.ok a0) (.error _)
  · rw [fnCount, fnCount, a0.length_eq]; exact .ok (oneOf (.integer _))
  · exact fnAvg_same I a0
  · exact fnMax_same I a0
  · exact fnMin_same I a0
  · exact fnSum_same I ha
  · exact fnSum_same I ha
  · exact (map1_same a0).map fun m m' hm => by rw [hm.length_eq]; exact oneOf (.integer _)
  · exact (map1_same a0).map fun m m' hm => List.rel_map (fun a b hab => by cases hab; assumption) hm
  · exact (map1_same a0).bind fun m m' hm => (item1_same a1).map fun k k' hk => by rw [mapContains_same I hm hk]; exact xbool_same _
  · exact (map1_same a0).bind fun m m' hm => (item1_same a1).map fun k k' hk => getD_same (mapGet_same I hm hk) .nil
  · exact (array1_same a0).map fun m m' hm => by rw [hm.length_eq]; exact oneOf (.integer _)
  · exact (array1_same a0).bind fun m m' hm => (item1_same a1).map fun k k' hk => getD_same (arrayGet_same I hm hk) .nil
  · exact .ok (flattenSeq_same a0)

theorem findPureFn_same (I : Iso h h' R) {name n f} (hf : findPureFn name n = some f) : SameFn h h' R f := by
  unfold findPureFn at hf
  rw [Option.map_eq_some_iff] at hf
  obtain ⟨e, he, rfl⟩ := hf
  exact funcTbl_same I e (List.mem_of_find?_eq_some he)

end

end Amxml
