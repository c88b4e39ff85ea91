import Verif.Spec.Steps
import Verif.Props.XPath

/-!
# C76: what a step selects
-/

namespace Amxml
open Spec

/-! ## Axes -/

section
variable {h : Heap} (hw : HeapWF h) {r : NodeId} {F : Forest NodeId} (hd : DocTree h r F) (hp : PlainAttrs h r F)

theorem before_iff {D : List NodeId} {i : NodeId} {pre post : List NodeId} (hD : D = pre ++ i :: post) (hn : D.Nodup) (j : NodeId) :
    (Before D i j ↔ j ∈ post) ∧ (Before D j i ↔ j ∈ pre) := by
  subst hD
  have hn' := hn
  rw [List.nodup_append, List.nodup_cons] at hn'
  obtain ⟨h1, ⟨h2, h3⟩, h4⟩ := hn'
  constructor
  · constructor
    · intro hb
      unfold Before at hb
      obtain ⟨a, b, hab, ha, hb'⟩ := List.cons_sublist_iff.1 hb
      have : b.Sublist post := by
        have hia : i ∈ a := ha
        obtain ⟨a1, a2, rfl⟩ := List.append_of_mem hia
        have e : pre ++ i :: post = a1 ++ i :: (a2 ++ b) := by simpa using hab
        obtain ⟨-, rfl⟩ := split_unique hn e
        exact List.sublist_append_right _ _
      exact this.subset (List.singleton_sublist.1 hb')
    · intro hj
      exact ((List.singleton_sublist.2 hj).cons_cons i).trans (List.sublist_append_right _ _)
  · constructor
    · intro hb
      unfold Before at hb
      obtain ⟨a, b, hab, ha, hb'⟩ := List.cons_sublist_iff.1 hb
      have hib : i ∈ b := List.singleton_sublist.1 hb'
      obtain ⟨b1, b2, rfl⟩ := List.append_of_mem hib
      have e : pre ++ i :: post = (a ++ b1) ++ i :: b2 := by simpa using hab
      obtain ⟨rfl, -⟩ := split_unique hn e
      exact List.mem_append_left _ ha
    · intro hj
      obtain ⟨a1, a2, rfl⟩ := List.append_of_mem hj
      show List.Sublist [j, i] _
      have : List.Sublist [j, i] ([j] ++ (i :: post)) := List.Sublist.cons_cons j (List.Sublist.cons_cons i (List.nil_sublist _))
      refine this.trans ?_
      exact (List.singleton_sublist.2 (by simp)).append (List.Sublist.refl _)

theorem before_mem {D : List NodeId} {i j : NodeId} (hb : Before D i j) : i ∈ D ∧ j ∈ D :=
  ⟨hb.subset (by simp), hb.subset (by simp)⟩

include hd in
theorem ancestor_tree {i j : NodeId} (ha : Ancestor h i j) (hj : j ∈ docIds h (.cons r F .nil)) : i ∈ r :: F.toList := by
  induction ha with
  | parent e => simpa [Forest.toList] using (docIds_parent hd hj e).1
  | step e _ ih => exact ih (mem_docIds_of_mem (docIds_parent hd hj e).1)

include hw hd hp in
theorem onAxis_iff {i : NodeId} (hi : i ∈ docIds h (.cons r F .nil)) (j : NodeId) :
    (j ∈ arrayAncestor h i ↔ OnAxis h r F .axisAncestor i j) ∧
    (j ∈ arrayDescendant h i ↔ OnAxis h r F .axisDescendant i j) ∧
    (j ∈ (h.node i).children ↔ OnAxis h r F .axisChild i j) ∧
    (j ∈ arrayFollowing h i ↔ OnAxis h r F .axisFollowing i j) ∧
    (j ∈ arrayPreceding h i ↔ OnAxis h r F .axisPreceding i j) ∧
    (j ∈ arrayFollowingSibling h i ↔ OnAxis h r F .axisFollowingSibling i j) ∧
    (j ∈ arrayPrecedingSibling h i ↔ OnAxis h r F .axisPrecedingSibling i j) := by
  have hanc := mem_arrayAncestor hw (i + 1) i (by omega)
  have hnd := doc_toList_nodup hd
  have hrF : r ∉ F.toList := (List.nodup_cons.1 hnd).1
  have hndF : F.toList.Nodup := (List.nodup_cons.1 hnd).2
  have hrp : (h.node r).parent = none := hd.linked.1
  rcases doc_cases hw hd hp hi with ht | ⟨p, hpt, ha, hpe, hty, hch, hat⟩
  · obtain ⟨⟨pre, post, e1, e2, e3, e4, e5⟩, -, -⟩ := C30_axes_partition h hw r F hd i ht (hp.tree i ht)
    have hdesc := (C30_ancestor_descendant h hw r F hd i ht).2
    have hb := before_iff e1 hnd
    have hnp := (e1 ▸ hnd)
    rw [List.nodup_append, List.nodup_cons] at hnp
    obtain ⟨n1, ⟨n2, n3⟩, n4⟩ := hnp
    have hdescsub : ∀ j ∈ arrayDescendant h i, j ∈ r :: F.toList := fun j hj => by
      rw [e1, e2]; simp [hj]
    have hrdesc : r ∉ arrayDescendant h i := by
      intro hr
      have := (hdesc r (by simp)).1 hr
      cases this with
      | parent e => rw [hrp] at e; cases e
      | step e _ => rw [hrp] at e; cases e
    have hchild : j ∈ (h.node i).children ↔ j ∈ F.toList ∧ (h.node j).parent = some i := by
      constructor
      · intro hc
        obtain ⟨a, b⟩ := linked_child hd.linked (show i ∈ (Forest.cons r F .nil).toList by simpa [Forest.toList] using ht) hc
        have a' : j ∈ r :: F.toList := by simpa [Forest.toList] using a
        rcases List.mem_cons.1 a' with rfl | a'
        · rw [hrp] at b; cases b
        · exact ⟨a', b⟩
      · rintro ⟨hj, hpj⟩
        rcases linked_parent hd.linked (show j ∈ (Forest.cons r F .nil).toList by simp [Forest.toList, hj]) with ⟨e, -⟩ | ⟨q, -, e, hc⟩
        · rw [e] at hpj; cases hpj
        · rw [e] at hpj; cases hpj; exact hc
    refine ⟨hanc j, ?_, hchild, ?_, ?_, ?_, ?_⟩
    · show _ ↔ j ∈ F.toList ∧ Ancestor h i j
      constructor
      · intro hj
        have hjt := hdescsub j hj
        refine ⟨?_, (hdesc j hjt).1 hj⟩
        rcases List.mem_cons.1 hjt with rfl | hj'
        · exact absurd hj hrdesc
        · exact hj'
      · rintro ⟨hj, haj⟩
        exact (hdesc j (by simp [hj])).2 haj
    · show _ ↔ Before (r :: F.toList) i j ∧ ¬ Ancestor h i j
      rw [(hb j).1, e2]
      constructor
      · intro hj
        refine ⟨by simp [hj], ?_⟩
        intro hh
        have hjt : j ∈ r :: F.toList := by rw [e1, e2]; simp [hj]
        have hjd := (hdesc j hjt).2 hh
        rw [e2, List.nodup_append] at n3
        exact n3.2.2 j hjd j hj rfl
      · rintro ⟨hj, hna⟩
        rcases List.mem_append.1 hj with hj | hj
        · exact absurd ((hdesc j (hdescsub j hj)).1 hj) hna
        · exact hj
    · show _ ↔ Before (r :: F.toList) j i ∧ ¬ Ancestor h j i
      rw [(hb j).2]
      have hm := e3.mem_iff (a := j)
      rw [List.mem_append] at hm
      rw [← hanc j]
      have hdis : j ∈ arrayPreceding h i → j ∉ arrayAncestor h i := by
        have := e3.nodup_iff.1 n1
        rw [List.nodup_append] at this
        exact fun h1 h2 => this.2.2 j h2 j h1 rfl
      tauto
    · show _ ↔ Before F.toList i j ∧ (h.node i).parent = (h.node j).parent
      rcases List.mem_cons.1 ht with rfl | hiF
      · rw [((C31_siblings h i F hd).2.1).2]
        constructor
        · intro hh; cases hh
        · rintro ⟨hb', -⟩; exact absurd (before_mem hb').1 hrF
      · obtain ⟨p, hpt, hpe, hs⟩ := (C31_siblings h r F hd).1 i hiF (hp.tree i ht)
        obtain ⟨fp, fq, hF⟩ := List.append_of_mem hiF
        have hbF := before_iff hF hndF
        have hsub : (arrayPrecedingSibling h i ++ [i] ++ arrayFollowingSibling h i).Sublist F.toList := by
          rw [hs]
          obtain ⟨pre', post', k, q, f1, f2, f3, f4, f5⟩ := forest_position hw _ _ hd.linked p (by simpa [Forest.toList] using hpt)
          rw [f2]
          have f1' : r :: F.toList = pre' ++ p :: (k.toList ++ post') := by simpa [Forest.toList] using f1
          refine (roots_sublist k).trans ?_
          cases pre' with
          | nil =>
            simp only [List.nil_append, List.cons.injEq] at f1'
            rw [f1'.2]; exact List.sublist_append_left _ _
          | cons z pre' =>
            simp only [List.cons_append, List.cons.injEq] at f1'
            rw [f1'.2]
            exact ((List.sublist_append_left _ _).trans (List.sublist_cons_self _ _)).trans (List.sublist_append_right _ _)
        have hmem : ∀ j ∈ F.toList, (h.node j).parent = some p → j ∈ arrayPrecedingSibling h i ∨ j = i ∨ j ∈ arrayFollowingSibling h i := by
          intro j hj hpj
          rcases linked_parent hd.linked (show j ∈ (Forest.cons r F .nil).toList by simp [Forest.toList, hj]) with ⟨e, -⟩ | ⟨q, -, e, hc⟩
          · rw [e] at hpj; cases hpj
          · rw [e] at hpj; cases hpj
            rw [← hs] at hc; simpa [or_assoc] using hc
        have hpar : ∀ j, j ∈ arrayPrecedingSibling h i ++ [i] ++ arrayFollowingSibling h i → (h.node j).parent = some p := by
          intro j hj
          rw [hs] at hj
          exact (linked_child hd.linked (show p ∈ (Forest.cons r F .nil).toList by simpa [Forest.toList] using hpt) hj).2
        have b1 : ∀ j ∈ arrayFollowingSibling h i, Before F.toList i j := fun j hj =>
          (((List.singleton_sublist.2 hj).cons_cons i).trans (by simp)).trans hsub
        have b2 : ∀ j ∈ arrayPrecedingSibling h i, Before F.toList j i := fun j hj => by
          refine List.Sublist.trans ?_ hsub
          exact ((List.singleton_sublist.2 hj).append_right [i]).trans (List.sublist_append_left _ _)
        have dis : ¬ (Before F.toList i j ∧ Before F.toList j i) := by
          rintro ⟨c1, c2⟩
          have d1 := (hbF j).1.1 c1
          have d2 := (hbF j).2.1 c2
          rw [hF, List.nodup_append] at hndF
          exact hndF.2.2 j d2 j (by simp [d1]) rfl
        have nii : ¬ Before F.toList i i := by
          intro c
          have d1 := (hbF i).1.1 c
          rw [hF, List.nodup_append, List.nodup_cons] at hndF
          exact hndF.2.1.1 d1
        constructor
        · intro hj
          exact ⟨b1 j hj, by rw [hpe, hpar j (by simp [hj])]⟩
        · rintro ⟨c, hpj⟩
          rcases hmem j (before_mem c).2 (by rw [← hpj, hpe]) with hj | rfl | hj
          · exact absurd ⟨c, b2 j hj⟩ dis
          · exact absurd c nii
          · exact hj
    · show _ ↔ Before F.toList j i ∧ (h.node i).parent = (h.node j).parent
      rcases List.mem_cons.1 ht with rfl | hiF
      · rw [((C31_siblings h i F hd).2.1).1]
        constructor
        · intro hh; cases hh
        · rintro ⟨hb', -⟩; exact absurd (before_mem hb').2 hrF
      · obtain ⟨p, hpt, hpe, hs⟩ := (C31_siblings h r F hd).1 i hiF (hp.tree i ht)
        obtain ⟨fp, fq, hF⟩ := List.append_of_mem hiF
        have hbF := before_iff hF hndF
        have hsub : (arrayPrecedingSibling h i ++ [i] ++ arrayFollowingSibling h i).Sublist F.toList := by
          rw [hs]
          obtain ⟨pre', post', k, q, f1, f2, f3, f4, f5⟩ := forest_position hw _ _ hd.linked p (by simpa [Forest.toList] using hpt)
          rw [f2]
          have f1' : r :: F.toList = pre' ++ p :: (k.toList ++ post') := by simpa [Forest.toList] using f1
          refine (roots_sublist k).trans ?_
          cases pre' with
          | nil =>
            simp only [List.nil_append, List.cons.injEq] at f1'
            rw [f1'.2]; exact List.sublist_append_left _ _
          | cons z pre' =>
            simp only [List.cons_append, List.cons.injEq] at f1'
            rw [f1'.2]
            exact ((List.sublist_append_left _ _).trans (List.sublist_cons_self _ _)).trans (List.sublist_append_right _ _)
        have hmem : ∀ j ∈ F.toList, (h.node j).parent = some p → j ∈ arrayPrecedingSibling h i ∨ j = i ∨ j ∈ arrayFollowingSibling h i := by
          intro j hj hpj
          rcases linked_parent hd.linked (show j ∈ (Forest.cons r F .nil).toList by simp [Forest.toList, hj]) with ⟨e, -⟩ | ⟨q, -, e, hc⟩
          · rw [e] at hpj; cases hpj
          · rw [e] at hpj; cases hpj
            rw [← hs] at hc; simpa [or_assoc] using hc
        have hpar : ∀ j, j ∈ arrayPrecedingSibling h i ++ [i] ++ arrayFollowingSibling h i → (h.node j).parent = some p := by
          intro j hj
          rw [hs] at hj
          exact (linked_child hd.linked (show p ∈ (Forest.cons r F .nil).toList by simpa [Forest.toList] using hpt) hj).2
        have b1 : ∀ j ∈ arrayFollowingSibling h i, Before F.toList i j := fun j hj =>
          (((List.singleton_sublist.2 hj).cons_cons i).trans (by simp)).trans hsub
        have b2 : ∀ j ∈ arrayPrecedingSibling h i, Before F.toList j i := fun j hj => by
          refine List.Sublist.trans ?_ hsub
          exact ((List.singleton_sublist.2 hj).append_right [i]).trans (List.sublist_append_left _ _)
        have dis : ¬ (Before F.toList i j ∧ Before F.toList j i) := by
          rintro ⟨c1, c2⟩
          have d1 := (hbF j).1.1 c1
          have d2 := (hbF j).2.1 c2
          rw [hF, List.nodup_append] at hndF
          exact hndF.2.2 j d2 j (by simp [d1]) rfl
        have nii : ¬ Before F.toList i i := by
          intro c
          have d1 := (hbF i).1.1 c
          rw [hF, List.nodup_append, List.nodup_cons] at hndF
          exact hndF.2.1.1 d1
        constructor
        · intro hj
          exact ⟨b2 j hj, by rw [hpe, hpar j (by simp [hj])]⟩
        · rintro ⟨c, hpj⟩
          rcases hmem j (before_mem c).1 (by rw [← hpj, hpe]) with hj | rfl | hj
          · exact hj
          · exact absurd c nii
          · exact absurd ⟨b1 j hj, c⟩ dis
  · have hnt : i ∉ r :: F.toList := fun hh => hp.tree i hh hty
    have hdesc : arrayDescendant h i = [] := by unfold arrayDescendant; rw [hch]; rfl
    have hf : arrayFollowing h i = [] := by unfold arrayFollowing; simp [hty]
    have hpr : arrayPreceding h i = [] := by unfold arrayPreceding; simp [hty]
    have hsi := (C31_siblings h r F hd).2.2 i hty
    have hntF : i ∉ F.toList := fun hh => hnt (by simp [hh])
    refine ⟨hanc j, ?_, ?_, ?_, ?_, ?_, ?_⟩
    · rw [hdesc]
      constructor
      · intro hh; cases hh
      · rintro ⟨hj, haj⟩
        exact absurd (ancestor_tree hd haj (mem_docIds_of_mem (by simp [Forest.toList, hj]))) hnt
    · rw [hch]
      constructor
      · intro hh; cases hh
      · rintro ⟨hj, haj⟩
        exact absurd (ancestor_tree hd (.parent haj) (mem_docIds_of_mem (by simp [Forest.toList, hj]))) hnt
    · rw [hf]
      constructor
      · intro hh; cases hh
      · rintro ⟨hb, -⟩; exact absurd (before_mem hb).1 hnt
    · rw [hpr]
      constructor
      · intro hh; cases hh
      · rintro ⟨hb, -⟩; exact absurd (before_mem hb).2 hnt
    · rw [hsi.2]
      constructor
      · intro hh; cases hh
      · rintro ⟨hb, -⟩; exact absurd (before_mem hb).1 hntF
    · rw [hsi.1]
      constructor
      · intro hh; cases hh
      · rintro ⟨hb, -⟩; exact absurd (before_mem hb).2 hntF
end

/-! ## Node tests -/

theorem splitOnce_at (a b : Str) (ha : ':' ∉ a) : splitOnce (S ":") (a ++ ':' :: b) = some (a, b) := by
  induction a with
  | nil => rfl
  | cons c a ih =>
    have hc : c ≠ ':' := fun e => ha (by simp [e])
    have := ih fun hh => ha (by simp [hh])
    rw [List.cons_append, splitOnce, this]
    have : stripPrefix (S ":") (c :: (a ++ ':' :: b)) = none := by
      simp [S, stripPrefix, Ne.symm hc]
    rw [this]; rfl

theorem splitOnce_colon_some {s a b : Str} (hs : splitOnce (S ":") s = some (a, b)) : s = a ++ ':' :: b ∧ ':' ∉ a := by
  induction s generalizing a b with
  | nil => cases hs
  | cons c s ih =>
    rw [splitOnce] at hs
    by_cases hc : ':' = c
    · subst hc
      have : stripPrefix (S ":") (':' :: s) = some s := rfl
      rw [this] at hs
      cases hs
      exact ⟨rfl, by simp⟩
    · have : stripPrefix (S ":") (c :: s) = none := by simp [S, stripPrefix, hc]
      rw [this] at hs
      cases hr : splitOnce (S ":") s with
      | none => rw [hr] at hs; cases hs
      | some q =>
        rw [hr] at hs
        obtain ⟨a', b'⟩ := q
        cases hs
        obtain ⟨e, hn⟩ := ih hr
        refine ⟨by rw [e]; rfl, ?_⟩
        simp only [List.mem_cons, not_or]
        exact ⟨hc, hn⟩

theorem spaceName_iff {n p : Str} (hp : p ≠ []) (hc : ':' ∉ p) : spaceName n = p ↔ ∃ l, n = p ++ S ":" ++ l := by
  unfold spaceName
  constructor
  · intro he
    cases hs : splitOnce (S ":") n with
    | none => rw [hs] at he; exact absurd he.symm hp
    | some q =>
      rw [hs] at he
      obtain ⟨a, b⟩ := q
      cases he
      exact ⟨b, by rw [(splitOnce_colon_some hs).1]; simp [S]⟩
  · rintro ⟨l, rfl⟩
    have : p ++ S ":" ++ l = p ++ ':' :: l := by simp [S]
    rw [this, splitOnce_at p l hc]

theorem derives_untyped (T : Str) : derivesFrom (S "xs:untyped") T = true ↔ T ∈ [S "xs:untyped", S "xs:anyType"] := by
  have e1 : derivesStep (S "xs:untyped") = some (S "xs:anyType") := by decide +kernel
  have e2 : derivesStep (S "xs:anyType") = none := by decide +kernel
  have hl : derivesTbl.length + 1 = 10 + 1 + 1 := rfl
  unfold derivesFrom
  rw [hl, derivesLoop]
  split
  · rename_i h; subst h; simp
  · rename_i h1
    rw [e1]
    simp only
    rw [derivesLoop]
    split
    · rename_i h; subst h; simp
    · rename_i h2
      rw [e2]
      simp only [Bool.false_eq_true, List.mem_cons, List.not_mem_nil, or_false, false_iff, not_or]
      exact ⟨Ne.symm h1, Ne.symm h2⟩

theorem derives_untypedAtomic (T : Str) : derivesFrom (S "xs:untypedAtomic") T = true ↔
    T ∈ [S "xs:untypedAtomic", S "xs:anyAtomicType", S "xs:anySimpleType", S "xs:anyType"] := by
  have e0 : derivesStep (S "xs:untypedAtomic") = some (S "xs:anyAtomicType") := by decide +kernel
  have e1 : derivesStep (S "xs:anyAtomicType") = some (S "xs:anySimpleType") := by decide +kernel
  have e2 : derivesStep (S "xs:anySimpleType") = some (S "xs:anyType") := by decide +kernel
  have e3 : derivesStep (S "xs:anyType") = none := by decide +kernel
  have hl : derivesTbl.length + 1 = 8 + 1 + 1 + 1 + 1 := rfl
  unfold derivesFrom
  rw [hl, derivesLoop]
  split
  · rename_i h; subst h; simp
  · rename_i h1
    rw [e0]; simp only
    rw [derivesLoop]
    split
    · rename_i h; subst h; simp
    · rename_i h2
      rw [e1]; simp only
      rw [derivesLoop]
      split
      · rename_i h; subst h; simp
      · rename_i h3
        rw [e2]; simp only
        rw [derivesLoop]
        split
        · rename_i h; subst h; simp
        · rename_i h4
          rw [e3]
          simp only [Bool.false_eq_true, List.mem_cons, List.not_mem_nil, or_false, false_iff, not_or]
          exact ⟨Ne.symm h1, Ne.symm h2, Ne.symm h3, Ne.symm h4⟩

theorem trimQ_plain {T : Str} (hT : T.getLast? ≠ some '?') : XSeq.trimQ T = T ∧ XSeq.trimQ (T ++ S "?") = T := by
  have key : XSeq.trimQ T = T := by
    unfold XSeq.trimQ
    cases hr : T.reverse with
    | nil => simpa using hr.symm
    | cons c s =>
      have hc : c ≠ '?' := by
        rintro rfl
        apply hT
        rw [List.getLast?_eq_head?_reverse, hr]; rfl
      have : (c :: s).dropWhile (· == '?') = c :: s := List.dropWhile_cons_of_neg (by simpa using hc)
      rw [this, ← hr, List.reverse_reverse]
  refine ⟨key, ?_⟩
  unfold XSeq.trimQ at *
  have : (T ++ S "?").reverse = '?' :: T.reverse := by simp [S]
  rw [this]
  simpa [List.dropWhile] using key

theorem nameOr_iff {n : Option Str} (hn : ∀ m, n = some m → NTest.IsLabel m) (s : Str) :
    (NTest.nameOr n ≠ S "*" ∧ NTest.nameOr n ≠ s) ↔ ¬ ∀ m, n = some m → s = m := by
  cases n with
  | none => simp [NTest.nameOr]
  | some m =>
    have : m ≠ S "*" := by
      rintro rfl
      exact (hn _ rfl).2.1 (by simp [S])
    simp only [NTest.nameOr, ne_eq, this, not_false_eq_true, true_and, Option.some.injEq, forall_eq']
    exact not_congr eq_comm

theorem elementTest_iff (h : Heap) (j : NodeId) {n : Option Str} (hn : ∀ m, n = some m → NTest.IsLabel m) (T T' : Str) (q : Bool)
    (ht : XSeq.trimQ T' = T) (hq : T'.getLast? = some '?' ↔ q = true) :
    matchKindTest h j (NTest.kind .elementTest (NTest.nameOr n) (.node .kindTestTypeName T' .nil .nil)) = true ↔
      (h.node j).ntype = .element ∧ (∀ m, n = some m → (h.node j).name = m) ∧ T ∈ [S "xs:untyped", S "xs:anyType"] ∧
      (q = false → h.attributeValue j (S "xsi:nil") ≠ some (S "true")) := by
  rw [show matchKindTest h j (NTest.kind .elementTest (NTest.nameOr n) (.node .kindTestTypeName T' .nil .nil)) =
    (if (h.node j).ntype ≠ .element then false
     else if NTest.nameOr n ≠ S "*" ∧ NTest.nameOr n ≠ (h.node j).name then false
     else if !derivesFrom (S "xs:untyped") (XSeq.trimQ T') then false
     else if T'.getLast? ≠ some '?' then
       match h.attributeValue j (S "xsi:nil") with
       | some p => p != S "true"
       | none => true
     else true) from rfl]
  by_cases h1 : (h.node j).ntype = .element
  · rw [if_neg (by simpa using h1)]
    by_cases h2 : ∀ m, n = some m → (h.node j).name = m
    · rw [if_neg (by rw [nameOr_iff hn]; simpa using h2), ht]
      by_cases h3 : derivesFrom (S "xs:untyped") T = true
      · rw [if_neg (by simp [h3])]
        have h3' := (derives_untyped T).1 h3
        cases q with
        | true =>
          have : T'.getLast? = some '?' := hq.2 rfl
          rw [if_neg (by simpa using this)]
          simp only [h1, h3', true_and, true_iff]
          exact ⟨h2, by simp⟩
        | false =>
          have : T'.getLast? ≠ some '?' := fun hh => by simpa using hq.1 hh
          rw [if_pos this]
          cases hv : h.attributeValue j (S "xsi:nil") with
          | none =>
            simp only [h1, h3', true_and, true_iff]
            exact ⟨h2, by simp⟩
          | some v =>
            simp only [h1, h3', true_and, bne_iff_ne, ne_eq, Option.some.injEq, forall_const]
            exact ⟨fun hh => ⟨h2, hh⟩, fun hh => hh.2⟩
      · rw [if_pos (by simpa using h3)]
        have := fun hh => h3 ((derives_untyped T).2 hh)
        simp only [Bool.false_eq_true, false_iff]
        exact fun hh => this hh.2.2.1
    · rw [if_pos ((nameOr_iff hn _).2 h2)]
      simp only [Bool.false_eq_true, false_iff]
      exact fun hh => h2 hh.2.1
  · rw [if_pos (by simpa using h1)]
    simp only [Bool.false_eq_true, false_iff]
    exact fun hh => h1 hh.1

theorem attributeTest_iff (h : Heap) (j : NodeId) {n : Option Str} (hn : ∀ m, n = some m → NTest.IsLabel m) (T : Str) :
    matchKindTest h j (NTest.kind .attributeTest (NTest.nameOr n) (.node .kindTestTypeName T .nil .nil)) = true ↔
      (h.node j).ntype = .attribute ∧ (∀ m, n = some m → (h.node j).name = m) ∧
      T ∈ [S "xs:untypedAtomic", S "xs:anyAtomicType", S "xs:anySimpleType", S "xs:anyType"] := by
  rw [show matchKindTest h j (NTest.kind .attributeTest (NTest.nameOr n) (.node .kindTestTypeName T .nil .nil)) =
    (if (h.node j).ntype ≠ .attribute then false
     else if NTest.nameOr n ≠ S "*" ∧ NTest.nameOr n ≠ (h.node j).name then false
     else derivesFrom (S "xs:untypedAtomic") T) from rfl]
  by_cases h1 : (h.node j).ntype = .attribute
  · rw [if_neg (by simpa using h1)]
    by_cases h2 : ∀ m, n = some m → (h.node j).name = m
    · rw [if_neg (by rw [nameOr_iff hn]; simpa using h2), derives_untypedAtomic]
      exact ⟨fun hh => ⟨h1, h2, hh⟩, fun hh => hh.2.2⟩
    · rw [if_pos ((nameOr_iff hn _).2 h2)]
      simp only [Bool.false_eq_true, false_iff]
      exact fun hh => h2 hh.2.1
  · rw [if_pos (by simpa using h1)]
    simp only [Bool.false_eq_true, false_iff]
    exact fun hh => h1 hh.1

theorem nameTest_eq (h : Heap) (t : XNodeType) (j : NodeId) (n : Str) (T : NTest) (hT : stepOf t T = .node t n .nil .nil) :
    matchNodeTest h j (stepOf t T) =
      (if n = S "node()" then true
       else if NTest.principal t ≠ (h.node j).ntype then false
       else if n = (h.node j).name then true
       else if n = S "*" then true
       else match splitOnce (S ":") n with
         | some (a, b) => b == S "*" && spaceName (h.node j).name == a
         | none => false) := by
  rw [hT]; rfl

theorem nodeTest_iff (h : Heap) (t : XNodeType) (T : NTest) (hT : T.Proper) (j : NodeId) :
    matchNodeTest h j (stepOf t T) = true ↔ T.Passes h t j := by
  cases T with
  | name n =>
    rw [nameTest_eq h t j n _ rfl]
    simp only [NTest.Passes]
    have h1 : n ≠ S "node()" := by rintro rfl; exact hT.2.2 (by decide)
    have h2 : n ≠ S "*" := by rintro rfl; exact hT.2.1 (by decide)
    rw [if_neg h1]
    by_cases h3 : NTest.principal t = (h.node j).ntype
    · rw [if_neg (by simpa using h3)]
      by_cases h4 : n = (h.node j).name
      · rw [if_pos h4]; simp [h3, h4]
      · rw [if_neg h4, if_neg h2]
        have : (match splitOnce (S ":") n with
          | some (a, b) => b == S "*" && spaceName (h.node j).name == a
          | none => false) = false := by
          cases hs : splitOnce (S ":") n with
          | none => rfl
          | some q =>
            obtain ⟨a, b⟩ := q
            have := (splitOnce_colon_some hs).1
            have hb : b ≠ S "*" := by
              rintro rfl
              exact hT.2.1 (by rw [this]; simp [S])
            simp [hb]
        rw [this]
        simp [h3, Ne.symm h4]
    · rw [if_pos h3]
      simp [Ne.symm h3]
  | any =>
    rw [nameTest_eq h t j (S "*") _ rfl]
    simp only [NTest.Passes]
    rw [if_neg (by decide)]
    by_cases h3 : NTest.principal t = (h.node j).ntype
    · rw [if_neg (by simpa using h3)]
      simp [h3]
    · rw [if_pos h3]
      simp [Ne.symm h3]
  | inPrefix p =>
    rw [nameTest_eq h t j (p ++ S ":*") _ rfl]
    simp only [NTest.Passes]
    have hpp : p ≠ [] := hT.1.1
    have hsplit : splitOnce (S ":") (p ++ S ":*") = some (p, S "*") := by
      have : p ++ S ":*" = p ++ ':' :: S "*" := by simp [S]
      rw [this, splitOnce_at _ _ hT.2]
    have h1 : p ++ S ":*" ≠ S "node()" := by
      intro e
      have := congrArg List.getLast? e
      rw [List.getLast?_append] at this
      simp [S] at this
    have h2 : p ++ S ":*" ≠ S "*" := by
      intro e
      have := congrArg List.length e
      simp [S] at this
    rw [if_neg h1]
    by_cases h3 : NTest.principal t = (h.node j).ntype
    · rw [if_neg (by simpa using h3)]
      by_cases h4 : p ++ S ":*" = (h.node j).name
      · rw [if_pos h4]
        simp only [h3, true_and, true_iff]
        exact ⟨S "*", by rw [← h4]; simp [S]⟩
      · rw [if_neg h4, if_neg h2, hsplit]
        simp only [beq_self_eq_true, Bool.true_and, beq_iff_eq, h3, true_and]
        exact spaceName_iff hpp hT.2
    · rw [if_pos h3]
      simp [Ne.symm h3]
  | dots => simp [matchNodeTest, matchNameTest, stepOf, NTest.tree, NTest.label, NTest.Passes, XNode.left, XNode.isNil, XNode.ty, XNode.name]
  | anyNode => exact ⟨fun _ => trivial, fun _ => rfl⟩
  | text =>
    show ((h.node j).ntype == NodeType.text) = true ↔ _
    simp [NTest.Passes]
  | comment =>
    show ((h.node j).ntype == NodeType.comment) = true ↔ _
    simp [NTest.Passes]
  | pi n =>
    cases n with
    | none =>
      show ((h.node j).ntype == NodeType.instruction && (([] : Str) == [] || ([] : Str) == (h.node j).name)) = true ↔ _
      simp [NTest.Passes]
    | some m =>
      show ((h.node j).ntype == NodeType.instruction && (m == [] || m == (h.node j).name)) = true ↔ _
      have : m ≠ [] := (hT m rfl).1
      simp only [Bool.and_eq_true, beq_iff_eq, Bool.or_eq_true, this, false_or, NTest.Passes, Option.some.injEq, forall_eq']
      exact and_congr_right fun _ => eq_comm
  | element n =>
    have := elementTest_iff h j (n := n) hT (S "xs:anyType") (S "xs:anyType?") true (by decide) (by decide)
    exact this.trans (by simp [NTest.Passes])
  | elementOf n T' q =>
    obtain ⟨a, b⟩ := trimQ_plain hT.2
    refine (elementTest_iff h j (n := n) hT.1 T' (if q then T' ++ S "?" else T') q ?_ ?_)
    · cases q <;> simpa
    · cases q with
      | true => simp [S]
      | false => simpa using hT.2
  | attr n =>
    have := attributeTest_iff h j (n := n) hT (S "xs:anyType")
    exact this.trans (by simp [NTest.Passes])
  | attrOf n T' => exact attributeTest_iff h j (n := n) hT T'

/-- **C76.** A step without predicates, from any node of a document: it has a value, a sequence of nodes of the document in document order
without repetitions, and a node is in it exactly if it is on the axis and passes the node test. (The start of an absolute path has no
node test.) -/
theorem C76_step_partial (h : Heap) (hr : Reach h) (r : NodeId) (F : Forest NodeId) (hd : DocTree h r F) (hp : PlainAttrs h r F) (i : NodeId)
    (hi : i ∈ docIds h (.cons r F .nil)) (t : XNodeType) (ht : t ∈ axes) (T : NTest) (hT : T.Proper) (env : Env) :
    ∃ l : List NodeId, Value h [.node i] (stepOf t T) env (l.map .node) ∧ l.Sublist (docIds h (.cons r F .nil)) ∧ l.Nodup ∧
      ∀ j, j ∈ l ↔ OnAxis h r F t i j ∧ (t ≠ .axisRoot → T.Passes h t j) := by
  have hw := hr.inv.1
  have hroot : h.root i = r := root_eq hd hw hi
  have hax := onAxis_iff hw hd hp hi
  have key : ∃ l, axisNodes h i (stepOf t T) = some l ∧ ∀ j, j ∈ l ↔ OnAxis h r F t i j ∧ (t ≠ .axisRoot → T.Passes h t j) := by
    have filt : ∀ (axis : Heap → NodeId → List NodeId), (∀ j, j ∈ axis h i ↔ OnAxis h r F t i j) → t ≠ .axisRoot →
        ∀ j, j ∈ matchAlongAxis h i (stepOf t T) axis ↔ OnAxis h r F t i j ∧ (t ≠ .axisRoot → T.Passes h t j) := by
      intro axis hA hne j
      unfold matchAlongAxis
      rw [List.mem_filter, hA, nodeTest_iff h t T hT]
      simp [hne]
    simp only [axes, List.mem_cons, List.not_mem_nil, or_false] at ht
    rcases ht with rfl | rfl | rfl | rfl | rfl | rfl | rfl | rfl | rfl | rfl | rfl | rfl | rfl
    · exact ⟨_, rfl, filt _ (fun j => (hax j).1) (by simp)⟩
    · refine ⟨_, rfl, filt _ (fun j => ?_) (by simp)⟩
      show j ∈ arrayAncestor h i ++ [i] ↔ j = i ∨ Ancestor h j i
      rw [List.mem_append, List.mem_singleton, (hax j).1, or_comm]; rfl
    · exact ⟨_, rfl, filt _ (fun j => Iff.rfl) (by simp)⟩
    · exact ⟨_, rfl, filt _ (fun j => (hax j).2.2.1) (by simp)⟩
    · exact ⟨_, rfl, filt _ (fun j => (hax j).2.1) (by simp)⟩
    · refine ⟨_, rfl, filt _ (fun j => ?_) (by simp)⟩
      show j ∈ i :: arrayDescendant h i ↔ j = i ∨ _
      rw [List.mem_cons, (hax j).2.1]; rfl
    · exact ⟨_, rfl, filt _ (fun j => (hax j).2.2.2.1) (by simp)⟩
    · exact ⟨_, rfl, filt _ (fun j => (hax j).2.2.2.2.2.1) (by simp)⟩
    · cases hpar : (h.node i).parent with
      | none =>
        refine ⟨[], ?_, fun j => ?_⟩
        · show (match (h.node i).parent with | some p => _ | none => some []) = _
          rw [hpar]
        · simp [OnAxis, hpar]
      | some p =>
        refine ⟨if matchNodeTest h p (stepOf .axisParent T) then [p] else [], ?_, fun j => ?_⟩
        · show (match (h.node i).parent with
            | some p => some (if matchNodeTest h p (stepOf .axisParent T) then [p] else []) | none => some []) = _
          rw [hpar]
        · simp only [OnAxis, hpar, Option.some.injEq]
          split
          · rename_i hm
            rw [List.mem_singleton]
            constructor
            · rintro rfl
              exact ⟨rfl, fun _ => (nodeTest_iff h _ T hT _).1 hm⟩
            · rintro ⟨rfl, -⟩; rfl
          · rename_i hm
            constructor
            · intro hh; cases hh
            · rintro ⟨rfl, hh⟩
              exact absurd ((nodeTest_iff h _ T hT _).2 (hh (by simp))) hm
    · exact ⟨_, rfl, filt _ (fun j => (hax j).2.2.2.2.1) (by simp)⟩
    · exact ⟨_, rfl, filt _ (fun j => (hax j).2.2.2.2.2.2) (by simp)⟩
    · refine ⟨[h.root i], rfl, fun j => ?_⟩
      simp [OnAxis, hroot]
    · refine ⟨if matchNodeTest h i (stepOf .axisSelf T) then [i] else [], rfl, fun j => ?_⟩
      simp only [OnAxis]
      split
      · rename_i hm
        rw [List.mem_singleton]
        constructor
        · rintro rfl
          exact ⟨rfl, fun _ => (nodeTest_iff h _ T hT _).1 hm⟩
        · rintro ⟨rfl, -⟩; rfl
      · rename_i hm
        constructor
        · intro hh; cases hh
        · rintro ⟨rfl, hh⟩
          exact absurd ((nodeTest_iff h _ T hT _).2 (hh (by simp))) hm
  obtain ⟨l, hl, hm⟩ := key
  have hs := axisNodes_sublist hw hd hp hi hl
  refine ⟨l, ?_, hs, hd.nodup.sublist hs, hm⟩
  unfold Value
  have e := step_run (h := h) (t := t) (n := T.label) (l := T.tree) (r := .nil) (i := i) ht
  show evaluate h [.node i] (.node t T.label T.tree .nil) env = _
  rw [e, E.bind_run]
  unfold locStep
  have hl' : axisNodes h i (.node t T.label T.tree .nil) = some l := hl
  rw [hl']
  show Except.ok (XSeq.ofNodes (XSeq.toNodeset (XSeq.ofNodes l)), env) = _
  rw [toNodeset_ofNodes]; rfl

/-- The hypotheses are met, and the parser makes these trees: `following-sibling::element(c)` from `b` in `<a x="1" y="2"><b/><c/></a>`. -/
example : Parser.compileXPath (S "following-sibling::element(c)") = .ok (stepOf .axisFollowingSibling (.element (some (S "c")))) := by
  decide +kernel

example (env : Env) : Value editSample [.node 4] (stepOf .axisFollowingSibling (.element (some (S "c")))) env [.node 5] := by
  obtain ⟨l, hv, hs, hn, hm⟩ := C76_step_partial editSample (.parse .empty editSample_parsed) 0 _ editSample_doc
    ⟨by decide, by decide⟩ 4 (by decide) .axisFollowingSibling (by decide) (.element (some (S "c")))
    (by intro m hm; cases hm; exact ⟨by decide, by decide, by decide⟩) env
  have : l = [5] := by
    refine sublist_ext editSample_doc.nodup hs (by decide) fun j => ?_
    rw [hm]
    constructor
    · rintro ⟨⟨hb, -⟩, hc⟩
      have hj := (before_mem hb).2
      have hjn := (hc (by simp)).2 _ rfl
      simp only [Forest.toList, List.mem_cons, List.nil_append, List.append_nil, List.not_mem_nil, or_false] at hj
      rcases hj with rfl | rfl | rfl
      · exact absurd hjn (by decide)
      · exact absurd hjn (by decide)
      · simp
    · intro hj
      rw [List.mem_singleton.1 hj]
      refine ⟨⟨by unfold Before; decide, by decide⟩, fun _ => ⟨by decide, ?_⟩⟩
      intro m hm; cases hm; decide
  rw [this] at hv; exact hv

/-- **C76** is false of the code for the tests left out of `NTest`: `*:n` selects nothing, `document-node()` does not select the
document; and from an attribute the axis `following` is empty although nodes follow it in document order. -/
theorem C76_violated :
    evalXPath editSample 20 0 (S "/a/b") = .ok [.node 4] ∧
    evalXPath editSample 20 0 (S "/a/*:b") = .ok [] ∧
    evalXPath editSample 20 0 (S "/self::node()") = .ok [.node 0] ∧
    evalXPath editSample 20 0 (S "/self::document-node()") = .ok [] ∧
    evalXPath editSample 20 0 (S "/a/@x/following::b") = .ok [] ∧
    evalXPath editSample 20 0 (S "/a/@x << /a/b") = .ok [.boolean true] := by
  refine ⟨?_, ?_, ?_, ?_, ?_, ?_⟩ <;> run_query

end Amxml
