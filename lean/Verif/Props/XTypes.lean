import Verif.Spec.SeqTypes
import Verif.Props.XStep
import Verif.Props.XOper

/-!
# Sequence types: C77
-/

namespace Amxml
open Spec

/-! ## Derivation -/

/-- The table of the model is the relation of the specification: the step from a type is its parent. -/
theorem derived_iff (a b : Str) : derivesFrom a b = true ↔ Derived a b := by
  have one : ∀ n a, derivesLoop b n a = true → Derived a b := by
    intro n
    induction n with
    | zero => intro a h; cases h
    | succ n ih =>
      intro a h
      rw [derivesLoop] at h
      by_cases hab : a = b
      · subst hab; exact .refl _
      · rw [if_neg hab] at h
        cases hs : derivesStep a with
        | none => rw [hs] at h; cases h
        | some c =>
          rw [hs] at h
          refine .step ?_ (ih c h)
          unfold derivesStep at hs
          cases hf : derivesTbl.find? (fun e => e.1 == a) with
          | none => rw [hf] at hs; cases hs
          | some e =>
            rw [hf] at hs
            have h1 := List.find?_some hf
            have h2 := List.mem_of_find?_eq_some hf
            simp only [Option.map_some, Option.some.injEq] at hs
            have : e = (a, c) := by cases e; simp at h1 hs; simp [h1, hs]
            rw [← this]; exact h2
  refine ⟨one _ a, fun h => ?_⟩
  have key : ∀ x ∈ derivesTbl, ∀ y ∈ derivesTbl.map (·.2) ++ derivesTbl.map (·.1), derivesFrom x.2 y = true → derivesFrom x.1 y = true := by
    decide +kernel
  have known : ∀ x y, Derived x y → x = y ∨ y ∈ derivesTbl.map (·.2) ++ derivesTbl.map (·.1) := by
    intro x y h
    induction h with
    | refl => exact .inl rfl
    | step hm hd ih =>
      rcases ih with rfl | ih
      · exact .inr (List.mem_append_left _ (List.mem_map.2 ⟨_, hm, rfl⟩))
      · exact .inr ih
  clear one
  induction h with
  | refl a => simp [derivesFrom, derivesLoop]
  | @step a c b hm hd ih =>
    rcases known c b hd with rfl | hb
    · exact key _ hm _ (List.mem_append_left _ (List.mem_map.2 ⟨_, hm, rfl⟩)) ih
    · exact key _ hm _ hb ih

/-- The items and their atomic types. -/
theorem valueTypes_iff (x : XItem) {n : Str} (hn : ':' ∈ n) : derivesFrom x.xsType n = true ↔ n ∈ valueTypes x := by
  have gen : ∀ (t : Str) (l : List Str), (∀ y ∈ derivesTbl.map (·.2) ++ derivesTbl.map (·.1) ++ [t], derivesFrom t y = true ↔ y ∈ l) →
      (∀ y ∈ l, y ∈ derivesTbl.map (·.2) ++ derivesTbl.map (·.1) ++ [t]) → (derivesFrom t n = true ↔ n ∈ l) := by
    intro t l h1 h2
    by_cases hm : n ∈ derivesTbl.map (·.2) ++ derivesTbl.map (·.1) ++ [t]
    · exact h1 n hm
    · constructor
      · intro hd
        exfalso
        rw [derived_iff] at hd
        have : ∀ x y, Derived x y → x = y ∨ y ∈ derivesTbl.map (·.2) := by
          intro x y h
          induction h with
          | refl => exact .inl rfl
          | step hm' _ ih =>
            rcases ih with rfl | ih
            · exact .inr (List.mem_map.2 ⟨_, hm', rfl⟩)
            · exact .inr ih
        rcases this _ _ hd with rfl | hh
        · exact hm (by simp)
        · exact hm (by simp only [List.mem_append]; exact .inl (.inl hh))
      · intro hl; exact absurd (h2 n hl) hm
  have none : ∀ t : Str, derivesStep t = Option.none → ':' ∉ t → (derivesFrom t n = true ↔ n ∈ ([] : List Str)) := by
    intro t ht hc
    have hne : t ≠ n := by rintro rfl; exact hc hn
    rw [show derivesFrom t n = derivesLoop n (derivesTbl.length + 1) t from rfl, derivesLoop, if_neg hne, ht]
    simp
  cases x with
  | fn f => exact none (S "function(*)") (by decide +kernel) (by decide +kernel)
  | map f => exact none (S "map(*)") (by decide +kernel) (by decide +kernel)
  | array f => exact none (S "array(*)") (by decide +kernel) (by decide +kernel)
  | node f => exact none (S "node") (by decide +kernel) (by decide +kernel)
  | string f => exact gen (S "xs:string") _ (by simp only [valueTypes]; decide +kernel) (by simp only [valueTypes]; decide +kernel)
  | integer f => exact gen (S "xs:integer") _ (by simp only [valueTypes]; decide +kernel) (by simp only [valueTypes]; decide +kernel)
  | decimal f => exact gen (S "xs:decimal") _ (by simp only [valueTypes]; decide +kernel) (by simp only [valueTypes]; decide +kernel)
  | double f => exact gen (S "xs:double") _ (by simp only [valueTypes]; decide +kernel) (by simp only [valueTypes]; decide +kernel)
  | boolean f => exact gen (S "xs:boolean") _ (by simp only [valueTypes]; decide +kernel) (by simp only [valueTypes]; decide +kernel)

/-! ## The subtype relation -/

/-- The node type of the syntax tree of a kind test. -/
def kindType : NTest → XNodeType
  | .anyNode => .anyKindTest
  | .text => .textTest
  | .comment => .commentTest
  | .pi _ => .pITest
  | .element _ | .elementOf .. => .elementTest
  | .attr _ | .attrOf .. => .attributeTest
  | _ => .nil

theorem kind_tree {T : NTest} (hT : T.IsKind) : ∃ n l, T.tree = .node .kindTest [] (.node (kindType T) n l .nil) .nil := by
  cases T with
  | pi n => cases n <;> exact ⟨_, _, rfl⟩
  | name _ => exact hT.elim
  | any => exact hT.elim
  | inPrefix _ => exact hT.elim
  | dots => exact hT.elim
  | _ => exact ⟨_, _, rfl⟩

/-- Which occurrence indicators include which. -/
theorem occ_iff (o p : Occ) : (∀ n, o.Admits n → p.Admits n) ↔
    (o, p) ∈ [(Occ.one, Occ.one), (.one, .opt), (.one, .many), (.one, .plus), (.opt, .opt), (.opt, .many), (.many, .many), (.plus, .plus), (.plus, .many)] := by
  constructor
  · intro h
    have h0 := h 0
    have h2 := h 2
    cases o <;> cases p <;> simp [Occ.Admits] at h0 h2 ⊢
  · intro h n
    cases o <;> cases p <;> simp [Occ.Admits] at h ⊢ <;> omega

/-- The comparison of sequence types, with the one of item types given. -/
theorem subtypeWith_iff {item : XNode → XNode → Bool} {a b : SType} (ha : a.Proper) (hb : b.Proper)
    (hi : ∀ x o y p, a = .of x o → b = .of y p → (item x.tree y.tree = true ↔ x.Sub y)) :
    subtypeWith item a.tree b.tree = true ↔ a.Sub b := by
  have entry : ∀ (x : IType) (o : Occ), x.Proper → subtypeEntry (SType.of x o).tree = (match o with | .one => 3 | .opt => 1 | .many => 2 | .plus => 4) := by
    intro x o hx
    have h1 : x.tree.ty ≠ .emptySequenceTest := by
      cases x with
      | kind T => obtain ⟨n, l, e⟩ := kind_tree hx.1; show T.tree.ty ≠ _; rw [e]; simp [XNode.ty]
      | _ => simp [IType.tree, XNode.ty]
    have h2 : ¬ (x.tree.ty = .atomicOrUnionType ∧ x.tree.name = S "xs:error") := by
      cases x with
      | kind T => obtain ⟨n, l, e⟩ := kind_tree hx.1; show ¬ (T.tree.ty = _ ∧ _); rw [e]; simp [XNode.ty]
      | atomic n => simp only [IType.tree, XNode.name]; exact fun h => hx.2 h.2
      | _ => simp [IType.tree, XNode.ty]
    rw [show subtypeEntry (SType.of x o).tree = (if x.tree.ty = .emptySequenceTest then 0
      else if x.tree.ty = .atomicOrUnionType ∧ x.tree.name = S "xs:error" then (if o.mark = S "?" then 0 else if o.mark = S "*" then 0 else 5)
      else if o.mark = S "?" then 1 else if o.mark = S "*" then 2 else if o.mark = [] then 3 else if o.mark = S "+" then 4 else 3) from rfl,
      if_neg h1, if_neg h2]
    cases o <;> decide
  have entry0 : subtypeEntry SType.empty.tree = 0 := by decide
  unfold subtypeWith
  cases a with
  | empty =>
    cases b with
    | empty => rw [entry0]; exact ⟨fun _ => .empty, fun _ => rfl⟩
    | of y p =>
      rw [entry0, entry y p hb]
      cases p <;> simp only [subtypeTbl]
      · exact ⟨fun h => by simp at h, fun h => by cases h with | none h => exact absurd h (by simp [Occ.Admits])⟩
      · exact ⟨fun _ => .none (by simp [Occ.Admits]), fun _ => trivial⟩
      · exact ⟨fun _ => .none (by simp [Occ.Admits]), fun _ => trivial⟩
      · exact ⟨fun h => by simp at h, fun h => by cases h with | none h => exact absurd h (by simp [Occ.Admits])⟩
  | of x o =>
    cases b with
    | empty =>
      rw [entry0, entry x o ha]
      cases o <;> simp only [subtypeTbl] <;> exact ⟨fun h => by simp at h, fun h => by cases h⟩
    | of y p =>
      rw [entry x o ha, entry y p hb]
      have hh : (SType.of x o).Sub (SType.of y p) ↔ (∀ n, o.Admits n → p.Admits n) ∧ x.Sub y :=
        ⟨fun h => by cases h with | of h1 h2 => exact ⟨h1, h2⟩, fun h => .of h.1 h.2⟩
      rw [hh, occ_iff, ← hi x o y p rfl rfl]
      cases o <;> cases p <;> simp [subtypeTbl, SType.tree, XNode.left]

/-- No `processing-instruction(n)`, and not both function signatures and maps or arrays. -/
structure Tame (A B : SType) : Prop where
  piL : A.Without IsNamedPI
  piR : B.Without IsNamedPI
  mixed : (A.Without IsContainer ∧ B.Without IsContainer) ∨ (A.Without IsTyped ∧ B.Without IsTyped)

theorem Tame.swap {A B : SType} (t : Tame A B) : Tame B A := ⟨t.piR, t.piL, t.mixed.imp And.symm And.symm⟩

/-- The types in the list. -/
def PTypes.toList : PTypes → List SType
  | .nil => []
  | .cons t ts => t :: PTypes.toList ts

theorem chain_param (n : Str) (l r : XNode) : (XNode.node .param n l r).chain = .node .param n l r :: r.chain := rfl

theorem params_sub {sub : XNode → XNode → Bool} : ∀ (ps qs : PTypes) (i : Nat),
    (∀ p ∈ PTypes.toList ps, ∀ q ∈ PTypes.toList qs, sub q.tree p.tree = true ↔ q.Sub p) →
    (sigSubtype sub (i + 1) (ps.tree.chain.map XNode.left) (qs.tree.chain.map XNode.left) = true ↔ qs.Sub ps)
  | .nil, .nil, i, _ => ⟨fun _ => .nil, fun _ => rfl⟩
  | .nil, .cons q qs, i, _ => ⟨fun h => (nomatch h), fun h => (nomatch h)⟩
  | .cons p ps, .nil, i, _ => ⟨fun h => (nomatch h), fun h => (nomatch h)⟩
  | .cons p ps, .cons q qs, i, hs => by
    have ih := params_sub ps qs (i + 1) fun a ha b hb => hs a (by simp [PTypes.toList, ha]) b (by simp [PTypes.toList, hb])
    have h0 := hs p (by simp [PTypes.toList]) q (by simp [PTypes.toList])
    show sigSubtype sub (i + 1) (p.tree :: ps.tree.chain.map XNode.left) (q.tree :: qs.tree.chain.map XNode.left) = true ↔ _
    rw [sigSubtype, if_neg (by omega), Bool.and_eq_true, h0, ih]
    exact ⟨fun h => .cons h.1 h.2, fun h => by cases h with | cons a b => exact ⟨a, b⟩⟩

theorem params_mem : ∀ (ps : PTypes) (p : SType), p ∈ PTypes.toList ps → p.tree.depth ≤ ps.tree.depth ∧
    (ps.Proper → p.Proper) ∧ ∀ P, ps.Without P → p.Without P
  | .nil, p, h => by cases h
  | .cons t ts, p, h => by
    rcases List.mem_cons.1 h with rfl | h
    · refine ⟨?_, fun h => h.1, fun P h => h.1⟩
      show _ ≤ max p.tree.depth ts.tree.depth + 1
      omega
    · have ih := params_mem ts p h
      refine ⟨?_, fun h => ih.2.1 h.2, fun P h => ih.2.2 P h.2⟩
      show _ ≤ max t.tree.depth ts.tree.depth + 1
      omega

theorem subtypeItemF_iff : ∀ (n : Nat) (a b : IType), a.tree.depth ≤ n → b.tree.depth ≤ n → a.Proper → b.Proper →
    Tame (.of a .one) (.of b .one) → (subtypeItemF n a.tree b.tree = true ↔ a.Sub b) := by
  intro n
  induction n with
  | zero =>
    intro a b ha _ pa
    exfalso
    cases a with
    | kind T => obtain ⟨n, l, e⟩ := kind_tree pa.1; rw [show (IType.kind T).tree = T.tree from rfl, e] at ha; simp [XNode.depth] at ha
    | _ => simp [IType.tree, XNode.depth] at ha
  | succ n ih =>
    intro a b ha hb pa pb tm
    have seq : ∀ A B : SType, A.tree.depth ≤ n + 1 → B.tree.depth ≤ n + 1 → A.Proper → B.Proper → Tame A B →
        (subtypeWith (subtypeItemF n) A.tree B.tree = true ↔ A.Sub B) := by
      intro A B hA hB pA pB t
      refine subtypeWith_iff pA pB ?_
      rintro x o y p rfl rfl
      refine ih x y ?_ ?_ pA pB ⟨t.piL, t.piR, t.mixed⟩
      · simp [SType.tree, XNode.depth] at hA; omega
      · simp [SType.tree, XNode.depth] at hB; omega
    rw [subtypeItemF]
    cases a with
    | item =>
      cases b with
      | item => exact ⟨fun _ => .item, fun _ => by simp [IType.tree, XNode.ty]⟩
      | kind T =>
        obtain ⟨m, l, e⟩ := kind_tree pb.1
        rw [show (IType.kind T).tree = T.tree from rfl, e]
        exact ⟨fun h => by simp [IType.tree, XNode.ty, subtypeKind, XNode.left] at h; split at h <;> simp at h, fun h => by cases h⟩
      | _ => exact ⟨fun h => by simp [IType.tree, XNode.ty] at h, fun h => by cases h⟩
    | kind T =>
      obtain ⟨m, l, e⟩ := kind_tree pa.1
      rw [show (IType.kind T).tree = T.tree from rfl, e]
      cases b with
      | item => exact ⟨fun _ => .item, fun _ => by simp [IType.tree, XNode.ty]⟩
      | kind T' =>
        obtain ⟨m', l', e'⟩ := kind_tree pb.1
        rw [show (IType.kind T').tree = T'.tree from rfl, e']
        have hT' : ∀ n, T' ≠ .pi (some n) := fun n h => tm.piR ⟨n, by rw [h]⟩
        cases T' with
        | anyNode => exact ⟨fun _ => .node, fun _ => by simp [XNode.ty, subtypeKind, XNode.left, kindType]⟩
        | text =>
          simp [XNode.ty, subtypeKind, XNode.left, kindType]
          constructor
          · intro h; cases T <;> simp at h; exact .text
          · intro h; cases h; rfl
        | comment =>
          simp [XNode.ty, subtypeKind, XNode.left, kindType]
          constructor
          · intro h; cases T <;> simp at h; exact .comment
          · intro h; cases h; rfl
        | pi n =>
          cases n with
          | some n => exact absurd rfl (hT' n)
          | none =>
            simp [XNode.ty, subtypeKind, XNode.left, kindType, XNode.name]
            constructor
            · intro h; cases T <;> simp at h; exact .pi
            · intro h; cases h; rfl
        | _ => exact ⟨fun h => by simp [XNode.ty, subtypeKind, XNode.left, kindType] at h, fun h => nomatch h⟩
      | _ => exact ⟨fun h => by simp [IType.tree, XNode.ty] at h, fun h => nomatch h⟩
    | atomic k =>
      cases b with
      | item => exact ⟨fun _ => .item, fun _ => by simp [IType.tree, XNode.ty]⟩
      | kind T =>
        obtain ⟨m, l, e⟩ := kind_tree pb.1
        rw [show (IType.kind T).tree = T.tree from rfl, e]
        exact ⟨fun h => by simp [IType.tree, XNode.ty, subtypeKind, XNode.left] at h; split at h <;> simp at h, fun h => nomatch h⟩
      | atomic k' =>
        simp only [IType.tree, XNode.ty, XNode.name, beq_self_eq_true, Bool.true_and]
        have : (k == S "xs:error") = false := by simpa using pa.2
        rw [this]
        simp only [Bool.or_false]
        have he : (IType.atomic k).Sub (.atomic k') ↔ Derived k k' := ⟨fun h => by cases h with | atomic h => exact h, .atomic⟩
        rw [he, ← derived_iff]
        simp
      | _ => exact ⟨fun h => by simp [IType.tree, XNode.ty] at h, fun h => nomatch h⟩
    | anyFunction =>
      cases b with
      | item => exact ⟨fun _ => .item, fun _ => by simp [IType.tree, XNode.ty]⟩
      | kind T =>
        obtain ⟨m, l, e⟩ := kind_tree pb.1
        rw [show (IType.kind T).tree = T.tree from rfl, e]
        exact ⟨fun h => by simp [IType.tree, XNode.ty, subtypeKind, XNode.left] at h; split at h <;> simp at h, fun h => nomatch h⟩
      | anyFunction => exact ⟨fun _ => .anyFunction, fun _ => by simp [IType.tree, XNode.ty]⟩
      | _ => exact ⟨fun h => by simp [IType.tree, XNode.ty] at h, fun h => nomatch h⟩
    | function ps r =>
      cases b with
      | item => exact ⟨fun _ => .item, fun _ => by simp [IType.tree, XNode.ty]⟩
      | kind T =>
        obtain ⟨m, l, e⟩ := kind_tree pb.1
        rw [show (IType.kind T).tree = T.tree from rfl, e]
        exact ⟨fun h => by simp [IType.tree, XNode.ty, subtypeKind, XNode.left] at h; split at h <;> simp at h, fun h => nomatch h⟩
      | anyFunction => exact ⟨fun _ => .functionAny, fun _ => by simp [IType.tree, XNode.ty]⟩
      | function qs s =>
        have he : (IType.function ps r).Sub (.function qs s) ↔ r.Sub s ∧ qs.Sub ps :=
          ⟨fun h => by cases h with | function h1 h2 => exact ⟨h1, h2⟩, fun h => .function h.1 h.2⟩
        have hc : (ps.Without IsContainer ∧ r.Without IsContainer) ∧ qs.Without IsContainer ∧ s.Without IsContainer := by
          rcases tm.mixed with h | h
          · exact ⟨h.1.2, h.2.2⟩
          · exact absurd ⟨ps, r, rfl⟩ h.1.1
        have hda : max r.tree.depth ps.tree.depth + 1 ≤ n := by simpa [IType.tree, XNode.depth] using ha
        have hdb : max s.tree.depth qs.tree.depth + 1 ≤ n := by simpa [IType.tree, XNode.depth] using hb
        rw [he, ← seq r s (by omega) (by omega) pa.2 pb.2 ⟨tm.piL.2.2, tm.piR.2.2, .inl ⟨hc.1.2, hc.2.2⟩⟩,
          ← params_sub (sub := subtypeWith (subtypeItemF n)) ps qs 0 ?_]
        · simp [IType.tree, XNode.ty, signatureOf, XNode.right, XNode.left, XNode.chain, sigSubtype]
        · intro p hp q hq
          have mp := params_mem ps p hp
          have mq := params_mem qs q hq
          exact seq q p (by omega) (by omega) (mq.2.1 pb.1) (mp.2.1 pa.1)
            ⟨mq.2.2 _ tm.piR.2.1, mp.2.2 _ tm.piL.2.1, .inl ⟨mq.2.2 _ hc.2.1, mp.2.2 _ hc.1.1⟩⟩
      | _ => exact ⟨fun h => by simp [IType.tree, XNode.ty] at h, fun h => nomatch h⟩
    | map k v =>
      have hda : max 1 v.tree.depth ≤ n := by simpa [IType.tree, XNode.depth] using ha
      cases b with
      | item => exact ⟨fun _ => .item, fun _ => by simp [IType.tree, XNode.ty]⟩
      | kind T =>
        obtain ⟨m, l, e⟩ := kind_tree pb.1
        rw [show (IType.kind T).tree = T.tree from rfl, e]
        exact ⟨fun h => by simp [IType.tree, XNode.ty, subtypeKind, XNode.left] at h; split at h <;> simp at h, fun h => nomatch h⟩
      | anyFunction => exact ⟨fun _ => .mapAny, fun _ => by simp [IType.tree, XNode.ty]⟩
      | function qs s =>
        exfalso
        rcases tm.mixed with h | h
        · exact h.1.1 (.inl ⟨_, _, rfl⟩)
        · exact h.2.1 ⟨_, _, rfl⟩
      | map l w =>
        have hdb : max 1 w.tree.depth ≤ n := by simpa [IType.tree, XNode.depth] using hb
        have he : (IType.map k v).Sub (.map l w) ↔ Derived k l ∧ v.Sub w :=
          ⟨fun h => by cases h with | map h1 h2 => exact ⟨h1, h2⟩, fun h => .map h.1 h.2⟩
        have hm : (v.Without IsContainer ∧ w.Without IsContainer) ∨ (v.Without IsTyped ∧ w.Without IsTyped) := by
          rcases tm.mixed with h | h
          · exact .inl ⟨h.1.2, h.2.2⟩
          · exact .inr ⟨h.1.2, h.2.2⟩
        have hk := ih (.atomic k) (.atomic l) (by simp [IType.tree, XNode.depth]; omega) (by simp [IType.tree, XNode.depth]; omega)
          ⟨pa.1, pa.2.1⟩ ⟨pb.1, pb.2.1⟩ ⟨(by rintro ⟨_, h⟩; cases h), (by rintro ⟨_, h⟩; cases h),
            .inr ⟨(by rintro ⟨_, _, h⟩; cases h), (by rintro ⟨_, _, h⟩; cases h)⟩⟩
        have hk' : (IType.atomic k).Sub (.atomic l) ↔ Derived k l := ⟨fun h => by cases h with | atomic h => exact h, .atomic⟩
        rw [he, ← seq v w (by omega) (by omega) pa.2.2 pb.2.2 ⟨tm.piL.2, tm.piR.2, hm⟩, ← hk', ← hk]
        simp [IType.tree, XNode.ty, XNode.right, XNode.left]
      | _ => exact ⟨fun h => by simp [IType.tree, XNode.ty] at h, fun h => nomatch h⟩
    | array t =>
      have hda : t.tree.depth ≤ n := by simpa [IType.tree, XNode.depth] using ha
      cases b with
      | item => exact ⟨fun _ => .item, fun _ => by simp [IType.tree, XNode.ty]⟩
      | kind T =>
        obtain ⟨m, l, e⟩ := kind_tree pb.1
        rw [show (IType.kind T).tree = T.tree from rfl, e]
        exact ⟨fun h => by simp [IType.tree, XNode.ty, subtypeKind, XNode.left] at h; split at h <;> simp at h, fun h => nomatch h⟩
      | anyFunction => exact ⟨fun _ => .arrayAny, fun _ => by simp [IType.tree, XNode.ty]⟩
      | function qs s =>
        exfalso
        rcases tm.mixed with h | h
        · exact h.1.1 (.inr ⟨_, rfl⟩)
        · exact h.2.1 ⟨_, _, rfl⟩
      | array w =>
        have hdb : w.tree.depth ≤ n := by simpa [IType.tree, XNode.depth] using hb
        have he : (IType.array t).Sub (.array w) ↔ t.Sub w :=
          ⟨fun h => by cases h with | array h1 => exact h1, fun h => .array h⟩
        have hm : (t.Without IsContainer ∧ w.Without IsContainer) ∨ (t.Without IsTyped ∧ w.Without IsTyped) := by
          rcases tm.mixed with h | h
          · exact .inl ⟨h.1.2, h.2.2⟩
          · exact .inr ⟨h.1.2, h.2.2⟩
        rw [he, ← seq t w (by omega) (by omega) pa pb ⟨tm.piL.2, tm.piR.2, hm⟩]
        simp [IType.tree, XNode.ty, XNode.right, XNode.left]
      | _ => exact ⟨fun h => by simp [IType.tree, XNode.ty] at h, fun h => nomatch h⟩

/-- The comparison of sequence types of the code decides the subtype relation. -/
theorem subtype_iff {A B : SType} (pA : A.Proper) (pB : B.Proper) (t : Tame A B) : subtype A.tree B.tree = true ↔ A.Sub B := by
  refine subtypeWith_iff pA pB ?_
  rintro x o y p rfl rfl
  exact subtypeItemF_iff _ x y (by omega) (by omega) pA pB ⟨t.piL, t.piR, t.mixed⟩

/-! ## Matching -/

/-- Items in which no map has two entries with the same key; `fns` says if there may be functions among them (functions are inline
functions, references to named functions and partial function calls). -/
inductive Spec.Tidy (h : Heap) (fns : Prop) : XItem → Prop
  | fn {f : XNode} : fns → f.ty ∈ [XNodeType.inlineFunction, .namedFunctionRef, .partialFunctionCall] → Tidy h fns (.fn f)
  | map {es : List (XItem × XSeq)} : (es.Pairwise fun a b => ¬ SameForm h a.1 b.1) → (∀ e ∈ es, ∀ x ∈ e.2, Tidy h fns x) → Tidy h fns (.map es)
  | array {ms : List XSeq} : (∀ s ∈ ms, ∀ x ∈ s, Tidy h fns x) → Tidy h fns (.array ms)
  | node {i : NodeId} : Tidy h fns (.node i)
  | string {s : Str} : Tidy h fns (.string s)
  | integer {n : Int} : Tidy h fns (.integer n)
  | decimal {d : F64} : Tidy h fns (.decimal d)
  | double {d : F64} : Tidy h fns (.double d)
  | boolean {b : Bool} : Tidy h fns (.boolean b)

/-- `item()`. -/
def Spec.IsItem (t : IType) : Prop := t = .item

theorem allE_ok {α : Type} {f : α → Except XErr Bool} {P : α → Prop} {l : List α} (hl : ∀ a ∈ l, ∃ b, f a = .ok b ∧ (b = true ↔ P a)) :
    ∃ b, allE f l = .ok b ∧ (b = true ↔ ∀ a ∈ l, P a) := by
  induction l with
  | nil => exact ⟨true, rfl, by simp⟩
  | cons a l ih =>
    obtain ⟨b, h1, h2⟩ := hl a (by simp)
    obtain ⟨b', h3, h4⟩ := ih fun x hx => hl x (by simp [hx])
    cases b with
    | true => exact ⟨b', by rw [allE, h1]; exact h3, by rw [h4]; simp [h2.1 rfl]⟩
    | false => exact ⟨false, by rw [allE, h1], by simp only [List.mem_cons, forall_eq_or_imp, ← h2]; simp⟩

theorem map_own {h : Heap} {es : List (XItem × XSeq)} (hp : es.Pairwise fun a b => ¬ SameForm h a.1 b.1) {e : XItem × XSeq} (he : e ∈ es)
    (hs : SameForm h e.1 e.1) : mapGet h es e.1 = some e.2 := by
  obtain ⟨pre, post, rfl⟩ := List.append_of_mem he
  refine ((C47_map_get h _ e.1).1 e.2).2 ⟨pre, e.1, post, rfl, hs, fun e' he' => ?_⟩
  exact (List.pairwise_append.1 hp).2.2 e' he' e (by simp)

theorem own_form {h : Heap} {x : XItem} {k : Str} (hk : k ∈ valueTypes x) : SameForm h x x := by
  cases x with
  | fn _ => cases hk
  | map _ => cases hk
  | array _ => cases hk
  | node _ => cases hk
  | _ => exact ⟨_, rfl, rfl⟩

theorem kind_has {h : Heap} {T : NTest} (hk : T.IsKind) (hT : T.Proper) (i : NodeId) : matchKindTest h i T.tree = true ↔ T.Passes h .axisSelf i := by
  rw [← nodeTest_iff h .axisSelf T hT i]
  obtain ⟨n, l, e⟩ := kind_tree hk
  unfold matchNodeTest stepOf
  simp only [XNode.left]
  rw [e]; simp [XNode.isNil, XNode.ty]

theorem occurrence_ok (n : Nat) (o : Occ) : ∃ b, matchOccurrence n o.mark = .ok b ∧ (b = true ↔ o.Admits n) := by
  cases o
  · exact ⟨decide (n = 1), by simp [matchOccurrence, Occ.mark, S], by simp [Occ.Admits]⟩
  · exact ⟨decide (n ≤ 1), by simp [matchOccurrence, Occ.mark], by simp [Occ.Admits]⟩
  · exact ⟨true, by simp [matchOccurrence, Occ.mark, S], by simp [Occ.Admits]⟩
  · exact ⟨decide (1 ≤ n), by simp [matchOccurrence, Occ.mark, S], by simp [Occ.Admits]⟩

/-- What is asked of a type and of the items for the match to be as specified. -/
structure Spec.Fit (h : Heap) (A : SType) (s : XSeq) : Prop where
  proper : A.Proper
  untyped : A.Without IsTyped
  tidy : ∃ fns : Prop, (∀ x ∈ s, Tidy h fns x) ∧ (fns → A.Without IsItem)

theorem matchF_ok (h : Heap) : ∀ (n : Nat) (A : SType) (s : XSeq), A.tree.depth ≤ n → Fit h A s →
    ∃ b, matchSequenceTypeF h n s A.tree = .ok b ∧ (b = true ↔ A.Matches h s) := by
  intro n
  induction n with
  | zero => intro A s hA; cases A <;> simp [SType.tree, XNode.depth] at hA
  | succ n ih =>
    intro A s hA hf
    cases A with
    | empty => exact ⟨s.isEmpty, by simp [matchSequenceTypeF, SType.tree, XNode.ty, XNode.left], by simp [SType.Matches]⟩
    | of t o =>
      have hd : t.tree.depth ≤ n := by simpa [SType.tree, XNode.depth] using hA
      have h1 : t.tree.ty ≠ .emptySequenceTest := by
        cases t with
        | kind T => obtain ⟨n, l, e⟩ := kind_tree hf.proper.1; show T.tree.ty ≠ _; rw [e]; simp [XNode.ty]
        | _ => simp [IType.tree, XNode.ty]
      obtain ⟨b, ho, hb⟩ := occurrence_ok s.length o
      have run : matchSequenceTypeF h (n + 1) s (SType.of t o).tree =
          (if b then matchItems h (matchSequenceTypeF h n) s t.tree else .ok false) := by
        rw [show matchSequenceTypeF h (n + 1) s (SType.of t o).tree = (if t.tree.ty = .emptySequenceTest then .ok s.isEmpty
          else match matchOccurrence s.length o.mark with
            | .error e => .error e
            | .ok false => .ok false
            | .ok true => matchItems h (matchSequenceTypeF h n) s t.tree) from rfl, if_neg h1, ho]
        cases b <;> rfl
      rw [run]
      cases b with
      | false => exact ⟨false, rfl, by simp only [SType.Matches, ← hb]; simp⟩
      | true =>
        have hm : ∀ P : Prop, (P ↔ ∀ x ∈ s, t.Has h x) → (P ↔ (SType.of t o).Matches h s) := by
          intro P hP; rw [hP, SType.Matches]; simp [← hb]
        obtain ⟨fns, ht, hi⟩ := hf.tidy
        cases t with
        | item =>
          have nf : ¬ fns := fun hh => hi hh rfl
          refine ⟨s.all XItem.isItem, rfl, hm _ ?_⟩
          simp only [List.all_eq_true, IType.Has]
          refine forall₂_congr fun x hx => ?_
          have := ht x hx
          cases this with
          | fn h' _ => exact absurd h' nf
          | _ => simp [XItem.isItem]
        | kind T =>
          obtain ⟨n', l', e⟩ := kind_tree hf.proper.1
          refine ⟨matchKindAll h T.tree s, by show matchItems _ _ _ T.tree = _; rw [e]; rfl, hm _ ?_⟩
          unfold matchKindAll
          simp only [List.all_eq_true, IType.Has]
          refine forall₂_congr fun x hx => ?_
          cases x with
          | node i => simp [XItem.asNode, kind_has hf.proper.1 hf.proper.2]
          | _ => simp [XItem.asNode]
        | atomic m =>
          refine ⟨s.all fun x : XItem => derivesFrom x.xsType m, rfl, hm _ ?_⟩
          simp only [List.all_eq_true, IType.Has]
          exact forall₂_congr fun x hx => valueTypes_iff x hf.proper.1
        | anyFunction =>
          refine ⟨s.all isFunctionItem, rfl, hm _ ?_⟩
          simp only [List.all_eq_true, IType.Has]
          refine forall₂_congr fun x hx => ?_
          have := ht x hx
          cases this with
          | fn _ hf => simp only [List.mem_cons, List.not_mem_nil, or_false] at hf; rcases hf with hf | hf | hf <;> simp [isFunctionItem, hf]
          | _ => simp [isFunctionItem]
        | function ps r => exact absurd ⟨_, _, rfl⟩ hf.untyped.1
        | map k v =>
          have hdv : v.tree.depth ≤ n := by
            have : max 1 v.tree.depth + 1 ≤ n := by simpa [IType.tree, XNode.depth] using hd
            omega
          have : ∀ x ∈ s, ∃ b, matchMapItem h (matchSequenceTypeF h n) (IType.map k v).tree x = .ok b ∧ (b = true ↔ (IType.map k v).Has h x) := by
            intro x hx
            have hx' := ht x hx
            cases x with
            | map es =>
              cases hx' with
              | map hp he =>
                have key : ∀ e ∈ es, ∃ b, (if derivesFrom e.1.xsType k then
                    match mapGet h es e.1 with
                    | some w => matchSequenceTypeF h n w v.tree
                    | none => .ok false
                    else .ok false) = Except.ok b ∧ (b = true ↔ (k ∈ valueTypes e.1 ∧ v.Matches h e.2)) := by
                  intro e hee
                  by_cases hk : k ∈ valueTypes e.1
                  · rw [if_pos ((valueTypes_iff e.1 hf.proper.1).2 hk), map_own hp hee (own_form hk)]
                    obtain ⟨b, h1, h2⟩ := ih v e.2 hdv ⟨hf.proper.2.2, hf.untyped.2, fns, he e hee, fun hh => (hi hh).2⟩
                    exact ⟨b, h1, by rw [h2]; simp [hk]⟩
                  · rw [if_neg fun hh => hk ((valueTypes_iff e.1 hf.proper.1).1 hh)]
                    exact ⟨false, rfl, by simp [hk]⟩
                have key' : ∀ a ∈ es.map (·.1), ∃ b, (if derivesFrom a.xsType k then
                    match mapGet h es a with
                    | some w => matchSequenceTypeF h n w v.tree
                    | none => .ok false
                    else .ok false) = Except.ok b ∧ (b = true ↔ ∀ e ∈ es, e.1 = a → (k ∈ valueTypes e.1 ∧ v.Matches h e.2)) := by
                  intro a ha
                  obtain ⟨e, hee, rfl⟩ := List.mem_map.1 ha
                  obtain ⟨b, h1, h2⟩ := key e hee
                  refine ⟨b, h1, ?_⟩
                  constructor
                  · intro hb e' he' hee'
                    obtain ⟨b', h1', h2'⟩ := key e' he'
                    rw [hee', h1] at h1'
                    cases h1'
                    exact h2'.1 hb
                  · intro hh; exact h2.2 (hh e hee rfl)
                obtain ⟨b, h1, h2⟩ := allE_ok key'
                refine ⟨b, h1, ?_⟩
                rw [h2]
                simp only [IType.Has, XItem.map.injEq, exists_eq_left', List.mem_map, forall_exists_index, and_imp, forall_apply_eq_imp_iff₂]
                exact ⟨fun hh e he => hh e he e he rfl, fun hh e he e' he' _ => hh e' he'⟩
            | _ => exact ⟨false, rfl, by simp [IType.Has]⟩
          obtain ⟨b, h1, h2⟩ := allE_ok this
          exact ⟨b, h1, hm _ h2⟩
        | array v =>
          have hdv : v.tree.depth ≤ n := by
            have : v.tree.depth + 1 ≤ n := by simpa [IType.tree, XNode.depth] using hd
            omega
          have : ∀ x ∈ s, ∃ b, matchArrayItem (matchSequenceTypeF h n) (IType.array v).tree x = .ok b ∧ (b = true ↔ (IType.array v).Has h x) := by
            intro x hx
            have hx' := ht x hx
            cases x with
            | array ms =>
              cases hx' with
              | array he =>
                obtain ⟨b, h1, h2⟩ := allE_ok (l := ms) fun a ha => ih v a hdv ⟨hf.proper, hf.untyped.2, fns, he a ha, fun hh => (hi hh).2⟩
                refine ⟨b, h1, ?_⟩
                rw [h2]
                simp only [IType.Has, XItem.array.injEq, exists_eq_left']
            | _ => exact ⟨false, rfl, by simp [IType.Has]⟩
          obtain ⟨b, h1, h2⟩ := allE_ok this
          exact ⟨b, h1, hm _ h2⟩

theorem instance_run {h : Heap} {c env e s t m b} (he : Value h c e env s) (hm : matchSequenceType h s t = .ok b) :
    Value h c (.node .operatorInstanceOf m e t) env [.boolean b] := by
  unfold Value
  rw [evaluate_eq]
  show (do
    let v ← evaluate h c e
    let b ← liftE (matchSequenceType h v t)
    pure (xbool b) : E XSeq) env = _
  rw [E.bind_run, he]
  simp only
  rw [hm]
  rfl

/-- **C77.** `e instance of T` is true exactly if the value of `e` is of the type: the length is what the occurrence indicator says and
every item is of the item type. For types without function signatures; the maps in the value have distinct keys; `item()` does not
occur in the type if there are functions in the value. -/
theorem C77_instance_partial (h : Heap) (A : SType) (s : XSeq) (hf : Fit h A s) :
    ∃ b : Bool, (b = true ↔ A.Matches h s) ∧
      ∀ c env e m, Value h c e env s → Value h c (.node .operatorInstanceOf m e A.tree) env [.boolean b] := by
  obtain ⟨b, h1, h2⟩ := matchF_ok h (A.tree.depth + 1) A s (by omega) hf
  exact ⟨b, h2, fun c env e m he => instance_run he h1⟩

theorem paramsTree_chain (ps : List (Str × SType)) : (paramsTree ps).chain.map XNode.left = (paramTypes ps).tree.chain.map XNode.left := by
  induction ps with
  | nil => rfl
  | cons p ps ih =>
    show p.2.tree :: (paramsTree ps).chain.map XNode.left = p.2.tree :: (paramTypes ps).tree.chain.map XNode.left
    rw [ih]

/-- **C77**, functions: an inline function is of the type `function(P₁, …) as R` exactly if it has as many parameters, the type of its
result is a subtype of `R`, and each `Pᵢ` is a subtype of the type of its parameter. For types among which there are no maps, arrays
and `processing-instruction(n)`. -/
theorem C77_function_partial (h : Heap) (ps : PTypes) (r : SType) (qs : List (Str × SType)) (q : SType) (body : XNode)
    (hp : (IType.function ps r).Proper) (hq : (IType.function (paramTypes qs) q).Proper)
    (h1 : (IType.function ps r).Without IsContainer) (h2 : (IType.function (paramTypes qs) q).Without IsContainer)
    (h3 : (IType.function ps r).Without IsNamedPI) (h4 : (IType.function (paramTypes qs) q).Without IsNamedPI) :
    ∃ b : Bool, (b = true ↔ q.Sub r ∧ ps.Sub (paramTypes qs)) ∧
      ∀ c env m, Value h c (.node .operatorInstanceOf m (inlineOf qs q body) (SType.of (.function ps r) .one).tree) env [.boolean b] := by
  refine ⟨sigSubtype subtype 0 (q.tree :: (paramTypes qs).tree.chain.map XNode.left) (r.tree :: ps.tree.chain.map XNode.left), ?_, ?_⟩
  · rw [sigSubtype, if_pos rfl, Bool.and_eq_true,
      subtype_iff hq.2 hp.2 ⟨h4.2.2, h3.2.2, .inl ⟨h2.2.2, h1.2.2⟩⟩, params_sub (sub := subtype) (paramTypes qs) ps 0 ?_]
    intro p hpm x hx
    have a := params_mem _ _ hpm
    have b := params_mem _ _ hx
    exact subtype_iff (b.2.1 hp.1) (a.2.1 hq.1) ⟨b.2.2 _ h3.2.1, a.2.2 _ h4.2.1, .inl ⟨b.2.2 _ h1.2.1, a.2.2 _ h2.2.1⟩⟩
  · intro c env m
    refine instance_run (s := [.fn (inlineOf qs q body)]) (by unfold Value; rw [evaluate_eq]; rfl) ?_
    show (match matchTypedFunction h _ (r.tree :: ps.tree.chain.map XNode.left) (.fn (inlineOf qs q body)) with
      | .ok true => Except.ok true
      | .ok false => .ok false
      | .error e => .error e) = _
    rw [show matchTypedFunction h (matchSequenceTypeF h (SType.of (IType.function ps r) Occ.one).tree.depth) (r.tree :: ps.tree.chain.map XNode.left)
      (.fn (inlineOf qs q body)) = .ok (sigSubtype subtype 0 (q.tree :: (paramsTree qs).chain.map XNode.left) (r.tree :: ps.tree.chain.map XNode.left)) from rfl,
      paramsTree_chain]
    cases sigSubtype subtype 0 (q.tree :: (paramTypes qs).tree.chain.map XNode.left) (r.tree :: ps.tree.chain.map XNode.left) <;> rfl

/-! ## Examples -/

/-- `map(xs:string, array(xs:decimal+))*`. -/
def sampleType : SType := .of (.map (S "xs:string") (.of (.array (.of (.atomic (S "xs:decimal")) .plus)) .one)) .many

/-- The parser makes the syntax trees of the types. -/
example : Parser.compileXPath (S "$v instance of map(xs:string, array(xs:decimal+))*") =
    .ok (.node .operatorInstanceOf [] (.node .varRef (S "v") .nil .nil) sampleType.tree) := by run_compile

/-- A value that fits the type, and is of the type, and one that is not. -/
example (h : Heap) : Fit h sampleType [.map [(.string (S "a"), [.array [[.integer 1, .integer 2]]])]] ∧
    sampleType.Matches h [.map [(.string (S "a"), [.array [[.integer 1, .integer 2]]])]] ∧
    ¬ sampleType.Matches h [.map [(.string (S "a"), [.array [[]]])]] := by
  refine ⟨⟨?_, ?_, False, ?_, False.elim⟩, ?_, ?_⟩
  · simp [sampleType, SType.Proper, IType.Proper]; decide
  · simp [sampleType, SType.Without, IType.Without, IsTyped]
  · simp only [List.mem_singleton, forall_eq]
    refine .map (by simp) ?_
    simp only [List.mem_singleton, forall_eq]
    refine .array ?_
    simp only [List.mem_singleton, forall_eq, List.mem_cons, List.not_mem_nil, or_false, forall_eq_or_imp]
    exact ⟨.integer, .integer⟩
  · simp [sampleType, SType.Matches, IType.Has, Occ.Admits, valueTypes]
  · simp [sampleType, SType.Matches, IType.Has, Occ.Admits, valueTypes]

/-- `function($x as xs:decimal) as xs:integer { 1 }` is of the type `function(xs:integer) as xs:decimal?`, as the query finds. -/
example : (SType.of (.atomic (S "xs:integer")) .one).Sub (.of (.atomic (S "xs:decimal")) .opt) ∧
    Parser.compileXPath (S "function($x as xs:decimal) as xs:integer { 1 }") =
      .ok (inlineOf [(S "x", .of (.atomic (S "xs:decimal")) .one)] (.of (.atomic (S "xs:integer")) .one) (.node .integerLiteral (S "1") .nil .nil)) ∧
    evalXPath editSample 20 0 (S "function($x as xs:decimal) as xs:integer { 1 } instance of function(xs:integer) as xs:decimal?") =
      .ok [.boolean true] ∧
    evalXPath editSample 20 0 (S "function($x as xs:integer) as xs:integer { 1 } instance of function(xs:decimal) as xs:decimal?") =
      .ok [.boolean false] := by
  refine ⟨.of (fun n h => by simp [Occ.Admits] at *; omega) (.atomic (.step (by simp [directlyDerived]) (.refl _))), by run_compile, ?_, ?_⟩ <;> run_query

/-- **C77** is false of the code: a function is no `item()`, and a map with a function in it no `map(*)`; an item type in parentheses has no
values; functions are not compared well by kind tests (`element(a)` is not a subtype of itself, `processing-instruction(a)` is one of
`processing-instruction(b)`), maps count as `function(K) as V` though a key may be missing, arrays as functions on all numbers. -/
theorem C77_violated :
    evalXPath editSample 20 0 (S "function($x) { $x } instance of item()") = .ok [.boolean false] ∧
    evalXPath editSample 20 0 (S "map{'f' : function($x) { $x }} instance of map(*)") = .ok [.boolean false] ∧
    evalXPath editSample 20 0 (S "1 instance of (xs:integer)") = .ok [.boolean false] ∧
    evalXPath editSample 20 0 (S "function($x as element(a)) { 1 } instance of function(element(a)) as item()*") = .ok [.boolean false] ∧
    evalXPath editSample 20 0 (S "function($x as processing-instruction(a)) { 1 } instance of function(processing-instruction(b)) as item()*") = .ok [.boolean true] ∧
    evalXPath editSample 20 0 (S "map{'a' : 1} instance of function(xs:string) as xs:integer") = .ok [.boolean true] ∧
    evalXPath editSample 20 0 (S "[1] instance of function(xs:decimal) as xs:integer") = .ok [.boolean true] := by
  refine ⟨?_, ?_, ?_, ?_, ?_, ?_, ?_⟩ <;> run_query

end Amxml
