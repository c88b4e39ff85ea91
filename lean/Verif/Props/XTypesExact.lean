import Verif.Spec.TypesCode
import Verif.Props.Signatures

/-!
# C77: what `instance of` gives for all types
-/

namespace Amxml
open Spec

/-- Values whose functions are inline functions and references to library functions and in which no map has two entries with the same key. -/
inductive Spec.Usual (h : Heap) : XItem → Prop
  | inline {qs : List (Str × SType)} {q : SType} {body : XNode} : (paramTypes qs).Proper → q.Proper → Usual h (.fn (inlineOf qs q body))
  | library {f : Str} {qs : List SType} {q : SType} : (f, qs, q) ∈ librarySignatures → Usual h (.fn (reference f qs.length))
  | map {es : List (XItem × XSeq)} : (es.Pairwise fun a b => ¬ SameForm h a.1 b.1) → (∀ e ∈ es, ∀ x ∈ e.2, Usual h x) → Usual h (.map es)
  | array {ms : List XSeq} : (∀ s ∈ ms, ∀ x ∈ s, Usual h x) → Usual h (.array ms)
  | node {i : NodeId} : Usual h (.node i)
  | string {s : Str} : Usual h (.string s)
  | integer {n : Int} : Usual h (.integer n)
  | decimal {d : F64} : Usual h (.decimal d)
  | double {d : F64} : Usual h (.double d)
  | boolean {b : Bool} : Usual h (.boolean b)


namespace TypesCode

/-- The comparison of sequence types, with the one of item types given. -/
theorem with_iff {item : XNode → XNode → Bool} {a b : SType} (ha : a.Proper) (hb : b.Proper)
    (hi : ∀ x o y p, a = .of x o → b = .of y p → (item x.tree y.tree = true ↔ x.Under y)) :
    subtypeWith item a.tree b.tree = true ↔ a.Under b := by
  have entry : ∀ (x : IType) (o : Occ), x.Proper → subtypeEntry (SType.of x o).tree = (match o with | .one => 3 | .opt => 1 | .many => 2 | .plus => 4) := by
    intro x o hx
    have h1 : x.tree.ty ≠ .emptySequenceTest := by
      cases x with
      | kind T => obtain ⟨n, l, e⟩ := kind_tree hx.1; show T.tree.ty ≠ _; rw [e]; simp [XNode.ty]
      | _ => simp [IType.tree, XNode.ty]
    have h2 : ¬ (x.tree.ty = .atomicOrUnionType ∧ x.tree.name = S "xs:error") := by
      cases x with
      | kind T => obtain ⟨n, l, e⟩ := kind_tree hx.1; show ¬ (T.tree.ty = _ ∧ _); rw [e]; simp [XNode.ty]
      | atomic n => simp only [IType.tree, XNode.name]; exact fun h => hx.2 h.2
      | _ => simp [IType.tree, XNode.ty]
    rw [show subtypeEntry (SType.of x o).tree = (if x.tree.ty = .emptySequenceTest then 0
      else if x.tree.ty = .atomicOrUnionType ∧ x.tree.name = S "xs:error" then (if o.mark = S "?" then 0 else if o.mark = S "*" then 0 else 5)
      else if o.mark = S "?" then 1 else if o.mark = S "*" then 2 else if o.mark = [] then 3 else if o.mark = S "+" then 4 else 3) from rfl,
      if_neg h1, if_neg h2]
    cases o <;> decide
  have entry0 : subtypeEntry SType.empty.tree = 0 := by decide
  unfold subtypeWith
  cases a with
  | empty =>
    cases b with
    | empty => rw [entry0]; exact ⟨fun _ => .empty, fun _ => rfl⟩
    | of y p =>
      rw [entry0, entry y p hb]
      cases p <;> simp only [subtypeTbl]
      · exact ⟨fun h => by simp at h, fun h => by cases h with | none h => exact absurd h (by simp [Occ.Admits])⟩
      · exact ⟨fun _ => .none (by simp [Occ.Admits]), fun _ => trivial⟩
      · exact ⟨fun _ => .none (by simp [Occ.Admits]), fun _ => trivial⟩
      · exact ⟨fun h => by simp at h, fun h => by cases h with | none h => exact absurd h (by simp [Occ.Admits])⟩
  | of x o =>
    cases b with
    | empty =>
      rw [entry0, entry x o ha]
      cases o <;> simp only [subtypeTbl] <;> exact ⟨fun h => by simp at h, fun h => by cases h⟩
    | of y p =>
      rw [entry x o ha, entry y p hb]
      have hh : (SType.of x o).Under (SType.of y p) ↔ (∀ n, o.Admits n → p.Admits n) ∧ x.Under y :=
        ⟨fun h => by cases h with | of h1 h2 => exact ⟨h1, h2⟩, fun h => .of h.1 h.2⟩
      rw [hh, occ_iff, ← hi x o y p rfl rfl]
      cases o <;> cases p <;> simp [subtypeTbl, SType.tree, XNode.left]

theorem params_under {sub : XNode → XNode → Bool} : ∀ (ps qs : PTypes) (i : Nat),
    (∀ p ∈ PTypes.toList ps, ∀ q ∈ PTypes.toList qs, sub q.tree p.tree = true ↔ q.Under p) →
    (sigSubtype sub (i + 1) (ps.tree.chain.map XNode.left) (qs.tree.chain.map XNode.left) = true ↔ qs.Under ps)
  | .nil, .nil, i, _ => ⟨fun _ => .nil, fun _ => rfl⟩
  | .nil, .cons q qs, i, _ => ⟨fun h => (nomatch h), fun h => (nomatch h)⟩
  | .cons p ps, .nil, i, _ => ⟨fun h => (nomatch h), fun h => (nomatch h)⟩
  | .cons p ps, .cons q qs, i, hs => by
    have ih := params_under ps qs (i + 1) fun a ha b hb => hs a (by simp [PTypes.toList, ha]) b (by simp [PTypes.toList, hb])
    have h0 := hs p (by simp [PTypes.toList]) q (by simp [PTypes.toList])
    show sigSubtype sub (i + 1) (p.tree :: ps.tree.chain.map XNode.left) (q.tree :: qs.tree.chain.map XNode.left) = true ↔ _
    rw [sigSubtype, if_neg (by omega), Bool.and_eq_true, h0, ih]
    exact ⟨fun h => .cons h.1 h.2, fun h => by cases h with | cons a b => exact ⟨a, b⟩⟩

theorem against_nil {n : Nat} (a : XNode) : subtypeItemF n a .nil = false := by
  cases n with
  | zero => rfl
  | succ n => rw [subtypeItemF]; simp [XNode.ty]

theorem against_empty {n : Nat} (a : XNode) : subtypeItemF n a (.node .emptySequenceTest [] .nil .nil) = false := by
  cases n with
  | zero => rfl
  | succ n => rw [subtypeItemF]; simp [XNode.ty]

theorem item_iff : ∀ (n : Nat) (a b : IType), a.tree.depth ≤ n → b.tree.depth ≤ n → a.Proper → b.Proper →
    (subtypeItemF n a.tree b.tree = true ↔ a.Under b) := by
  intro n
  induction n with
  | zero =>
    intro a b ha _ pa
    exfalso
    cases a with
    | kind T => obtain ⟨n, l, e⟩ := kind_tree pa.1; rw [show (IType.kind T).tree = T.tree from rfl, e] at ha; simp [XNode.depth] at ha
    | _ => simp [IType.tree, XNode.depth] at ha
  | succ n ih =>
    intro a b ha hb pa pb
    have seq : ∀ A B : SType, A.tree.depth ≤ n + 1 → B.tree.depth ≤ n + 1 → A.Proper → B.Proper →
        (subtypeWith (subtypeItemF n) A.tree B.tree = true ↔ A.Under B) := by
      intro A B hA hB pA pB
      refine with_iff pA pB ?_
      rintro x o y p rfl rfl
      refine ih x y ?_ ?_ pA pB
      · simp [SType.tree, XNode.depth] at hA; omega
      · simp [SType.tree, XNode.depth] at hB; omega
    rw [subtypeItemF]
    cases a with
    | item =>
      cases b with
      | item => exact ⟨fun _ => .item, fun _ => by simp [IType.tree, XNode.ty]⟩
      | kind T =>
        obtain ⟨m, l, e⟩ := kind_tree pb.1
        rw [show (IType.kind T).tree = T.tree from rfl, e]
        exact ⟨fun h => by simp [IType.tree, XNode.ty, subtypeKind, XNode.left] at h; split at h <;> simp at h, fun h => by cases h⟩
      | _ => exact ⟨fun h => by simp [IType.tree, XNode.ty] at h, fun h => by cases h⟩
    | kind T =>
      obtain ⟨m, l, e⟩ := kind_tree pa.1
      rw [show (IType.kind T).tree = T.tree from rfl, e]
      cases b with
      | item => exact ⟨fun _ => .item, fun _ => by simp [IType.tree, XNode.ty]⟩
      | kind T' =>
        obtain ⟨m', l', e'⟩ := kind_tree pb.1
        rw [show (IType.kind T').tree = T'.tree from rfl, e']
        cases T' with
        | anyNode => exact ⟨fun _ => .node, fun _ => by simp [XNode.ty, subtypeKind, XNode.left, kindType]⟩
        | text =>
          simp [XNode.ty, subtypeKind, XNode.left, kindType]
          constructor
          · intro h; cases T <;> simp at h; exact .text
          · intro h; cases h; rfl
        | comment =>
          simp [XNode.ty, subtypeKind, XNode.left, kindType]
          constructor
          · intro h; cases T <;> simp at h; exact .comment
          · intro h; cases h; rfl
        | pi n =>
          simp [XNode.ty, subtypeKind, XNode.left, kindType, XNode.name]
          constructor
          · intro h; cases T <;> simp at h; exact .pi
          · intro h; cases h; rfl
        | _ => exact ⟨fun h => by simp [XNode.ty, subtypeKind, XNode.left, kindType] at h, fun h => nomatch h⟩
      | _ => exact ⟨fun h => by simp [IType.tree, XNode.ty] at h, fun h => nomatch h⟩
    | atomic k =>
      cases b with
      | item => exact ⟨fun _ => .item, fun _ => by simp [IType.tree, XNode.ty]⟩
      | kind T =>
        obtain ⟨m, l, e⟩ := kind_tree pb.1
        rw [show (IType.kind T).tree = T.tree from rfl, e]
        exact ⟨fun h => by simp [IType.tree, XNode.ty, subtypeKind, XNode.left] at h; split at h <;> simp at h, fun h => nomatch h⟩
      | atomic k' =>
        simp only [IType.tree, XNode.ty, XNode.name, beq_self_eq_true, Bool.true_and]
        have : (k == S "xs:error") = false := by simpa using pa.2
        rw [this]
        simp only [Bool.or_false]
        have he : (IType.atomic k).Under (.atomic k') ↔ Derived k k' := ⟨fun h => by cases h with | atomic h => exact h, .atomic⟩
        rw [he, ← derived_iff]
        simp
      | _ => exact ⟨fun h => by simp [IType.tree, XNode.ty] at h, fun h => nomatch h⟩
    | anyFunction =>
      cases b with
      | item => exact ⟨fun _ => .item, fun _ => by simp [IType.tree, XNode.ty]⟩
      | kind T =>
        obtain ⟨m, l, e⟩ := kind_tree pb.1
        rw [show (IType.kind T).tree = T.tree from rfl, e]
        exact ⟨fun h => by simp [IType.tree, XNode.ty, subtypeKind, XNode.left] at h; split at h <;> simp at h, fun h => nomatch h⟩
      | anyFunction => exact ⟨fun _ => .anyFunction, fun _ => by simp [IType.tree, XNode.ty]⟩
      | _ => exact ⟨fun h => by simp [IType.tree, XNode.ty] at h, fun h => nomatch h⟩
    | function ps r =>
      cases b with
      | item => exact ⟨fun _ => .item, fun _ => by simp [IType.tree, XNode.ty]⟩
      | kind T =>
        obtain ⟨m, l, e⟩ := kind_tree pb.1
        rw [show (IType.kind T).tree = T.tree from rfl, e]
        exact ⟨fun h => by simp [IType.tree, XNode.ty, subtypeKind, XNode.left] at h; split at h <;> simp at h, fun h => nomatch h⟩
      | anyFunction => exact ⟨fun _ => .functionAny, fun _ => by simp [IType.tree, XNode.ty]⟩
      | function qs s =>
        have he : (IType.function ps r).Under (.function qs s) ↔ r.Under s ∧ qs.Under ps :=
          ⟨fun h => by cases h with | function h1 h2 => exact ⟨h1, h2⟩, fun h => .function h.1 h.2⟩
        have hda : max r.tree.depth ps.tree.depth + 1 ≤ n := by simpa [IType.tree, XNode.depth] using ha
        have hdb : max s.tree.depth qs.tree.depth + 1 ≤ n := by simpa [IType.tree, XNode.depth] using hb
        rw [he, ← seq r s (by omega) (by omega) pa.2 pb.2,
          ← params_under (sub := subtypeWith (subtypeItemF n)) ps qs 0 ?_]
        · simp [IType.tree, XNode.ty, signatureOf, XNode.right, XNode.left, XNode.chain, sigSubtype]
        · intro p hp q hq
          have mp := params_mem ps p hp
          have mq := params_mem qs q hq
          exact seq q p (by omega) (by omega) (mq.2.1 pb.1) (mp.2.1 pa.1)
      | _ => exact ⟨fun h => by simp [IType.tree, XNode.ty] at h, fun h => nomatch h⟩
    | map k v =>
      have hda : max 1 v.tree.depth ≤ n := by simpa [IType.tree, XNode.depth] using ha
      cases b with
      | item => exact ⟨fun _ => .item, fun _ => by simp [IType.tree, XNode.ty]⟩
      | kind T =>
        obtain ⟨m, l, e⟩ := kind_tree pb.1
        rw [show (IType.kind T).tree = T.tree from rfl, e]
        exact ⟨fun h => by simp [IType.tree, XNode.ty, subtypeKind, XNode.left] at h; split at h <;> simp at h, fun h => nomatch h⟩
      | anyFunction => exact ⟨fun _ => .mapAny, fun _ => by simp [IType.tree, XNode.ty]⟩
      | function qs s =>
        have hdb : max s.tree.depth qs.tree.depth + 1 ≤ n := by simpa [IType.tree, XNode.depth] using hb
        cases qs with
        | nil =>
          refine ⟨fun h => ?_, fun h => nomatch h⟩
          simp [IType.tree, PTypes.tree, XNode.ty, XNode.right, XNode.left] at h
          exact absurd h.1 (by rw [against_nil (XNode.node .atomicOrUnionType k .nil .nil)]; simp)
        | cons p ps =>
          have hdp : max p.tree.depth ps.tree.depth + 1 ≤ n := by
            have : max s.tree.depth (max p.tree.depth ps.tree.depth + 1) + 1 ≤ n := hdb
            omega
          cases p with
          | empty =>
            refine ⟨fun h => ?_, fun h => nomatch h⟩
            simp [IType.tree, PTypes.tree, SType.tree, XNode.ty, XNode.right, XNode.left] at h
            exact absurd h.1 (by rw [against_empty (XNode.node .atomicOrUnionType k .nil .nil)]; simp)
          | of t o =>
            have he : (IType.map k v).Under (.function (.cons (.of t o) ps) s) ↔ (IType.atomic k).Under t ∧ v.Under s :=
              ⟨fun h => by cases h with | mapFunction h1 h2 => exact ⟨h1, h2⟩, fun h => .mapFunction h.1 h.2⟩
            have hdt : t.tree.depth + 1 = (SType.of t o).tree.depth := by simp [SType.tree, XNode.depth]
            rw [he, ← seq v s (by omega) (by omega) pa.2.2 pb.2, ← ih (.atomic k) t (by simp [IType.tree, XNode.depth]; omega) (by omega) ⟨pa.1, pa.2.1⟩ pb.1.1]
            simp [IType.tree, PTypes.tree, SType.tree, XNode.ty, XNode.right, XNode.left]
      | map l w =>
        have hdb : max 1 w.tree.depth ≤ n := by simpa [IType.tree, XNode.depth] using hb
        have he : (IType.map k v).Under (.map l w) ↔ Derived k l ∧ v.Under w :=
          ⟨fun h => by cases h with | map h1 h2 => exact ⟨h1, h2⟩, fun h => .map h.1 h.2⟩
        have hk := ih (.atomic k) (.atomic l) (by simp [IType.tree, XNode.depth]; omega) (by simp [IType.tree, XNode.depth]; omega)
          ⟨pa.1, pa.2.1⟩ ⟨pb.1, pb.2.1⟩
        have hk' : (IType.atomic k).Under (.atomic l) ↔ Derived k l := ⟨fun h => by cases h with | atomic h => exact h, .atomic⟩
        rw [he, ← seq v w (by omega) (by omega) pa.2.2 pb.2.2, ← hk', ← hk]
        simp [IType.tree, XNode.ty, XNode.right, XNode.left]
      | _ => exact ⟨fun h => by simp [IType.tree, XNode.ty] at h, fun h => nomatch h⟩
    | array t =>
      have hda : t.tree.depth ≤ n := by simpa [IType.tree, XNode.depth] using ha
      cases b with
      | item => exact ⟨fun _ => .item, fun _ => by simp [IType.tree, XNode.ty]⟩
      | kind T =>
        obtain ⟨m, l, e⟩ := kind_tree pb.1
        rw [show (IType.kind T).tree = T.tree from rfl, e]
        exact ⟨fun h => by simp [IType.tree, XNode.ty, subtypeKind, XNode.left] at h; split at h <;> simp at h, fun h => nomatch h⟩
      | anyFunction => exact ⟨fun _ => .arrayAny, fun _ => by simp [IType.tree, XNode.ty]⟩
      | function qs s =>
        have hdb : max s.tree.depth qs.tree.depth + 1 ≤ n := by simpa [IType.tree, XNode.depth] using hb
        have none : derivesFrom (S "xs:integer") [] = false := by decide +kernel
        cases qs with
        | nil =>
          refine ⟨fun h => ?_, fun h => nomatch h⟩
          simp [IType.tree, PTypes.tree, XNode.ty, XNode.right, XNode.left, XNode.name, none] at h
        | cons p ps =>
          cases p with
          | empty =>
            refine ⟨fun h => ?_, fun h => nomatch h⟩
            simp [IType.tree, PTypes.tree, SType.tree, XNode.ty, XNode.right, XNode.left, XNode.name, none] at h
          | of x o =>
            by_cases hx : ∃ m, x = .atomic m
            · obtain ⟨m, rfl⟩ := hx
              have he : (IType.array t).Under (.function (.cons (.of (.atomic m) o) ps) s) ↔ Derived (S "xs:integer") m ∧ t.Under s :=
                ⟨fun h => by cases h with | arrayFunction h1 h2 => exact ⟨h1, h2⟩, fun h => .arrayFunction h.1 h.2⟩
              rw [he, ← seq t s (by omega) (by omega) pa pb.2, ← derived_iff]
              simp [IType.tree, PTypes.tree, SType.tree, XNode.ty, XNode.right, XNode.left, XNode.name]
            · have hn : x.tree.name = [] := by
                cases x with
                | kind T => obtain ⟨n, l, e⟩ := kind_tree pb.1.1.1; rw [show (IType.kind T).tree = T.tree from rfl, e]; rfl
                | atomic m => exact absurd ⟨m, rfl⟩ hx
                | _ => rfl
              refine ⟨fun h => ?_, fun h => by cases h with | arrayFunction h1 h2 => exact absurd ⟨_, rfl⟩ hx⟩
              simp [IType.tree, PTypes.tree, SType.tree, XNode.ty, XNode.right, XNode.left, hn, none] at h
      | array w =>
        have hdb : w.tree.depth ≤ n := by simpa [IType.tree, XNode.depth] using hb
        have he : (IType.array t).Under (.array w) ↔ t.Under w :=
          ⟨fun h => by cases h with | array h1 => exact h1, fun h => .array h⟩
        rw [he, ← seq t w (by omega) (by omega) pa pb]
        simp [IType.tree, XNode.ty, XNode.right, XNode.left]
      | _ => exact ⟨fun h => by simp [IType.tree, XNode.ty] at h, fun h => nomatch h⟩

/-- The comparison of sequence types of the code decides the subtype relation. -/
theorem under_iff {A B : SType} (pA : A.Proper) (pB : B.Proper) : subtype A.tree B.tree = true ↔ A.Under B := by
  refine with_iff pA pB ?_
  rintro x o y p rfl rfl
  exact item_iff _ x y (by omega) (by omega) pA pB


/-! ## Signatures -/

theorem taken_signature {f : XNode} {qs : PTypes} {q : SType} (h : TakenFor f qs q) :
    functionItemSignature f = .ok (some (q.tree :: qs.tree.chain.map XNode.left)) ∧ qs.Proper ∧ q.Proper := by
  cases h with
  | @inline qs q body h1 h2 =>
    refine ⟨?_, h1, h2⟩
    show Except.ok (some (q.tree :: (paramsTree qs).chain.map XNode.left)) = _
    rw [paramsTree_chain]
  | @library f qs q he hm hc =>
    have ha : Signatures.agrees (f, qs, q) = true := by
      have := Signatures.table _ he
      unfold Signatures.agreesOr at this
      rw [Bool.or_eq_true, Bool.or_eq_true] at this
      rcases this with (h1 | h1) | h1
      · obtain ⟨m, hm1, hm2⟩ := List.any_eq_true.1 h1
        rw [Bool.and_eq_true, beq_iff_eq, beq_iff_eq] at hm2
        exact absurd hm2 (hm m hm1)
      · rw [Bool.and_eq_true, beq_iff_eq, beq_iff_eq] at h1
        exact absurd h1 hc
      · exact h1
    have hf := Signatures.library_fine _ (List.mem_append_left _ he)
    exact ⟨Signatures.hasSignature_sound ha, hf.properP, hf.properR⟩
  | mistaken he =>
    have hf := Signatures.library_fine _ (List.mem_append_right _ he)
    exact ⟨Signatures.hasSignature_sound (List.all_eq_true.1 Signatures.table_mistaken _ he), hf.properP, hf.properR⟩

theorem concat_none : functionItemSignature (reference (S "fn:concat") 3) = .ok none := by
  have : functionSignature (S "fn:concat" ++ ['#', Char.ofNat (48 + 3)]) = [] := by decide +kernel
  have key : ∀ f : XNode, f.ty = .namedFunctionRef → functionSignature f.name = [] → functionItemSignature f = .ok none := by
    intro f h1 h2
    unfold functionItemSignature
    rw [h1, h2]; rfl
  exact key _ rfl this

theorem signature_iff {qs ps : PTypes} {q r : SType} (h1 : qs.Proper) (h2 : q.Proper) (h3 : ps.Proper) (h4 : r.Proper) :
    sigSubtype subtype 0 (q.tree :: qs.tree.chain.map XNode.left) (r.tree :: ps.tree.chain.map XNode.left) = true ↔ q.Under r ∧ ps.Under qs := by
  rw [sigSubtype, if_pos rfl, Bool.and_eq_true, under_iff h2 h4, params_under (sub := subtype) qs ps 0 ?_]
  intro p hpm x hx
  have a := params_mem _ _ hpm
  have b := params_mem _ _ hx
  exact under_iff (b.2.1 h3) (a.2.1 h1)

/-! ## Matching -/

theorem nothing (x : XItem) : derivesFrom x.xsType [] = false := by
  cases x with
  | fn _ => show derivesFrom (S "function(*)") [] = false; decide +kernel
  | map _ => show derivesFrom (S "map(*)") [] = false; decide +kernel
  | array _ => show derivesFrom (S "array(*)") [] = false; decide +kernel
  | node _ => show derivesFrom (S "node") [] = false; decide +kernel
  | string _ => show derivesFrom (S "xs:string") [] = false; decide +kernel
  | integer _ => show derivesFrom (S "xs:integer") [] = false; decide +kernel
  | decimal _ => show derivesFrom (S "xs:decimal") [] = false; decide +kernel
  | double _ => show derivesFrom (S "xs:double") [] = false; decide +kernel
  | boolean _ => show derivesFrom (S "xs:boolean") [] = false; decide +kernel

theorem entries_none {h : Heap} {m : XSeq → XNode → Except XErr Bool} {es : List (XItem × XSeq)} {t : XNode} :
    matchMapEntries h m es [] t = .ok es.isEmpty := by
  cases es with
  | nil => rfl
  | cons e es =>
    have : derivesFrom e.1.xsType [] = false := nothing e.1
    unfold matchMapEntries
    rw [List.map_cons, allE, this]; rfl

theorem entries_ok {h : Heap} {n : Nat} {es : List (XItem × XSeq)} {k : Str} {v : SType} (hp : es.Pairwise fun a b => ¬ SameForm h a.1 b.1) (hk0 : ':' ∈ k)
    (ih : ∀ e ∈ es, ∃ b, matchSequenceTypeF h n e.2 v.tree = .ok b ∧ (b = true ↔ v.Taken h e.2)) :
    ∃ b, matchMapEntries h (matchSequenceTypeF h n) es k v.tree = .ok b ∧ (b = true ↔ ∀ e ∈ es, k ∈ valueTypes e.1 ∧ v.Taken h e.2) := by
  have key : ∀ e ∈ es, ∃ b, (if derivesFrom e.1.xsType k then
      match mapGet h es e.1 with
      | some w => matchSequenceTypeF h n w v.tree
      | none => .ok false
      else .ok false) = Except.ok b ∧ (b = true ↔ (k ∈ valueTypes e.1 ∧ v.Taken h e.2)) := by
    intro e hee
    by_cases hk : k ∈ valueTypes e.1
    · rw [if_pos ((valueTypes_iff e.1 hk0).2 hk), map_own hp hee (own_form hk)]
      obtain ⟨b, h1, h2⟩ := ih e hee
      exact ⟨b, h1, by rw [h2]; simp [hk]⟩
    · rw [if_neg fun hh => hk ((valueTypes_iff e.1 hk0).1 hh)]
      exact ⟨false, rfl, by simp [hk]⟩
  have key' : ∀ a ∈ es.map (·.1), ∃ b, (if derivesFrom a.xsType k then
      match mapGet h es a with
      | some w => matchSequenceTypeF h n w v.tree
      | none => .ok false
      else .ok false) = Except.ok b ∧ (b = true ↔ ∀ e ∈ es, e.1 = a → (k ∈ valueTypes e.1 ∧ v.Taken h e.2)) := by
    intro a ha
    obtain ⟨e, hee, rfl⟩ := List.mem_map.1 ha
    obtain ⟨b, h1, h2⟩ := key e hee
    refine ⟨b, h1, ?_⟩
    constructor
    · intro hb e' he' hee'
      obtain ⟨b', h1', h2'⟩ := key e' he'
      rw [hee', h1] at h1'
      cases h1'
      exact h2'.1 hb
    · intro hh; exact h2.2 (hh e hee rfl)
  obtain ⟨b, h1, h2⟩ := allE_ok key'
  refine ⟨b, h1, ?_⟩
  rw [h2]
  exact ⟨fun hh e he => hh e.1 (List.mem_map.2 ⟨e, he, rfl⟩) e he rfl, fun hh a ha e' he' _ => hh e' he'⟩

theorem matches_ok (h : Heap) : ∀ (n : Nat) (A : SType) (s : XSeq), A.tree.depth ≤ n → A.Proper → (∀ x ∈ s, Usual h x) →
    ∃ b, matchSequenceTypeF h n s A.tree = .ok b ∧ (b = true ↔ A.Taken h s) := by
  intro n
  induction n with
  | zero => intro A s hA; cases A <;> simp [SType.tree, XNode.depth] at hA
  | succ n ih =>
    intro A s hA hp0 ht
    cases A with
    | empty => exact ⟨s.isEmpty, by simp [matchSequenceTypeF, SType.tree, XNode.ty, XNode.left], by simp [SType.Taken]⟩
    | of t o =>
      have hd : t.tree.depth ≤ n := by simpa [SType.tree, XNode.depth] using hA
      have h1 : t.tree.ty ≠ .emptySequenceTest := by
        cases t with
        | kind T => obtain ⟨n, l, e⟩ := kind_tree hp0.1; show T.tree.ty ≠ _; rw [e]; simp [XNode.ty]
        | _ => simp [IType.tree, XNode.ty]
      obtain ⟨b, ho, hb⟩ := occurrence_ok s.length o
      have run : matchSequenceTypeF h (n + 1) s (SType.of t o).tree =
          (if b then matchItems h (matchSequenceTypeF h n) s t.tree else .ok false) := by
        rw [show matchSequenceTypeF h (n + 1) s (SType.of t o).tree = (if t.tree.ty = .emptySequenceTest then .ok s.isEmpty
          else match matchOccurrence s.length o.mark with
            | .error e => .error e
            | .ok false => .ok false
            | .ok true => matchItems h (matchSequenceTypeF h n) s t.tree) from rfl, if_neg h1, ho]
        cases b <;> rfl
      rw [run]
      cases b with
      | false => exact ⟨false, rfl, by simp only [SType.Taken, ← hb]; simp⟩
      | true =>
        have hm : ∀ P : Prop, (P ↔ ∀ x ∈ s, t.Takes h x) → (P ↔ (SType.of t o).Taken h s) := by
          intro P hP; rw [hP, SType.Taken]; simp [← hb]
        cases t with
        | item =>
          refine ⟨s.all XItem.isItem, rfl, hm _ ?_⟩
          simp only [List.all_eq_true, IType.Takes]
          refine forall₂_congr fun x hx => ?_
          cases x <;> simp [XItem.isItem]
        | kind T =>
          obtain ⟨n', l', e⟩ := kind_tree hp0.1
          refine ⟨matchKindAll h T.tree s, by show matchItems _ _ _ T.tree = _; rw [e]; rfl, hm _ ?_⟩
          unfold matchKindAll
          simp only [List.all_eq_true, IType.Takes]
          refine forall₂_congr fun x hx => ?_
          cases x with
          | node i => simp [XItem.asNode, kind_has hp0.1 hp0.2]
          | _ => simp [XItem.asNode]
        | atomic m =>
          refine ⟨s.all fun x : XItem => derivesFrom x.xsType m, rfl, hm _ ?_⟩
          simp only [List.all_eq_true, IType.Takes]
          exact forall₂_congr fun x hx => valueTypes_iff x hp0.1
        | anyFunction =>
          refine ⟨s.all isFunctionItem, rfl, hm _ ?_⟩
          simp only [List.all_eq_true, IType.Takes]
          refine forall₂_congr fun x hx => ?_
          have := ht x hx
          cases this with
          | inline _ _ => simp [isFunctionItem, inlineOf, XNode.ty]
          | library _ => simp [isFunctionItem, reference, XNode.ty]
          | _ => simp [isFunctionItem]
        | function ps r =>
          have hdd : max r.tree.depth ps.tree.depth + 1 + 1 ≤ n := by simpa [IType.tree, XNode.depth] using hd
          have hr : r.tree.depth ≤ n := by omega
          have : ∀ x ∈ s, ∃ b, matchTypedFunction h (matchSequenceTypeF h n) (signatureOf (IType.function ps r).tree) x = .ok b ∧
              (b = true ↔ (IType.function ps r).Takes h x) := by
            intro x hx
            have hx' := ht x hx
            have hsig : signatureOf (IType.function ps r).tree = r.tree :: ps.tree.chain.map XNode.left := rfl
            rw [hsig]
            have other : ∀ {x : XItem}, (∀ f, x ≠ .fn f) → (∀ es, x ≠ .map es) → (∀ ms, x ≠ .array ms) → ¬ (IType.function ps r).Takes h x := by
              rintro x h1 h2 h3 (⟨f, _, _, rfl, _⟩ | ⟨es, rfl, _⟩ | ⟨ms, rfl, _⟩)
              · exact h1 f rfl
              · exact h2 es rfl
              · exact h3 ms rfl
            have fnTakes : ∀ f, (IType.function ps r).Takes h (.fn f) ↔ ∃ qs q, TakenFor f qs q ∧ q.Under r ∧ ps.Under qs := by
              intro f
              constructor
              · rintro (⟨f', qs, q, hf, h1⟩ | ⟨es, hf, _⟩ | ⟨ms, hf, _⟩)
                · cases hf; exact ⟨qs, q, h1⟩
                · cases hf
                · cases hf
              · rintro ⟨qs, q, h1⟩; exact .inl ⟨f, qs, q, rfl, h1⟩
            have known : ∀ {f qs q}, TakenFor f qs q → ∃ b, matchTypedFunction h (matchSequenceTypeF h n) (r.tree :: ps.tree.chain.map XNode.left) (.fn f) = .ok b ∧
                (b = true ↔ (IType.function ps r).Takes h (.fn f)) := by
              intro f qs q hf
              obtain ⟨hs, pq, pr⟩ := taken_signature hf
              refine ⟨_, by simp only [matchTypedFunction, hs]; rfl, ?_⟩
              rw [fnTakes]
              constructor
              · intro hb
                exact ⟨qs, q, hf, (signature_iff pq pr hp0.1 hp0.2).1 hb⟩
              · rintro ⟨qs', q', hf', hu⟩
                obtain ⟨hs', pq', pr'⟩ := taken_signature hf'
                rw [hs] at hs'
                rw [show (q.tree :: qs.tree.chain.map XNode.left) = (q'.tree :: qs'.tree.chain.map XNode.left) from by simpa using hs']
                exact (signature_iff pq' pr' hp0.1 hp0.2).2 hu
            cases x with
            | fn f =>
              cases hx' with
              | inline h1 h2 => exact known (.inline h1 h2)
              | @library f qs q he =>
                by_cases hc : f = S "fn:concat" ∧ qs.length = 3
                · obtain ⟨rfl, hc⟩ := hc
                  rw [hc]
                  have hn : functionItemSignature (reference (S "fn:concat") 3) = .ok none := concat_none
                  refine ⟨false, by simp only [matchTypedFunction, hn], ?_⟩
                  rw [fnTakes]
                  refine ⟨fun h => (by cases h), ?_⟩
                  rintro ⟨qs', q', hf', _⟩
                  have := (taken_signature hf').1
                  rw [hn] at this; cases this
                · by_cases hm : ∃ m ∈ mistakenSignatures, m.1 = f ∧ m.2.1.length = qs.length
                  · obtain ⟨m, hm1, rfl, hm2⟩ := hm
                    rw [← hm2]
                    exact known (.mistaken hm1)
                  · exact known (.library he (fun m hm1 hm2 => hm ⟨m, hm1, hm2⟩) hc)
            | map es =>
              cases hx' with
              | map hp he =>
                have mapTakes : (IType.function ps r).Takes h (.map es) ↔ ps.IsOne ∧ ∀ e ∈ es, (∃ n ∈ valueTypes e.1, ps.OnlyAtomic n) ∧ r.Taken h e.2 := by
                  constructor
                  · rintro (⟨f', qs, q, hf, h1⟩ | ⟨es, hf, h1⟩ | ⟨ms, hf, _⟩)
                    · cases hf
                    · cases hf; exact h1
                    · cases hf
                  · intro h1; exact .inr (.inl ⟨es, rfl, h1⟩)
                rw [mapTakes]
                cases ps with
                | nil => exact ⟨false, rfl, ⟨fun h => (by cases h), fun h => h.1.elim⟩⟩
                | cons p ps =>
                  cases ps with
                  | cons p' ps => exact ⟨false, rfl, ⟨fun h => (by cases h), fun h => h.1.elim⟩⟩
                  | nil =>
                    show ∃ b, matchMapEntries h (matchSequenceTypeF h n) es p.tree.left.name r.tree = .ok b ∧ _
                    by_cases hpa : ∃ k o, p = .of (.atomic k) o
                    · obtain ⟨k, o, rfl⟩ := hpa
                      obtain ⟨b, h1, h2⟩ := entries_ok (k := k) (v := r) hp hp0.1.1.1 fun e hee => ih r e.2 hr hp0.2 (he e hee)
                      refine ⟨b, h1, h2.trans ⟨fun hh => ⟨trivial, fun e hee => ⟨⟨k, (hh e hee).1, o, rfl⟩, (hh e hee).2⟩⟩, fun hh e hee => ?_⟩⟩
                      obtain ⟨⟨k', hk', o', he'⟩, h3⟩ := hh.2 e hee
                      cases he'
                      exact ⟨hk', h3⟩
                    · have hn : p.tree.left.name = [] := by
                        cases p with
                        | empty => rfl
                        | of x o =>
                          show x.tree.name = []
                          cases x with
                          | kind T => obtain ⟨n, l, e⟩ := kind_tree hp0.1.1.1; rw [show (IType.kind T).tree = T.tree from rfl, e]; rfl
                          | atomic m => exact absurd ⟨m, o, rfl⟩ hpa
                          | _ => rfl
                      rw [hn]
                      refine ⟨es.isEmpty, entries_none, ?_⟩
                      cases es with
                      | nil => exact ⟨fun _ => ⟨trivial, by simp⟩, fun _ => rfl⟩
                      | cons e es =>
                        refine ⟨fun h => (by cases h), fun hh => ?_⟩
                        obtain ⟨⟨k', _, o', he'⟩, _⟩ := hh.2 e (by simp)
                        cases he'
                        exact absurd ⟨_, _, rfl⟩ hpa
            | array ms =>
              cases hx' with
              | array he =>
                have arrayTakes : (IType.function ps r).Takes h (.array ms) ↔ ps.TakesOne h ∧ ∀ s ∈ ms, r.Taken h s := by
                  constructor
                  · rintro (⟨f', qs, q, hf, h1⟩ | ⟨es, hf, h1⟩ | ⟨ms, hf, h1⟩)
                    · cases hf
                    · cases hf
                    · cases hf; exact h1
                  · intro h1; exact .inr (.inr ⟨ms, rfl, h1⟩)
                rw [arrayTakes]
                cases ps with
                | nil => exact ⟨false, rfl, ⟨fun h => (by cases h), fun h => h.1.elim⟩⟩
                | cons p ps =>
                  cases ps with
                  | cons p' ps => exact ⟨false, rfl, ⟨fun h => (by cases h), fun h => h.1.1.elim⟩⟩
                  | nil =>
                    have hdp : p.tree.depth ≤ n := by
                      have : max r.tree.depth (max p.tree.depth 0 + 1) + 1 + 1 ≤ n := hdd
                      omega
                    obtain ⟨b1, h1, h2⟩ := ih p [.integer 1] hdp hp0.1.1 (by simp [Usual.integer])
                    obtain ⟨b2, h3, h4⟩ := allE_ok (l := ms) fun a ha => ih r a hr hp0.2 (he a ha)
                    have run : matchTypedFunction h (matchSequenceTypeF h n) (r.tree :: (PTypes.cons p .nil).tree.chain.map XNode.left) (.array ms) =
                        (match matchSequenceTypeF h n [.integer 1] p.tree with
                        | .ok true => allE (fun s => matchSequenceTypeF h n s r.tree) ms
                        | .ok false => .ok false
                        | .error e => .error e) := rfl
                    rw [run, h1]
                    cases b1 with
                    | true => exact ⟨b2, h3, h4.trans ⟨fun hh => ⟨⟨trivial, h2.1 rfl⟩, hh⟩, fun hh => hh.2⟩⟩
                    | false => exact ⟨false, rfl, ⟨fun h => (by cases h), fun hh => h2.2 hh.1.2⟩⟩
            | _ => exact ⟨false, rfl, ⟨fun h => (by cases h), fun h => absurd h (other (by simp) (by simp) (by simp))⟩⟩
          obtain ⟨b, h1, h2⟩ := allE_ok this
          exact ⟨b, h1, hm _ h2⟩
        | map k v =>
          have hdv : v.tree.depth ≤ n := by
            have : max 1 v.tree.depth + 1 ≤ n := by simpa [IType.tree, XNode.depth] using hd
            omega
          have : ∀ x ∈ s, ∃ b, matchMapItem h (matchSequenceTypeF h n) (IType.map k v).tree x = .ok b ∧ (b = true ↔ (IType.map k v).Takes h x) := by
            intro x hx
            have hx' := ht x hx
            cases x with
            | map es =>
              cases hx' with
              | map hp he =>
                obtain ⟨b, h1, h2⟩ := entries_ok (k := k) (v := v) hp hp0.1 fun e hee => ih v e.2 hdv hp0.2.2 (he e hee)
                refine ⟨b, h1, h2.trans ?_⟩
                simp only [IType.Takes, XItem.map.injEq, exists_eq_left']
            | _ => exact ⟨false, rfl, by simp [IType.Takes]⟩
          obtain ⟨b, h1, h2⟩ := allE_ok this
          exact ⟨b, h1, hm _ h2⟩
        | array v =>
          have hdv : v.tree.depth ≤ n := by
            have : v.tree.depth + 1 ≤ n := by simpa [IType.tree, XNode.depth] using hd
            omega
          have : ∀ x ∈ s, ∃ b, matchArrayItem (matchSequenceTypeF h n) (IType.array v).tree x = .ok b ∧ (b = true ↔ (IType.array v).Takes h x) := by
            intro x hx
            have hx' := ht x hx
            cases x with
            | array ms =>
              cases hx' with
              | array he =>
                obtain ⟨b, h1, h2⟩ := allE_ok (l := ms) fun a ha => ih v a hdv hp0 (he a ha)
                refine ⟨b, h1, ?_⟩
                rw [h2]
                simp only [IType.Takes, XItem.array.injEq, exists_eq_left']
            | _ => exact ⟨false, rfl, by simp [IType.Takes]⟩
          obtain ⟨b, h1, h2⟩ := allE_ok this
          exact ⟨b, h1, hm _ h2⟩


end TypesCode

/-- **C77**, exactly: what `instance of` gives for every sequence type (with atomic types named with a prefix other than `xs:error`) and every value
whose functions are inline functions and references to library functions and whose maps have distinct keys. Spec/TypesCode.lean lists where this is not
what XPath says. -/
theorem C77_exact (h : Heap) (A : SType) (s : XSeq) (hA : A.Proper) (hs : ∀ x ∈ s, Usual h x) :
    ∃ b : Bool, (b = true ↔ A.Taken h s) ∧
      ∀ c env e m, Value h c e env s → Value h c (.node .operatorInstanceOf m e A.tree) env [.boolean b] := by
  obtain ⟨b, h1, h2⟩ := TypesCode.matches_ok h (A.tree.depth + 1) A s (by omega) hA hs
  exact ⟨b, h2, fun c env e m he => instance_run he h1⟩

mutual

/-- **C77**: the subtypes of XPath are subtypes for the code (the converse fails as Spec/TypesCode.lean says). -/
theorem C77_subtypes {a b : SType} : a.Sub b → a.Under b
  | .empty => .empty
  | .none h => .none h
  | .of h1 h2 => .of h1 (C77_item_subtypes h2)

/-- See `C77_subtypes`. -/
theorem C77_item_subtypes {a b : IType} : a.Sub b → a.Under b
  | .item => .item
  | .atomic h => .atomic h
  | .node => .node
  | .text => .text
  | .comment => .comment
  | .pi => .pi
  | .anyFunction => .anyFunction
  | .functionAny => .functionAny
  | .mapAny => .mapAny
  | .arrayAny => .arrayAny
  | .function h1 h2 => .function (C77_subtypes h1) (C77_parameter_subtypes h2)
  | .map h1 h2 => .map h1 (C77_subtypes h2)
  | .array h => .array (C77_subtypes h)

/-- See `C77_subtypes`. -/
theorem C77_parameter_subtypes {a b : PTypes} : a.Sub b → a.Under b
  | .nil => .nil
  | .cons h1 h2 => .cons (C77_subtypes h1) (C77_parameter_subtypes h2)

end

/-- `map{'a' : 1}` is a `function(xs:string) as xs:integer` for the code; a reference in an array and an inline function are usual values. -/
example (h : Heap) : Usual h (.map [(.string (S "a"), [.integer 1])]) ∧
    (SType.of (.function (.cons (aString .one) .nil) (anInteger .one)) .one).Taken h [.map [(.string (S "a"), [.integer 1])]] ∧
    (SType.of (.function (.cons (aString .one) .nil) (anInteger .one)) .one).Proper ∧
    Usual h (.array [[.fn (reference (S "fn:abs") 1)], [.fn (inlineOf [(S "x", anyItem .many)] (anyItem .many) (.node .varRef (S "x") .nil .nil))]]) := by
  refine ⟨.map (by simp) ?_, ⟨rfl, ?_⟩, ⟨⟨⟨by decide, by decide⟩, trivial⟩, by decide, by decide⟩, .array ?_⟩
  · intro e he x hx
    rw [List.mem_singleton.1 he] at hx
    rw [List.mem_singleton.1 hx]; exact .integer
  · intro x hx
    rw [List.mem_singleton.1 hx]
    refine .inr (.inl ⟨_, rfl, trivial, fun e he => ?_⟩)
    rw [List.mem_singleton.1 he]
    exact ⟨⟨S "xs:string", by simp [valueTypes], .one, rfl⟩, rfl, fun x hx => by rw [List.mem_singleton.1 hx]; simp [IType.Takes, valueTypes]⟩
  · intro s hs x hx
    rcases List.mem_cons.1 hs with rfl | hs
    · rw [List.mem_singleton.1 hx]
      exact .library (qs := [aNumeric .opt]) (q := aNumeric .opt) (by simp [librarySignatures])
    · rw [List.mem_singleton.1 hs] at hx
      rw [List.mem_singleton.1 hx]
      exact .inline ⟨trivial, trivial⟩ trivial

end Amxml
