import Verif.Lemmas.Eval
import Verif.Lemmas.Parser
import Verif.Props.XLexer
import Verif.Lemmas.SigTable
import Verif.Spec.Safety

/-!
# What keeps an evaluation from looping and from panicking

`Safe p r`: the result `r` is a value with `p`, or an error that is neither a panic nor the mark of an endless recursion. `tame` says whether panics
count. Values may contain function items; `Clean` says that all of them come from the query and are harmless.
-/

namespace Amxml
namespace Safety
open Spec

/-- An error that is no endless recursion, no panic if that counts, and not one of the kinds that tell about the text of a query. -/
def Fair (tame : Prop) (e : XErr) : Prop := e ≠ .outOfFuel ∧ (tame → e ≠ .panic) ∧ e ≠ .syntaxError ∧ e ≠ .unimplemented

/-- A value with the property, or a fair error. -/
def Safe (tame : Prop) {α : Type} (p : α → Prop) (r : Except XErr α) : Prop :=
  match r with
  | .ok a => p a
  | .error e => Fair tame e

section
variable {tame : Prop}

theorem fair_type : Fair tame .typeError := ⟨nofun, fun _ => nofun, nofun, nofun⟩
theorem fair_dynamic : Fair tame .dynamicError := ⟨nofun, fun _ => nofun, nofun, nofun⟩
theorem fair_occur : Fair tame .cantOccur := ⟨nofun, fun _ => nofun, nofun, nofun⟩
theorem fair_panic (h : ¬ tame) : Fair tame .panic := ⟨nofun, fun t => absurd t h, nofun, nofun⟩

theorem Safe.mono {α : Type} {p q : α → Prop} {r : Except XErr α} (h : Safe tame p r) (hpq : ∀ a, p a → q a) : Safe tame q r := by
  cases r with
  | ok a => exact hpq a h
  | error e => exact h

theorem Safe.bind {α β : Type} {p : α → Prop} {q : β → Prop} {r : Except XErr α} {f : α → Except XErr β} (h : Safe tame p r)
    (hf : ∀ a, p a → Safe tame q (f a)) : Safe tame q (r.bind f) := by
  cases r with
  | ok a => exact hf a h
  | error e => exact h

theorem Safe.map {α β : Type} {p : α → Prop} {q : β → Prop} {r : Except XErr α} {f : α → β} (h : Safe tame p r)
    (hf : ∀ a, p a → q (f a)) : Safe tame q (r.map f) := by
  cases r with
  | ok a => exact hf a h
  | error e => exact h

theorem Safe.mapM {α β : Type} {p : β → Prop} {f : α → Except XErr β} (l : List α) (hf : ∀ a ∈ l, Safe tame p (f a)) :
    Safe tame (fun bs : List β => ∀ b ∈ bs, p b) (l.mapM f) := by
  induction l with
  | nil => show Safe tame _ (.ok []); exact nofun
  | cons a l ih =>
    rw [List.mapM_cons]
    refine Safe.bind (hf a (by simp)) fun b hb => Safe.bind (ih fun x hx => hf x (by simp [hx])) fun bs hbs => ?_
    show ∀ c ∈ b :: bs, p c
    intro c hc
    rcases List.mem_cons.1 hc with rfl | hc
    · exact hb
    · exact hbs c hc

end

/-! ## Trees -/

/-- The types of nodes that cannot be evaluated without a left child. -/
def needsLeft : List XNodeType := [
  .operatorConcatenate, .operatorGeneralEQ, .operatorGeneralNE, .operatorGeneralLT, .operatorGeneralLE, .operatorGeneralGT,
  .operatorGeneralGE, .operatorValueEQ, .operatorValueNE, .operatorValueLT, .operatorValueLE, .operatorValueGT, .operatorValueGE,
  .operatorAdd, .operatorSubtract, .operatorMultiply, .operatorDiv, .operatorIDiv, .operatorMod, .operatorConcat, .operatorUnion,
  .operatorIntersect, .operatorExcept, .operatorTo, .operatorIsSameNode, .operatorNodeBefore, .operatorNodeAfter,
  .operatorOr, .operatorAnd, .ifExpr, .ifThenElse, .forVarBind, .letVarBind, .someVarBind, .everyVarBind,
  .operatorInstanceOf, .operatorCastableAs, .operatorCastAs, .applyPredicate, .applyArgument, .argumentTop, .mapEntry, .arrayEntry,
  .unaryLookupByExpr]

/-- The types of nodes that cannot be evaluated without a right child. -/
def needsRight : List XNodeType := [
  .operatorConcatenate, .operatorGeneralEQ, .operatorGeneralNE, .operatorGeneralLT, .operatorGeneralLE, .operatorGeneralGT,
  .operatorGeneralGE, .operatorValueEQ, .operatorValueNE, .operatorValueLT, .operatorValueLE, .operatorValueGT, .operatorValueGE,
  .operatorAdd, .operatorSubtract, .operatorMultiply, .operatorDiv, .operatorIDiv, .operatorMod, .operatorConcat, .operatorUnion,
  .operatorIntersect, .operatorExcept, .operatorTo, .operatorIsSameNode, .operatorNodeBefore, .operatorNodeAfter,
  .operatorOr, .operatorAnd, .operatorUnaryPlus, .operatorUnaryMinus, .ifThenElse, .forExpr, .letExpr, .someExpr, .everyExpr,
  .forVarBind, .letVarBind, .someVarBind, .everyVarBind, .mapEntry]

/-- No operand is missing. -/
def Complete : XNode → Prop := Everywhere fun t n l r =>
  (t ∈ needsLeft → l.ty ≠ .nil) ∧ (t ∈ needsRight → r.ty ≠ .nil) ∧ (t = .namedFunctionRef → '#' ∈ n)

/-- The condition on the tree. -/
def Good (rank : Str → Option Nat) (lv : Nat) (tame : Prop) (k : Nat) (x : XNode) : Prop := Ranked rank lv x ∧ (tame → Harmless k x ∧ Complete x)

theorem Everywhere.left {p} {x : XNode} (h : Everywhere p x) : Everywhere p x.left := by
  cases x with
  | nil => trivial
  | node t n l r => exact h.2.1

theorem Everywhere.right {p} {x : XNode} (h : Everywhere p x) : Everywhere p x.right := by
  cases x with
  | nil => trivial
  | node t n l r => exact h.2.2

theorem Everywhere.here {p} {x : XNode} (h : Everywhere p x) (hx : x ≠ .nil) : p x.ty x.name x.left x.right := by
  cases x with
  | nil => exact absurd rfl hx
  | node t n l r => exact h.1

theorem Everywhere.chain {p} : ∀ {x : XNode}, Everywhere p x → ∀ y ∈ x.chain, Everywhere p y
  | .nil, _, y, hy => by simp [XNode.chain] at hy
  | .node t n l r, h, y, hy => by
    by_cases ht : t = .nil
    · subst ht; simp [XNode.chain] at hy
    · have e : (XNode.node t n l r).chain = .node t n l r :: r.chain := by cases t <;> first | rfl | exact absurd rfl ht
      rw [e] at hy
      rcases List.mem_cons.1 hy with rfl | hy
      · exact h
      · exact Everywhere.chain h.2.2 y hy

theorem chain_depth : ∀ {x : XNode}, ∀ y ∈ x.chain, y.depth ≤ x.depth
  | .nil, y, hy => by simp [XNode.chain] at hy
  | .node t n l r, y, hy => by
    by_cases ht : t = .nil
    · subst ht; simp [XNode.chain] at hy
    · have e : (XNode.node t n l r).chain = .node t n l r :: r.chain := by cases t <;> first | rfl | exact absurd rfl ht
      rw [e] at hy
      rcases List.mem_cons.1 hy with rfl | hy
      · exact Nat.le_refl _
      · have := chain_depth y hy
        simp only [XNode.depth]
        omega

theorem left_depth (x : XNode) (hx : x ≠ .nil) : x.left.depth < x.depth := by
  cases x with
  | nil => exact absurd rfl hx
  | node t n l r => simp only [XNode.left, XNode.depth]; omega

theorem right_depth (x : XNode) (hx : x ≠ .nil) : x.right.depth < x.depth := by
  cases x with
  | nil => exact absurd rfl hx
  | node t n l r => simp only [XNode.right, XNode.depth]; omega

theorem left_le (x : XNode) : x.left.depth ≤ x.depth := by
  cases x with
  | nil => exact Nat.le_refl _
  | node t n l r => simp only [XNode.left, XNode.depth]; omega

theorem right_le (x : XNode) : x.right.depth ≤ x.depth := by
  cases x with
  | nil => exact Nat.le_refl _
  | node t n l r => simp only [XNode.right, XNode.depth]; omega

theorem chain_ty : ∀ {x : XNode}, ∀ y ∈ x.chain, y.ty ≠ .nil
  | .nil, y, hy => by simp [XNode.chain] at hy
  | .node t n l r, y, hy => by
    by_cases ht : t = .nil
    · subst ht; simp [XNode.chain] at hy
    · have e : (XNode.node t n l r).chain = .node t n l r :: r.chain := by cases t <;> first | rfl | exact absurd rfl ht
      rw [e] at hy
      rcases List.mem_cons.1 hy with rfl | hy
      · exact ht
      · exact chain_ty y hy

section
variable {rank : Str → Option Nat} {lv : Nat} {tame : Prop} {k : Nat}

theorem Good.left {x : XNode} (h : Good rank lv tame k x) : Good rank lv tame k x.left := ⟨Everywhere.left h.1, fun t => ⟨Everywhere.left (h.2 t).1, Everywhere.left (h.2 t).2⟩⟩
theorem Good.right {x : XNode} (h : Good rank lv tame k x) : Good rank lv tame k x.right :=
  ⟨Everywhere.right h.1, fun t => ⟨Everywhere.right (h.2 t).1, Everywhere.right (h.2 t).2⟩⟩
theorem Good.chain {x : XNode} (h : Good rank lv tame k x) (y : XNode) (hy : y ∈ x.chain) : Good rank lv tame k y :=
  ⟨Everywhere.chain h.1 y hy, fun t => ⟨Everywhere.chain (h.2 t).1 y hy, Everywhere.chain (h.2 t).2 y hy⟩⟩

theorem ne_nil {x : XNode} (h : x.ty ≠ .nil) : x ≠ .nil := by rintro rfl; exact h rfl

theorem Good.needL {x : XNode} (h : Good rank lv tame k x) (hx : x.ty ∈ needsLeft) (t : tame) : x.left.ty ≠ .nil :=
  (Everywhere.here (h.2 t).2 (by rintro rfl; revert hx; decide)).1 hx
theorem Good.needR {x : XNode} (h : Good rank lv tame k x) (hx : x.ty ∈ needsRight) (t : tame) : x.right.ty ≠ .nil :=
  (Everywhere.here (h.2 t).2 (by rintro rfl; revert hx; decide)).2.1 hx

end

/-! ## Values -/

section
variable (P : XNode → Prop)

mutual
/-- All function items in an item, at any depth, have the property. -/
def CleanItem : XItem → Prop
  | .fn f => P f
  | .map e => CleanEntries e
  | .array a => CleanMembers a
  | .node _ => True
  | .string _ => True
  | .integer _ => True
  | .decimal _ => True
  | .double _ => True
  | .boolean _ => True
/-- The same for the entries of a map. -/
def CleanEntries : List (XItem × List XItem) → Prop
  | [] => True
  | e :: l => (CleanItem e.1 ∧ Clean e.2) ∧ CleanEntries l
/-- The same for the members of an array. -/
def CleanMembers : List (List XItem) → Prop
  | [] => True
  | s :: l => Clean s ∧ CleanMembers l
/-- The same for a sequence. -/
def Clean : List XItem → Prop
  | [] => True
  | x :: l => CleanItem x ∧ Clean l
end
end

section
variable {P : XNode → Prop}

theorem clean_iff (s : XSeq) : Clean P s ↔ ∀ x ∈ s, CleanItem P x := by
  induction s with
  | nil => simp [Clean]
  | cons x l ih => simp [Clean, ih]

theorem members_iff (s : List XSeq) : CleanMembers P s ↔ ∀ x ∈ s, Clean P x := by
  induction s with
  | nil => simp [CleanMembers]
  | cons x l ih => simp [CleanMembers, ih]

theorem entries_iff (s : List (XItem × XSeq)) : CleanEntries P s ↔ ∀ e ∈ s, CleanItem P e.1 ∧ Clean P e.2 := by
  induction s with
  | nil => simp [CleanEntries]
  | cons x l ih => simp [CleanEntries, ih]

theorem clean_nil : Clean P [] := by simp [Clean]
theorem clean_one {x : XItem} : Clean P [x] ↔ CleanItem P x := by simp [Clean]
theorem clean_append {s t : XSeq} (hs : Clean P s) (ht : Clean P t) : Clean P (s ++ t) := by
  rw [clean_iff] at *
  intro x hx
  rcases List.mem_append.1 hx with h | h
  · exact hs x h
  · exact ht x h
theorem clean_sub {s t : XSeq} (ht : Clean P t) (h : ∀ x ∈ s, x ∈ t) : Clean P s := by
  rw [clean_iff] at *
  exact fun x hx => ht x (h x hx)
theorem clean_nodes (l : List NodeId) : Clean P (XSeq.ofNodes l) := by
  rw [clean_iff]
  intro x hx
  obtain ⟨i, -, rfl⟩ := List.mem_map.1 hx
  simp [CleanItem]
theorem clean_bool (b : Bool) : Clean P (xbool b) := by simp [xbool, Clean, CleanItem]
theorem clean_atomize (h : Heap) {s : XSeq} (hs : Clean P s) : Clean P (s.atomize h) := by
  rw [clean_iff] at *
  intro x hx
  obtain ⟨y, hy, rfl⟩ := List.mem_map.1 hx
  have := hs y hy
  cases y <;> simp_all [XItem.atomize, CleanItem]

theorem clean_arg {args : List XSeq} (h : ∀ a ∈ args, Clean P a) (n : Nat) : Clean P (arg args n) := by
  unfold arg
  cases e : args[n]? with
  | none => exact clean_nil (P := P)
  | some a => exact h a (List.mem_of_getElem? e)

theorem clean_mapGet {h : Heap} {m : List (XItem × XSeq)} {x : XItem} {v : XSeq} (hm : CleanEntries P m) (hv : mapGet h m x = some v) : Clean P v := by
  unfold mapGet at hv
  cases e : m.find? fun e => e.1.sameKey h x with
  | none => rw [e] at hv; cases hv
  | some b => rw [e] at hv; cases hv; exact ((entries_iff m).1 hm b (List.mem_of_find?_eq_some e)).2

theorem clean_arrayGet {h : Heap} {a : List XSeq} {x : XItem} {v : XSeq} (hm : CleanMembers P a) (hv : arrayGet h a x = some v) : Clean P v := by
  unfold arrayGet at hv
  split at hv
  · split at hv
    · exact (members_iff a).1 hm v (List.mem_of_getElem? hv)
    · cases hv
  · cases hv

mutual
theorem clean_flattenArray : ∀ (a : List (List XItem)), CleanMembers P a → Clean P (flattenArray a)
  | [], _ => by simp [flattenArray, Clean]
  | s :: r, h => by
    rw [flattenArray]
    exact clean_append (clean_flattenSeq s (by simp [CleanMembers] at h; exact h.1)) (clean_flattenArray r (by simp [CleanMembers] at h; exact h.2))
theorem clean_flattenSeq : ∀ (s : List XItem), Clean P s → Clean P (flattenSeq s)
  | [], _ => by simp [flattenSeq, Clean]
  | x :: r, h => by
    rw [flattenSeq]
    exact clean_append (clean_flattenItem x (by simp [Clean] at h; exact h.1)) (clean_flattenSeq r (by simp [Clean] at h; exact h.2))
theorem clean_flattenItem : ∀ (x : XItem), CleanItem P x → Clean P (flattenItem x)
  | .array v, h => by rw [flattenItem]; exact clean_flattenArray v (by simpa [CleanItem] using h)
  | .fn v, h => by simpa [flattenItem, Clean] using h
  | .map v, h => by simpa [flattenItem, Clean] using h
  | .node v, h => by simpa [flattenItem, Clean] using h
  | .string v, h => by simpa [flattenItem, Clean] using h
  | .integer v, h => by simpa [flattenItem, Clean] using h
  | .decimal v, h => by simpa [flattenItem, Clean] using h
  | .double v, h => by simpa [flattenItem, Clean] using h
  | .boolean v, h => by simpa [flattenItem, Clean] using h
end

end

/-! ## The function library -/

section
variable {tame : Prop} {P : XNode → Prop}

/-- An atomic value holds no function items. -/
theorem clean_atom {x : XItem} (h : match x with | .fn _ | .map _ | .array _ => False | _ => True) : Clean P [x] := by
  rw [clean_one]
  cases x <;> simp_all [CleanItem]

theorem safe_item1 {a : XSeq} (ha : Clean P a) : Safe tame (CleanItem P) (XSeq.item1 a) := by
  unfold XSeq.item1
  split
  · exact clean_one.1 ha
  · exact fair_type

theorem safe_fn1' {a : XSeq} (ha : Clean P a) : Safe tame (fun f => P f ∧ a = [.fn f]) (XSeq.fn1 a) := by
  unfold XSeq.fn1
  split
  · simpa [Safe, Clean, CleanItem] using ha
  · exact fair_type

theorem safe_fn1 {a : XSeq} (ha : Clean P a) : Safe tame P (XSeq.fn1 a) := by
  unfold XSeq.fn1
  split
  · simpa [Safe, Clean, CleanItem] using ha
  · exact fair_type

theorem safe_map1 {a : XSeq} (ha : Clean P a) : Safe tame (CleanEntries P) (XSeq.map1 a) := by
  unfold XSeq.map1
  split
  · simpa [Safe, Clean, CleanItem] using ha
  · exact fair_type

theorem safe_array1 {a : XSeq} (ha : Clean P a) : Safe tame (CleanMembers P) (XSeq.array1 a) := by
  unfold XSeq.array1
  split
  · simpa [Safe, Clean, CleanItem] using ha
  · exact fair_type

/-- Any value will do. -/
abbrev Any {α : Type} : α → Prop := fun _ => True

theorem safe_node1 (a : XSeq) : Safe tame Any (XSeq.node1 a) := by unfold XSeq.node1; split <;> first | trivial | exact fair_type
theorem safe_string1 (a : XSeq) : Safe tame Any (XSeq.string1 a) := by unfold XSeq.string1; split <;> first | trivial | exact fair_type
theorem safe_integer1 (a : XSeq) : Safe tame Any (XSeq.integer1 a) := by unfold XSeq.integer1; split <;> first | trivial | exact fair_type
theorem safe_boolean1 (a : XSeq) : Safe tame Any (XSeq.boolean1 a) := by unfold XSeq.boolean1; split <;> first | trivial | exact fair_type
theorem safe_ebv (a : XSeq) : Safe tame Any (XSeq.ebv a) := by unfold XSeq.ebv; split <;> first | trivial | exact fair_type
theorem safe_rawString (h : Heap) (x : XItem) : Safe tame Any (x.rawString h) := by unfold XItem.rawString; split <;> first | trivial | exact fair_type
theorem safe_rawDouble (h : Heap) (x : XItem) : Safe tame Any (x.rawDouble h) := by unfold XItem.rawDouble; split <;> first | trivial | exact fair_type
theorem safe_rawInteger (h : Heap) (x : XItem) : Safe tame Any (x.rawInteger h) := by unfold XItem.rawInteger; split <;> first | trivial | exact fair_type
theorem safe_optString (a : XSeq) : Safe tame Any (optString a) := by
  unfold optString
  split
  · trivial
  · exact safe_string1 a

theorem safe_checkI64 (ht : ¬ tame) (n : Int) : Safe tame Any (checkI64 n) := by
  unfold checkI64
  split
  · trivial
  · exact fair_panic ht

theorem safe_castErr {r : Except XErr XItem} {p : XItem → Prop} (h : ∀ x, r = .ok x → p x) : Safe tame p (XItem.castErr r) := by
  cases r with
  | ok x => exact h x rfl
  | error e => exact fair_type

theorem map_ok {α β : Type} {r : Except XErr α} {f : α → β} {b : β} (h : r.map f = .ok b) : ∃ a, b = f a := by
  cases r with
  | ok a => cases h; exact ⟨a, rfl⟩
  | error e => cases h

theorem safe_itemCast (h : Heap) (x : XItem) (t : Str) : Safe tame (CleanItem P) (x.castAs h t) := by
  unfold XItem.castAs
  repeat' split
  all_goals first
    | exact fair_type
    | exact safe_castErr fun y hy => by obtain ⟨a, rfl⟩ := map_ok hy; simp [CleanItem]

theorem safe_castAs (h : Heap) (s : XSeq) (t : Str) : Safe tame (Clean P) (XSeq.castAs h s t) := by
  unfold XSeq.castAs
  split
  · split
    · exact clean_nil (P := P)
    · exact fair_type
  · rename_i x
    have := safe_itemCast (tame := tame) (P := P) h (x.atomize h) (XSeq.trimQ t)
    split
    · rename_i r hr
      rw [hr] at this
      exact clean_one.2 this
    · exact fair_type
  · exact fair_type

/-! ### Arithmetic -/

theorem safe_numOp {f g} (hf : ∀ a b, Safe tame Any (f a b)) (x y : XItem) : Safe tame (CleanItem P) (numOp f g x y) := by
  unfold numOp
  split <;> first
    | exact Safe.map (hf _ _) fun _ _ => by simp [CleanItem]
    | (show CleanItem P _; simp [CleanItem])
    | exact fair_type

theorem safe_i64Div (ht : ¬ tame) (a b : Int) : Safe tame Any (i64Div a b) := by
  unfold i64Div
  split
  · exact fair_panic ht
  · exact safe_checkI64 ht _

theorem safe_i64Rem (ht : ¬ tame) (a b : Int) : Safe tame Any (i64Rem a b) := by
  unfold i64Rem
  repeat' split
  · exact fair_panic ht
  · exact fair_panic ht
  · trivial

/-- A division never divides integers. -/
theorem safe_numOp_right {f g} (x : XItem) {y : XItem} (hy : match y with | .decimal _ | .double _ => True | _ => False) :
    Safe tame (CleanItem P) (numOp f g x y) := by
  unfold numOp
  split <;> first
    | exact absurd hy id
    | (show CleanItem P _; simp [CleanItem])
    | exact fair_type

theorem safe_numDiv (x y : XItem) : Safe tame (CleanItem P) (numDiv x y) := by
  unfold numDiv
  split
  · split
    · exact fair_dynamic
    · exact safe_numOp_right _ trivial
  · split
    · exact fair_dynamic
    · exact safe_numOp_right _ trivial
  · exact safe_numOp_right _ trivial
  · exact fair_occur

theorem safe_numAdd (ht : ¬ tame) (x y : XItem) : Safe tame (CleanItem P) (numAdd x y) := safe_numOp (fun _ _ => safe_checkI64 ht _) x y
theorem safe_numSub (ht : ¬ tame) (x y : XItem) : Safe tame (CleanItem P) (numSub x y) := safe_numOp (fun _ _ => safe_checkI64 ht _) x y
theorem safe_numMul (ht : ¬ tame) (x y : XItem) : Safe tame (CleanItem P) (numMul x y) := safe_numOp (fun _ _ => safe_checkI64 ht _) x y
theorem safe_numIDiv (ht : ¬ tame) (x y : XItem) : Safe tame (CleanItem P) (numIDiv x y) := by
  unfold numIDiv
  dsimp only
  generalize (_ || _ : Bool) = bad
  split
  · exact fair_dynamic
  · split
    · exact Safe.map (safe_i64Div ht _ _) fun _ _ => by simp [CleanItem]
    · exact fair_dynamic
theorem safe_numMod (ht : ¬ tame) (x y : XItem) : Safe tame (CleanItem P) (numMod x y) := by
  unfold numMod
  split
  · exact fair_dynamic
  · exact safe_numOp (fun _ _ => safe_i64Rem ht _ _) x y
theorem safe_numUPlus (x : XItem) : Safe tame (CleanItem P) (numUPlus x) := by
  unfold numUPlus
  split <;> first
    | (show CleanItem P _; simp [CleanItem])
    | exact fair_type
theorem safe_numUMinus (ht : ¬ tame) (x : XItem) : Safe tame (CleanItem P) (numUMinus x) := by
  unfold numUMinus
  split <;> first
    | exact Safe.map (safe_checkI64 ht _) fun _ _ => by simp [CleanItem]
    | (show CleanItem P _; simp [CleanItem])
    | exact fair_type

theorem safe_opNumeric {f} (hf : ∀ x y, Safe tame (CleanItem P) (f x y)) {a b : XSeq} (ha : Clean P a) (hb : Clean P b) :
    Safe tame (Clean P) (opNumeric f a b) :=
  Safe.bind (safe_item1 ha) fun x _ => Safe.bind (safe_item1 hb) fun y _ => Safe.map (hf x y) fun _ h => clean_one.2 h

theorem safe_opUnary {f} (hf : ∀ x, Safe tame (CleanItem P) (f x)) {a : XSeq} (ha : Clean P a) : Safe tame (Clean P) (opUnary f a) :=
  Safe.bind (safe_item1 ha) fun x _ => Safe.map (hf x) fun _ h => clean_one.2 h

/-! ### Comparisons -/

theorem safe_numCmp (f g) (x y : XItem) : Safe tame Any (numCmp f g x y) := by
  unfold numCmp
  split <;> first | trivial | exact fair_type

theorem safe_opNumCmp (f g) {a b : XSeq} (ha : Clean P a) (hb : Clean P b) : Safe tame (Clean P) (opNumCmp (numCmp f g) a b) :=
  Safe.bind (safe_item1 ha) fun x _ => Safe.bind (safe_item1 hb) fun y _ => Safe.map (safe_numCmp f g x y) fun _ _ => clean_bool _

theorem safe_opBool (f) (a b : XSeq) : Safe tame (Clean P) (opBool f a b) :=
  Safe.bind (safe_boolean1 a) fun _ _ => Safe.map (safe_boolean1 b) fun _ _ => clean_bool _

theorem safe_compare (h : Heap) {num bool} (str) (hn : ∀ a b : XSeq, Clean P a → Clean P b → Safe tame (Clean P) (num a b))
    (hb : ∀ a b : XSeq, Safe tame (Clean P) (bool a b)) {a b : XSeq} (ha : Clean P a) (hb' : Clean P b) :
    Safe tame (Clean P) (valueComparison h num str bool a b) := by
  have h1 := hn (a.atomize h) (b.atomize h) (clean_atomize h ha) (clean_atomize h hb')
  have h2 := hb (a.atomize h) (b.atomize h)
  unfold valueComparison
  split
  · exact clean_nil (P := P)
  · split
    · exact fair_type
    · dsimp only
      split
      · rename_i r hr
        rw [hr] at h1
        exact h1
      · split
        · exact Safe.map (safe_integer1 _) fun _ _ => clean_bool _
        · split
          · rename_i r hr
            rw [hr] at h2
            exact h2
          · exact fair_type

theorem safe_valueEq (h : Heap) {a b : XSeq} (ha : Clean P a) (hb : Clean P b) : Safe tame (Clean P) (valueEq h a b) :=
  safe_compare h _ (fun _ _ => safe_opNumCmp _ _) (fun _ _ => safe_opBool _ _ _) ha hb
theorem safe_valueLt (h : Heap) {a b : XSeq} (ha : Clean P a) (hb : Clean P b) : Safe tame (Clean P) (valueLt h a b) :=
  safe_compare h _ (fun _ _ => safe_opNumCmp _ _) (fun _ _ => safe_opBool _ _ _) ha hb
theorem safe_valueGt (h : Heap) {a b : XSeq} (ha : Clean P a) (hb : Clean P b) : Safe tame (Clean P) (valueGt h a b) :=
  safe_compare h _ (fun _ _ => safe_opNumCmp _ _) (fun _ _ => safe_opBool _ _ _) ha hb
theorem safe_not (a : XSeq) : Safe tame (Clean P) (fnNot a) := Safe.map (safe_ebv a) fun _ _ => clean_bool _

/-! ### Sequences -/

theorem clean_int (n : Int) : Clean P [.integer n] := by simp [Clean, CleanItem]
theorem clean_str (s : Str) : Clean P [.string s] := by simp [Clean, CleanItem]
theorem clean_dbl (d : F64) : Clean P [.double d] := by simp [Clean, CleanItem]
theorem clean_dec (d : F64) : Clean P [.decimal d] := by simp [Clean, CleanItem]

theorem clean_integers {α : Type} (f : α → Int) (l : List α) : Clean P (l.map fun a => XItem.integer (f a)) := by
  rw [clean_iff]
  intro x hx
  obtain ⟨n, -, rfl⟩ := List.mem_map.1 hx
  simp [CleanItem]

theorem removeLoop_sub (p : Int) : ∀ (n : Nat) (s : XSeq), ∀ x ∈ removeLoop p n s, x ∈ s
  | _, [], x, h => by simp [removeLoop] at h
  | n, y :: r, x, h => by
    rw [removeLoop] at h
    split at h
    · rcases List.mem_cons.1 h with rfl | h
      · simp
      · exact List.mem_cons_of_mem _ (removeLoop_sub p _ r x h)
    · exact List.mem_cons_of_mem _ (removeLoop_sub p _ r x h)

theorem safe_unary {f g k} (hf : ∀ n, Safe tame Any (f n)) (a : XSeq) : Safe tame (Clean P) (fnNumericUnary f g k a) := by
  unfold fnNumericUnary
  split
  · exact Safe.map (hf _) fun _ _ => clean_int _
  · exact clean_dec _
  · exact clean_dbl _
  · exact clean_nil (P := P)

theorem safe_indexOf (h : Heap) {b : XSeq} (hb : Clean P b) : ∀ (i : Nat) (a : XSeq), Clean P a → Safe tame (Clean P) (indexOfLoop h b i a)
  | _, [], _ => clean_nil (P := P)
  | i, v :: r, ha => by
    rw [indexOfLoop]
    have ha' : CleanItem P v ∧ Clean P r := by simpa [Clean] using ha
    refine Safe.bind (Safe.bind (safe_valueEq h (clean_one.2 ha'.1) hb) fun r _ => safe_boolean1 r) fun b _ =>
      Safe.map (safe_indexOf h hb (i + 1) r ha'.2) fun rest hr => ?_
    split
    · exact clean_append (clean_int _) hr
    · exact hr

theorem safe_sumLoop (ht : ¬ tame) (h : Heap) : ∀ (v : XItem) (s : XSeq), CleanItem P v → Safe tame (CleanItem P) (sumLoop h v s)
  | v, [], hv => hv
  | v, n :: r, hv => by
    rw [sumLoop]
    refine Safe.bind (p := CleanItem P) ?_ fun w hw => safe_sumLoop ht h w r hw
    split
    · exact safe_numAdd ht _ _
    · exact Safe.bind (safe_itemCast (P := P) h n _) fun _ _ => safe_numAdd ht _ _

theorem safe_sum (ht : ¬ tame) (h : Heap) {args : List XSeq} (ha : ∀ a ∈ args, Clean P a) : Safe tame (Clean P) (fnSum h args) := by
  unfold fnSum
  split
  · split
    · exact clean_int _
    · exact clean_arg ha 1
  · exact Safe.map (safe_sumLoop (P := P) ht h (.integer 0) _ (by simp [CleanItem])) fun _ h => clean_one.2 h

theorem safe_extreme {cmp} (hc : ∀ a b : XSeq, Clean P a → Clean P b → Safe tame (Clean P) (cmp a b)) : ∀ (m : XItem) (s : XSeq), CleanItem P m → Clean P s →
    Safe tame (CleanItem P) (extremeLoop cmp m s)
  | m, [], hm, _ => hm
  | m, x :: r, hm, hs => by
    rw [extremeLoop]
    have hs' : CleanItem P x ∧ Clean P r := by simpa [Clean] using hs
    refine Safe.bind (Safe.bind (hc _ _ (clean_one.2 hm) (clean_one.2 hs'.1)) fun v _ => safe_ebv v) fun b _ => ?_
    refine safe_extreme hc _ r ?_ hs'.2
    split
    · exact hs'.1
    · exact hm

theorem safe_subIndex (ht : ¬ tame) (n : Nat) (s l : F64) : Safe tame Any (subIndex n s l) := by
  unfold subIndex
  split
  · trivial
  · dsimp only
    refine Safe.bind (safe_checkI64 ht _) fun _ _ => ?_
    split
    · trivial
    · split
      · trivial
      · exact Safe.bind (safe_checkI64 ht _) fun _ _ => Safe.map (safe_checkI64 ht _) fun _ _ => trivial

theorem safe_startLength (h : Heap) {args : List XSeq} (ha : ∀ a ∈ args, Clean P a) : Safe tame Any (startLength h args) := by
  refine Safe.bind (safe_item1 (clean_arg ha 1)) fun x _ => Safe.bind (safe_rawDouble h x) fun _ _ => ?_
  split
  · trivial
  · exact Safe.bind (safe_item1 (clean_arg ha 2)) fun y _ => Safe.map (safe_rawDouble h y) fun _ _ => trivial

theorem safe_nilled (h : Heap) (a : XSeq) : Safe tame (Clean P) (fnNilled h a) := by
  unfold fnNilled
  repeat' split
  all_goals first | exact clean_nil (P := P) | exact clean_bool _ | exact fair_type

theorem safe_string (h : Heap) {a : XSeq} (ha : Clean P a) : Safe tame (Clean P) (fnString h a) := by
  unfold fnString
  split
  · exact clean_str (P := P) _
  · exact Safe.bind (safe_item1 ha) fun x _ => Safe.map (safe_rawString h x) fun _ _ => clean_str _

theorem safe_number (h : Heap) (a : XSeq) : Safe tame (Clean P) (fnNumber h a) := by
  unfold fnNumber
  split
  · exact clean_dbl (P := P) _
  · split
    · exact Safe.map (safe_rawDouble h _) fun _ _ => clean_dbl _
    · exact clean_dbl (P := P) _

theorem safe_codepoints (h : Heap) (a : XSeq) : Safe tame (Clean P) (fnCodepointsToString h a) := by
  refine Safe.bind (Safe.mapM a fun x _ => safe_rawInteger h x) fun ns _ => ?_
  split
  · exact clean_str (P := P) _
  · exact fair_dynamic

theorem safe_toCodepoints (a : XSeq) : Safe tame (Clean P) (fnStringToCodepoints a) := by
  unfold fnStringToCodepoints
  split
  · exact clean_nil (P := P)
  · exact Safe.map (safe_string1 a) fun _ _ => clean_integers _ _

theorem safe_fnCompare (a b : XSeq) : Safe tame (Clean P) (fnCompare a b) := by
  unfold fnCompare
  split
  · exact clean_nil (P := P)
  · exact Safe.bind (safe_string1 a) fun _ _ => Safe.bind (safe_string1 b) fun _ _ => clean_int (P := P) _

theorem safe_codepointEqual (a b : XSeq) : Safe tame (Clean P) (fnCodepointEqual a b) := by
  unfold fnCodepointEqual
  split
  · exact clean_nil (P := P)
  · exact Safe.bind (safe_string1 a) fun _ _ => Safe.map (safe_string1 b) fun _ _ => clean_bool _

theorem safe_concat (h : Heap) {args : List XSeq} (ha : ∀ a ∈ args, Clean P a) : Safe tame (Clean P) (fnConcat h args) := by
  refine Safe.map (Safe.mapM (p := Any) args fun a hm => ?_) fun _ _ => clean_str _
  unfold concatPiece
  split
  · trivial
  · exact Safe.bind (safe_item1 (ha a hm)) fun x _ => safe_rawString h x

theorem safe_join (h : Heap) {args : List XSeq} (_ha : ∀ a ∈ args, Clean P a) : Safe tame (Clean P) (fnStringJoin h args) := by
  refine Safe.bind (p := Any) ?_ fun _ _ => Safe.map (Safe.mapM (p := Any) _ fun x _ => safe_rawString h x) fun _ _ => clean_str _
  split
  · trivial
  · exact safe_string1 _

theorem safe_substring (ht : ¬ tame) (h : Heap) {args : List XSeq} (ha : ∀ a ∈ args, Clean P a) : Safe tame (Clean P) (fnSubstring h args) := by
  unfold fnSubstring
  split
  · exact clean_str (P := P) _
  · exact Safe.bind (safe_string1 _) fun _ _ => Safe.bind (safe_startLength h ha) fun _ _ => Safe.map (safe_subIndex ht _ _ _) fun _ _ => clean_str _

theorem safe_subsequence (ht : ¬ tame) (h : Heap) {args : List XSeq} (ha : ∀ a ∈ args, Clean P a) : Safe tame (Clean P) (fnSubsequence h args) := by
  unfold fnSubsequence
  split
  · exact clean_nil (P := P)
  · exact Safe.bind (safe_startLength h ha) fun _ _ => Safe.map (safe_subIndex ht _ _ _) fun _ _ =>
      clean_sub (clean_arg ha 0) fun _ hx => List.mem_of_mem_drop (List.mem_of_mem_take hx)

theorem safe_length (a : XSeq) : Safe tame (Clean P) (fnStringLength a) := by
  unfold fnStringLength
  split
  · exact clean_int (P := P) _
  · exact Safe.map (safe_string1 a) fun _ _ => clean_int _

theorem safe_str1 (f : Str → Str) (a : XSeq) :
    Safe tame (Clean P) (if a.isEmpty then .ok [.string []] else (XSeq.string1 a).map fun s => [.string (f s)]) := by
  split
  · exact clean_str (P := P) _
  · exact Safe.map (safe_string1 a) fun _ _ => clean_str _

theorem safe_normalize (a : XSeq) : Safe tame (Clean P) (fnNormalizeSpace a) := safe_str1 _ _

theorem safe_translate (a b c : XSeq) : Safe tame (Clean P) (fnTranslate a b c) := by
  unfold fnTranslate
  split
  · exact clean_str (P := P) _
  · exact Safe.bind (safe_string1 a) fun _ _ => Safe.bind (safe_string1 b) fun _ _ => Safe.map (safe_string1 c) fun _ _ => clean_str _

theorem safe_opt {a b : XSeq} (f : Str → Str → XSeq) (hf : ∀ s t, Clean P (f s t)) :
    Safe tame (Clean P) ((optString a).bind fun s => (optString b).map fun t => f s t) :=
  Safe.bind (safe_optString a) fun _ _ => Safe.map (safe_optString b) fun _ _ => hf _ _

theorem safe_nodeString (f : NodeId → Str) (a : XSeq) : Safe tame (Clean P) (fnNodeString f a) := by
  unfold fnNodeString
  split
  · exact clean_str (P := P) _
  · split
    · exact clean_str (P := P) _
    · exact fair_dynamic

theorem safe_lang (h : Heap) (a b : XSeq) : Safe tame (Clean P) (fnLang h a b) := by
  unfold fnLang
  split
  · exact clean_str (P := P) _
  · exact Safe.bind (safe_string1 a) fun _ _ => Safe.map (safe_node1 b) fun _ _ => clean_bool _

theorem safe_root (h : Heap) (a : XSeq) : Safe tame (Clean P) (fnRoot h a) := by
  unfold fnRoot
  split
  · exact clean_nil (P := P)
  · split
    · exact clean_nodes (P := P) [_]
    · exact fair_dynamic

theorem safe_if {p : Prop} [Decidable p] {a : XSeq} (ha : Clean P a) : Safe tame (Clean P) (if p then .ok a else .error .dynamicError) := by
  split
  · exact ha
  · exact fair_dynamic

theorem safe_avg (ht : ¬ tame) (h : Heap) {a : XSeq} (ha : Clean P a) : Safe tame (Clean P) (fnAvg h a) := by
  unfold fnAvg
  split
  · exact clean_nil (P := P)
  · exact Safe.bind (safe_sum (P := P) ht h (args := [a]) (by simpa using ha)) fun s hs => Safe.bind (safe_item1 hs) fun x _ =>
      Safe.map (safe_numDiv x _) fun _ h => clean_one.2 h

theorem safe_max (h : Heap) {a : XSeq} (ha : Clean P a) : Safe tame (Clean P) (fnMax h a) := by
  unfold fnMax
  split
  · exact clean_nil (P := P)
  · exact Safe.map (safe_extreme (fun _ _ => safe_valueLt h) _ _ (by simp [Clean] at ha; exact ha.1) ha) fun _ h => clean_one.2 h

theorem safe_min (h : Heap) {a : XSeq} (ha : Clean P a) : Safe tame (Clean P) (fnMin h a) := by
  unfold fnMin
  split
  · exact clean_nil (P := P)
  · exact Safe.map (safe_extreme (fun _ _ => safe_valueGt h) _ _ (by simp [Clean] at ha; exact ha.1) ha) fun _ h => clean_one.2 h

theorem clean_keys {m : List (XItem × XSeq)} (hm : CleanEntries P m) : Clean P (m.map (·.1)) := by
  rw [clean_iff]
  intro x hx
  obtain ⟨e, he, rfl⟩ := List.mem_map.1 hx
  exact ((entries_iff m).1 hm e he).1

theorem clean_getD {o : Option XSeq} (h : ∀ v, o = some v → Clean P v) : Clean P (o.getD []) := by
  cases o with
  | none => exact clean_nil
  | some v => exact h v rfl

theorem safe_mapGet (h : Heap) {a b : XSeq} (ha : Clean P a) (hb : Clean P b) : Safe tame (Clean P) (fnMapGet h a b) :=
  Safe.bind (safe_map1 ha) fun _ hm => Safe.map (safe_item1 hb) fun _ _ => clean_getD fun _ hv => clean_mapGet hm hv

theorem safe_arrayGet (h : Heap) {a b : XSeq} (ha : Clean P a) (hb : Clean P b) : Safe tame (Clean P) (fnArrayGet h a b) :=
  Safe.bind (safe_array1 ha) fun _ hm => Safe.map (safe_item1 hb) fun _ _ => clean_getD fun _ hv => clean_arrayGet hm hv

/-- Every function of `FUNC_TBL` but those that can overflow is safe; none loops. -/
theorem safe_table : ∀ e ∈ funcTbl, (tame → e.2.1 ∉ overflowingFunctions) → ∀ (h : Heap) (args : List XSeq), (∀ a ∈ args, Clean P a) →
    Safe tame (Clean P) (e.2.2 h args) := by
  unfold funcTbl
  refine List.forall_mem_cons.2 ⟨fun hn h args ha => safe_nilled h _, ?_⟩
  refine List.forall_mem_cons.2 ⟨fun hn h args ha => safe_string h (clean_arg ha 0), ?_⟩
  refine List.forall_mem_cons.2 ⟨fun hn h args ha => clean_atomize h (clean_arg ha 0), ?_⟩
  refine List.forall_mem_cons.2 ⟨fun hn h args ha => safe_unary (fun n => safe_checkI64 (fun t => hn t (by decide)) _) _, ?_⟩
  refine List.forall_mem_cons.2 ⟨fun hn h args ha => safe_unary (f := .ok) (fun _ => trivial) _, ?_⟩
  refine List.forall_mem_cons.2 ⟨fun hn h args ha => safe_unary (f := .ok) (fun _ => trivial) _, ?_⟩
  refine List.forall_mem_cons.2 ⟨fun hn h args ha => safe_unary (f := .ok) (fun _ => trivial) _, ?_⟩
  refine List.forall_mem_cons.2 ⟨fun hn h args ha => safe_number h _, ?_⟩
  refine List.forall_mem_cons.2 ⟨fun hn h args ha => safe_codepoints h _, ?_⟩
  refine List.forall_mem_cons.2 ⟨fun hn h args ha => safe_toCodepoints _, ?_⟩
  refine List.forall_mem_cons.2 ⟨fun hn h args ha => safe_fnCompare _ _, ?_⟩
  refine List.forall_mem_cons.2 ⟨fun hn h args ha => safe_codepointEqual _ _, ?_⟩
  refine List.forall_mem_cons.2 ⟨fun hn h args ha => safe_concat h ha, ?_⟩
  refine List.forall_mem_cons.2 ⟨fun hn h args ha => safe_join h ha, ?_⟩
  refine List.forall_mem_cons.2 ⟨fun hn h args ha => safe_join h ha, ?_⟩
  refine List.forall_mem_cons.2 ⟨fun hn h args ha => safe_substring (fun t => hn t (by decide)) h ha, ?_⟩
  refine List.forall_mem_cons.2 ⟨fun hn h args ha => safe_substring (fun t => hn t (by decide)) h ha, ?_⟩
  refine List.forall_mem_cons.2 ⟨fun hn h args ha => safe_length _, ?_⟩
  refine List.forall_mem_cons.2 ⟨fun hn h args ha => safe_normalize _, ?_⟩
  refine List.forall_mem_cons.2 ⟨fun hn h args ha => safe_str1 _ _, ?_⟩
  refine List.forall_mem_cons.2 ⟨fun hn h args ha => safe_str1 _ _, ?_⟩
  refine List.forall_mem_cons.2 ⟨fun hn h args ha => safe_translate _ _ _, ?_⟩
  refine List.forall_mem_cons.2 ⟨fun hn h args ha => safe_opt _ (fun _ _ => clean_bool _), ?_⟩
  refine List.forall_mem_cons.2 ⟨fun hn h args ha => safe_opt _ (fun _ _ => clean_bool _), ?_⟩
  refine List.forall_mem_cons.2 ⟨fun hn h args ha => safe_opt _ (fun _ _ => clean_bool _), ?_⟩
  refine List.forall_mem_cons.2 ⟨fun hn h args ha => safe_opt _ (fun _ _ => clean_str _), ?_⟩
  refine List.forall_mem_cons.2 ⟨fun hn h args ha => safe_opt _ (fun _ _ => clean_str _), ?_⟩
  refine List.forall_mem_cons.2 ⟨fun hn h args ha => clean_bool _, ?_⟩
  refine List.forall_mem_cons.2 ⟨fun hn h args ha => clean_bool _, ?_⟩
  refine List.forall_mem_cons.2 ⟨fun hn h args ha => Safe.map (safe_ebv _) fun _ _ => clean_bool _, ?_⟩
  refine List.forall_mem_cons.2 ⟨fun hn h args ha => safe_not _, ?_⟩
  refine List.forall_mem_cons.2 ⟨fun hn h args ha => safe_nodeString _ _, ?_⟩
  refine List.forall_mem_cons.2 ⟨fun hn h args ha => safe_nodeString _ _, ?_⟩
  refine List.forall_mem_cons.2 ⟨fun hn h args ha => safe_nodeString _ _, ?_⟩
  refine List.forall_mem_cons.2 ⟨fun hn h args ha => safe_lang h _ _, ?_⟩
  refine List.forall_mem_cons.2 ⟨fun hn h args ha => safe_root h _, ?_⟩
  refine List.forall_mem_cons.2 ⟨fun hn h args ha => clean_bool _, ?_⟩
  refine List.forall_mem_cons.2 ⟨fun hn h args ha => clean_bool _, ?_⟩
  refine List.forall_mem_cons.2 ⟨fun hn h args ha => clean_sub (clean_arg ha 0) fun _ hx => List.mem_of_mem_take hx, ?_⟩
  refine List.forall_mem_cons.2 ⟨fun hn h args ha => clean_sub (clean_arg ha 0) fun _ hx => List.mem_of_mem_drop hx, ?_⟩
  refine List.forall_mem_cons.2 ⟨fun hn h args ha => Safe.bind (safe_integer1 _) fun n _ => Safe.map (safe_checkI64 (fun t => hn t (by decide)) _) fun _ _ => clean_append (clean_append (clean_sub (clean_arg ha 0) fun _ hx => List.mem_of_mem_take hx) (clean_arg ha 2)) (clean_sub (clean_arg ha 0) fun _ hx => List.mem_of_mem_drop hx), ?_⟩
  refine List.forall_mem_cons.2 ⟨fun hn h args ha => Safe.map (safe_integer1 _) fun _ _ => clean_sub (clean_arg ha 0) (removeLoop_sub _ _ _), ?_⟩
  refine List.forall_mem_cons.2 ⟨fun hn h args ha => clean_sub (clean_arg ha 0) fun _ hx => List.mem_reverse.1 hx, ?_⟩
  refine List.forall_mem_cons.2 ⟨fun hn h args ha => safe_subsequence (fun t => hn t (by decide)) h ha, ?_⟩
  refine List.forall_mem_cons.2 ⟨fun hn h args ha => safe_subsequence (fun t => hn t (by decide)) h ha, ?_⟩
  refine List.forall_mem_cons.2 ⟨fun hn h args ha => safe_indexOf h (clean_arg ha 1) 0 _ (clean_arg ha 0), ?_⟩
  refine List.forall_mem_cons.2 ⟨fun hn h args ha => safe_if (clean_arg ha 0), ?_⟩
  refine List.forall_mem_cons.2 ⟨fun hn h args ha => safe_if (clean_arg ha 0), ?_⟩
  refine List.forall_mem_cons.2 ⟨fun hn h args ha => safe_if (clean_arg ha 0), ?_⟩
  refine List.forall_mem_cons.2 ⟨fun hn h args ha => clean_int _, ?_⟩
  refine List.forall_mem_cons.2 ⟨fun hn h args ha => safe_avg (fun t => hn t (by decide)) h (clean_arg ha 0), ?_⟩
  refine List.forall_mem_cons.2 ⟨fun hn h args ha => safe_max h (clean_arg ha 0), ?_⟩
  refine List.forall_mem_cons.2 ⟨fun hn h args ha => safe_min h (clean_arg ha 0), ?_⟩
  refine List.forall_mem_cons.2 ⟨fun hn h args ha => safe_sum (fun t => hn t (by decide)) h ha, ?_⟩
  refine List.forall_mem_cons.2 ⟨fun hn h args ha => safe_sum (fun t => hn t (by decide)) h ha, ?_⟩
  refine List.forall_mem_cons.2 ⟨fun hn h args ha => Safe.map (safe_map1 (clean_arg ha 0)) fun _ _ => clean_int _, ?_⟩
  refine List.forall_mem_cons.2 ⟨fun hn h args ha => Safe.map (safe_map1 (clean_arg ha 0)) fun m hm => clean_keys hm, ?_⟩
  refine List.forall_mem_cons.2 ⟨fun hn h args ha => Safe.bind (safe_map1 (clean_arg ha 0)) fun _ _ => Safe.map (safe_item1 (clean_arg ha 1)) fun _ _ => clean_bool _, ?_⟩
  refine List.forall_mem_cons.2 ⟨fun hn h args ha => safe_mapGet h (clean_arg ha 0) (clean_arg ha 1), ?_⟩
  refine List.forall_mem_cons.2 ⟨fun hn h args ha => Safe.map (safe_array1 (clean_arg ha 0)) fun _ _ => clean_int _, ?_⟩
  refine List.forall_mem_cons.2 ⟨fun hn h args ha => safe_arrayGet h (clean_arg ha 0) (clean_arg ha 1), ?_⟩
  refine List.forall_mem_cons.2 ⟨fun hn h args ha => clean_flattenSeq _ (clean_arg ha 0), ?_⟩
  exact fun _ h => absurd h List.not_mem_nil

theorem safe_binaryOp (h : Heap) {t : XNodeType} {f} (hf : binaryOp h t = some f) (ht : tame → t ∉ overflowing) {a b : XSeq}
    (ha : Clean P a) (hb : Clean P b) : Safe tame (Clean P) (f a b) := by
  unfold binaryOp at hf
  split at hf <;> first
    | (cases hf; done)
    | (cases hf; first
      | exact clean_append ha hb
      | exact clean_bool (P := P) _
      | exact safe_valueEq h ha hb
      | exact safe_valueLt h ha hb
      | exact safe_valueGt h ha hb
      | exact Safe.bind (safe_valueEq h ha hb) fun _ _ => safe_not _
      | exact Safe.bind (safe_valueLt h ha hb) fun _ _ => safe_not _
      | exact Safe.bind (safe_valueGt h ha hb) fun _ _ => safe_not _
      | exact safe_opNumeric (fun _ _ => safe_numAdd (fun t => ht t (by decide)) _ _) ha hb
      | exact safe_opNumeric (fun _ _ => safe_numSub (fun t => ht t (by decide)) _ _) ha hb
      | exact safe_opNumeric (fun _ _ => safe_numMul (fun t => ht t (by decide)) _ _) ha hb
      | exact safe_opNumeric (fun _ _ => safe_numIDiv (fun t => ht t (by decide)) _ _) ha hb
      | exact safe_opNumeric (fun _ _ => safe_numMod (fun t => ht t (by decide)) _ _) ha hb
      | exact safe_opNumeric (fun _ _ => safe_numDiv _ _) ha hb
      | exact safe_concat h (args := [a, b]) (by simp [ha, hb])
      | exact clean_nodes (P := P) _
      | exact Safe.bind (safe_integer1 a) fun _ _ => Safe.map (safe_integer1 b) fun _ _ => clean_integers id _
      | exact Safe.bind (safe_node1 a) fun _ _ => Safe.map (safe_node1 b) fun _ _ => clean_bool _)

/-! ## Types -/

theorem safe_allE {α : Type} {f : α → Except XErr Bool} (l : List α) (hf : ∀ a ∈ l, Safe tame Any (f a)) : Safe tame Any (allE f l) := by
  induction l with
  | nil => trivial
  | cons a l ih =>
    rw [allE]
    have := hf a (by simp)
    split
    · exact ih fun x hx => hf x (by simp [hx])
    · trivial
    · rename_i e he
      rw [he] at this
      exact this

theorem safe_occurrence (n : Nat) (s : Str) : Safe tame Any (matchOccurrence n s) := by
  unfold matchOccurrence
  repeat' split
  all_goals first | trivial | exact fair_occur

theorem safe_signature (f : XNode) : Safe tame Any (functionItemSignature f) := by
  unfold functionItemSignature
  split
  · dsimp only
    split
    · trivial
    · rename_i hs
      have h2 : readableSig (functionSignature f.name) = true := by
        unfold functionSignature at hs ⊢
        cases hf : funcSignatureTbl.find? fun e => e.1 == f.name with
        | none => rw [hf] at hs; exact absurd rfl hs
        | some e => exact signatures_readable e (List.mem_of_find?_eq_some hf)
      unfold readableSig at h2
      split
      · rename_i e he
        rw [he] at h2; cases h2
      · rename_i ts hts
        rw [hts] at h2
        split
        · rename_i e he
          simp only [he] at h2
          cases h2
        · trivial
  all_goals trivial

theorem safe_matchType (h : Heap) : ∀ (n : Nat) (s : XSeq) (x : XNode), x.depth < n → Safe tame Any (matchSequenceTypeF h n s x)
  | 0, _, _, hn => absurd hn (by omega)
  | n + 1, s, x, hn => by
    rw [matchSequenceTypeF]
    split
    · exact fair_occur
    rename_i hx
    have hx' : x ≠ .nil := by rintro rfl; exact hx (by decide)
    split
    · trivial
    have ho := safe_occurrence (tame := tame) s.length x.name
    have hl := left_depth x hx'
    have hm : ∀ (v : XSeq) (y : XNode), y.depth ≤ x.left.depth → Safe tame Any (matchSequenceTypeF h n v y) := fun v y hy =>
      safe_matchType h n v y (by omega)
    have hmap : ∀ (e : List (XItem × XSeq)) (key : Str) (y : XNode), y.depth ≤ x.left.depth →
        Safe tame Any (matchMapEntries h (matchSequenceTypeF h n) e key y) := by
      intro e key y hy
      refine safe_allE _ fun k _ => ?_
      split
      · split
        · exact hm _ _ hy
        · trivial
      · trivial
    split
    · rename_i e he
      rw [he] at ho
      exact ho
    · trivial
    · unfold matchItems
      split
      all_goals first
        | trivial
        | exact fair_occur
        | skip
      · refine safe_allE _ fun i _ => ?_
        have hsig : ∀ y ∈ signatureOf x.left, y.depth ≤ x.left.depth := by
          intro y hy
          obtain ⟨z, hz, rfl⟩ := List.mem_map.1 hy
          exact Nat.le_trans (left_le z) (Nat.le_trans (chain_depth z hz) (right_le _))
        unfold matchTypedFunction
        split
        · rename_i g _
          have := safe_signature (tame := tame) g
          split
          · rename_i e he
            rw [he] at this
            exact this
          · trivial
          · trivial
        · split
          · rename_i r p hs
            exact hmap _ _ _ (hsig r (by rw [hs]; simp))
          · trivial
        · split
          · rename_i r p hs
            have := hm [.integer 1] p (hsig p (by rw [hs]; simp))
            split
            · exact safe_allE _ fun v _ => hm v r (hsig r (by rw [hs]; simp))
            · trivial
            · rename_i e he
              rw [he] at this
              exact this
          · trivial
        · trivial
      · refine safe_allE _ fun i _ => ?_
        unfold matchArrayItem
        split
        · exact safe_allE _ fun v _ => hm v _ (left_le _)
        · trivial
      · refine safe_allE _ fun i _ => ?_
        unfold matchMapItem
        split
        · exact hmap _ _ _ (right_le _)
        · trivial

theorem safe_sequenceType (h : Heap) (s : XSeq) (x : XNode) : Safe tame Any (matchSequenceType h s x) :=
  safe_matchType h _ s x (by omega)

/-! ## Evaluations -/

/-- All variables hold clean values, and values that their names may have. -/
def CleanEnv (P : XNode → Prop) (N : Str → XSeq → Prop) (env : Env) : Prop := ∀ b ∈ env.vars, Clean P b.2 ∧ N b.1 b.2

section
variable {N : Str → XSeq → Prop}

/-- The evaluation, begun with clean variables, gives a value with the property and leaves the variables clean, or fails with a fair error. -/
def SafeE (tame : Prop) (P : XNode → Prop) (N : Str → XSeq → Prop) {α : Type} (p : α → Prop) (m : E α) : Prop :=
  ∀ env, CleanEnv P N env → Safe tame (fun r : α × Env => p r.1 ∧ CleanEnv P N r.2) (m env)

theorem SafeE.pure {α : Type} {p : α → Prop} {a : α} (h : p a) : SafeE tame P N p (pure a : E α) := fun _ he => ⟨h, he⟩

theorem SafeE.lift {α : Type} {p : α → Prop} {r : Except XErr α} (h : Safe tame p r) : SafeE tame P N p (liftE r) := by
  intro env he
  cases r with
  | ok a => exact ⟨h, he⟩
  | error e => exact h

theorem SafeE.bind {α β : Type} {p : α → Prop} {q : β → Prop} {m : E α} {f : α → E β} (h : SafeE tame P N p m)
    (hf : ∀ a, p a → SafeE tame P N q (f a)) : SafeE tame P N q (m >>= f) := by
  intro env he
  have := h env he
  rw [E.bind_run]
  cases hm : m env with
  | ok r => rw [hm] at this; exact hf r.1 this.1 r.2 this.2
  | error e => rw [hm] at this; exact this

theorem SafeE.set {n : Str} {v : XSeq} (hv : Clean P v) (hN : N n v) : SafeE tame P N Any (modifyE fun env => env.setVar n v) := by
  intro env he
  refine ⟨trivial, fun b hb => ?_⟩
  rcases List.mem_cons.1 hb with rfl | hb
  · exact ⟨hv, hN⟩
  · exact he b hb

theorem removeFirst_sub (n : Str) : ∀ (l : List (Str × XSeq)), ∀ b ∈ removeFirst n l, b ∈ l
  | [], b, h => by simp [removeFirst] at h
  | e :: l, b, h => by
    rw [removeFirst] at h
    split at h
    · exact List.mem_cons_of_mem _ h
    · rcases List.mem_cons.1 h with rfl | h
      · simp
      · exact List.mem_cons_of_mem _ (removeFirst_sub n l b h)

theorem clean_remove {env : Env} (he : CleanEnv P N env) (n : Str) : CleanEnv P N (env.removeVar n) :=
  fun b hb => he b (removeFirst_sub n _ b hb)

theorem SafeE.remove (n : Str) : SafeE tame P N Any (modifyE fun env => env.removeVar n) := fun _ he => ⟨trivial, clean_remove he n⟩

theorem SafeE.removes (l : List Str) : SafeE tame P N Any (modifyE fun env => l.foldr (fun n e => e.removeVar n) env) := by
  intro env he
  refine ⟨trivial, ?_⟩
  induction l with
  | nil => exact he
  | cons n l ih => exact clean_remove ih n

theorem SafeE.concatE {f : XItem → E XSeq} (s : XSeq) (hs : Clean P s) (hf : ∀ x, CleanItem P x → SafeE tame P N (Clean P) (f x)) :
    SafeE tame P N (Clean P) (Amxml.concatE f s) := by
  induction s with
  | nil => exact SafeE.pure clean_nil
  | cons x l ih =>
    have hs' : CleanItem P x ∧ Clean P l := by simpa [Clean] using hs
    exact SafeE.bind (hf x hs'.1) fun v hv => SafeE.bind (ih hs'.2) fun r hr => SafeE.pure (clean_append hv hr)

theorem SafeE.listE {α β : Type} {p : β → Prop} {f : α → E β} (l : List α) (hf : ∀ a ∈ l, SafeE tame P N p (f a)) :
    SafeE tame P N (fun bs : List β => (∀ b ∈ bs, p b) ∧ bs.length = l.length) (Amxml.listE f l) := by
  induction l with
  | nil => exact SafeE.pure ⟨nofun, rfl⟩
  | cons x l ih =>
    refine SafeE.bind (hf x (by simp)) fun v hv => SafeE.bind (ih fun a ha => hf a (by simp [ha])) fun r hr => SafeE.pure ⟨?_, by simp [hr.2]⟩
    intro b hb
    rcases List.mem_cons.1 hb with rfl | hb
    · exact hv
    · exact hr.1 b hb

theorem SafeE.pathLoop {f : XItem → E XSeq} (hf : ∀ x, CleanItem P x → SafeE tame P N (Clean P) (f x)) : ∀ (s : XSeq) (a b : Bool), Clean P s →
    SafeE tame P N (fun r : Bool × XSeq => Clean P r.2) (Amxml.pathLoop f a b s)
  | [], a, b, _ => SafeE.pure clean_nil
  | x :: l, a, b, hs => by
    have hs' : CleanItem P x ∧ Clean P l := by simpa [Clean] using hs
    rw [Amxml.pathLoop]
    refine SafeE.bind (hf x hs'.1) fun v hv => ?_
    split
    · exact SafeE.pathLoop hf l a b hs'.2
    · dsimp only
      split
      · exact SafeE.lift fair_type
      · exact SafeE.bind (SafeE.pathLoop hf l _ _ hs'.2) fun r hr => SafeE.pure (clean_append hv hr)

theorem SafeE.pathOver (h : Heap) {f : XItem → E XSeq} (hf : ∀ x, CleanItem P x → SafeE tame P N (Clean P) (f x)) {s : XSeq} (hs : Clean P s) :
    SafeE tame P N (Clean P) (Amxml.pathOver h f s) := by
  unfold Amxml.pathOver
  split
  · refine SafeE.bind (SafeE.pathLoop hf s _ _ hs) fun r hr => ?_
    split
    · exact SafeE.pure (clean_nodes _)
    · exact SafeE.pure hr
  · exact SafeE.lift fair_type

theorem SafeE.atPosition {ev : Evaluator} {x : XNode} (hx : ∀ c, Clean P c → SafeE tame P N (Clean P) (ev c x)) (i n : Nat) {a : XItem} (ha : CleanItem P a) :
    SafeE tame P N (Clean P) (Amxml.atPosition ev x i n a) := by
  intro env he
  have := hx [a] (clean_one.2 ha) { env with position := i, last := n } he
  unfold Amxml.atPosition
  split
  · rename_i v env' hv
    rw [hv] at this
    exact this
  · rename_i e hv
    rw [hv] at this
    exact this

theorem SafeE.filterLoop {ev : Evaluator} {x : XNode} (hx : ∀ c, Clean P c → SafeE tame P N (Clean P) (ev c x)) (rev : Bool) (n : Nat) :
    ∀ (i : Nat) (s : XSeq), Clean P s → SafeE tame P N (Clean P) (Amxml.filterLoop ev x rev n i s)
  | _, [], _ => SafeE.pure clean_nil
  | i, a :: l, hs => by
    have hs' : CleanItem P a ∧ Clean P l := by simpa [Clean] using hs
    rw [Amxml.filterLoop]
    refine SafeE.bind (SafeE.atPosition hx _ _ hs'.1) fun v _ => SafeE.bind (SafeE.filterLoop hx rev n (i + 1) l hs'.2) fun r hr => SafeE.pure ?_
    generalize keeps _ v = b
    cases b
    · exact hr
    · exact clean_append (clean_one.2 hs'.1) hr

theorem SafeE.filterByPredicate {ev : Evaluator} {x : XNode} (hx : x.ty ≠ .nil → ∀ c, Clean P c → SafeE tame P N (Clean P) (ev c x)) (rev : Bool) {s : XSeq}
    (hs : Clean P s) : SafeE tame P N (Clean P) (Amxml.filterByPredicate ev s x rev) := by
  unfold Amxml.filterByPredicate
  split
  · exact SafeE.lift fair_occur
  · rename_i hn
    exact SafeE.filterLoop (hx (by simpa [XNode.isNil] using hn)) rev _ 0 s hs

theorem SafeE.filterByPredicates {ev : Evaluator} : ∀ (ps : List XNode) (s : XSeq),
    (∀ p ∈ ps, p.left.ty ≠ .nil → ∀ c, Clean P c → SafeE tame P N (Clean P) (ev c p.left)) → Clean P s →
    SafeE tame P N (Clean P) (Amxml.filterByPredicates ev ps s)
  | [], s, _, hs => SafeE.pure hs
  | p :: ps, s, hp, hs => by
    rw [Amxml.filterByPredicates]
    split
    · exact SafeE.bind (SafeE.filterByPredicate (hp p (by simp)) _ hs) fun r hr => SafeE.filterByPredicates ps r (fun q hq => hp q (by simp [hq])) hr
    · exact SafeE.bind (SafeE.filterByPredicate (hp p (by simp)) _ hs) fun r hr => SafeE.filterByPredicates ps r (fun q hq => hp q (by simp [hq])) hr
    · exact SafeE.lift fair_occur

theorem SafeE.forLoop {n : Str} {b : E XSeq} (hN : ∀ v, N n v) (hb : SafeE tame P N (Clean P) b) : ∀ (s : XSeq), Clean P s → SafeE tame P N (Clean P) (Amxml.forLoop n b s)
  | [], _ => SafeE.pure clean_nil
  | x :: l, hs => by
    have hs' : CleanItem P x ∧ Clean P l := by simpa [Clean] using hs
    rw [Amxml.forLoop]
    exact SafeE.bind (SafeE.set (clean_one.2 hs'.1) (hN _)) fun _ _ => SafeE.bind hb fun v hv => SafeE.bind (SafeE.remove n) fun _ _ =>
      SafeE.bind (SafeE.forLoop hN hb l hs'.2) fun r hr => SafeE.pure (clean_append hv hr)

theorem SafeE.quantLoop {n : Str} {stop : Bool} {b : E XSeq} (hN : ∀ v, N n v) (hb : SafeE tame P N (Clean P) b) : ∀ (s : XSeq), Clean P s →
    SafeE tame P N (Clean P) (Amxml.quantLoop n stop b s)
  | [], _ => SafeE.pure (clean_bool _)
  | x :: l, hs => by
    have hs' : CleanItem P x ∧ Clean P l := by simpa [Clean] using hs
    rw [Amxml.quantLoop]
    refine SafeE.bind (SafeE.set (clean_one.2 hs'.1) (hN _)) fun _ _ => SafeE.bind hb fun v hv => SafeE.bind (SafeE.lift (safe_ebv v)) fun c _ => ?_
    split
    · exact SafeE.pure (clean_bool _)
    · exact SafeE.bind (SafeE.remove n) fun _ _ => SafeE.quantLoop hN hb l hs'.2

theorem SafeE.bindParams (h : Heap) : ∀ (ps : List (Str × XNode)) (args : List XSeq), (∀ p ∈ ps, ∀ v, matchSequenceType h v p.2 = .ok true → N p.1 v) → (∀ a ∈ args, Clean P a) →
    (tame → args.length ≤ ps.length) →
    SafeE tame P N Any (Amxml.bindParams h ps args)
  | _, [], _, _, _ => by unfold Amxml.bindParams; exact SafeE.pure trivial
  | [], v :: vs, _, _, hl => SafeE.lift (fair_panic fun t => by have := hl t; simp at this)
  | (n, t) :: ps, v :: vs, hN, ha, hl => by
    rw [Amxml.bindParams]
    refine SafeE.bind (p := fun b => matchSequenceType h v t = .ok b) (SafeE.lift ?_) fun b hb => ?_
    · have := safe_sequenceType (tame := tame) h v t
      cases e : matchSequenceType h v t with
      | ok b => rfl
      | error e' => rw [e] at this; exact this
    split
    · rename_i hbt
      subst hbt
      exact SafeE.bind (SafeE.set (ha v (by simp)) (hN (n, t) (by simp) v hb)) fun _ _ => SafeE.bindParams h ps vs (fun p hp => hN p (by simp [hp])) (fun a hm => ha a (by simp [hm])) fun t => by
        have := hl t; simpa using this
    · exact SafeE.lift fair_type

theorem SafeE.callInline (h : Heap) {ev : Evaluator} {f : XNode} {args : List XSeq} {c : XSeq} (hf : SafeE tame P N (Clean P) (ev c f.left))
    (hN : ∀ p ∈ f.right.right.chain, ∀ v, matchSequenceType h v p.left = .ok true → N p.name v)
    (ha : ∀ a ∈ args, Clean P a) (hl : tame → args.length ≤ f.right.right.chain.length) : SafeE tame P N (Clean P) (Amxml.callInline h ev f args c) :=
  SafeE.bind (SafeE.bindParams h _ args (by simpa [paramsOf] using hN) ha (by simpa [paramsOf] using hl)) fun _ _ => SafeE.bind hf fun v hv => SafeE.bind (SafeE.removes _) fun _ _ =>
    SafeE.pure hv

theorem SafeE.partialArgs {ev : Evaluator} {c : XSeq} : ∀ (l : List XNode) (args : List XSeq),
    (∀ a ∈ l, a.ty = .argumentTop → SafeE tame P N (Clean P) (ev c a.left)) → (∀ a ∈ args, Clean P a) →
    SafeE tame P N (fun as : List XSeq => ∀ a ∈ as, Clean P a) (Amxml.partialArgs ev c l args)
  | [], _, _, _ => SafeE.pure nofun
  | a :: l, args, hl, ha => by
    have hcons : ∀ {v : XSeq} {r : List XSeq}, Clean P v → (∀ a ∈ r, Clean P a) → ∀ a ∈ v :: r, Clean P a := by
      intro v r hv hr b hb
      rcases List.mem_cons.1 hb with rfl | hb
      · exact hv
      · exact hr b hb
    rw [Amxml.partialArgs.eq_def]
    dsimp only
    split
    · rename_i ht
      exact SafeE.bind (hl a (by simp) ht) fun v hv => SafeE.bind (SafeE.partialArgs l args (fun b hb => hl b (by simp [hb])) ha) fun r hr =>
        SafeE.pure (hcons hv hr)
    · split
      · exact SafeE.lift fair_dynamic
      · rename_i v args'
        exact SafeE.bind (SafeE.partialArgs l args' (fun b hb => hl b (by simp [hb])) fun a hm => ha a (by simp [hm])) fun r hr =>
          SafeE.pure (hcons (ha v (by simp)) hr)
    · exact SafeE.lift fair_occur

/-- A function of the library that calls no function it is given, or is given only harmless ones. -/
theorem SafeE.evaluateFunction (h : Heap) {cl : XNode → List XSeq → XSeq → E XSeq} {name : Str} {args : List XSeq} {c : XSeq}
    (hcl : name ∉ callers ∨ args.length ≠ 2 ∨ ∀ f x, P f → arg args 1 = [.fn f] → CleanItem P x → SafeE tame P N (Clean P) (cl f [[x]] c))
    (ht : tame → name ∉ overflowingFunctions) (ha : ∀ a ∈ args, Clean P a) (hc : Clean P c) :
    SafeE tame P N (Clean P) (Amxml.evaluateFunction h cl name args c) := by
  unfold Amxml.evaluateFunction
  have hctx : ∀ f, findCtxFn name args.length = some f → f = .forEach ∨ f = .filter → name ∈ callers ∧ args.length = 2 := by
    intro f hf hff
    unfold findCtxFn at hf
    cases e : funcContextTbl.find? fun e => e.1 == args.length && e.2.1 == name with
    | none => rw [e] at hf; cases hf
    | some b =>
      rw [e] at hf
      cases hf
      have h1 := List.mem_of_find?_eq_some e
      have h2 := List.find?_some e
      simp only [Bool.and_eq_true, beq_iff_eq] at h2
      rw [← h2.2, ← h2.1]
      revert hff
      exact (show ∀ b ∈ funcContextTbl, (b.2.2 = .forEach ∨ b.2.2 = .filter) → b.2.1 ∈ callers ∧ b.1 = 2 by decide) b h1
  split
  · rename_i f hf
    have hcl' : f = .forEach ∨ f = .filter → ∀ f x, P f → arg args 1 = [.fn f] → CleanItem P x → SafeE tame P N (Clean P) (cl f [[x]] c) := by
      intro hff
      rcases hcl with h1 | h1 | h1
      · exact absurd (hctx f hf hff).1 h1
      · exact absurd (hctx f hf hff).2 h1
      · exact h1
    cases f with
    | nilled0 => exact SafeE.lift (safe_nilled h c)
    | string0 => exact SafeE.lift (safe_string h hc)
    | data0 => exact SafeE.lift (r := .ok _) (show Clean P _ from clean_atomize h hc)
    | number0 => exact SafeE.lift (safe_number h c)
    | stringLength0 => exact SafeE.lift (safe_length c)
    | normalizeSpace0 => exact SafeE.lift (safe_normalize c)
    | name0 => exact SafeE.lift (safe_nodeString _ c)
    | localName0 => exact SafeE.lift (safe_nodeString _ c)
    | namespaceUri0 => exact SafeE.lift (safe_nodeString _ c)
    | lang1 => exact SafeE.lift (safe_lang h _ _)
    | root0 => exact SafeE.lift (safe_root h c)
    | position => exact fun env he => ⟨clean_int _, he⟩
    | last => exact fun env he => ⟨clean_int _, he⟩
    | forEach =>
      exact SafeE.bind (SafeE.lift (safe_fn1' (clean_arg ha 1))) fun f hf => SafeE.concatE _ (clean_arg ha 0) fun x hx => hcl' (Or.inl rfl) f x hf.1 hf.2 hx
    | filter =>
      refine SafeE.bind (SafeE.lift (safe_fn1' (clean_arg ha 1))) fun f hf => SafeE.concatE _ (clean_arg ha 0) fun x hx =>
        SafeE.bind (hcl' (Or.inr rfl) f x hf.1 hf.2 hx) fun v _ => SafeE.bind (SafeE.lift (safe_ebv v)) fun b _ => SafeE.pure ?_
      split
      · exact clean_one.2 hx
      · exact clean_nil
  · split
    · rename_i f hf
      unfold findPureFn at hf
      cases e : funcTbl.find? fun e => (e.1 == some args.length || e.1 == none) && e.2.1 == name with
      | none => rw [e] at hf; cases hf
      | some b =>
        rw [e] at hf
        cases hf
        have h1 := List.mem_of_find?_eq_some e
        have h2 := List.find?_some e
        simp only [Bool.and_eq_true, beq_iff_eq] at h2
        exact SafeE.lift (safe_table b h1 (by rw [h2.2]; exact ht) h args ha)
    · exact SafeE.lift fair_occur

end

end

end Safety
end Amxml
