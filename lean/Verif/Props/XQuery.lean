import Verif.Lemmas.Paths
import Verif.Props.XStep
import Verif.Props.XNodeFn
import Verif.Props.XApi
import Verif.Props.XOper

/-!
# C88: location paths, from the text to the nodes
-/

namespace Amxml
open Spec
open Classical

theorem dataIs_iff (h : Heap) (j : NodeId) (v : Str) : DataIs h j v ↔ typedValue h j = v := by
  constructor
  · intro hd
    have := hd.unique (node_text h j).2
    cases this; rfl
  · rintro rfl
    exact (node_text h j).2

theorem selectFrom_filter {α : Type} {T : Nat → Bool} {P : α → Prop} (s : List α) : ∀ i, (∀ (k : Nat) x, s[k]? = some x → T (i + k) = decide (P x)) →
    selectFrom T i s = s.filter fun x => P x := by
  induction s with
  | nil => intro i _; rfl
  | cons x s ih =>
    intro i hT
    have h0 := hT 0 x rfl
    rw [Nat.add_zero] at h0
    have h1 := ih (i + 1) fun k y hy => by rw [show i + 1 + k = i + (k + 1) by omega]; exact hT (k + 1) y (by simpa using hy)
    unfold selectFrom
    rw [h0, h1, List.filter_cons]

section
variable {h : Heap} (hr : Reach h) {r : NodeId} {F : Forest NodeId} (hd : DocTree h r F) (hp : PlainAttrs h r F)

/-- The nodes of the document with a property, in document order. -/
noncomputable def those (h : Heap) (r : NodeId) (F : Forest NodeId) (P : NodeId → Prop) : List NodeId := (docIds h (.cons r F .nil)).filter fun j => P j

theorem mem_those {P : NodeId → Prop} {j : NodeId} : j ∈ those h r F P ↔ j ∈ docIds h (.cons r F .nil) ∧ P j := by
  unfold those; rw [List.mem_filter, decide_eq_true_iff]

theorem those_sublist {P : NodeId → Prop} : (those h r F P).Sublist (docIds h (.cons r F .nil)) := List.filter_sublist

include hd in
theorem those_eq {P : NodeId → Prop} {l : List NodeId} (hs : l.Sublist (docIds h (.cons r F .nil))) (hm : ∀ j, j ∈ docIds h (.cons r F .nil) → (j ∈ l ↔ P j)) :
    l = those h r F P :=
  sublist_ext hd.nodup hs those_sublist fun j => by
    rw [mem_those]
    exact ⟨fun hj => ⟨hs.subset hj, (hm j (hs.subset hj)).1 hj⟩, fun hj => (hm j hj.1).2 hj.2⟩

theorem core_axis (c : Core) (hc : c.Ok) : c.axis.1 ∈ axes ∧ c.axis.1 ≠ .axisRoot := by
  cases c with
  | child T => exact (by decide : XNodeType.axisChild ∈ axes ∧ XNodeType.axisChild ≠ .axisRoot)
  | attr T => exact (by decide : XNodeType.axisAttribute ∈ axes ∧ XNodeType.axisAttribute ≠ .axisRoot)
  | along w T =>
    have h1 := (axis_found hc.1 T).1
    have : ∀ e ∈ axisNames, e.2.1 ∈ axes ∧ e.2.1 ≠ .axisRoot := by decide
    exact this _ h1

include hr hd hp in
theorem core_value {c : Core} (hc : c.Ok) {i : NodeId} (hi : i ∈ docIds h (.cons r F .nil)) (env : Env) :
    Value h [.node i] (c.tree .nil) env (XSeq.ofNodes (those h r F fun j => c.Reaches h r F i j)) := by
  obtain ⟨h1, h2⟩ := core_axis c hc
  have hT : c.test.toTest.Proper := by
    cases c with
    | child T => exact test_proper hc
    | attr T => exact test_proper hc
    | along w T => exact test_proper hc.2
  obtain ⟨l, hv, hs, -, hm⟩ := C76_step_partial h hr r F hd hp i hi c.axis.1 h1 c.test.toTest hT env
  have : l = those h r F fun j => c.Reaches h r F i j := by
    refine those_eq hd hs fun j _ => ?_
    rw [hm]
    exact ⟨fun ⟨a, b⟩ => ⟨a, b h2⟩, fun ⟨a, b⟩ => ⟨a, fun _ => b⟩⟩
  rw [← this]
  exact hv

theorem holds_strings (a b : Str) : (Holds .eq (.string a) (.string b) ∨ NaNCase .eq (.string a) (.string b)) ↔ a = b := by
  constructor
  · rintro (h | h)
    · exact h
    · exact h.elim
  · exact fun h => .inl h

theorem eq_value {c : XSeq} {x : XNode} {env : Env} {l : List NodeId} (hx : Value h c x env (XSeq.ofNodes l)) (v : Str) :
    Value h c (.node .operatorGeneralEQ (S "=") x (tip .stringLiteral v)) env [.boolean (decide (∃ k ∈ l, DataIs h k v))] := by
  obtain ⟨b, hb, hi⟩ := (C37_expression h .eq (XSeq.ofNodes l) [.string v]).1
  have hs : Value h c (tip .stringLiteral v) env [.string v] := by
    unfold Value; rw [evaluate_eq]; rfl
  have := hb c env (S "=") x (tip .stringLiteral v) hx hs
  have e : b = decide (∃ k ∈ l, DataIs h k v) := by
    rw [Bool.eq_iff_iff, hi, decide_eq_true_iff]
    unfold XSeq.ofNodes
    constructor
    · rintro ⟨y, hy, z, hz, hh⟩
      obtain ⟨k, hk, rfl⟩ := List.mem_map.1 hy
      obtain rfl : z = .string v := by simpa using hz
      exact ⟨k, hk, (dataIs_iff h k v).2 ((holds_strings _ _).1 hh)⟩
    · rintro ⟨k, hk, hv⟩
      exact ⟨_, List.mem_map.2 ⟨k, hk, rfl⟩, .string v, by simp, (holds_strings _ _).2 ((dataIs_iff h k v).1 hv)⟩
  rw [← e]
  exact this

theorem self_value (i : NodeId) (env : Env) : Value h [.node i] (tip .contextItem (S ".")) env (XSeq.ofNodes [i]) := by
  unfold Value; rw [evaluate_eq]; rfl

theorem nat_literal {n : Nat} (hn : n < 2 ^ 63) (c : XSeq) (env : Env) : Value h c (tip .integerLiteral (F64.natStr n)) env [.integer n] := by
  have := C35_literal h c env (F64.natStr n) .nil .nil
  obtain ⟨d1, d2, d3⟩ := natStr_digits n
  have hi : IntText (F64.natStr n) n := by
    have := IntText.plain d2 d1
    rwa [d3] at this
  rw [atoi_of (.self _) hi (by unfold isI64 i64Min i64Max; omega)] at this
  exact this

theorem ofNodes_length (l : List NodeId) : (XSeq.ofNodes l).length = l.length := by simp [XSeq.ofNodes]

/-- What a predicate keeps whose value is a number. -/
theorem number_filter (rev : Bool) (l : List NodeId) (env : Env) (n : Nat) (x : XNode)
    (hv : ∀ i position, Value h [.node i] x (atPos env position l.length) [.integer n]) :
    ∃ T, Filter h rev env x (XSeq.ofNodes l) T ∧ select T (XSeq.ofNodes l) = nth (XSeq.ofNodes (if rev then l.reverse else l)) n := by
  have revm : (if rev then (XSeq.ofNodes l).reverse else XSeq.ofNodes l) = XSeq.ofNodes (if rev then l.reverse else l) := by
    cases rev <;> simp [XSeq.ofNodes]
  refine ⟨fun k => decide ((n : Int) = (along rev (XSeq.ofNodes l).length k : Int)), ?_, by rw [select_nth, revm]⟩
  intro k y hy
  unfold XSeq.ofNodes at hy
  rw [List.getElem?_map] at hy
  obtain ⟨i, -, rfl⟩ := Option.map_eq_some_iff.1 hy
  rw [ofNodes_length]
  exact ⟨_, hv i _, .integer _, rfl⟩

/-- What a predicate keeps whose value is a boolean. -/
theorem bool_filter (rev : Bool) (l : List NodeId) (env : Env) (x : XNode) (P : NodeId → Prop)
    (hv : ∀ i ∈ l, ∀ env, Value h [.node i] x env [.boolean (decide (P i))]) :
    ∃ T, Filter h rev env x (XSeq.ofNodes l) T ∧ select T (XSeq.ofNodes l) = XSeq.ofNodes (l.filter fun i => P i) := by
  refine ⟨fun k => decide (∃ i, l[k - 1]? = some i ∧ P i), ?_, ?_⟩
  · intro k y hy
    unfold XSeq.ofNodes at hy
    rw [List.getElem?_map] at hy
    obtain ⟨i, hi, rfl⟩ := Option.map_eq_some_iff.1 hy
    refine ⟨_, hv i (List.mem_of_getElem? hi) _, .boolean _, ?_⟩
    have : decide (∃ i, l[k + 1 - 1]? = some i ∧ P i) = decide (P i) := by
      rw [Nat.add_sub_cancel, hi]
      simp
    show PredTruth _ _ (decide (∃ i, l[k + 1 - 1]? = some i ∧ P i))
    rw [this]
    rfl
  · unfold select
    have := selectFrom_filter (T := fun k => decide (∃ i, l[k - 1]? = some i ∧ P i)) (P := fun x : XItem => ∃ i, x = .node i ∧ P i) (XSeq.ofNodes l) 1 (by
      intro k y hy
      unfold XSeq.ofNodes at hy
      rw [List.getElem?_map] at hy
      obtain ⟨i, hi, rfl⟩ := Option.map_eq_some_iff.1 hy
      rw [show 1 + k - 1 = k by omega, hi]
      simp)
    rw [this]
    unfold XSeq.ofNodes
    rw [List.filter_map]
    congr 1
    apply List.filter_congr
    intro i _
    simp

/-- What `[n]` keeps. -/
theorem nth_filter (rev : Bool) (l : List NodeId) (env : Env) {n : Nat} (hn : n < 2 ^ 63) :
    ∃ T, Filter h rev env (tip .integerLiteral (F64.natStr n)) (XSeq.ofNodes l) T ∧
      select T (XSeq.ofNodes l) = XSeq.ofNodes (match n with | 0 => [] | n + 1 => ((if rev then l.reverse else l)[n]?).toList) := by
  obtain ⟨T, h1, h2⟩ := number_filter rev l env n _ (fun i position => nat_literal hn _ _)
  refine ⟨T, h1, h2.trans ?_⟩
  cases n with
  | zero => rfl
  | succ n =>
    show (XSeq.ofNodes (if rev then l.reverse else l))[n]?.toList = XSeq.ofNodes ((if rev then l.reverse else l)[n]?).toList
    generalize (if rev then l.reverse else l) = m
    unfold XSeq.ofNodes
    rw [List.getElem?_map]
    cases m[n]? <;> rfl

/-- What `[last()]` keeps. -/
theorem last_filter (rev : Bool) (l : List NodeId) (env : Env) :
    ∃ T, Filter h rev env (.node .functionCall (S "fn:last") .nil .nil) (XSeq.ofNodes l) T ∧
      select T (XSeq.ofNodes l) = XSeq.ofNodes (if rev then l.head? else l.getLast?).toList := by
  obtain ⟨T, h1, h2⟩ := number_filter rev l env l.length (.node .functionCall (S "fn:last") .nil .nil) (fun i position => (C35_position_last h _ env .nil position l.length).2)
  refine ⟨T, h1, h2.trans ?_⟩
  have key : ∀ m : List NodeId, nth (XSeq.ofNodes m) m.length = XSeq.ofNodes m.getLast?.toList := by
    intro m
    cases hm : m.length with
    | zero => rw [List.length_eq_zero_iff.1 hm]; rfl
    | succ k =>
      show (XSeq.ofNodes m)[k]?.toList = _
      unfold XSeq.ofNodes
      rw [List.getElem?_map, List.getLast?_eq_getElem?, hm, Nat.add_sub_cancel]
      cases m[k]? <;> rfl
  cases rev with
  | true =>
    have := key l.reverse
    rw [List.length_reverse, List.getLast?_reverse] at this
    exact this
  | false => exact key l

include hr hd hp in
/-- What a predicate keeps. -/
theorem pred_filter {p : Pred} (hp' : p.Ok) (rev : Bool) {l : List NodeId} (hl : ∀ i ∈ l, i ∈ docIds h (.cons r F .nil)) (env : Env) :
    ∃ T, Filter h rev env p.tree (XSeq.ofNodes l) T ∧ select T (XSeq.ofNodes l) = XSeq.ofNodes (p.keep h r F rev l) := by
  cases p with
  | nth n =>
    obtain ⟨T, h1, h2⟩ := nth_filter (h := h) rev l env hp'
    refine ⟨T, h1, h2.trans ?_⟩
    cases n <;> rfl
  | last => exact last_filter rev l env
  | eq c v =>
    obtain ⟨T, h1, h2⟩ := bool_filter rev l env (.node .operatorGeneralEQ (S "=") (c.tree .nil) (tip .stringLiteral v)) (fun j => ∃ k, c.Reaches h r F j k ∧ DataIs h k v) (by
      intro i hi env
      have := eq_value (core_value hr hd hp hp'.1 (hl i hi) env) v
      have e : decide (∃ k ∈ those h r F fun j => c.Reaches h r F i j, DataIs h k v) = decide (∃ k, c.Reaches h r F i k ∧ DataIs h k v) := by
        apply decide_eq_decide.2
        constructor
        · rintro ⟨k, hk, hv⟩; exact ⟨k, (mem_those.1 hk).2, hv⟩
        · rintro ⟨k, hk, hv⟩
          refine ⟨k, mem_those.2 ⟨?_, hk⟩, hv⟩
          obtain ⟨a1, a2⟩ := core_axis c hp'.1
          obtain ⟨l', -, hs, -, hm⟩ := C76_step_partial h hr r F hd hp i (hl i hi) c.axis.1 a1 .dots trivial env
          exact hs.subset ((hm k).2 ⟨hk.1, fun _ => trivial⟩)
      rw [e] at this
      exact this)
    exact ⟨T, h1, h2⟩
  | selfEq v =>
    obtain ⟨T, h1, h2⟩ := bool_filter rev l env (.node .operatorGeneralEQ (S "=") (tip .contextItem (S ".")) (tip .stringLiteral v)) (fun j => DataIs h j v) (by
      intro i hi env
      have := eq_value (self_value (h := h) i env) v
      simpa using this)
    exact ⟨T, h1, h2⟩

theorem keep_sublist (p : Pred) (rev : Bool) (l : List NodeId) : (p.keep h r F rev l).Sublist l := by
  have opt : ∀ (o : Option NodeId), (∀ x ∈ o, x ∈ l) → o.toList.Sublist l := by
    intro o ho
    cases o with
    | none => exact List.nil_sublist _
    | some x => exact List.singleton_sublist.2 (ho x rfl)
  cases p with
  | nth n =>
    cases n with
    | zero => exact List.nil_sublist _
    | succ n =>
      refine opt _ fun x hx => ?_
      have := List.mem_of_getElem? hx
      cases rev with
      | true => exact List.mem_reverse.1 this
      | false => exact this
  | last =>
    refine opt _ fun x hx => ?_
    cases rev with
    | true => exact List.mem_of_mem_head? hx
    | false => exact List.mem_of_mem_getLast? hx
  | eq c v => exact List.filter_sublist
  | selfEq v => exact List.filter_sublist

theorem keeps_sublist (ps : List Pred) (rev : Bool) (l : List NodeId) : (ps.foldl (fun l p => p.keep h r F rev l) l).Sublist l := by
  induction ps generalizing l with
  | nil => exact List.Sublist.refl _
  | cons p ps ih => exact (ih _).trans (keep_sublist p rev l)

include hr hd hp in
theorem preds_filter {ps : List Pred} (hps : ∀ p ∈ ps, p.Ok) (rev : Bool) (env : Env) : ∀ {l : List NodeId}, (∀ i ∈ l, i ∈ docIds h (.cons r F .nil)) →
    Filters h rev env (ps.map Pred.tree) (XSeq.ofNodes l) (XSeq.ofNodes (ps.foldl (fun l p => p.keep h r F rev l) l)) := by
  induction ps with
  | nil => intro l _; exact .nil
  | cons p ps ih =>
    intro l hl
    obtain ⟨T, h1, h2⟩ := pred_filter hr hd hp (hps p (by simp)) rev hl env
    have := ih (fun q hq => hps q (by simp [hq])) (l := p.keep h r F rev l) fun i hi => hl i ((keep_sublist p rev l).subset hi)
    rw [← h2] at this
    exact .cons h1 this

theorem pred_tree_nil (p : Pred) : p.tree.isNil = false := by cases p <;> rfl

include hr hd hp in
theorem seg_value {s : Seg} (hs : s.Ok) {i : NodeId} (hi : i ∈ docIds h (.cons r F .nil)) (env : Env) :
    Value h [.node i] s.tree env (XSeq.ofNodes (s.nodes h r F i)) ∧ (s.nodes h r F i).Sublist (docIds h (.cons r F .nil)) := by
  cases s with
  | step c ps =>
    have h1 := core_value hr hd hp hs.1 hi env
    have h2 := preds_filter hr hd hp hs.2 c.axis.2 env (l := those h r F fun j => c.Reaches h r F i j) fun j hj => those_sublist.subset hj
    refine ⟨C36_step_partial h c.axis.1 (core_axis c hs.1).1 _ _ c.axis.2 (ps.map Pred.tree) ?_ i env _ _ h1 h2, (keeps_sublist ps _ _).trans those_sublist⟩
    intro p hp
    obtain ⟨q, -, rfl⟩ := List.mem_map.1 hp
    exact pred_tree_nil q
  | parent =>
    obtain ⟨l, hv, hs', -, hm⟩ := C76_step_partial h hr r F hd hp i hi .axisParent (by decide) .dots trivial env
    have : l = (h.node i).parent.toList := by
      have hm' : ∀ j, j ∈ l ↔ (h.node i).parent = some j := fun j => (hm j).trans ⟨fun hh => hh.1, fun hh => ⟨hh, fun _ => trivial⟩⟩
      have hpar : (h.node i).parent.toList.Sublist (docIds h (.cons r F .nil)) := by
        cases e : (h.node i).parent with
        | none => exact List.nil_sublist _
        | some j => exact List.singleton_sublist.2 (hs'.subset ((hm' j).2 e))
      refine sublist_ext hd.nodup hs' hpar fun j => ?_
      rw [hm', Option.mem_toList]
    rw [this] at hv hs'
    exact ⟨hv, hs'⟩
  | self => exact ⟨self_value i env, List.singleton_sublist.2 hi⟩

theorem seg_tree_nil {s : Seg} (hs : s.Ok) : s.tree.isNil = false := by
  cases s with
  | step c ps =>
    have : ∀ t ∈ axes, (t == .nil) = false := by decide
    exact this _ (core_axis c hs.1).1
  | parent => rfl
  | self => rfl

theorem end_value {c : XSeq} {n : Str} {a : XNode} {env : Env} {v : XSeq} (ha : a.isNil = false) (hv : Value h c a env v) :
    Value h c (.node .operatorPath n a .nil) env v := by
  unfold Value at *
  rw [evaluate_eq]
  have hst : evalStep h (call h) (evaluate h) c (.node .operatorPath n a .nil) = evaluate h c a := by
    simp only [evalStep, XNode.ty, XNode.left, XNode.right, evalOrEmpty, ha, Bool.false_eq_true, if_false]
    simp [XNode.isNil, XNode.ty]
  rw [hst, hv]

include hr hd in
/-- The value of `a/b`. -/
theorem slash_those {c : XSeq} {n : Str} {a b : XNode} {env : Env} {l : List NodeId} {P : NodeId → NodeId → Prop} (ha : Value h c a env (XSeq.ofNodes l))
    (hb : b.isNil = false) (hv : ∀ i ∈ l, Value h [.node i] b env (XSeq.ofNodes (those h r F (P i)))) :
    Value h c (.node .operatorPath n a b) env (XSeq.ofNodes (those h r F fun j => ∃ i ∈ l, P i j)) := by
  obtain ⟨m, h1, h2, h3⟩ := C32_path_members h hr r F hd c n a b hb env l (fun i => those h r F (P i)) ha hv fun i _ j hj => those_sublist.subset hj
  have : m = those h r F fun j => ∃ i ∈ l, P i j := by
    refine those_eq hd h2 fun j hj => ?_
    rw [h3]
    exact ⟨fun ⟨i, hi, hh⟩ => ⟨i, hi, (mem_those.1 hh).2⟩, fun ⟨i, hi, hh⟩ => ⟨i, hi, mem_those.2 ⟨hj, hh⟩⟩⟩
  rw [← this]
  exact h1

theorem between_doc {d : Bool} {i k : NodeId} (hi : i ∈ docIds h (.cons r F .nil)) (hk : Between h F d i k) : k ∈ docIds h (.cons r F .nil) := by
  rcases hk with rfl | ⟨-, hk, -⟩
  · exact hi
  · exact mem_docIds_of_mem (by simp [Forest.toList, hk])

include hr hd hp in
/-- The value of the step that `//` stands for. -/
theorem deep_value {i : NodeId} (hi : i ∈ docIds h (.cons r F .nil)) (env : Env) :
    Value h [.node i] dslash env (XSeq.ofNodes (those h r F (Between h F true i))) := by
  obtain ⟨l, hv, hs, -, hm⟩ := C76_step_partial h hr r F hd hp i hi .axisDescendantOrSelf (by decide) .dots trivial env
  have : l = those h r F (Between h F true i) := by
    refine those_eq hd hs fun j _ => ?_
    rw [hm]
    constructor
    · rintro ⟨rfl | hh, -⟩
      · exact .inl rfl
      · exact .inr ⟨rfl, hh⟩
    · rintro (rfl | ⟨-, hh⟩)
      · exact ⟨.inl rfl, fun _ => trivial⟩
      · exact ⟨.inr hh, fun _ => trivial⟩
  rw [← this]
  exact hv

theorem those_congr {P Q : NodeId → Prop} (hpq : ∀ j, j ∈ docIds h (.cons r F .nil) → (P j ↔ Q j)) : those h r F P = those h r F Q := by
  unfold those
  apply List.filter_congr
  intro j hj
  exact decide_eq_decide.2 (hpq j hj)

include hr hd hp in
/-- The value of what follows a step, from the node `i` that the step has led to. -/
theorem tail_value {q : Rel} (hq : q.Ok) : ∀ (d : Bool) {i : NodeId}, i ∈ docIds h (.cons r F .nil) → ∀ env,
    Value h [.node i] (q.tail d) env (XSeq.ofNodes (those h r F fun j => ∃ k, Between h F d i k ∧ q.Leads h r F k j)) := by
  have deep : ∀ {x : XNode} {P : NodeId → NodeId → Prop} {n : Str} {i : NodeId} {env : Env}, i ∈ docIds h (.cons r F .nil) → x.isNil = false →
      (∀ k ∈ docIds h (.cons r F .nil), Value h [.node k] x env (XSeq.ofNodes (those h r F (P k)))) →
      Value h [.node i] (.node .operatorPath n dslash x) env (XSeq.ofNodes (those h r F fun j => ∃ k, Between h F true i k ∧ P k j)) := by
    intro x P n i env hi hx hv
    have := slash_those hr hd (n := n) (deep_value hr hd hp hi env) hx (P := P) fun k hk => hv k (those_sublist.subset hk)
    rw [those_congr (Q := fun j => ∃ k, Between h F true i k ∧ P k j)] at this
    · exact this
    · intro j _
      constructor
      · rintro ⟨k, hk, hh⟩; exact ⟨k, (mem_those.1 hk).2, hh⟩
      · rintro ⟨k, hk, hh⟩; exact ⟨k, mem_those.2 ⟨between_doc hi hk, hk⟩, hh⟩
  have flat : ∀ (P : NodeId → NodeId → Prop) (i : NodeId), those h r F (P i) = those h r F fun j => ∃ k, Between h F false i k ∧ P k j := by
    intro P i
    refine those_congr fun j _ => ?_
    constructor
    · exact fun hh => ⟨i, .inl rfl, hh⟩
    · rintro ⟨k, rfl | ⟨hh, -⟩, hk⟩
      · exact hk
      · cases hh
  induction q with
  | one s =>
    have key : ∀ {n : Str} {i : NodeId}, i ∈ docIds h (.cons r F .nil) → ∀ env,
        Value h [.node i] (.node .operatorPath n s.tree .nil) env (XSeq.ofNodes (those h r F fun j => (Rel.one s).Leads h r F i j)) := by
      intro n i hi env
      obtain ⟨h1, h2⟩ := seg_value hr hd hp hq hi env
      rw [← those_eq hd h2 (P := fun j => (Rel.one s).Leads h r F i j) fun j _ => Iff.rfl]
      exact end_value (seg_tree_nil hq) h1
    intro d i hi env
    cases d with
    | true => exact deep hi rfl fun k hk => key hk env
    | false =>
      rw [← flat (fun i j => (Rel.one s).Leads h r F i j) i]
      exact key hi env
  | more s d' q ih =>
    have key : ∀ {n : Str} {i : NodeId}, i ∈ docIds h (.cons r F .nil) → ∀ env,
        Value h [.node i] (.node .operatorPath n s.tree (q.tail d')) env (XSeq.ofNodes (those h r F fun j => (Rel.more s d' q).Leads h r F i j)) := by
      intro n i hi env
      obtain ⟨h1, h2⟩ := seg_value hr hd hp hq.1 hi env
      refine slash_those hr hd h1 ?_ fun k hk => ih hq.2 d' (h2.subset hk) env
      cases q <;> cases d' <;> rfl
    intro d i hi env
    cases d with
    | true => exact deep hi rfl fun k hk => key hk env
    | false =>
      rw [← flat (fun i j => (Rel.more s d' q).Leads h r F i j) i]
      exact key hi env

include hr hd hp in
theorem rel_value {q : Rel} (hq : q.Ok) {i : NodeId} (hi : i ∈ docIds h (.cons r F .nil)) (env : Env) :
    Value h [.node i] q.tree env (XSeq.ofNodes (those h r F fun j => q.Leads h r F i j)) := by
  cases q with
  | one s =>
    obtain ⟨h1, h2⟩ := seg_value hr hd hp hq hi env
    rw [← those_eq hd h2 (P := fun j => (Rel.one s).Leads h r F i j) fun j _ => Iff.rfl]
    exact h1
  | more s d q =>
    obtain ⟨h1, h2⟩ := seg_value hr hd hp hq.1 hi env
    refine slash_those hr hd h1 ?_ fun k hk => tail_value hr hd hp hq.2 d (h2.subset hk) env
    cases q <;> cases d <;> rfl

theorem rel_tree_nil {q : Rel} (hq : q.Ok) : q.tree.isNil = false := by
  cases q with
  | one s => exact seg_tree_nil hq
  | more => rfl

include hr hd hp in
theorem root_value {i : NodeId} (hi : i ∈ docIds h (.cons r F .nil)) (env : Env) (n : Str) (hn : NTest.IsLabel n ∨ n = S "node()") :
    Value h [.node i] (tip .axisRoot n) env (XSeq.ofNodes [r]) := by
  have key : ∀ T : NTest, T.Proper → Value h [.node i] (stepOf .axisRoot T) env (XSeq.ofNodes [r]) := by
    intro T hT
    obtain ⟨l, hv, hs, -, hm⟩ := C76_step_partial h hr r F hd hp i hi .axisRoot (by decide) T hT env
    have hrD : r ∈ docIds h (.cons r F .nil) := mem_docIds_of_mem (by simp [Forest.toList])
    have : l = [r] := by
      refine sublist_ext hd.nodup hs (List.singleton_sublist.2 hrD) fun j => ?_
      rw [hm, List.mem_singleton]
      exact ⟨fun hh => hh.1, fun hh => ⟨hh, fun e => absurd rfl e⟩⟩
    rw [this] at hv
    exact hv
  rcases hn with hn | rfl
  · exact key (.name n) hn
  · exact key .dots trivial

include hr hd hp in
theorem path_value {p : LPath} (hok : p.Ok) {i : NodeId} (hi : i ∈ docIds h (.cons r F .nil)) (env : Env) :
    Value h [.node i] p.tree env (XSeq.ofNodes (p.nodes h r F i)) := by
  have hrD : r ∈ docIds h (.cons r F .nil) := mem_docIds_of_mem (by simp [Forest.toList])
  have hroot := fun n hn => root_value hr hd hp hi env n hn
  show Value h [.node i] p.tree env (XSeq.ofNodes (those h r F fun j => p.Leads h r F i j))
  cases p with
  | root =>
    have : [r] = those h r F fun j => LPath.root.Leads h r F i j :=
      those_eq hd (List.singleton_sublist.2 hrD) fun j _ => List.mem_singleton
    rw [← this]
    exact end_value rfl (hroot _ (.inr rfl))
  | rel q => exact rel_value hr hd hp hok hi env
  | abs d q =>
    cases d with
    | true =>
      have h1 := slash_those hr hd (n := S "parse_path_expr SlashSlash 2") (deep_value hr hd hp hrD env) (rel_tree_nil hok)
        (P := fun k j => q.Leads h r F k j) fun k hk => rel_value hr hd hp hok (those_sublist.subset hk) env
      have h2 := slash_those hr hd (n := S "parse_path_expr SlashSlash 1")
        (b := .node .operatorPath (S "parse_path_expr SlashSlash 2") dslash q.tree) (hroot (S "/") (.inl (by unfold NTest.IsLabel; decide))) rfl
        (P := fun i j => ∃ k ∈ those h r F (Between h F true i), q.Leads h r F k j) fun k hk => by
          obtain rfl := List.mem_singleton.1 hk
          exact h1
      rw [those_congr (Q := fun j => (LPath.abs true q).Leads h r F i j)] at h2
      · exact h2
      · intro j _
        constructor
        · rintro ⟨k, hk, k', hk', hh⟩
          obtain rfl := List.mem_singleton.1 hk
          exact ⟨k', (mem_those.1 hk').2, hh⟩
        · rintro ⟨k, hk, hh⟩
          exact ⟨r, by simp, k, mem_those.2 ⟨between_doc hrD hk, hk⟩, hh⟩
    | false =>
      have h2 := slash_those hr hd (n := S "parse_path_expr Slash") (hroot (S "node()") (.inr rfl)) (rel_tree_nil hok)
        (P := fun i j => q.Leads h r F i j) fun k hk => by
          obtain rfl := List.mem_singleton.1 hk
          exact rel_value hr hd hp hok hrD env
      rw [those_congr (Q := fun j => (LPath.abs false q).Leads h r F i j)] at h2
      · exact h2
      · intro j _
        constructor
        · rintro ⟨k, hk, hh⟩
          obtain rfl := List.mem_singleton.1 hk
          exact ⟨k, .inl rfl, hh⟩
        · rintro ⟨k, rfl | ⟨hh, -⟩, hk⟩
          · exact ⟨_, by simp, hk⟩
          · cases hh

end

/-- **C88**: the text of a location path, evaluated at any node of a document, selects exactly the nodes the path leads to, in document order, each once:
`eval_xpath`, `get_nodeset`, `get_first_node` and `each_node` all deliver them. (`n` bounds the depth of the evaluation: any sufficiently large one will do.) -/
theorem C88_path (h : Heap) (hr : Reach h) (r : NodeId) (F : Forest NodeId) (hd : DocTree h r F) (hp : PlainAttrs h r F) (p : LPath) (hok : p.Ok)
    (i : NodeId) (hi : i ∈ docIds h (.cons r F .nil)) : ∃ N, ∀ n, N ≤ n →
      evalXPath h n i p.text = .ok ((p.nodes h r F i).map .node) ∧
      getNodeset h n i p.text = .ok (p.nodes h r F i) ∧
      getFirstNode h n i p.text = .ok (p.nodes h r F i).head? ∧
      eachNode h n i p.text (fun calls x => calls ++ [x]) [] = .ok (p.nodes h r F i) := by
  obtain ⟨N, hN⟩ := eval_of_evaluate h [.node i] p.tree Env.new
  refine ⟨N, fun n hn => ?_⟩
  have he : evalXPath h n i p.text = .ok (XSeq.ofNodes (p.nodes h r F i)) := by
    unfold evalXPath
    rw [path_compiles p hok]
    unfold matchXPath
    simp only
    rw [hN n hn]
    have := path_value hr hd hp hok hi Env.new
    unfold Value at this
    rw [this]
  obtain ⟨h1, h2, -, h4⟩ := C49_value h n i p.text _ he
  have e : nodesOf (XSeq.ofNodes (p.nodes h r F i)) = p.nodes h r F i := by
    rw [← nodesOf_eq]; exact toNodeset_ofNodes _
  rw [e] at h1 h2 h4
  exact ⟨he, h1, h2, h4⟩

theorem all_below {h : Heap} (hw : HeapWF h) {r : NodeId} {F : Forest NodeId} (hd : DocTree h r F) (hp : PlainAttrs h r F) :
    ∀ j, j ∈ F.toList → Ancestor h r j ∧ ∃ k, (h.node j).parent = some k ∧ Between h F true r k := by
  intro j
  induction j using Nat.strongRecOn with
  | ind j ih =>
    intro hj
    obtain ⟨k, hk, e, -⟩ := (C31_siblings h r F hd).1 j hj (hp.tree j (by simp [hj]))
    rcases List.mem_cons.1 hk with rfl | hk
    · exact ⟨.parent e, k, e, .inl rfl⟩
    · have := (ih k (hw.parent_lt _ _ e) hk).1
      exact ⟨.step e this, k, e, .inr ⟨rfl, hk, this⟩⟩

theorem tree_sublist {h : Heap} {r : NodeId} {F : Forest NodeId} : F.toList.Sublist (docIds h (.cons r F .nil)) := by
  have := toList_sublist_docIds h (.cons r F .nil)
  refine List.Sublist.trans ?_ this
  simp [Forest.toList]

/-- The nodes that a path `//T[P]…` with predicates that do not count leads to. -/
theorem everywhere_eq {h : Heap} (hr : Reach h) {r : NodeId} {F : Forest NodeId} (hd : DocTree h r F) (hp : PlainAttrs h r F) {s : Seg} {Q : NodeId → Prop}
    (hs : ∀ k j, j ∈ s.nodes h r F k ↔ j ∈ docIds h (.cons r F .nil) ∧ (j ∈ F.toList ∧ (h.node j).parent = some k) ∧ Q j) (i : NodeId) :
    (LPath.abs true (.one s)).nodes h r F i = F.toList.filter fun j => Q j := by
  refine (those_eq hd (List.filter_sublist.trans tree_sublist) fun j hj => ?_).symm
  rw [List.mem_filter, decide_eq_true_iff]
  constructor
  · rintro ⟨hj', hQ⟩
    obtain ⟨-, k, e, hb⟩ := all_below hr.inv.1 hd hp j hj'
    exact ⟨k, hb, (hs k j).2 ⟨hj, ⟨hj', e⟩, hQ⟩⟩
  · rintro ⟨k, -, hh⟩
    obtain ⟨-, ⟨h1, -⟩, h2⟩ := (hs k j).1 hh
    exact ⟨h1, h2⟩

/-- **C88**, `//n`: all elements of the document with this name, in document order, from wherever it is evaluated. -/
theorem C88_named (h : Heap) (hr : Reach h) (r : NodeId) (F : Forest NodeId) (hd : DocTree h r F) (hp : PlainAttrs h r F) (m : Str) (hm : IsNCName m)
    (i : NodeId) (hi : i ∈ docIds h (.cons r F .nil)) : ∃ N, ∀ n, N ≤ n →
      getNodeset h n i (S "//" ++ m) = .ok (F.toList.filter fun j => (h.node j).ntype = .element ∧ (h.node j).name = m) := by
  obtain ⟨N, hN⟩ := C88_path h hr r F hd hp (.abs true (.one (.step (.child (.name m)) []))) ⟨hm, by simp⟩ i hi
  refine ⟨N, fun n hn => ?_⟩
  have h1 := (hN n hn).2.1
  rw [everywhere_eq hr hd hp (Q := fun j => (h.node j).ntype = .element ∧ (h.node j).name = m) (fun k j => mem_those)] at h1
  have e : LPath.text (.abs true (.one (.step (.child (.name m)) []))) = S "//" ++ m := congrArg (S "//" ++ ·) (List.append_nil m)
  rw [e] at h1
  rw [h1]
  congr 2
  funext j
  exact decide_eq_decide.2 Iff.rfl

/-- **C88**, `//n[@k='v']`: all elements of the document with this name that have an attribute with this name and this value (an apostrophe in the value is written twice). -/
theorem C88_keyed (h : Heap) (hr : Reach h) (r : NodeId) (F : Forest NodeId) (hd : DocTree h r F) (hp : PlainAttrs h r F) (m k v : Str) (hm : IsNCName m)
    (hk : IsNCName k) (hv : '\x00' ∉ v) (i : NodeId) (hi : i ∈ docIds h (.cons r F .nil)) : ∃ N, ∀ n, N ≤ n →
      getNodeset h n i (S "//" ++ m ++ S "[@" ++ k ++ S "=" ++ quoted '\'' v ++ S "]") = .ok (F.toList.filter fun j =>
        (h.node j).ntype = .element ∧ (h.node j).name = m ∧ ∃ a ∈ (h.node j).attributes, (h.node a).name = k ∧ (h.node a).value = v) := by
  obtain ⟨N, hN⟩ := C88_path h hr r F hd hp (.abs true (.one (.step (.child (.name m)) [.eq (.attr (.name k)) v]))) ⟨hm, by
    intro p hp
    obtain rfl := List.mem_singleton.1 hp
    exact ⟨hk, hv⟩⟩ i hi
  refine ⟨N, fun n hn => ?_⟩
  have h1 := (hN n hn).2.1
  rw [everywhere_eq hr hd hp (Q := fun j => (h.node j).ntype = .element ∧ (h.node j).name = m ∧ ∃ a ∈ (h.node j).attributes, (h.node a).name = k ∧ (h.node a).value = v)
    (fun k' j => ?_)] at h1
  · have e : LPath.text (.abs true (.one (.step (.child (.name m)) [.eq (.attr (.name k)) v]))) = S "//" ++ m ++ S "[@" ++ k ++ S "=" ++ quoted '\'' v ++ S "]" := by
      show S "//" ++ (m ++ (('[' :: ('@' :: k) ++ '=' :: quoted '\'' v ++ S "]") ++ [])) = _
      generalize quoted '\'' v = w
      simp [S]
    rw [e] at h1
    rw [h1]
    congr 2
    funext j
    exact decide_eq_decide.2 Iff.rfl
  · show j ∈ List.filter _ (those h r F fun j => (Core.child (.name m)).Reaches h r F k' j) ↔ _
    rw [List.mem_filter, decide_eq_true_iff, mem_those]
    have attr : j ∈ F.toList → ((∃ a, (Core.attr (.name k)).Reaches h r F j a ∧ DataIs h a v) ↔ ∃ a ∈ (h.node j).attributes, (h.node a).name = k ∧ (h.node a).value = v) := by
      intro hj
      constructor
      · rintro ⟨a, ⟨h1, h2, h3⟩, h4⟩
        refine ⟨a, h1, h3, ?_⟩
        rw [dataIs_iff] at h4
        have ht : (h.node a).ntype = .attribute := h2
        rw [← h4, typedValue, typedValueF, ht]
      · rintro ⟨a, h1, h2, h3⟩
        have ht := (hp.attr j (by simp [hj]) a h1).1
        refine ⟨a, ⟨h1, ht, h2⟩, (dataIs_iff _ _ _).2 ?_⟩
        rw [← h3, typedValue, typedValueF, ht]
    constructor
    · rintro ⟨⟨a, b, c1, c2⟩, d⟩
      exact ⟨a, b, c1, c2, (attr b.1).1 d⟩
    · rintro ⟨a, b, c1, c2, d⟩
      exact ⟨⟨a, b, c1, c2⟩, (attr b.1).2 d⟩

/-- The hypotheses are met: `//c/preceding-sibling::*[last()]/../@x`, in `<a x="1" y="2"><b/><c/></a>`. -/
def samplePath : LPath := .abs true (.more (.step (.child (.name (S "c"))) []) false (.more (.step (.along (S "preceding-sibling") .any) [.last]) false
  (.more .parent false (.one (.step (.attr (.name (S "x"))) [])))))

example : samplePath.Ok ∧ samplePath.text = S "//c/preceding-sibling::*[last()]/../@x" := by
  refine ⟨⟨⟨by unfold Core.Ok PTest.Ok; decide, by simp⟩, ⟨⟨by decide, trivial⟩, ?_⟩, trivial, by unfold Core.Ok PTest.Ok; decide, by simp⟩, by decide⟩
  intro p hp
  obtain rfl := List.mem_singleton.1 hp
  trivial

example : ∃ N, ∀ n, N ≤ n → getNodeset editSample n 5 (S "//b") = .ok [4] := by
  obtain ⟨N, hN⟩ := C88_named editSample (.parse .empty editSample_parsed) 0 _ editSample_doc ⟨by decide, by decide⟩ (S "b") (by decide) 5 (by decide)
  refine ⟨N, fun n hn => (hN n hn).trans (congrArg Except.ok ?_)⟩
  decide

end Amxml
