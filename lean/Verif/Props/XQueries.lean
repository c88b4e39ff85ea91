import Verif.Lemmas.Queries
import Verif.Props.XQuery
import Verif.Props.XFocus
import Verif.Props.XFunc
import Verif.Props.XEval

/-!
# C92: queries, from the text to the nodes
-/

namespace Amxml
open Spec
open Classical

section
variable {h : Heap} (hr : Reach h) {r : NodeId} {F : Forest NodeId} (hd : DocTree h r F) (hp : PlainAttrs h r F)

theorem call_one {f : Str} {v w : XSeq} (hf : CallGives h f [v] w) {c : XSeq} {x : XNode} {env : Env} (hx : Value h c x env v) :
    Value h c (callOf f [x]) env w := hf c env [x] (.cons hx .nil)

theorem general_value {op : Cmp} {A B : XSeq} {c : XSeq} {x y : XNode} {n : Str} {env : Env} (hx : Value h c x env A) (hy : Value h c y env B) {P : Prop}
    (hP : (∃ x ∈ A, ∃ y ∈ B, Holds op (x.atomize h) (y.atomize h) ∨ NaNCase op (x.atomize h) (y.atomize h)) ↔ P) :
    Value h c (.node op.general n x y) env [.boolean (decide P)] := by
  obtain ⟨b, hb, hi⟩ := (C37_expression h op A B).1
  have := hb c env n x y hx hy
  have e : b = decide P := by rw [Bool.eq_iff_iff, hi, hP, decide_eq_true_iff]
  rw [← e]
  exact this

theorem string_value (c : XSeq) (env : Env) (v : Str) : Value h c (tip .stringLiteral v) env [.string v] := by
  unfold Value; rw [evaluate_eq]; rfl

theorem ne_strings (a b : Str) : (Holds .ne (.string a) (.string b) ∨ NaNCase .ne (.string a) (.string b)) ↔ a ≠ b := by
  constructor
  · rintro (h | h)
    · exact h
    · exact h.elim
  · exact fun h => .inl h

theorem eq_integers (a b : Int) : (Holds .eq (.integer a) (.integer b) ∨ NaNCase .eq (.integer a) (.integer b)) ↔ a = b := by
  constructor
  · rintro (h | h)
    · exact h
    · exact h.elim
  · exact fun h => .inl h

theorem mem_ofNodes {l : List NodeId} {x : XItem} : x ∈ XSeq.ofNodes l ↔ ∃ k ∈ l, x = .node k := by
  unfold XSeq.ofNodes
  rw [List.mem_map]
  exact ⟨fun ⟨k, a, b⟩ => ⟨k, a, b.symm⟩, fun ⟨k, a, b⟩ => ⟨k, a, b.symm⟩⟩

theorem atom_node (k : NodeId) : (XItem.node k).atomize h = .string (typedValue h k) := rfl

theorem paren_value {c : XSeq} {x : XNode} {env : Env} {v : XSeq} (b : Bool) (hx : Value h c x env v) : Value h c (parenTree b x) env v := by
  cases b with
  | true => exact hx
  | false => exact (C75_concatenation h v []).2.1 c env _ x _ hx

theorem and_value {c : XSeq} {x y : XNode} {n : Str} {env : Env} {P Q R : Prop} (hx : Value h c x env [.boolean (decide P)])
    (hy : Value h c y env [.boolean (decide Q)]) (hR : R ↔ P ∧ Q) : Value h c (.node .operatorAnd n x y) env [.boolean (decide R)] := by
  by_cases hP : P
  · rw [decide_eq_true hP] at hx
    have := C41_and_right h c n x y env env env (decide Q) ⟨_, hx, rfl⟩ ⟨_, hy, by cases decide Q <;> rfl⟩
    have e : decide R = decide Q := decide_eq_decide.2 ⟨fun a => (hR.1 a).2, fun a => hR.2 ⟨hP, a⟩⟩
    rw [e]
    exact this
  · rw [decide_eq_false hP] at hx
    have := C41_and_left h c n x y env env ⟨_, hx, rfl⟩
    have e : decide R = false := decide_eq_false fun a => hP (hR.1 a).1
    rw [e]
    exact this

theorem or_value {c : XSeq} {x y : XNode} {n : Str} {env : Env} {P Q R : Prop} (hx : Value h c x env [.boolean (decide P)])
    (hy : Value h c y env [.boolean (decide Q)]) (hR : R ↔ P ∨ Q) : Value h c (.node .operatorOr n x y) env [.boolean (decide R)] := by
  by_cases hP : P
  · rw [decide_eq_true hP] at hx
    have := C41_or_left h c n x y env env ⟨_, hx, rfl⟩
    have e : decide R = true := decide_eq_true (hR.2 (.inl hP))
    rw [e]
    exact this
  · rw [decide_eq_false hP] at hx
    have := C41_or_right h c n x y env env env (decide Q) ⟨_, hx, rfl⟩ ⟨_, hy, by cases decide Q <;> rfl⟩
    have e : decide R = decide Q := decide_eq_decide.2 ⟨fun a => (hR.1 a).resolve_left hP, fun a => hR.2 (.inr a)⟩
    rw [e]
    exact this

theorem not_value {c : XSeq} {x : XNode} {env : Env} {P R : Prop} (hx : Value h c x env [.boolean (decide P)]) (hR : R ↔ ¬ P) :
    Value h c (callOf (S "fn:not") [x]) env [.boolean (decide R)] := by
  have := call_one (((C40_expression h [.boolean (decide P)]).1 _ (.boolean _)).2.1) hx
  have e : decide R = !decide P := by
    by_cases hP : P
    · rw [decide_eq_true hP, decide_eq_false fun a => hR.1 a hP]; rfl
    · rw [decide_eq_false hP, decide_eq_true (hR.2 hP)]; rfl
  rw [e]
  exact this

theorem boolean_value {c : XSeq} {x : XNode} {env : Env} {l : List NodeId} {P : Prop} (hx : Value h c x env (XSeq.ofNodes l)) (hP : (∃ k, k ∈ l) ↔ P) :
    Value h c (callOf (S "fn:boolean") [x]) env [.boolean (decide P)] := by
  have hb : Ebv (XSeq.ofNodes l) (decide P) := by
    cases l with
    | nil =>
      rw [decide_eq_false (by rw [← hP]; simp)]
      exact .empty
    | cons a l =>
      rw [decide_eq_true (by rw [← hP]; exact ⟨a, by simp⟩)]
      exact .node a _
  exact call_one ((C40_expression h _).1 _ hb).1 hx

/-! ## The paths stay in the document -/

theorem pick_sublist (rev : Bool) (n : Nat) (l : List NodeId) : (pick rev n l).Sublist l := by
  cases n with
  | zero => exact List.nil_sublist _
  | succ n =>
    show (Option.toList _).Sublist l
    cases e : (if rev then l.reverse else l)[n]? with
    | none => exact List.nil_sublist _
    | some x =>
      refine List.singleton_sublist.2 ?_
      have := List.mem_of_getElem? e
      cases rev with
      | true => exact List.mem_reverse.1 this
      | false => exact this

theorem qkeep_sublist : ∀ (ps : QPreds) (rev : Bool) (l : List NodeId), (ps.keep h r F rev l).Sublist l
  | .nil, _, _ => List.Sublist.refl _
  | .nth n ps, rev, l => (qkeep_sublist ps rev _).trans (pick_sublist rev n l)
  | .last ps, rev, l => (qkeep_sublist ps rev _).trans (keep_sublist (h := h) (r := r) (F := F) .last rev l)
  | .cond _ ps, rev, _ => (qkeep_sublist ps rev _).trans List.filter_sublist

include hr hd hp in
theorem qstep_sublist (s : QStep) {i : NodeId} (hi : i ∈ docIds h (.cons r F .nil)) : (s.nodes h r F i).Sublist (docIds h (.cons r F .nil)) := by
  cases s with
  | step c ps => exact (qkeep_sublist ps _ _).trans List.filter_sublist
  | parent => exact (seg_value hr hd hp (s := .parent) trivial hi Env.new).2
  | self => exact List.singleton_sublist.2 hi

include hr hd hp in
theorem qrel_doc : ∀ (q : QRel) {i j : NodeId}, i ∈ docIds h (.cons r F .nil) → q.Leads h r F i j → j ∈ docIds h (.cons r F .nil)
  | .one s, _, _, hi, hl => (qstep_sublist hr hd hp s hi).subset hl
  | .more s _ q, _, _, hi, ⟨_, hk, _, hb, hl⟩ => qrel_doc q (between_doc ((qstep_sublist hr hd hp s hi).subset hk) hb) hl

include hr hd hp in
theorem qpath_doc (p : QPath) {i j : NodeId} (hi : i ∈ docIds h (.cons r F .nil)) (hl : p.Leads h r F i j) : j ∈ docIds h (.cons r F .nil) := by
  have hrD : r ∈ docIds h (.cons r F .nil) := mem_docIds_of_mem (by simp [Forest.toList])
  cases p with
  | root => rw [show j = r from hl]; exact hrD
  | rel q => exact qrel_doc hr hd hp q hi hl
  | abs d q =>
    obtain ⟨k, hb, hl⟩ := hl
    exact qrel_doc hr hd hp q (between_doc hrD hb) hl

include hr hd hp in
theorem query_doc : ∀ (q : Query) {i j : NodeId}, i ∈ docIds h (.cons r F .nil) → q.Leads h r F i j → j ∈ docIds h (.cons r F .nil)
  | .one p, _, _, hi, hl => qpath_doc hr hd hp p hi hl
  | .also q _, _, _, hi, .inl hl => query_doc q hi hl
  | .also _ p, _, _, hi, .inr hl => qpath_doc hr hd hp p hi hl

include hr hd hp in
theorem mem_query {q : Query} {i : NodeId} (hi : i ∈ docIds h (.cons r F .nil)) {j : NodeId} : (j ∈ those h r F fun j => q.Leads h r F i j) ↔ q.Leads h r F i j := by
  rw [mem_those]
  exact ⟨fun a => a.2, fun a => ⟨query_doc hr hd hp q hi a, a⟩⟩

/-! ## The values -/

theorem qcond_tree_nil (c : QCond) : c.tree.isNil = false := by cases c <;> rfl

theorem qpreds_trees_nil : ∀ (ps : QPreds), ∀ p ∈ ps.trees, p.isNil = false
  | .nil, _, hp => by cases hp
  | .nth _ ps, p, hp => by
    rcases List.mem_cons.1 (show p ∈ _ :: ps.trees from hp) with rfl | hp
    · rfl
    · exact qpreds_trees_nil ps p hp
  | .last ps, p, hp => by
    rcases List.mem_cons.1 (show p ∈ _ :: ps.trees from hp) with rfl | hp
    · rfl
    · exact qpreds_trees_nil ps p hp
  | .cond c ps, p, hp => by
    rcases List.mem_cons.1 (show p ∈ _ :: ps.trees from hp) with rfl | hp
    · exact qcond_tree_nil c
    · exact qpreds_trees_nil ps p hp

theorem qstep_tree_nil {s : QStep} (hs : s.Ok) : s.tree.isNil = false := by
  cases s with
  | step c ps =>
    have : ∀ t ∈ axes, (t == .nil) = false := by decide
    exact this _ (core_axis c hs.1).1
  | parent => rfl
  | self => rfl

theorem qrel_tree_nil {q : QRel} (hq : q.Ok) : q.tree.isNil = false := by
  cases q with
  | one s => exact qstep_tree_nil (s := s) hq
  | more => rfl

include hr hd hp in
theorem deep_those {x : XNode} {P : NodeId → NodeId → Prop} {n : Str} {i : NodeId} {env : Env} (hi : i ∈ docIds h (.cons r F .nil)) (hx : x.isNil = false)
    (hv : ∀ k ∈ docIds h (.cons r F .nil), Value h [.node k] x env (XSeq.ofNodes (those h r F (P k)))) :
    Value h [.node i] (.node .operatorPath n dslash x) env (XSeq.ofNodes (those h r F fun j => ∃ k, Between h F true i k ∧ P k j)) := by
  have := slash_those hr hd (n := n) (deep_value hr hd hp hi env) hx (P := P) fun k hk => hv k (those_sublist.subset hk)
  rw [those_congr (Q := fun j => ∃ k, Between h F true i k ∧ P k j)] at this
  · exact this
  · intro j _
    constructor
    · rintro ⟨k, hk, hh⟩; exact ⟨k, (mem_those.1 hk).2, hh⟩
    · rintro ⟨k, hk, hh⟩; exact ⟨k, mem_those.2 ⟨between_doc hi hk, hk⟩, hh⟩

theorem flat_those (P : NodeId → NodeId → Prop) (i : NodeId) : those h r F (P i) = those h r F fun j => ∃ k, Between h F false i k ∧ P k j := by
  refine those_congr fun j _ => ?_
  constructor
  · exact fun hh => ⟨i, .inl rfl, hh⟩
  · rintro ⟨k, rfl | ⟨hh, -⟩, hk⟩
    · exact hk
    · cases hh

include hr hd in
theorem union_those {c : XSeq} {x y : XNode} {n : Str} {env : Env} {P Q : NodeId → Prop} (hx : Value h c x env (XSeq.ofNodes (those h r F P)))
    (hy : Value h c y env (XSeq.ofNodes (those h r F Q))) :
    Value h c (.node .operatorUnion n x y) env (XSeq.ofNodes (those h r F fun j => P j ∨ Q j)) := by
  have nodes : ∀ P, NodesOf (docIds h (.cons r F .nil)) (XSeq.ofNodes (those h r F P)) := by
    intro P x hx
    obtain ⟨k, hk, rfl⟩ := mem_ofNodes.1 hx
    exact ⟨k, those_sublist.subset hk, rfl⟩
  obtain ⟨l, hv, hs, hm⟩ := (C33_expression h hr r F hd _ _ (nodes P) (nodes Q)).1
  have : l = those h r F fun j => P j ∨ Q j := by
    refine those_eq hd hs fun j hj => ?_
    have mem : ∀ P : NodeId → Prop, XItem.node j ∈ XSeq.ofNodes (those h r F P) ↔ P j := by
      intro P
      rw [mem_ofNodes]
      constructor
      · rintro ⟨k, hk, e⟩
        cases e
        exact (mem_those.1 hk).2
      · exact fun hP => ⟨j, mem_those.2 ⟨hj, hP⟩, rfl⟩
    rw [hm, mem, mem]
  rw [← this]
  exact hv c env n x y hx hy

set_option linter.unusedSectionVars false

include hr hd hp

mutual

theorem qcond_value : ∀ {c : QCond}, c.Ok → ∀ {i : NodeId}, i ∈ docIds h (.cons r F .nil) → ∀ env,
    Value h [.node i] c.tree env [.boolean (decide (c.Holds h r F i))]
  | .has q, hc, i, hi, env => by
    refine boolean_value (query_value (q := q) hc hi env) ?_
    constructor
    · rintro ⟨k, hk⟩; exact ⟨k, (mem_those.1 hk).2⟩
    · rintro ⟨k, hk⟩; exact ⟨k, (mem_query hr hd hp hi).2 hk⟩
  | .eq q v, hc, i, hi, env => by
    refine general_value (op := .eq) (n := S "=") (query_value (q := q) hc.1 hi env) (string_value _ _ v) ?_
    constructor
    · rintro ⟨x, hx, y, hy, hh⟩
      obtain ⟨k, hk, rfl⟩ := mem_ofNodes.1 hx
      obtain rfl : y = .string v := by simpa using hy
      exact ⟨k, (mem_those.1 hk).2, (dataIs_iff h k v).2 ((holds_strings _ _).1 hh)⟩
    · rintro ⟨k, hk, hv⟩
      exact ⟨_, mem_ofNodes.2 ⟨k, (mem_query hr hd hp hi).2 hk, rfl⟩, .string v, by simp, (holds_strings _ _).2 ((dataIs_iff h k v).1 hv)⟩
  | .ne q v, hc, i, hi, env => by
    refine general_value (op := .ne) (n := S "!=") (query_value (q := q) hc.1 hi env) (string_value _ _ v) ?_
    constructor
    · rintro ⟨x, hx, y, hy, hh⟩
      obtain ⟨k, hk, rfl⟩ := mem_ofNodes.1 hx
      obtain rfl : y = .string v := by simpa using hy
      exact ⟨k, (mem_those.1 hk).2, fun e => (ne_strings _ _).1 hh ((dataIs_iff h k v).1 e)⟩
    · rintro ⟨k, hk, hv⟩
      exact ⟨_, mem_ofNodes.2 ⟨k, (mem_query hr hd hp hi).2 hk, rfl⟩, .string v, by simp, (ne_strings _ _).2 fun e => hv ((dataIs_iff h k v).2 e)⟩
  | .same p q, hc, i, hi, env => by
    refine general_value (op := .eq) (n := S "=") (query_value (q := p) hc.1 hi env) (query_value (q := q) hc.2 hi env) ?_
    constructor
    · rintro ⟨x, hx, y, hy, hh⟩
      obtain ⟨k, hk, rfl⟩ := mem_ofNodes.1 hx
      obtain ⟨k', hk', rfl⟩ := mem_ofNodes.1 hy
      exact ⟨k, k', typedValue h k, (mem_those.1 hk).2, (mem_those.1 hk').2, (dataIs_iff h k _).2 rfl, (dataIs_iff h k' _).2 ((holds_strings _ _).1 hh).symm⟩
    · rintro ⟨k, k', v, hk, hk', h1, h2⟩
      exact ⟨_, mem_ofNodes.2 ⟨k, (mem_query hr hd hp hi).2 hk, rfl⟩, _, mem_ofNodes.2 ⟨k', (mem_query hr hd hp hi).2 hk', rfl⟩,
        (holds_strings _ _).2 (((dataIs_iff h k v).1 h1).trans ((dataIs_iff h k' v).1 h2).symm)⟩
  | .count q n, hc, i, hi, env => by
    have h1 := call_one (C65_count h _).1 (query_value (q := q) hc.1 hi env)
    rw [ofNodes_length] at h1
    have h2 := general_value (op := .eq) (n := S "=") h1 (nat_literal (h := h) hc.2 [.node i] env) (P := (those h r F fun j => q.Leads h r F i j).length = n) (by
      constructor
      · rintro ⟨x, hx, y, hy, hh⟩
        rw [List.mem_singleton.1 hx, List.mem_singleton.1 hy] at hh
        exact Int.ofNat_inj.1 ((eq_integers _ _).1 hh)
      · intro e
        exact ⟨_, List.mem_singleton.2 rfl, _, List.mem_singleton.2 rfl, (eq_integers _ _).2 (Int.ofNat_inj.2 e)⟩)
    exact h2
  | .both a b, hc, i, hi, env =>
    and_value (paren_value a.simple (qcond_value (c := a) hc.1 hi env)) (paren_value b.simple (qcond_value (c := b) hc.2 hi env)) Iff.rfl
  | .either a b, hc, i, hi, env =>
    or_value (paren_value a.simple (qcond_value (c := a) hc.1 hi env)) (paren_value b.simple (qcond_value (c := b) hc.2 hi env)) Iff.rfl
  | .no a, hc, i, hi, env => not_value (qcond_value (c := a) hc hi env) Iff.rfl

theorem qpreds_filter : ∀ {ps : QPreds}, ps.Ok → ∀ (rev : Bool) (env : Env) {l : List NodeId}, (∀ i ∈ l, i ∈ docIds h (.cons r F .nil)) →
    Filters h rev env ps.trees (XSeq.ofNodes l) (XSeq.ofNodes (ps.keep h r F rev l))
  | .nil, _, _, _, _, _ => .nil
  | .nth n ps, hps, rev, env, l, hl => by
    obtain ⟨T, h1, h2⟩ := nth_filter (h := h) rev l env (n := n) hps.1
    have := qpreds_filter (ps := ps) hps.2 rev env (l := pick rev n l) fun i hi => hl i ((pick_sublist rev n l).subset hi)
    have e : select T (XSeq.ofNodes l) = XSeq.ofNodes (pick rev n l) := h2.trans (by cases n <;> rfl)
    rw [← e] at this
    exact .cons h1 this
  | .last ps, hps, rev, env, l, hl => by
    obtain ⟨T, h1, h2⟩ := last_filter (h := h) rev l env
    have := qpreds_filter (ps := ps) hps rev env (l := (if rev then l.head? else l.getLast?).toList) fun i hi =>
      hl i ((keep_sublist (h := h) (r := r) (F := F) .last rev l).subset hi)
    rw [← h2] at this
    exact .cons h1 this
  | .cond c ps, hps, rev, env, l, hl => by
    obtain ⟨T, h1, h2⟩ := bool_filter (h := h) rev l env c.tree (fun j => c.Holds h r F j) fun i hi env => qcond_value (c := c) hps.1 (hl i hi) env
    have := qpreds_filter (ps := ps) hps.2 rev env (l := l.filter fun j => c.Holds h r F j) fun i hi => hl i (List.mem_filter.1 hi).1
    rw [← h2] at this
    exact .cons h1 this

theorem qstep_value : ∀ {s : QStep}, s.Ok → ∀ {i : NodeId}, i ∈ docIds h (.cons r F .nil) → ∀ env,
    Value h [.node i] s.tree env (XSeq.ofNodes (s.nodes h r F i))
  | .step c ps, hs, i, hi, env =>
    C36_step_partial h c.axis.1 (core_axis c hs.1).1 _ _ c.axis.2 ps.trees (qpreds_trees_nil ps) i env _ _ (core_value hr hd hp hs.1 hi env)
      (qpreds_filter (ps := ps) hs.2 c.axis.2 env fun _ hj => those_sublist.subset hj)
  | .parent, _, _, hi, env => (seg_value hr hd hp (s := .parent) trivial hi env).1
  | .self, _, i, _, env => self_value i env

theorem qtail_value : ∀ {q : QRel}, q.Ok → ∀ (d : Bool) {i : NodeId}, i ∈ docIds h (.cons r F .nil) → ∀ env,
    Value h [.node i] (q.tail d) env (XSeq.ofNodes (those h r F fun j => ∃ k, Between h F d i k ∧ q.Leads h r F k j))
  | .one s, hq, d, i, hi, env => by
    have key : ∀ {n : Str} {i : NodeId}, i ∈ docIds h (.cons r F .nil) →
        Value h [.node i] (.node .operatorPath n s.tree .nil) env (XSeq.ofNodes (those h r F fun j => (QRel.one s).Leads h r F i j)) := by
      intro n i hi
      rw [← those_eq hd (qstep_sublist hr hd hp s hi) (P := fun j => (QRel.one s).Leads h r F i j) fun j _ => Iff.rfl]
      exact end_value (qstep_tree_nil (s := s) hq) (qstep_value (s := s) hq hi env)
    cases d with
    | true => exact deep_those hr hd hp hi rfl fun k hk => key hk
    | false =>
      rw [← flat_those (fun i j => (QRel.one s).Leads h r F i j) i]
      exact key hi
  | .more s d' q, hq, d, i, hi, env => by
    have key : ∀ {n : Str} {i : NodeId}, i ∈ docIds h (.cons r F .nil) →
        Value h [.node i] (.node .operatorPath n s.tree (q.tail d')) env (XSeq.ofNodes (those h r F fun j => (QRel.more s d' q).Leads h r F i j)) := by
      intro n i hi
      refine slash_those hr hd (qstep_value (s := s) hq.1 hi env) ?_ fun k hk => qtail_value (q := q) hq.2 d' ((qstep_sublist hr hd hp s hi).subset hk) env
      cases q <;> cases d' <;> rfl
    cases d with
    | true => exact deep_those hr hd hp hi rfl fun k hk => key hk
    | false =>
      rw [← flat_those (fun i j => (QRel.more s d' q).Leads h r F i j) i]
      exact key hi

theorem qrel_value : ∀ {q : QRel}, q.Ok → ∀ {i : NodeId}, i ∈ docIds h (.cons r F .nil) → ∀ env,
    Value h [.node i] q.tree env (XSeq.ofNodes (those h r F fun j => q.Leads h r F i j))
  | .one s, hq, i, hi, env => by
    rw [← those_eq hd (qstep_sublist hr hd hp s hi) (P := fun j => (QRel.one s).Leads h r F i j) fun j _ => Iff.rfl]
    exact qstep_value (s := s) hq hi env
  | .more s d q, hq, i, hi, env => by
    refine slash_those hr hd (qstep_value (s := s) hq.1 hi env) ?_ fun k hk => qtail_value (q := q) hq.2 d ((qstep_sublist hr hd hp s hi).subset hk) env
    cases q <;> cases d <;> rfl

theorem qpath_value : ∀ {p : QPath}, p.Ok → ∀ {i : NodeId}, i ∈ docIds h (.cons r F .nil) → ∀ env,
    Value h [.node i] p.tree env (XSeq.ofNodes (those h r F fun j => p.Leads h r F i j))
  | .root, _, i, hi, env => path_value hr hd hp (p := .root) trivial hi env
  | .rel q, hq, i, hi, env => qrel_value (q := q) hq hi env
  | .abs d q, hq, i, hi, env => by
    have hrD : r ∈ docIds h (.cons r F .nil) := mem_docIds_of_mem (by simp [Forest.toList])
    have hroot := fun n hn => root_value hr hd hp hi env n hn
    have single : ∀ P : NodeId → NodeId → Prop, (those h r F fun j => ∃ k ∈ [r], P k j) = those h r F (P r) := by
      intro P
      refine those_congr fun j _ => ?_
      simp
    have h0 : ∀ k ∈ docIds h (.cons r F .nil), Value h [.node k] q.tree env (XSeq.ofNodes (those h r F fun j => q.Leads h r F k j)) :=
      fun k hk => qrel_value (q := q) hq hk env
    cases d with
    | true =>
      have h1 := deep_those hr hd hp (n := S "parse_path_expr SlashSlash 2") (P := fun k j => q.Leads h r F k j) hrD (qrel_tree_nil (q := q) hq)
        h0
      have h2 := slash_those hr hd (n := S "parse_path_expr SlashSlash 1")
        (b := .node .operatorPath (S "parse_path_expr SlashSlash 2") dslash q.tree) (hroot (S "/") (.inl (by unfold NTest.IsLabel; decide))) rfl
        (P := fun i j => ∃ k, Between h F true i k ∧ q.Leads h r F k j) fun k hk => by
          rw [List.mem_singleton.1 hk]
          exact h1
      rw [single (fun i j => ∃ k, Between h F true i k ∧ q.Leads h r F k j)] at h2
      exact h2
    | false =>
      have h2 := slash_those hr hd (n := S "parse_path_expr Slash") (hroot (S "node()") (.inr rfl)) (qrel_tree_nil (q := q) hq)
        (P := fun i j => q.Leads h r F i j) fun k hk => by
          rw [List.mem_singleton.1 hk]
          exact h0 r hrD
      rw [single (fun i j => q.Leads h r F i j), flat_those (fun i j => q.Leads h r F i j) r] at h2
      exact h2

theorem query_value : ∀ {q : Query}, q.Ok → ∀ {i : NodeId}, i ∈ docIds h (.cons r F .nil) → ∀ env,
    Value h [.node i] q.tree env (XSeq.ofNodes (those h r F fun j => q.Leads h r F i j))
  | .one p, hq, _, hi, env => qpath_value (p := p) hq hi env
  | .also q p, hq, _, hi, env => union_those hr hd (query_value (q := q) hq.1 hi env) (qpath_value (p := p) hq.2 hi env)

end

end

/-- An expression whose value is known, evaluated from its text. -/
theorem text_value {h : Heap} {i : NodeId} {s : Str} {x : XNode} {v : XSeq} (hc : Parser.compileXPath s = .ok x) (hv : Value h [.node i] x Env.new v) :
    ∃ N, ∀ n, N ≤ n → evalXPath h n i s = .ok v := by
  obtain ⟨N, hN⟩ := eval_of_evaluate h [.node i] x Env.new
  refine ⟨N, fun n hn => ?_⟩
  unfold evalXPath
  rw [hc]
  unfold matchXPath
  simp only
  rw [hN n hn]
  unfold Value at hv
  rw [hv]

/-- **C92**: the text of a query, evaluated at any node of a document, selects exactly the nodes the query leads to, in document order, each once:
`eval_xpath`, `get_nodeset`, `get_first_node` and `each_node` all deliver them. (`n` bounds the depth of the evaluation: any sufficiently large one will do.) -/
theorem C92_query (h : Heap) (hr : Reach h) (r : NodeId) (F : Forest NodeId) (hd : DocTree h r F) (hp : PlainAttrs h r F) (q : Query) (hok : q.Ok)
    (i : NodeId) (hi : i ∈ docIds h (.cons r F .nil)) : ∃ N, ∀ n, N ≤ n →
      evalXPath h n i q.text = .ok ((q.nodes h r F i).map .node) ∧
      getNodeset h n i q.text = .ok (q.nodes h r F i) ∧
      getFirstNode h n i q.text = .ok (q.nodes h r F i).head? ∧
      eachNode h n i q.text (fun calls x => calls ++ [x]) [] = .ok (q.nodes h r F i) := by
  obtain ⟨N, hN⟩ := text_value (query_compiles q hok) (query_value hr hd hp hok hi Env.new)
  refine ⟨N, fun n hn => ?_⟩
  have he : evalXPath h n i q.text = .ok (XSeq.ofNodes (q.nodes h r F i)) := hN n hn
  obtain ⟨h1, h2, -, h4⟩ := C49_value h n i q.text _ he
  have e : nodesOf (XSeq.ofNodes (q.nodes h r F i)) = q.nodes h r F i := by
    rw [← nodesOf_eq]; exact toNodeset_ofNodes _
  rw [e] at h1 h2 h4
  exact ⟨he, h1, h2, h4⟩

/-- **C92**: the text of a condition, evaluated at any node of a document, tells whether the condition holds there. -/
theorem C92_condition (h : Heap) (hr : Reach h) (r : NodeId) (F : Forest NodeId) (hd : DocTree h r F) (hp : PlainAttrs h r F) (c : QCond) (hok : c.Ok)
    (i : NodeId) (hi : i ∈ docIds h (.cons r F .nil)) : ∃ (b : Bool) (N : Nat), (b = true ↔ c.Holds h r F i) ∧
      ∀ n, N ≤ n → evalXPath h n i c.text = .ok [.boolean b] := by
  obtain ⟨N, hN⟩ := text_value (qcond_compiles c hok) (qcond_value hr hd hp hok hi Env.new)
  exact ⟨_, N, decide_eq_true_iff, hN⟩

/-- **C92**: `count(q)` is the number of nodes that `q` selects. -/
theorem C92_count (h : Heap) (hr : Reach h) (r : NodeId) (F : Forest NodeId) (hd : DocTree h r F) (hp : PlainAttrs h r F) (q : Query) (hok : q.Ok)
    (i : NodeId) (hi : i ∈ docIds h (.cons r F .nil)) : ∃ N, ∀ n, N ≤ n →
      evalXPath h n i (S "count(" ++ q.text ++ S ")") = .ok [.integer (q.nodes h r F i).length] := by
  have := call_one (C65_count h _).1 (query_value hr hd hp hok hi Env.new)
  rw [ofNodes_length] at this
  exact text_value (count_compiles q hok) this

/-- **C92**, predicates one after the other: `//n[c][d]` and `//n[c and d]` select the same nodes, and `//n[not(c)]` selects the others. -/
theorem C92_filters (h : Heap) (r : NodeId) (F : Forest NodeId) (k : Core) (c d : QCond) (i : NodeId) :
    (QStep.step k (.cond c (.cond d .nil))).nodes h r F i = (QStep.step k (.cond (.both c d) .nil)).nodes h r F i ∧
    (∀ j, j ∈ (QStep.step k .nil).nodes h r F i →
      (j ∈ (QStep.step k (.cond (.no c) .nil)).nodes h r F i ↔ j ∉ (QStep.step k (.cond c .nil)).nodes h r F i)) := by
  constructor
  · show List.filter _ (List.filter _ _) = List.filter _ _
    rw [List.filter_filter]
    apply List.filter_congr
    intro j _
    rw [Bool.eq_iff_iff, Bool.and_eq_true, decide_eq_true_iff, decide_eq_true_iff, decide_eq_true_iff]
    exact ⟨fun a => ⟨a.2, a.1⟩, fun a => ⟨a.2, a.1⟩⟩
  · intro j hj
    have mem : ∀ P : NodeId → Prop, j ∈ List.filter (fun j => P j) ((QStep.step k .nil).nodes h r F i) ↔ P j := by
      intro P
      rw [List.mem_filter, decide_eq_true_iff]
      exact ⟨fun a => a.2, fun a => ⟨hj, a⟩⟩
    exact (mem fun j => ¬ c.Holds h r F j).trans (not_congr (mem fun j => c.Holds h r F j)).symm

/-- The hypotheses are met: `//*[boolean(b) and not(@x='2')]/@y|//c[count(../b|../c)=2]`, in `<a x="1" y="2"><b/><c/></a>`. -/
def sampleQuery : Query :=
  let named (n : String) : QRel := .one (.step (.child (.name (S n))) .nil)
  .also (.one (.abs true (.more (.step (.child .any) (.cond (.both (.has (.one (.rel (named "b")))) (.no (.eq (.one (.rel (.one (.step (.attr (.name (S "x"))) .nil)))) (S "2")))) .nil))
      false (.one (.step (.attr (.name (S "y"))) .nil)))))
    (.abs true (.one (.step (.child (.name (S "c"))) (.cond (.count (.also (.one (.rel (.more .parent false (named "b")))) (.rel (.more .parent false (named "c")))) 2) .nil))))

example : sampleQuery.Ok ∧ sampleQuery.text = S "//*[boolean(b) and not(@x='2')]/@y|//c[count(../b|../c)=2]" := by
  refine ⟨?_, by decide +kernel⟩
  unfold sampleQuery
  simp only [Query.Ok, QPath.Ok, QRel.Ok, QStep.Ok, QPreds.Ok, QCond.Ok, Core.Ok, PTest.Ok]
  decide

example : evalXPath editSample 100 5 (S "//*[boolean(b) and not(@x='2')]/@y|//c[count(../b|../c)=2]") = .ok [.node 3, .node 5] := by run_query

end Amxml
