import Verif.Lemmas.AxisOrder
import Verif.Lemmas.Scope
import Verif.Lemmas.Decide
import Verif.Props.XNodes

/-!
# C32 (order of path results), C35 and C36 (predicates), C56 (associativity of `/`)
-/

namespace Amxml
open Spec

/-! ## C32 -/

theorem isNoAtom_ofNodes (l : List NodeId) : XSeq.isNoAtom (XSeq.ofNodes l) = true := by
  unfold XSeq.isNoAtom XSeq.ofNodes
  rw [List.all_map]
  simp [XItem.asNode, Function.comp_def]

theorem ofNodes_toNodeset {s : XSeq} (h : XSeq.isNoAtom s = true) : XSeq.ofNodes (XSeq.toNodeset s) = s := by
  unfold XSeq.isNoAtom XSeq.ofNodes XSeq.toNodeset at *
  induction s with
  | nil => rfl
  | cons x s ih =>
    simp only [List.all_cons, Bool.and_eq_true] at h
    cases x <;> simp_all [XItem.asNode]

/-- What the loop of a path collects when the right side only yields nodes of a set. -/
theorem pathLoop_nodes {f : XItem → E XSeq} {D : List NodeId} (lhs : XSeq)
    (hf : ∀ x ∈ lhs, ∀ env v env', f x env = .ok (v, env') → ∃ l, v = XSeq.ofNodes l ∧ ∀ i ∈ l, i ∈ D) :
    ∀ (nd : Bool) env r env', pathLoop f nd false lhs env = .ok (r, env') →
      ∃ l, r.2 = XSeq.ofNodes l ∧ (∀ i ∈ l, i ∈ D) ∧ (r.1 = false → l = []) := by
  induction lhs with
  | nil => intro nd env r env' h; cases h; exact ⟨[], rfl, by simp, fun _ => rfl⟩
  | cons x lhs ih =>
    intro nd env r env' h
    have ih := ih fun y hy => hf y (by simp [hy])
    unfold pathLoop at h
    rw [E.bind_run] at h
    cases hx : f x env with
    | error e => rw [hx] at h; cases h
    | ok q =>
      obtain ⟨v, e⟩ := q
      rw [hx] at h
      simp only at h
      obtain ⟨l, rfl, hl⟩ := hf x (by simp) _ _ _ hx
      split at h
      · exact ih _ _ _ _ h
      · rw [isNoAtom_ofNodes] at h
        simp only [Bool.or_true, Bool.not_true, Bool.or_false, Bool.and_false, Bool.false_eq_true, if_false] at h
        rw [E.bind_run] at h
        cases hr : pathLoop f true false lhs e with
        | error e => rw [hr] at h; cases h
        | ok q =>
          obtain ⟨q, e'⟩ := q
          rw [hr] at h
          simp only [E.pure_run, Except.ok.injEq, Prod.mk.injEq] at h
          obtain ⟨rfl, rfl⟩ := h
          obtain ⟨m, hm1, hm2, hm3⟩ := ih _ _ _ _ hr
          refine ⟨l ++ m, ?_, ?_, ?_⟩
          · simp [hm1, XSeq.ofNodes]
          · intro i hi
            rcases List.mem_append.1 hi with hi | hi
            · exact hl i hi
            · exact hm2 i hi
          · intro h0
            exfalso
            have mono : ∀ (lhs : XSeq) (e : Env) (q : Bool × XSeq) (e' : Env), pathLoop f true false lhs e = .ok (q, e') → q.1 = true := by
              intro lhs
              induction lhs with
              | nil => intro e q e' h; cases h; rfl
              | cons y lhs ih2 =>
                intro e q e' h
                unfold pathLoop at h
                rw [E.bind_run] at h
                cases hy : f y e with
                | error e => rw [hy] at h; cases h
                | ok p =>
                  obtain ⟨v, e1⟩ := p
                  rw [hy] at h
                  simp only [Bool.true_or] at h
                  split at h
                  · exact ih2 _ _ _ h
                  · cases hv : XSeq.isNoAtom v with
                    | false => rw [hv] at h; cases h
                    | true =>
                      rw [hv] at h
                      simp only [Bool.not_true, Bool.or_false, Bool.and_false, Bool.false_eq_true, if_false] at h
                      rw [E.bind_run] at h
                      cases h3 : pathLoop f true false lhs e1 with
                      | error e => rw [h3] at h; cases h
                      | ok p =>
                        obtain ⟨p, e2⟩ := p
                        have h3' := ih2 _ _ _ h3
                        rw [h3] at h
                        simp only [E.pure_run, Except.ok.injEq, Prod.mk.injEq] at h
                        rw [← h.1]; exact h3'
            rw [mono _ _ _ _ hr] at h0
            cases h0

theorem filterLoop_sublist {ev : Evaluator} {p : XNode} {rev : Bool} {last : Nat} (s : XSeq) :
    ∀ i env r env', filterLoop ev p rev last i s env = .ok (r, env') → r.Sublist s := by
  induction s with
  | nil => intro i env r env' h; cases h; exact List.Sublist.refl _
  | cons x s ih =>
    intro i env r env' h
    unfold filterLoop at h
    simp only [E.bind_run] at h
    cases ha : atPosition ev p (if rev = true then last - i else i + 1) last x env with
    | error e => rw [ha] at h; cases h
    | ok q =>
      obtain ⟨v, e⟩ := q
      rw [ha] at h
      simp only at h
      cases hf : filterLoop ev p rev last (i + 1) s e with
      | error e => rw [hf] at h; cases h
      | ok q =>
        obtain ⟨q, e'⟩ := q
        rw [hf] at h
        simp only [E.pure_run, Except.ok.injEq, Prod.mk.injEq] at h
        obtain ⟨rfl, rfl⟩ := h
        by_cases hk : keeps (if rev = true then last - i else i + 1) v = true
        · rw [if_pos hk]; exact (ih _ _ _ _ hf).cons_cons x
        · rw [if_neg hk]; exact (ih _ _ _ _ hf).cons x

theorem filterByPredicate_sublist {ev : Evaluator} {p : XNode} {rev : Bool} {s r : XSeq} {env env' : Env}
    (h : filterByPredicate ev s p rev env = .ok (r, env')) : r.Sublist s := by
  unfold filterByPredicate at h
  split at h
  · cases h
  · exact filterLoop_sublist s _ _ _ _ h

theorem filterByPredicates_sublist {ev : Evaluator} (ps : List XNode) :
    ∀ (s : XSeq) env r env', filterByPredicates ev ps s env = .ok (r, env') → r.Sublist s := by
  induction ps with
  | nil => intro s env r env' h; cases h; exact List.Sublist.refl _
  | cons p ps ih =>
    intro s env r env' h
    have key : ∀ rev, (do
        let r ← filterByPredicate ev s p.left rev
        filterByPredicates ev ps r : E XSeq) env = .ok (r, env') → r.Sublist s := by
      intro rev h
      rw [E.bind_run] at h
      cases hf : filterByPredicate ev s p.left rev env with
      | error e => rw [hf] at h; cases h
      | ok q =>
        obtain ⟨q, e⟩ := q
        rw [hf] at h
        exact (ih _ _ _ _ h).trans (filterByPredicate_sublist hf)
    have hrun : filterByPredicates ev (p :: ps) s = if p.ty = .predicateTop then (do
        let r ← filterByPredicate ev s p.left false
        filterByPredicates ev ps r : E XSeq) else if p.ty = .predicateRevTop then (do
        let r ← filterByPredicate ev s p.left true
        filterByPredicates ev ps r : E XSeq) else liftE (.error .cantOccur) := by
      rw [filterByPredicates]
      cases p.ty <;> rfl
    rw [hrun] at h
    split at h
    · exact key _ h
    · split at h
      · exact key _ h
      · cases h

/-- The values of the operands of an operator that evaluates both. -/
theorem binary_run {h : Heap} {c : XSeq} {t : XNodeType} {n : Str} {a b : XNode} {f : XSeq → XSeq → Except XErr XSeq}
    (ht : ∀ call ev, evalStep h call ev c (.node t n a b) = (do
      let l ← ev c a
      let r ← ev c b
      liftE (f l r) : E XSeq)) {env env' : Env} {v : XSeq} (he : evaluate h c (.node t n a b) env = .ok (v, env')) :
    ∃ va vb e1, evaluate h c a env = .ok (va, e1) ∧ evaluate h c b e1 = .ok (vb, env') ∧ f va vb = .ok v := by
  rw [evaluate_eq, ht] at he
  rw [E.bind_run] at he
  cases ha : evaluate h c a env with
  | error e => rw [ha] at he; cases he
  | ok q =>
    obtain ⟨va, e1⟩ := q
    rw [ha] at he
    simp only at he
    rw [E.bind_run] at he
    cases hb : evaluate h c b e1 with
    | error e => rw [hb] at he; cases he
    | ok q =>
      obtain ⟨vb, e2⟩ := q
      rw [hb] at he
      simp only at he
      cases hf : f va vb with
      | error e => rw [hf] at he; cases he
      | ok w =>
        rw [hf] at he
        cases he
        exact ⟨va, vb, e1, rfl, hb, hf⟩

theorem Spec.PathExpr.not_nil {x : XNode} (hx : PathExpr x) : x.isNil = false := by
  cases hx with
  | step ht =>
    simp only [axes, List.mem_cons, List.not_mem_nil, or_false] at ht
    rcases ht with rfl | rfl | rfl | rfl | rfl | rfl | rfl | rfl | rfl | rfl | rfl | rfl | rfl <;> rfl
  | _ => rfl

theorem sublist_ofNodes {l : List NodeId} {s : XSeq} (h : s.Sublist (XSeq.ofNodes l)) :
    ∃ m, s = XSeq.ofNodes m ∧ m.Sublist l := by
  obtain ⟨m, hm, e⟩ := List.sublist_map_iff.1 h
  exact ⟨m, e, hm⟩

theorem evalOrEmpty_of {ev : Evaluator} {c : XSeq} {x : XNode} (hx : x.isNil = false) : evalOrEmpty ev c x = ev c x := by
  unfold evalOrEmpty
  rw [hx]; rfl

/-- **C32** for path expressions: evaluated at a node of a document, a path expression whose steps have any predicates yields nodes of
that document, without duplicates and in document order (a sublist of the nodes in document order) — or it fails, or a predicate does
not end. -/
theorem C32_path_order (h : Heap) (hr : Reach h) (r : NodeId) (F : Forest NodeId) (hd : DocTree h r F) (hp : PlainAttrs h r F)
    (x : XNode) (hx : PathExpr x) (i : NodeId) (hi : i ∈ docIds h (.cons r F .nil)) (env env' : Env) (v : XSeq)
    (he : evaluate h [.node i] x env = .ok (v, env')) :
    ∃ l, v = XSeq.ofNodes l ∧ l.Sublist (docIds h (.cons r F .nil)) := by
  have hw := hr.inv.1
  have hc := C23_never_stale h hr r F hd
  have hsort := fun l hl => sortByDocOrder_spec hd hc l hl
  induction hx generalizing i env env' v with
  | @step t n l rr ht =>
    rw [evaluate_eq] at he
    have hst : evalStep h (call h) (evaluate h) [.node i] (.node t n l rr) =
        locationPath h (evaluate h) [.node i] (.node t n l rr) := by
      simp only [axes, List.mem_cons, List.not_mem_nil, or_false] at ht
      rcases ht with rfl | rfl | rfl | rfl | rfl | rfl | rfl | rfl | rfl | rfl | rfl | rfl | rfl <;> rfl
    rw [hst] at he
    unfold locationPath at he
    simp only [XSeq.toNodeset, List.filterMap_cons, XItem.asNode, List.filterMap_nil, listE, E.bind_run] at he
    cases hl : locStep h (evaluate h) (.node t n l rr) i env with
    | error e => rw [hl] at he; cases he
    | ok q =>
      obtain ⟨q, e⟩ := q
      rw [hl] at he
      simp only [E.pure_run, Except.ok.injEq, Prod.mk.injEq] at he
      obtain ⟨rfl, rfl⟩ := he
      unfold locStep at hl
      cases hm : axisNodes h i (.node t n l rr) with
      | none => rw [hm] at hl; cases hl
      | some m =>
        rw [hm] at hl
        obtain ⟨k, rfl, hk⟩ := sublist_ofNodes (filterByPredicates_sublist _ _ _ _ _ hl)
        refine ⟨k, ?_, hk.trans (axisNodes_sublist hw hd hp hi hm)⟩
        show XSeq.ofNodes ([XSeq.ofNodes k].flatMap XSeq.toNodeset) = _
        simp [toNodeset_ofNodes]
  | context =>
    rw [evaluate_eq] at he
    cases he
    exact ⟨[i], rfl, List.singleton_sublist.2 hi⟩
  | @slash n a b ha hb iha ihb =>
    rw [evaluate_eq] at he
    have hst : evalStep h (call h) (evaluate h) [.node i] (.node .operatorPath n a b) = (do
        let l ← evaluate h [.node i] a
        pathOver h (fun i => evaluate h [i] b) l : E XSeq) := by
      simp only [evalStep, XNode.ty, XNode.left, XNode.right, evalOrEmpty, ha.not_nil, hb.not_nil, Bool.false_eq_true, if_false]
    rw [hst, E.bind_run] at he
    cases hl : evaluate h [.node i] a env with
    | error e => rw [hl] at he; cases he
    | ok q =>
      obtain ⟨q, e⟩ := q
      rw [hl] at he
      obtain ⟨l, rfl, hlD⟩ := iha i hi _ _ _ hl
      simp only [pathOver, isNoAtom_ofNodes, if_true] at he
      rw [E.bind_run] at he
      cases hpl : pathLoop (fun i => evaluate h [i] b) false false (XSeq.ofNodes l) e with
      | error e => rw [hpl] at he; cases he
      | ok q =>
        obtain ⟨q, e'⟩ := q
        rw [hpl] at he
        obtain ⟨m, hm1, hm2, hm3⟩ := pathLoop_nodes (D := docIds h (.cons r F .nil)) (XSeq.ofNodes l) (by
          intro x hx env v env' hev
          obtain ⟨j, hj, rfl⟩ := List.mem_map.1 hx
          obtain ⟨k, hk1, hk2⟩ := ihb j (hlD.subset hj) _ _ _ hev
          exact ⟨k, hk1, fun i hi => hk2.subset hi⟩) _ _ _ _ hpl
        simp only at he
        cases hq : q.1 with
        | false =>
          rw [hq, hm1, hm3 hq] at he
          cases he
          exact ⟨[], rfl, List.nil_sublist _⟩
        | true =>
          rw [hq, hm1, toNodeset_ofNodes] at he
          cases he
          exact ⟨_, rfl, (hsort m hm2).1⟩
  | @last n a ha iha =>
    rw [evaluate_eq] at he
    have hst : evalStep h (call h) (evaluate h) [.node i] (.node .operatorPath n a .nil) = evaluate h [.node i] a := by
      simp only [evalStep, XNode.ty, XNode.left, XNode.right, evalOrEmpty, ha.not_nil, Bool.false_eq_true, if_false]
      simp [XNode.isNil, XNode.ty]
    rw [hst] at he
    exact iha i hi _ _ _ he
  | @filter n a p ha iha =>
    rw [evaluate_eq] at he
    simp only [evalStep, XNode.ty, XNode.left, XNode.right] at he
    rw [E.bind_run] at he
    cases hl : evaluate h [.node i] a env with
    | error e => rw [hl] at he; cases he
    | ok q =>
      obtain ⟨q, e⟩ := q
      rw [hl] at he
      obtain ⟨l, rfl, hlD⟩ := iha i hi _ _ _ hl
      obtain ⟨m, rfl, hm⟩ := sublist_ofNodes (filterByPredicate_sublist he)
      exact ⟨m, rfl, hm.trans hlD⟩
  | @paren n a rr ha iha =>
    rw [evaluate_eq] at he
    have hst : evalStep h (call h) (evaluate h) [.node i] (.node .parenthesizedExpr n a rr) = evaluate h [.node i] a :=
      evalOrEmpty_of ha.not_nil
    rw [hst] at he
    exact iha i hi _ _ _ he
  | @union n a b ha hb iha ihb =>
    obtain ⟨va, vb, e1, h1, h2, h3⟩ := binary_run (f := opUnion h) (fun _ _ => rfl) he
    obtain ⟨l, rfl, hl⟩ := iha i hi _ _ _ h1
    obtain ⟨m, rfl, hm⟩ := ihb i hi _ _ _ h2
    cases h3
    refine ⟨_, rfl, (hsort _ ?_).1⟩
    intro j hj
    simp only [toNodeset_ofNodes, List.mem_append] at hj
    rcases hj with hj | hj
    · exact hl.subset hj
    · exact hm.subset hj
  | @intersect n a b ha hb iha ihb =>
    obtain ⟨va, vb, e1, h1, h2, h3⟩ := binary_run (f := opIntersect) (fun _ _ => rfl) he
    obtain ⟨l, rfl, hl⟩ := iha i hi _ _ _ h1
    cases h3
    refine ⟨_, rfl, List.filter_sublist.trans ?_⟩
    rw [toNodeset_ofNodes]; exact hl
  | @except n a b ha hb iha ihb =>
    obtain ⟨va, vb, e1, h1, h2, h3⟩ := binary_run (f := opExcept) (fun _ _ => rfl) he
    obtain ⟨l, rfl, hl⟩ := iha i hi _ _ _ h1
    cases h3
    refine ⟨_, rfl, List.filter_sublist.trans ?_⟩
    rw [toNodeset_ofNodes]; exact hl

/-- The loop of a path over values that are all sequences of nodes. -/
theorem pathLoop_value_nodes {f : XItem → E XSeq} {env : Env} (w : XItem → XSeq) (s : XSeq) (nd : Bool)
    (hf : ∀ x ∈ s, f x env = .ok (w x, env)) (hw : ∀ x ∈ s, XSeq.isNoAtom (w x) = true) :
    pathLoop f nd false s env = .ok ((nd || s.any fun x => !(w x).isEmpty, s.flatMap w), env) := by
  induction s generalizing nd with
  | nil => simp [pathLoop, E.pure_run]
  | cons x s ih =>
    have ih := fun nd => ih nd (fun y hy => hf y (by simp [hy])) (fun y hy => hw y (by simp [hy]))
    unfold pathLoop
    rw [E.bind_run, hf x (by simp)]
    simp only
    cases he : (w x).isEmpty with
    | true =>
      simp only [if_true, ih]
      rw [List.isEmpty_iff] at he
      simp [he]
    | false =>
      rw [hw x (by simp)]
      simp only [Bool.or_true, Bool.not_true, Bool.or_false, Bool.and_false, Bool.false_eq_true, if_false]
      rw [E.bind_run, ih true]
      simp [E.pure_run, he]

/-- The same over values that are empty or contain an item that is not a node. -/
theorem pathLoop_value_atoms {f : XItem → E XSeq} {env : Env} (w : XItem → XSeq) (s : XSeq) (at' : Bool)
    (hf : ∀ x ∈ s, f x env = .ok (w x, env)) (hw : ∀ x ∈ s, w x = [] ∨ XSeq.isNoAtom (w x) = false) :
    pathLoop f false at' s env = .ok ((false, s.flatMap w), env) := by
  induction s generalizing at' with
  | nil => simp [pathLoop, E.pure_run]
  | cons x s ih =>
    have ih := fun nd => ih nd (fun y hy => hf y (by simp [hy])) (fun y hy => hw y (by simp [hy]))
    unfold pathLoop
    rw [E.bind_run, hf x (by simp)]
    simp only
    rcases hw x (by simp) with he | he
    · simp [he, ih]
    · have hne : (w x).isEmpty = false := by
        cases hx : w x with
        | nil => rw [hx] at he; cases he
        | cons _ _ => rfl
      rw [hne, he]
      simp only [Bool.or_false, Bool.not_false, Bool.or_true, Bool.false_and, Bool.false_eq_true, if_false]
      rw [E.bind_run, ih true]
      simp [E.pure_run]

/-- How `/` evaluates its operands. -/
theorem slash_value {h : Heap} {c : XSeq} {nm : Str} {a b : XNode} {env : Env} {l : List NodeId}
    (ha : Value h c a env (XSeq.ofNodes l)) (hb : b.isNil = false) :
    evaluate h c (.node .operatorPath nm a b) env = pathOver h (fun i => evaluate h [i] b) (XSeq.ofNodes l) env := by
  have han : a.isNil = false := by
    cases hn : a.isNil with
    | false => rfl
    | true =>
      exfalso
      unfold XNode.isNil at hn
      have hn := eq_of_beq hn
      unfold Value at ha
      rw [evaluate_eq] at ha
      unfold evalStep at ha
      rw [hn] at ha
      cases ha
  rw [evaluate_eq]
  have hst : evalStep h (call h) (evaluate h) c (.node .operatorPath nm a b) = (do
      let l ← evaluate h c a
      pathOver h (fun i => evaluate h [i] b) l : E XSeq) := by
    simp only [evalStep, XNode.ty, XNode.left, XNode.right, evalOrEmpty, han, hb, Bool.false_eq_true, if_false]
  rw [hst, E.bind_run]
  unfold Value at ha
  rw [ha]

/-- **C32**, contents: `A/B`, where `A` yields nodes of a document and `B` yields nodes of it for each of them, yields exactly the
nodes that `B` yields for some node of `A`, each once, in document order. -/
theorem C32_path_members (h : Heap) (hr : Reach h) (r : NodeId) (F : Forest NodeId) (hd : DocTree h r F)
    (c : XSeq) (nm : Str) (a b : XNode) (hb : b.isNil = false) (env : Env) (l : List NodeId) (w : NodeId → List NodeId)
    (ha : Value h c a env (XSeq.ofNodes l))
    (hw : ∀ i ∈ l, Value h [.node i] b env (XSeq.ofNodes (w i)))
    (hD : ∀ i ∈ l, ∀ j ∈ w i, j ∈ docIds h (.cons r F .nil)) :
    ∃ m, Value h c (.node .operatorPath nm a b) env (XSeq.ofNodes m) ∧ m.Sublist (docIds h (.cons r F .nil)) ∧
      ∀ j, j ∈ m ↔ ∃ i ∈ l, j ∈ w i := by
  have hs := sortByDocOrder_spec hd (C23_never_stale h hr r F hd) (l.flatMap w) (by
    intro j hj
    obtain ⟨i, hi, hj⟩ := List.mem_flatMap.1 hj
    exact hD i hi j hj)
  refine ⟨sortByDocOrder h (l.flatMap w), ?_, hs.1, fun j => by rw [hs.2]; simp [List.mem_flatMap]⟩
  unfold Value
  rw [slash_value ha hb]
  unfold pathOver
  rw [isNoAtom_ofNodes, if_pos rfl, E.bind_run]
  have hl := pathLoop_value_nodes (f := fun i => evaluate h [i] b) (env := env)
    (fun x => match x with | .node i => XSeq.ofNodes (w i) | _ => []) (XSeq.ofNodes l) false
    (by intro x hx
        obtain ⟨i, hi, rfl⟩ := List.mem_map.1 hx
        exact hw i hi)
    (by intro x hx
        obtain ⟨i, hi, rfl⟩ := List.mem_map.1 hx
        exact isNoAtom_ofNodes _)
  rw [hl]
  have e1 : (XSeq.ofNodes l).flatMap (fun x => match x with | .node i => XSeq.ofNodes (w i) | _ => []) = XSeq.ofNodes (l.flatMap w) := by
    unfold XSeq.ofNodes
    rw [List.flatMap_map, List.map_flatMap]
  simp only [e1, Bool.false_or]
  split
  · rw [toNodeset_ofNodes]; rfl
  · rename_i hany
    have : l.flatMap w = [] := by
      rw [List.flatMap_eq_nil_iff]
      intro i hi
      simp only [List.any_eq_true, not_exists, not_and] at hany
      have := hany (.node i) (List.mem_map.2 ⟨i, hi, rfl⟩)
      simpa [XSeq.ofNodes] using this
    rw [this]; rfl

/-- **C32**, atomic results: if `B` yields no or not only nodes for every node of `A`, then `A/B` is the concatenation of what it yields. -/
theorem C32_path_atoms (h : Heap) (c : XSeq) (nm : Str) (a b : XNode) (hb : b.isNil = false) (env : Env) (l : List NodeId)
    (w : NodeId → XSeq) (ha : Value h c a env (XSeq.ofNodes l)) (hw : ∀ i ∈ l, Value h [.node i] b env (w i))
    (hat : ∀ i ∈ l, w i = [] ∨ ∃ x ∈ w i, ∀ j, x ≠ .node j) :
    Value h c (.node .operatorPath nm a b) env (l.flatMap w) := by
  unfold Value
  rw [slash_value ha hb]
  unfold pathOver
  rw [isNoAtom_ofNodes, if_pos rfl, E.bind_run]
  have hl := pathLoop_value_atoms (f := fun i => evaluate h [i] b) (env := env)
    (fun x => match x with | .node i => w i | _ => []) (XSeq.ofNodes l) false
    (by intro x hx
        obtain ⟨i, hi, rfl⟩ := List.mem_map.1 hx
        exact hw i hi)
    (by intro x hx
        obtain ⟨i, hi, rfl⟩ := List.mem_map.1 hx
        rcases hat i hi with h0 | ⟨x, hx, hn⟩
        · exact Or.inl h0
        · refine Or.inr ?_
          unfold XSeq.isNoAtom
          rw [List.all_eq_false]
          refine ⟨x, hx, ?_⟩
          cases x <;> first | (exact absurd rfl (hn _)) | simp [XItem.asNode])
  rw [hl]
  simp only [Bool.false_eq_true, if_false, E.pure_run]
  rw [XSeq.ofNodes, List.flatMap_map]

/-- **C57**: if the text is a path expression, `get_nodeset` on a node of a document gives nodes of the document in
document order without duplicates, whatever the depth of recursion allowed. -/
theorem C57_nodeset_order_partial (h : Heap) (hr : Reach h) (r : NodeId) (F : Forest NodeId) (hd : DocTree h r F) (hp : PlainAttrs h r F)
    (q : Str) (x : XNode) (hq : Parser.compileXPath q = .ok x) (hx : PathExpr x) (i : NodeId)
    (hi : i ∈ docIds h (.cons r F .nil)) (n : Nat) (l : List NodeId) (he : getNodeset h n i q = .ok l) :
    l.Sublist (docIds h (.cons r F .nil)) := by
  unfold getNodeset evalXPath matchXPath at he
  rw [hq] at he
  simp only at he
  cases hev : eval h n [.node i] x Env.new with
  | error e => rw [hev] at he; cases he
  | ok v =>
    obtain ⟨v, e⟩ := v
    rw [hev] at he
    cases he
    obtain ⟨m, rfl, hm⟩ := C32_path_order h hr r F hd hp x hx i hi _ _ _ (evaluate_of_eval hev (by simp))
    rw [toNodeset_ofNodes]; exact hm

/-- **C57** is false of the code in general: the nodes of a sequence expression, of a `for` expression and of `intersect` with such a left
operand come in the order of the expression, and not only once. -/
theorem C57_violated :
    getNodeset editSample 20 0 (S "(//c, //b, //c)") = .ok [5, 4, 5] ∧
    getNodeset editSample 20 0 (S "for $x in (2, 1) return /a/*[$x = 2 and position() = 2 or $x = 1 and position() = 1]") = .ok [5, 4] ∧
    getNodeset editSample 20 0 (S "(//c, //b) intersect /a/*") = .ok [5, 4] := by
  refine ⟨?_, ?_, ?_⟩ <;> decide +kernel

/-! ## C56 -/

/-- **C56**: `/` is associative on nodes: for operands that yield nodes of a document, `(A/B)/C` and `A/(B/C)` have the same value. -/
theorem C56_associative_partial (h : Heap) (hr : Reach h) (r : NodeId) (F : Forest NodeId) (hd : DocTree h r F)
    (c : XSeq) (n1 n2 n3 n4 : Str) (a b x : XNode) (hb : b.isNil = false) (hx : x.isNil = false) (env : Env) (l : List NodeId)
    (wb wx : NodeId → List NodeId) (ha : Value h c a env (XSeq.ofNodes l))
    (hwb : ∀ i ∈ l, Value h [.node i] b env (XSeq.ofNodes (wb i)))
    (hwx : ∀ i ∈ l, ∀ j ∈ wb i, Value h [.node j] x env (XSeq.ofNodes (wx j)))
    (hDb : ∀ i ∈ l, ∀ j ∈ wb i, j ∈ docIds h (.cons r F .nil))
    (hDx : ∀ i ∈ l, ∀ j ∈ wb i, ∀ k ∈ wx j, k ∈ docIds h (.cons r F .nil)) :
    ∃ m, Value h c (.node .operatorPath n1 (.node .operatorPath n2 a b) x) env (XSeq.ofNodes m) ∧
      Value h c (.node .operatorPath n3 a (.node .operatorPath n4 b x)) env (XSeq.ofNodes m) ∧
      ∀ k, k ∈ m ↔ ∃ i ∈ l, ∃ j ∈ wb i, k ∈ wx j := by
  obtain ⟨m1, v1, s1, i1⟩ := C32_path_members h hr r F hd c n2 a b hb env l wb ha hwb hDb
  obtain ⟨m2, v2, s2, i2⟩ := C32_path_members h hr r F hd c n1 _ x hx env m1 wx v1
    (by intro j hj; obtain ⟨i, hi, hj⟩ := (i1 j).1 hj; exact hwx i hi j hj)
    (by intro j hj; obtain ⟨i, hi, hj⟩ := (i1 j).1 hj; exact hDx i hi j hj)
  have hin : ∀ i : NodeId, ∃ m : List NodeId, i ∈ l → Value h [.node i] (.node .operatorPath n4 b x) env (XSeq.ofNodes m) ∧
      m.Sublist (docIds h (.cons r F .nil)) ∧ ∀ k, k ∈ m ↔ ∃ j ∈ wb i, k ∈ wx j := by
    intro i
    by_cases hi : i ∈ l
    · obtain ⟨m, h1, h2, h3⟩ := C32_path_members h hr r F hd [.node i] n4 b x hx env (wb i) wx (hwb i hi) (hwx i hi) (hDx i hi)
      exact ⟨m, fun _ => ⟨h1, h2, h3⟩⟩
    · exact ⟨[], fun h => absurd h hi⟩
  choose w hw using hin
  obtain ⟨m3, v3, s3, i3⟩ := C32_path_members h hr r F hd c n3 a _ rfl env l w ha (fun i hi => (hw i hi).1)
    (fun i hi j hj => (hw i hi).2.1.subset hj)
  have e : m2 = m3 := by
    refine sublist_ext hd.nodup s2 s3 fun k => ?_
    rw [i2, i3]
    constructor
    · rintro ⟨j, hj, hk⟩
      obtain ⟨i, hi, hj⟩ := (i1 j).1 hj
      exact ⟨i, hi, ((hw i hi).2.2 k).2 ⟨j, hj, hk⟩⟩
    · rintro ⟨i, hi, hk⟩
      obtain ⟨j, hj, hk⟩ := ((hw i hi).2.2 k).1 hk
      exact ⟨j, (i1 j).2 ⟨i, hi, hj⟩, hk⟩
  refine ⟨m2, v2, e ▸ v3, fun k => ?_⟩
  rw [i2]
  constructor
  · rintro ⟨j, hj, hk⟩
    obtain ⟨i, hi, hj⟩ := (i1 j).1 hj
    exact ⟨i, hi, j, hj, hk⟩
  · rintro ⟨i, hi, j, hj, hk⟩
    exact ⟨j, (i1 j).2 ⟨i, hi, hj⟩, hk⟩

/-- **C56** is false of the code when the last step yields atomic values: a path is grouped from the right, so the nodes before the last
step are not freed of duplicates. Without parentheses the name of the one parent is given twice. -/
theorem C56_violated :
    evalXPath editSample 20 0 (S "/a/*/../name()") = .ok [.string (S "a"), .string (S "a")] ∧
    evalXPath editSample 20 0 (S "(/a/*/..)/name()") = .ok [.string (S "a")] := by
  constructor <;> run_query

/-! ## C35 and C36 -/

theorem filterLoop_value {h : Heap} {p : XNode} {rev : Bool} {last : Nat} {env : Env} (w : Nat → XSeq) (s : XSeq) :
    ∀ i, (∀ k x, s[k]? = some x → Value h [x] p (atPos env (along rev last (i + k + 1)) last) (w (i + k + 1))) →
      filterLoop (evaluate h) p rev last i s env =
        .ok (selectFrom (fun k => keeps (along rev last k) (w k)) (i + 1) s, env) := by
  induction s with
  | nil => intro i _; rfl
  | cons x s ih =>
    intro i hv
    have h0 := hv 0 x rfl
    have ih := ih (i + 1) (by
      intro k y hy
      have := hv (k + 1) y (by simpa using hy)
      rwa [show i + 1 + k + 1 = i + (k + 1) + 1 by omega])
    have hpos : (if rev = true then last - i else i + 1) = along rev last (i + 1) := by
      unfold along; split <;> omega
    unfold filterLoop
    simp only [E.bind_run, hpos]
    have ha : atPosition (evaluate h) p (along rev last (i + 1)) last x env = .ok (w (i + 1), env) := by
      unfold atPosition
      unfold Value atPos at h0
      rw [h0]
    rw [ha]
    simp only [ih, E.pure_run, selectFrom]

theorem keeps_truth {position : Nat} {v : XSeq} {b : Bool} (hp : PlainPred v) (ht : PredTruth position v b) : keeps position v = b := by
  cases hp with
  | integer n =>
    unfold PredTruth at ht
    rw [ht]
    unfold keeps
    by_cases e : n = (position : Int)
    · simp [e]
    · simp [e]
  | boolean c => cases c <;> (cases ht; rfl)
  | node i => cases ht; rfl
  | empty => cases ht; rfl

theorem selectFrom_congr {f g : Nat → Bool} (s : XSeq) : ∀ i, (∀ k x, s[k]? = some x → f (i + k) = g (i + k)) →
    selectFrom f i s = selectFrom g i s := by
  induction s with
  | nil => intro i _; rfl
  | cons x s ih =>
    intro i hfg
    have h0 := hfg 0 x rfl
    rw [Nat.add_zero] at h0
    unfold selectFrom
    rw [h0, ih (i + 1) (by
      intro k y hy
      have := hfg (k + 1) y (by simpa using hy)
      rwa [show i + 1 + k = i + (k + 1) by omega])]

theorem Spec.Filter.run {h : Heap} {rev : Bool} {env : Env} {p : XNode} {s : XSeq} {T : Nat → Bool} (hf : Filter h rev env p s T)
    (hp : p.isNil = false) : filterByPredicate (evaluate h) s p rev env = .ok (select T s, env) := by
  unfold filterByPredicate
  rw [hp]
  simp only [Bool.false_eq_true, if_false]
  have : ∀ k, ∃ w : XSeq, ∀ x, s[k]? = some x → Value h [x] p (atPos env (along rev s.length (k + 1)) s.length) w ∧ PlainPred w ∧
      PredTruth (along rev s.length (k + 1)) w (T (k + 1)) := by
    intro k
    cases hx : s[k]? with
    | none => exact ⟨[], fun x hx => by cases hx⟩
    | some x =>
      obtain ⟨w, hw⟩ := hf k x hx
      exact ⟨w, fun y hy => by cases hy; exact hw⟩
  choose w hw using this
  rw [filterLoop_value (h := h) (env := env) (fun k => w (k - 1)) s 0 (by
    intro k x hx
    have := (hw k x hx).1
    simpa using this)]
  unfold select
  rw [selectFrom_congr s 1]
  intro k x hx
  obtain ⟨h1, h2, h3⟩ := hw k x hx
  have := keeps_truth h2 h3
  rw [Nat.add_comm 1 k]
  exact this

theorem selectFrom_none {f : Nat → Bool} (s : XSeq) : ∀ i, (∀ k, i ≤ k → k < i + s.length → f k = false) → selectFrom f i s = [] := by
  induction s with
  | nil => intro i _; rfl
  | cons x s ih =>
    intro i hf
    unfold selectFrom
    rw [hf i (by omega) (by simp), ih (i + 1) fun k h1 h2 => hf k (by omega) (by simp; omega)]
    rfl

theorem selectFrom_one {f : Nat → Bool} (s : XSeq) : ∀ i m, (∀ k, i ≤ k → k < i + s.length → (f k = true ↔ k = m)) → i ≤ m →
    selectFrom f i s = s[m - i]?.toList := by
  induction s with
  | nil => intro i m _ _; rfl
  | cons x s ih =>
    intro i m hf hm
    unfold selectFrom
    by_cases e : i = m
    · rw [if_pos ((hf i (by omega) (by simp)).2 e), selectFrom_none s (i + 1) fun k h1 h2 => by
        have := hf k (by omega) (by simp; omega)
        cases hk : f k with
        | false => rfl
        | true => have := this.1 hk; omega]
      subst e
      simp
    · rw [if_neg (fun h => e ((hf i (by omega) (by simp)).1 h)), ih (i + 1) m (fun k h1 h2 => hf k (by omega) (by simp; omega))
        (by omega)]
      obtain ⟨d, rfl⟩ : ∃ d, m = i + 1 + d := ⟨m - (i + 1), by omega⟩
      rw [show i + 1 + d - (i + 1) = d by omega, show i + 1 + d - i = d + 1 by omega]
      simp

/-- Selecting the position `n` along the axis. -/
theorem select_nth (rev : Bool) (n : Int) (s : XSeq) :
    select (fun k => decide (n = (along rev s.length k : Int))) s = nth (if rev then s.reverse else s) n := by
  unfold select
  by_cases hr : 1 ≤ n ∧ n ≤ s.length
  · obtain ⟨d, rfl⟩ : ∃ d : Nat, n = ((d + 1 : Nat) : Int) := ⟨(n - 1).toNat, by omega⟩
    have hd : d + 1 ≤ s.length := by omega
    cases rev with
    | false =>
      rw [selectFrom_one s 1 (d + 1) (by intro k h1 h2; simp only [along, Bool.false_eq_true, if_false, decide_eq_true_eq]; omega) (by omega)]
      rfl
    | true =>
      rw [selectFrom_one s 1 (s.length - d) (by
        intro k h1 h2; simp only [along, if_true, decide_eq_true_eq]; omega) (by omega)]
      show _ = s.reverse[d]?.toList
      rw [List.getElem?_reverse (by omega), show s.length - d - 1 = s.length - 1 - d by omega]
  · rw [selectFrom_none s 1 fun k h1 h2 => by
      simp only [decide_eq_false_iff_not]
      unfold along
      split <;> omega]
    rcases n with (_ | d) | d
    · rfl
    · show _ = (if rev = true then s.reverse else s)[d]?.toList
      rw [List.getElem?_eq_none]
      · rfl
      · have : ¬ (d + 1 ≤ s.length) := fun h => hr ⟨by show (1 : Int) ≤ ((d + 1 : Nat) : Int); omega, by show ((d + 1 : Nat) : Int) ≤ _; omega⟩
        cases rev <;> simp <;> omega
    · rfl

/-- How a filter evaluates. -/
theorem filter_value {h : Heap} {c : XSeq} {nm : Str} {a q : XNode} {env : Env} {s : XSeq} (ha : Value h c a env s) :
    evaluate h c (.node .applyPredicate nm a q) env = filterByPredicate (evaluate h) s q.left false env := by
  rw [evaluate_eq]
  simp only [evalStep, XNode.ty, XNode.left, XNode.right, E.bind_run]
  unfold Value at ha
  rw [ha]

/-- **C36**: `A[P]` keeps, in order, exactly the items of `A` for which `P` — evaluated with the item as context, its number as
position and the number of items as last — is true. -/
theorem C36_filter_partial (h : Heap) (c : XSeq) (nm m : Str) (t : XNodeType) (a p q : XNode) (hp : p.isNil = false) (env : Env) (s : XSeq)
    (ha : Value h c a env s) (T : Nat → Bool) (hf : Filter h false env p s T) :
    Value h c (.node .applyPredicate nm a (.node t m p q)) env (select T s) := by
  unfold Value
  rw [filter_value ha]
  exact hf.run hp

/-- **C35**: `A[P]`, where the value of `P` is the integer `n` for every item of `A`, is the `n`-th item of `A`, or empty if there is none. -/
theorem C35_filter_position (h : Heap) (c : XSeq) (nm m : Str) (t : XNodeType) (a p q : XNode) (hp : p.isNil = false) (env : Env)
    (s : XSeq) (ha : Value h c a env s) (n : Int)
    (hn : ∀ k x, s[k]? = some x → Value h [x] p (atPos env (k + 1) s.length) [.integer n]) :
    Value h c (.node .applyPredicate nm a (.node t m p q)) env (nth s n) := by
  have := C36_filter_partial h c nm m t a p q hp env s ha (fun k => decide (n = (along false s.length k : Int))) (by
    intro k x hx
    exact ⟨_, hn k x hx, .integer n, rfl⟩)
  rw [select_nth] at this
  exact this

theorem filterByPredicates_chain {ev : Evaluator} (rev : Bool) (ps : List XNode) (s : XSeq) :
    filterByPredicates ev (predChain rev (ps)).chain s =
      match ps with
      | [] => pure s
      | p :: ps => (do
        let r ← filterByPredicate ev s p rev
        filterByPredicates ev (predChain rev ps).chain r : E XSeq) := by
  cases ps with
  | nil => rfl
  | cons p ps => cases rev <;> rfl

theorem Spec.Filters.run {h : Heap} {rev : Bool} {env : Env} {ps : List XNode} {s v : XSeq} (hf : Filters h rev env ps s v)
    (hp : ∀ p ∈ ps, p.isNil = false) : filterByPredicates (evaluate h) (predChain rev ps).chain s env = .ok (v, env) := by
  induction hf with
  | nil => rfl
  | cons h1 h2 ih =>
    rw [filterByPredicates_chain]
    simp only [E.bind_run]
    rw [h1.run (hp _ (by simp))]
    exact ih fun p hp' => hp p (by simp [hp'])

/-- A step without predicates yields the nodes on the axis that pass the node test. -/
theorem step_run {h : Heap} {t : XNodeType} {n : Str} {l r : XNode} {i : NodeId} (ht : t ∈ axes) :
    evaluate h [.node i] (.node t n l r) = (do
      let v ← locStep h (evaluate h) (.node t n l r) i
      pure (XSeq.ofNodes v.toNodeset) : E XSeq) := by
  rw [evaluate_eq]
  have hst : evalStep h (call h) (evaluate h) [.node i] (.node t n l r) =
      locationPath h (evaluate h) [.node i] (.node t n l r) := by
    simp only [axes, List.mem_cons, List.not_mem_nil, or_false] at ht
    rcases ht with rfl | rfl | rfl | rfl | rfl | rfl | rfl | rfl | rfl | rfl | rfl | rfl | rfl <;> rfl
  rw [hst]
  unfold locationPath
  funext env
  simp only [XSeq.toNodeset, List.filterMap_cons, XItem.asNode, List.filterMap_nil, listE, E.bind_run]
  cases locStep h (evaluate h) (.node t n l r) i env with
  | error e => rfl
  | ok q => simp [E.pure_run]; rfl

theorem axisNodes_right (h : Heap) (i : NodeId) (t : XNodeType) (n : Str) (l r r' : XNode) :
    axisNodes h i (.node t n l r) = axisNodes h i (.node t n l r') := by
  cases t <;> rfl

/-- **C35** and **C36** for steps: `step[P1]…[Pn]` filters the value of `step` with the predicates one after the other, positions
counted along the axis (from the end if it is a reverse axis). -/
theorem C36_step_partial (h : Heap) (t : XNodeType) (ht : t ∈ axes) (n : Str) (l : XNode) (rev : Bool) (ps : List XNode)
    (hps : ∀ p ∈ ps, p.isNil = false) (i : NodeId) (env : Env) (s v : XSeq) (hs : Value h [.node i] (.node t n l .nil) env s)
    (hf : Filters h rev env ps s v) : Value h [.node i] (.node t n l (predChain rev ps)) env v := by
  unfold Value at *
  rw [step_run ht] at hs ⊢
  unfold locStep at *
  rw [axisNodes_right h i t n l (predChain rev ps) .nil]
  cases hm : axisNodes h i (.node t n l .nil) with
  | none => rw [hm] at hs; cases hs
  | some m =>
    rw [hm] at hs
    simp only [XNode.right, XNode.chain, filterByPredicates, E.bind_run, E.pure_run, Except.ok.injEq, Prod.mk.injEq, and_true,
      toNodeset_ofNodes] at hs
    subst hs
    have hrun := hf.run hps
    simp only [XNode.right, E.bind_run, hrun, E.pure_run, Except.ok.injEq, Prod.mk.injEq, and_true]
    obtain ⟨k, rfl, -⟩ := sublist_ofNodes (filterByPredicates_sublist _ _ _ _ _ hrun)
    rw [toNodeset_ofNodes]

/-- **C35** for steps: `step[P]`, where the value of `P` is the integer `n` for every node of `step`, is the `n`-th node of `step`
counted along the axis, or empty if there is none. -/
theorem C35_step_position (h : Heap) (t : XNodeType) (ht : t ∈ axes) (n : Str) (l p : XNode) (rev : Bool)
    (hp : p.isNil = false) (i : NodeId) (env : Env) (s : XSeq) (hs : Value h [.node i] (.node t n l .nil) env s) (m : Int)
    (hn : ∀ k x, s[k]? = some x → Value h [x] p (atPos env (along rev s.length (k + 1)) s.length) [.integer m]) :
    Value h [.node i] (.node t n l (predChain rev [p])) env (nth (if rev then s.reverse else s) m) := by
  refine C36_step_partial h t ht n l rev [p] (by simpa using hp) i env s _ hs ?_
  rw [← select_nth]
  refine .cons (T := fun k => decide (m = (along rev s.length k : Int))) (fun k x hx => ⟨_, hn k x hx, .integer m, rfl⟩) .nil

/-- **C35**, `position()` and `last()` are the numbers the predicate is evaluated with. -/
theorem C35_position_last (h : Heap) (c : XSeq) (env : Env) (l : XNode) (position last : Nat) :
    Value h c (.node .functionCall (S "fn:position") l .nil) (atPos env position last) [.integer position] ∧
    Value h c (.node .functionCall (S "fn:last") l .nil) (atPos env position last) [.integer last] := by
  unfold Value
  constructor <;> (rw [evaluate_eq]; rfl)

/-- An integer literal has the same value everywhere, so `A[3]` is the third item. -/
theorem C35_literal (h : Heap) (c : XSeq) (env : Env) (n : Str) (l r : XNode) :
    Value h c (.node .integerLiteral n l r) env [.integer (atoi n)] := by
  unfold Value
  rw [evaluate_eq]; rfl

/-- **C36** is false of the code for other values: a predicate whose value is a string, a number that is not an integer, or several
nodes drops the item although its effective boolean value is true (and `1.0` is the first position). -/
theorem C36_violated :
    evalXPath .empty 20 0 (S "(1, 2)['x']") = .ok [] ∧
    evalXPath .empty 20 0 (S "(1, 2)[boolean('x')]") = .ok [.integer 1, .integer 2] ∧
    evalXPath .empty 20 0 (S "(1, 2)[1.0]") = .ok [] ∧
    evalXPath editSample 20 0 (S "/a[*]") = .ok [] ∧
    evalXPath editSample 20 0 (S "/a[boolean(*)]") = .ok [.node 1] := by
  refine ⟨?_, ?_, ?_, ?_, ?_⟩ <;> run_query

/-! ## The hypotheses are met -/

/-- A checker for path expressions. -/
def isPathExpr : XNode → Bool
  | .nil => false
  | .node t _ l r =>
    decide (t ∈ axes) || decide (t = .contextItem) ||
    (decide (t = .operatorPath) && isPathExpr l && (isPathExpr r || match r with | .nil => true | _ => false)) ||
    (decide (t = .applyPredicate ∨ t = .parenthesizedExpr) && isPathExpr l) ||
    (decide (t = .operatorUnion ∨ t = .operatorIntersect ∨ t = .operatorExcept) && isPathExpr l && isPathExpr r)

theorem isPathExpr_sound {x : XNode} (h : isPathExpr x = true) : PathExpr x := by
  induction x with
  | nil => cases h
  | node t n l r ihl ihr =>
    simp only [isPathExpr, Bool.or_eq_true, Bool.and_eq_true, decide_eq_true_eq] at h
    rcases h with (((h | rfl) | ⟨⟨rfl, hl⟩, hr⟩) | ⟨h, hl⟩) | ⟨⟨h, hl⟩, hr⟩
    · exact .step h
    · exact .context
    · rcases hr with hr | hr
      · exact .slash (ihl hl) (ihr hr)
      · cases r with
        | nil => exact .last (ihl hl)
        | node _ _ _ _ => cases hr
    · rcases h with rfl | rfl
      · exact .filter (ihl hl)
      · exact .paren (ihl hl)
    · rcases h with rfl | rfl | rfl
      · exact .union (ihl hl) (ihr hr)
      · exact .intersect (ihl hl) (ihr hr)
      · exact .except (ihl hl) (ihr hr)

/-- The text is accepted and is a path expression. -/
def pathQuery (q : Str) : Bool :=
  match Parser.compileXPath q with
  | .ok x => isPathExpr x
  | .error _ => false

theorem pathQuery_sound {q : Str} (h : pathQuery q = true) : ∃ x, Parser.compileXPath q = .ok x ∧ PathExpr x := by
  unfold pathQuery at h
  cases hq : Parser.compileXPath q with
  | ok x => rw [hq] at h; exact ⟨x, rfl, isPathExpr_sound h⟩
  | error e => rw [hq] at h; cases h

theorem editSample_plain : PlainAttrs editSample 0 (.cons 1 (.cons 4 .nil (.cons 5 .nil .nil)) .nil) :=
  ⟨by decide +kernel, by decide +kernel⟩

/-- C32 applies to a query with predicates, reverse axes, parentheses and a union; it has four nodes in the sample document, found more
than once and out of order. -/
example : pathQuery (S "//c/preceding-sibling::*[1]/../@*|(//*[position() < 3]/..)[1]/a") = true ∧
    getNodeset editSample 20 0 (S "//c/preceding-sibling::*[1]/../@*|//c/..|//b/..") = .ok [1, 2, 3] ∧
    ∀ n l, getNodeset editSample n 5 (S "//c/preceding-sibling::*[1]/../@*|//c/..|//b/..") = .ok l →
      l.Sublist [0, 1, 2, 3, 4, 5] := by
  refine ⟨by decide +kernel, by decide +kernel, fun n l h => ?_⟩
  obtain ⟨x, hq, hx⟩ := pathQuery_sound (q := S "//c/preceding-sibling::*[1]/../@*|//c/..|//b/..") (by decide +kernel)
  exact C57_nodeset_order_partial editSample (.parse .empty editSample_parsed) 0 _ editSample_doc editSample_plain _ x hq hx 5 (by decide) n l h

/-- An expression without variables has the value that a run of the evaluator gives. -/
def runsTo (h : Heap) (n : Nat) (c : XSeq) (x : XNode) (position last : Nat) (s : XSeq) : Bool :=
  match eval h n c x ⟨position, last, []⟩ with
  | .ok (v, e) => sameSeq v s && decide (e.position = position) && decide (e.last = last) && e.vars.isEmpty
  | .error _ => false

theorem value_of_run {h : Heap} (n : Nat) {c : XSeq} {x : XNode} {position last : Nat} {s : XSeq}
    (hr : runsTo h n c x position last s = true) : Value h c x ⟨position, last, []⟩ s := by
  unfold runsTo at hr
  cases he : eval h n c x ⟨position, last, []⟩ with
  | error e => rw [he] at hr; cases hr
  | ok q =>
    obtain ⟨v, ⟨p, l, vs⟩⟩ := q
    rw [he] at hr
    simp only [Bool.and_eq_true, decide_eq_true_eq, List.isEmpty_iff] at hr
    obtain ⟨⟨⟨h1, rfl⟩, rfl⟩, rfl⟩ := hr
    rw [sameSeq_sound h1] at he
    exact evaluate_of_eval he (by simp)

/-- `*/..` at the element `a` of the sample document: both children have the parent 1, which is yielded once. -/
example : ∃ m, Value editSample [.node 1] (.node .operatorPath [] (.node .axisChild (S "*") .nil .nil)
      (.node .axisParent (S "*") .nil .nil)) Env.new (XSeq.ofNodes m) ∧ m = [1] := by
  obtain ⟨m, hm, hs, hi⟩ := C32_path_members editSample (.parse .empty editSample_parsed) 0 _ editSample_doc [.node 1] []
    (.node .axisChild (S "*") .nil .nil) (.node .axisParent (S "*") .nil .nil)
    rfl Env.new [4, 5] (fun _ => [1]) (value_of_run 5 (by decide +kernel))
    (by intro i hi; simp at hi; rcases hi with rfl | rfl <;> exact value_of_run 5 (by decide +kernel))
    (by intro i hi j hj; simp at hj; subst hj; decide)
  exact ⟨m, hm, sublist_ext editSample_doc.nodup hs (by decide) fun x => by rw [hi]; simp⟩

/-- The second child, and the second node before `c` in document order counted backwards. -/
example : Value editSample [.node 1] (.node .axisChild (S "*") .nil
      (predChain false [.node .integerLiteral (S "2") .nil .nil])) Env.new [.node 5] ∧
    Value editSample [.node 5] (.node .axisAncestor [] (.node .kindTest [] (.node .anyKindTest [] .nil .nil) .nil)
      (predChain true [.node .integerLiteral (S "2") .nil .nil])) Env.new [.node 0] := by
  have e : atoi (S "2") = 2 := by decide +kernel
  constructor
  · refine C35_step_position editSample _ (by decide) _ _ _ false rfl 1 Env.new [.node 4, .node 5]
      (value_of_run 5 (by decide +kernel)) 2 fun k x _ => ?_
    rw [← e]; exact C35_literal _ _ _ _ _ _
  · refine C35_step_position editSample _ (by decide) _ _ _ true rfl 5 Env.new [.node 0, .node 1]
      (value_of_run 5 (by decide +kernel)) 2 fun k x _ => ?_
    rw [← e]; exact C35_literal _ _ _ _ _ _

end Amxml
