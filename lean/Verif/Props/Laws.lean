import Verif.Lemmas.Laws
import Verif.Lemmas.Swap
import Verif.Props.XFocus
import Verif.Props.Scoping

/-!
# C97: equal expressions can replace one another
-/

namespace Amxml
open Spec
namespace Laws

theorem expr_of {x : XNode} (h : parts.contains x.ty = false) : IsExpr x := by
  show x.ty ∉ parts
  intro hm
  rw [List.contains_iff_mem.2 hm] at h
  cases h

/-- One loop inside the other, or one after the other. -/
theorem loop_loop {α β γ : Type} (F : α → Except XErr (List β)) (G : β → Except XErr (List γ)) (q : List α) :
    Agree (do let us ← q.mapM F; let vs ← us.flatten.mapM G; .ok vs.flatten)
      (do let ws ← q.mapM fun i => (do let p ← F i; let zs ← p.mapM G; .ok zs.flatten); .ok ws.flatten) := by
  induction q with
  | nil => exact .rfl
  | cons i q ih =>
    simp only [List.mapM_cons]
    cases hi : F i with
    | error e => exact .rfl
    | ok p =>
      cases hp : p.mapM G with
      | error e =>
        have e2 : ∀ us : List (List β), (p ++ us.flatten).mapM G = .error e := by
          intro us; rw [List.mapM_append, hp]; rfl
        cases hq : q.mapM F with
        | error e' => simp only [bind, Except.bind, pure, Except.pure, hp]; exact .errors
        | ok us =>
          simp only [bind, Except.bind, pure, Except.pure, hp, List.flatten_cons, e2]; exact .errors
      | ok zs =>
        have e1 : ∀ us : List (List β), (p ++ us.flatten).mapM G = (us.flatten.mapM G >>= fun vs => .ok (zs ++ vs)) := by
          intro us; rw [List.mapM_append, hp]; rfl
        have e2 := Agree.bindL (f := fun v : List γ => .ok (zs.flatten ++ v)) ih
        refine Agree.trans (.of_eq ?_) (e2.trans (.of_eq ?_))
        · cases hq : q.mapM F with
          | error e' => rfl
          | ok us =>
            simp only [bind, Except.bind, pure, Except.pure, List.flatten_cons, e1]
            cases us.flatten.mapM G with
            | error e => rfl
            | ok vs => simp
        · simp only [bind, Except.bind, pure, Except.pure, hp]
          generalize (List.mapM _ q : Except XErr (List (List γ))) = r
          cases r <;> simp

theorem loop_append {α γ : Type} (G : α → Except XErr (List γ)) (x y : List α) :
    (do let vs ← (x ++ y).mapM G; .ok vs.flatten : Except XErr (List γ)) =
      (do let a ← (do let vs ← x.mapM G; .ok vs.flatten); let b ← (do let vs ← y.mapM G; .ok vs.flatten); .ok (a ++ b)) := by
  rw [List.mapM_append]
  cases x.mapM G <;> cases y.mapM G <;> simp [bind, Except.bind, pure, Except.pure]

theorem loop_self {α γ : Type} (G : α → Except XErr (List γ)) (g : α → γ) (hG : ∀ i, G i = .ok [g i]) (q : List α) :
    (do let vs ← q.mapM G; .ok vs.flatten : Except XErr (List γ)) = .ok (q.map g) := by
  induction q with
  | nil => rfl
  | cons i q ih =>
    rw [List.mapM_cons, hG]
    cases hq : q.mapM G with
    | error e => rw [hq] at ih; cases ih
    | ok vs =>
      rw [hq] at ih
      simp only [bind, Except.bind, pure, Except.pure, Except.ok.injEq] at ih ⊢
      simp [ih]

variable (h : Heap) (s : Scene)

/-- Filtering with a predicate whose value is a boolean. -/
theorem filtered_boolean {p : XNode} (hp : BooleanValued p) (rev : Bool) (q : XSeq) :
    filtered rev (meaning h p) s q = (do
      let vs ← q.zipIdx.mapM fun e => (truth h (s.item e.1 (along rev q.length (e.2 + 1)) q.length) p >>= fun b => .ok (if b then [e.1] else []))
      .ok vs.flatten) := by
  unfold filtered
  congr 1
  congr 1
  funext e
  rw [boolean_value h _ hp]
  cases truth h (s.item e.1 (along rev q.length (e.2 + 1)) q.length) p with
  | error e => rfl
  | ok b => cases b <;> rfl

/-- The same if it does not look at the position: every item for itself. -/
theorem filtered_free {p : XNode} (hp : BooleanValued p) (hf : PositionFree p) (rev : Bool) (q : XSeq) :
    Agree (filtered rev (meaning h p) s q) (do
      let vs ← q.mapM fun x => (truth h (s.over x) p >>= fun b => .ok (if b then [x] else []))
      .ok vs.flatten) := by
  rw [filtered_boolean h s hp]
  have : q.mapM (fun x => (truth h (s.over x) p >>= fun b => .ok (if b then [x] else []) : Except XErr XSeq)) =
      q.zipIdx.mapM fun e => (truth h (s.over e.1) p >>= fun b => .ok (if b then [e.1] else [])) := by
    generalize 0 = k
    induction q generalizing k with
    | nil => rfl
    | cons x q ih => rw [List.zipIdx_cons, List.mapM_cons, List.mapM_cons, ih]
  rw [this]
  exact Agree.bindL (Agree.mapM _ fun e _ => Agree.bindL (Agree.bindL (meaning_alike h ⟨rfl, fun _ _ => rfl, .inl hf⟩)))

theorem filter_twice {p q : XNode} (hp : BooleanValued p) (hq : BooleanValued q) (hf : PositionFree q) (rev : Bool) (l : XSeq) :
    Agree (filtered rev (meaning h p) s l >>= fun l' => filtered rev (meaning h q) s l') (filtered rev (meaning h (Q.and p q)) s l) := by
  refine Agree.trans (Agree.bind .rfl fun l' => filtered_free h s hq hf rev l') ?_
  have hb : BooleanValued (Q.and p q) := .logic (by decide)
  rw [filtered_boolean h s hp, filtered_boolean h s hb]
  simp only [bind_assoc]
  refine Agree.trans (loop_loop _ _ _) ?_
  refine Agree.bindL (Agree.mapM _ fun e _ => ?_)
  have hq' : Agree (truth h (s.over e.1) q) (truth h (s.item e.1 (along rev l.length (e.2 + 1)) l.length) q) :=
    Agree.bindL (meaning_alike h ⟨rfl, fun _ _ => rfl, .inl hf⟩)
  rw [t_and]
  cases truth h (s.item e.1 (along rev l.length (e.2 + 1)) l.length) p with
  | error e => exact .rfl
  | ok b =>
    cases b
    · exact .rfl
    · refine Agree.trans (.of_eq ?_) (Agree.bindL hq')
      show (([e.1].mapM fun x => truth h (s.over x) q >>= fun b => .ok (if b then [x] else [])) >>= fun zs => .ok zs.flatten) = _
      rw [List.mapM_cons]
      cases truth h (s.over e.1) q with
      | error e => rfl
      | ok b => cases b <;> rfl

/-- A binding that the expression does not refer to. -/
theorem unused {m : Str} {c : XNode} (hm : m ∉ freeVars c) (n : Str) (v w : XSeq) : Alike c (s.bind n v) ((s.bind m w).bind n v) := by
  refine ⟨rfl, fun k hk => ?_, .inr ⟨rfl, rfl⟩⟩
  unfold Scene.bind
  by_cases e : k = n
  · simp [e]
  · have : k ≠ m := fun e => hm (e ▸ hk)
    simp [e, this]

theorem filtered_first (q : XSeq) : filtered false (meaning h (Q.int (S "1"))) s q = .ok (q.take 1) := by
  have e : atoi (S "1") = 1 := by rfl
  unfold filtered
  simp only [m_int, e]
  have later : ∀ (q : XSeq) (k n : Nat), 0 < k → (do
      let vs ← (q.zipIdx k).mapM fun e => (do
        let v ← (.ok [.integer 1] : Except XErr XSeq)
        pure (if selects (along false n (e.2 + 1)) v then [e.1] else []))
      pure vs.flatten : Except XErr XSeq) = .ok [] := by
    intro q
    induction q with
    | nil => intros; rfl
    | cons x q ih =>
      intro k n hk
      have := ih (k + 1) n (by omega)
      rw [List.zipIdx_cons, List.mapM_cons]
      generalize (List.mapM _ (List.zipIdx q (k + 1)) : Except XErr (List XSeq)) = r at this
      have hs : selects (along false n (k + 1)) [.integer 1] = false := by
        simp [selects, along]; omega
      cases r with
      | error e => cases this
      | ok vs =>
        simp only [bind, Except.bind, pure, Except.pure, Except.ok.injEq] at this ⊢
        simp [this, hs]
  cases q with
  | nil => rfl
  | cons x q =>
    have := later q 1 (x :: q).length (by omega)
    rw [List.zipIdx_cons, List.mapM_cons]
    generalize (List.mapM _ (List.zipIdx q (0 + 1)) : Except XErr (List XSeq)) = r at this
    have hs : selects (along false (q.length + 1) 1) [.integer 1] = true := by
      simp [selects, along]
    cases r with
    | error e => cases this
    | ok vs =>
      simp only [bind, Except.bind, pure, Except.pure, Except.ok.injEq] at this ⊢
      simp [this, hs]

theorem predicates_chain (rev : Bool) (p : XNode) (hp : p.isNil = false) (ps : List XNode) (q : XSeq) :
    predicates h (predChain rev (p :: ps)) s q = (filtered rev (meaning h p) s q >>= fun q' => predicates h (predChain rev ps) s q') := by
  cases rev <;> simp [predChain, predicates, hp]

theorem step_chain {p q : XNode} (hp : IsExpr p) (hq : IsExpr q) (bp : BooleanValued p) (bq : BooleanValued q) (hf : PositionFree q) (rev : Bool)
    (ps qs : List XNode) (v : XSeq) :
    Agree (predicates h (predChain rev (ps ++ p :: q :: qs)) s v) (predicates h (predChain rev (ps ++ Q.and p q :: qs)) s v) := by
  induction ps generalizing v with
  | nil =>
    simp only [List.nil_append]
    rw [predicates_chain h s rev p hp.notNil, predicates_chain h s rev (Q.and p q) rfl]
    refine Agree.trans (.of_eq ?_) (Agree.bindL (filter_twice h s bp bq hf rev v))
    rw [bind_assoc]
    congr 1
    funext q'
    rw [predicates_chain h s rev q hq.notNil]
  | cons x ps ih =>
    cases hx : x.isNil with
    | false =>
      rw [List.cons_append, List.cons_append, predicates_chain h s rev x hx, predicates_chain h s rev x hx]
      exact Agree.bind .rfl fun v' => ih v'
    | true =>
      have : ∀ ys, predicates h (predChain rev (x :: ys)) s v = .error .cantOccur := by
        intro ys
        cases rev <;> simp [predChain, predicates, hx]
      rw [List.cons_append, List.cons_append, this, this]; exact .rfl

theorem m_step {t : XNodeType} (ht : t ∈ axes) (n : Str) (l r : XNode) : meaning h (.node t n l r) s = (do
      let vs ← (XSeq.toNodeset s.context).mapM fun i =>
        match axisNodes h i (.node t n l r) with
        | none => .error .cantOccur
        | some ns => predicates h r s (XSeq.ofNodes ns)
      pure (XSeq.ofNodes (vs.flatMap XSeq.toNodeset))) := by
  simp only [axes, List.mem_cons, List.not_mem_nil, or_false] at ht
  rcases ht with rfl | rfl | rfl | rfl | rfl | rfl | rfl | rfl | rfl | rfl | rfl | rfl | rfl <;> rfl

/-- Both sides of a law are expressions. -/
theorem law_expr {x y : XNode} (hl : Law x y) : IsExpr x ∧ IsExpr y := by
  cases hl with
  | @step_filter t n l ps p q qs rev ht =>
    have : t ∉ parts := by intro hm; revert hm ht; cases t <;> decide
    exact ⟨this, this⟩
  | let_simple hs hb hf => exact ⟨expr_of rfl, filled_expr hs hf hb⟩
  | @swap t t' n n' a b ht =>
    have : ∀ p ∈ swaps, p.1 ∉ parts ∧ p.2 ∉ parts := by decide
    exact this _ ht
  | @compare_some t n m k a c ht hs hn =>
    have : t ∉ parts := by intro hm; revert hm ht; cases t <;> decide
    exact ⟨this, expr_of rfl⟩
  | rename hx hr => exact ⟨hx, renamed_expr hr hx⟩
  | _ =>
    constructor
    all_goals first
      | assumption
      | exact expr_of rfl

theorem anyM_not {α : Type} (f g : α → Except XErr Bool) (hg : ∀ i, g i = (f i >>= fun b => .ok !b)) (q : List α) :
    q.allM f = (q.anyM g >>= fun b => .ok !b) := by
  induction q with
  | nil => rfl
  | cons x q ih =>
    rw [List.allM, List.anyM, hg]
    cases f x with
    | error e => rfl
    | ok b => cases b <;> first | rfl | exact ih

theorem allM_not {α : Type} (f g : α → Except XErr Bool) (hg : ∀ i, g i = (f i >>= fun b => .ok !b)) (q : List α) :
    q.anyM f = (q.allM g >>= fun b => .ok !b) := by
  induction q with
  | nil => rfl
  | cons x q ih =>
    rw [List.allM, List.anyM, hg]
    cases f x with
    | error e => rfl
    | ok b => cases b <;> first | rfl | exact ih

theorem anyM_pure {α : Type} (f : α → Bool) (q : List α) : q.anyM (fun i => (.ok (f i) : Except XErr Bool)) = .ok (q.any f) := by
  induction q with
  | nil => rfl
  | cons x q ih =>
    rw [List.anyM]
    simp only [bind, Except.bind]
    cases hx : f x <;> simp [hx, ih, pure, Except.pure]

theorem m_binary {t : XNodeType} {f : XSeq → XSeq → Except XErr XSeq} (hf : binaryOp h t = some f) {n : Str} {a b : XNode} :
    meaning h (.node t n a b) s = (do
      let x ← meaning h a s
      let y ← meaning h b s
      f x y) := by
  cases t <;> first | (cases hf; done) | (cases hf; rfl)

theorem general_of {t : XNodeType} (ht : t ∈ [XNodeType.operatorGeneralEQ, .operatorGeneralNE, .operatorGeneralLT, .operatorGeneralGT,
    .operatorGeneralLE, .operatorGeneralGE]) : ∃ op, binaryOp h t = some (generalCmp h op) := by
  simp only [List.mem_cons, List.not_mem_nil, or_false] at ht
  rcases ht with rfl | rfl | rfl | rfl | rfl | rfl
  · exact ⟨.eq, rfl⟩
  · exact ⟨.ne, rfl⟩
  · exact ⟨.lt, rfl⟩
  · exact ⟨.gt, rfl⟩
  · exact ⟨.le, rfl⟩
  · exact ⟨.ge, rfl⟩

/-- **C97**, the laws: the two sides have the same meaning at every place: the same value, or both an error. -/
theorem law_sound {x y : XNode} (hl : Law x y) : Agree (meaning h x s) (meaning h y s) := by
  cases hl with
  | paren ha => exact .of_eq (m_paren h s ha)
  | comma_assoc =>
    rename_i a b c
    simp only [m_comma]
    cases meaning h a s <;> cases meaning h b s <;> cases meaning h c s <;> simp [bind, Except.bind, Agree, Except.toOption]
  | comma_none ha =>
    simp only [m_comma, m_none]
    cases meaning h y s <;> simp [bind, Except.bind, Agree, Except.toOption]
  | none_comma ha =>
    simp only [m_comma, m_none]
    cases meaning h y s <;> simp [bind, Except.bind, Agree, Except.toOption]
  | not_not =>
    rename_i a
    simp only [m_not, m_boolean, t_not]
    cases truth h s a <;> simp [bind, Except.bind, Agree, Except.toOption]
  | boolean hb he => rw [m_boolean]; exact .of_eq (boolean_value h s hb).symm
  | not_and =>
    rename_i a b
    simp only [m_not, m_or', t_not, t_and]
    rcases truth h s a with e | (_ | _) <;> rcases truth h s b with e' | (_ | _) <;> simp [bind, Except.bind, Agree, Except.toOption]
  | not_or =>
    rename_i a b
    simp only [m_not, m_and', t_not, t_or]
    rcases truth h s a with e | (_ | _) <;> rcases truth h s b with e' | (_ | _) <;> simp [bind, Except.bind, Agree, Except.toOption]
  | and_assoc =>
    rename_i a b c
    simp only [m_and', t_and]
    rcases truth h s a with e | (_ | _) <;> rcases truth h s b with e' | (_ | _) <;> simp [bind, Except.bind, Agree, Except.toOption]
  | or_assoc =>
    rename_i a b c
    simp only [m_or', t_or]
    rcases truth h s a with e | (_ | _) <;> rcases truth h s b with e' | (_ | _) <;> simp [bind, Except.bind, Agree, Except.toOption]
  | and_self =>
    rename_i a
    simp only [m_and', m_boolean]
    rcases truth h s a with e | (_ | _) <;> simp [bind, Except.bind, Agree, Except.toOption]
  | or_self =>
    rename_i a
    simp only [m_or', m_boolean]
    rcases truth h s a with e | (_ | _) <;> simp [bind, Except.bind, Agree, Except.toOption]
  | if_not =>
    rename_i c a b
    simp only [m_ite', t_not]
    rcases truth h s c with e | (_ | _) <;> simp [bind, Except.bind, Agree, Except.toOption]
  | if_and =>
    rename_i c d a b
    simp only [m_ite', t_and]
    rcases truth h s c with e | (_ | _) <;> simp [bind, Except.bind, Agree, Except.toOption]
  | if_or =>
    rename_i c d a b
    simp only [m_ite', t_or]
    rcases truth h s c with e | (_ | _) <;> simp [bind, Except.bind, Agree, Except.toOption]
  | if_true_false =>
    rename_i c
    simp only [m_ite', m_boolean, m_call0, lib_true, lib_false]
    rcases truth h s c with e | (_ | _) <;> simp [bind, Except.bind, Agree, Except.toOption]
  | every =>
    rename_i n a b
    rw [m_every, m_not, truth, m_some]
    have hg : ∀ i : XItem, (do XSeq.ebv (← meaning h (Q.not b) (s.bind n [i]))) =
        ((do XSeq.ebv (← meaning h b (s.bind n [i]))) >>= fun t => .ok !t) := fun i => t_not h (s.bind n [i]) b
    cases meaning h a s with
    | error e => exact .rfl
    | ok q =>
      have := anyM_not _ _ hg q
      refine .of_eq ?_
      simp only [bind, Except.bind] at this ⊢
      rw [this]
      generalize (List.anyM _ q : Except XErr Bool) = r
      cases r <;> rfl
  | for_comma =>
    rename_i n a b c
    simp only [m_for, m_comma]
    cases meaning h a s with
    | error e => exact .rfl
    | ok x =>
      cases meaning h b s with
      | error e =>
        simp only [bind, Except.bind]
        generalize (List.mapM _ x : Except XErr (List XSeq)) = r
        cases r <;> exact .errors
      | ok y => exact .of_eq (loop_append _ x y)
  | for_none => simp only [m_for, m_none]; exact .rfl
  | for_var ha =>
    rename_i n
    simp only [m_for, m_var]
    cases meaning h y s with
    | error e => exact .rfl
    | ok q =>
      refine .of_eq ((loop_self (γ := XItem) _ id (fun i => ?_) q).trans (by simp))
      simp [Scene.bind]
  | for_for hm =>
    rename_i n m a b c
    simp only [m_for, bind_assoc, pure_bind]
    refine Agree.bind .rfl fun q => ?_
    refine Agree.trans (loop_loop _ _ q) ?_
    refine Agree.bindL (Agree.mapM _ fun i _ => Agree.bind .rfl fun p => Agree.bindL (Agree.mapM _ fun j _ => ?_))
    exact meaning_alike h (unused s hm n [j] [i])
  | let_var ha =>
    simp only [m_let, m_var]
    cases meaning h y s with
    | error e => exact .rfl
    | ok q => exact .of_eq (by simp [Scene.bind, bind, Except.bind])
  | let_comma =>
    rename_i n a b c
    simp only [m_let, m_comma]
    cases meaning h a s with
    | error e => exact .rfl
    | ok q => exact .rfl
  | let_let hm =>
    rename_i n m a b c
    simp only [m_let, bind_assoc]
    exact Agree.bind .rfl fun q => Agree.bind .rfl fun p => meaning_alike h (unused s hm n p q)
  | let_simple hs hb hf =>
    rename_i n c b
    obtain ⟨v, h1, _⟩ := simple_meaning h hs (s := s) (s' := s) fun _ _ => rfl
    rw [m_let, h1]
    refine (put_simulates h n hs).sound ⟨hf, rfl, rfl, rfl, fun m hm => by simp [Scene.bind, hm], ?_⟩
    simpa [Scene.bind] using h1
  | rename hx hr => exact renamed_sound h hr s
  | map_assoc ha hb hc =>
    rename_i a b c
    rw [m_map h s _ _ ha.notNil rfl, m_map h s _ _ rfl hc.notNil, m_map h s _ _ ha.notNil hb.notNil]
    simp only [m_map h _ _ _ hb.notNil hc.notNil, bind_assoc, pure_bind]
    refine Agree.bind .rfl fun q => ?_
    exact (loop_loop (α := XItem) (β := XItem) (γ := XItem) (fun i => meaning h b (s.over i))
      (fun j => meaning h c (s.over j)) q).symm
  | comma_map ha hb hc =>
    rename_i a b c
    rw [m_map h s _ _ rfl hc.notNil, m_comma, m_comma, m_map h s _ _ ha.notNil hc.notNil, m_map h s _ _ hb.notNil hc.notNil]
    cases meaning h a s with
    | error e => exact .rfl
    | ok x =>
      cases meaning h b s with
      | error e =>
        simp only [bind, Except.bind]
        generalize (List.mapM _ x : Except XErr (List XSeq)) = r
        cases r <;> exact .errors
      | ok y => exact .of_eq (loop_append _ x y)
  | map_context ha =>
    rw [m_map h s _ _ ha.notNil rfl]
    simp only [m_context]
    cases meaning h y s with
    | error e => exact .rfl
    | ok q => exact .of_eq ((loop_self (γ := XItem) _ id (fun i => rfl) q).trans (by simp))
  | concat_assoc =>
    rename_i a b c
    simp only [m_concat]
    have one : ∀ t, concatPiece h [.string t] = .ok t := fun t => rfl
    cases meaning h a s with
    | error e => exact .rfl
    | ok x =>
      cases meaning h b s with
      | error e => exact .rfl
      | ok y =>
        cases meaning h c s with
        | error e =>
          simp only [bind, Except.bind]
          generalize fnConcat h [x, y] = r
          cases r <;> exact .errors
        | ok z =>
          simp only [bind, Except.bind, fnConcat, List.mapM_cons, List.mapM_nil, pure, Except.pure]
          cases hx : concatPiece h x <;> cases hy : concatPiece h y <;> cases hz : concatPiece h z <;>
            simp [Except.map, one, Agree, Except.toOption, hx, hz]
  | filter_filter hp hq bp bq hf =>
    rename_i a p q
    rw [m_filter h s _ _ hq.notNil, m_filter h s _ _ hp.notNil, m_filter h s _ _ rfl, bind_assoc]
    exact Agree.bind .rfl fun l => filter_twice h s bp bq hf false l
  | step_filter rev ht hp hq bp bq hf =>
    rw [m_step h s ht, m_step h s ht]
    refine Agree.bindL (Agree.mapM _ fun i _ => ?_)
    rw [axisNodes_right h i _ _ _ _ (.nil), axisNodes_right h i _ _ _ (predChain rev (_ ++ Q.and _ _ :: _)) (.nil)]
    cases axisNodes h i _ with
    | none => exact .rfl
    | some ns => exact step_chain h s hp hq bp bq hf rev _ _ _
  | comma_filter hp bp hf =>
    rename_i a b p
    rw [m_filter h s _ _ hp.notNil, m_comma, m_comma, m_filter h s _ _ hp.notNil, m_filter h s _ _ hp.notNil]
    cases meaning h a s with
    | error e => exact .rfl
    | ok x =>
      cases meaning h b s with
      | error e =>
        simp only [bind, Except.bind]
        cases filtered false (meaning h p) s x <;> exact .errors
      | ok y =>
        refine (filtered_free h s bp hf false (x ++ y)).trans ((Agree.of_eq (loop_append _ x y)).trans ?_)
        exact (Agree.bind (filtered_free h s bp hf false x) fun u => Agree.bindL (filtered_free h s bp hf false y)).symm
  | reverse_reverse ha =>
    simp only [m_call, lib_reverse]
    cases meaning h y s <;> simp [bind, Except.bind, Agree, Except.toOption]
  | reverse_comma =>
    rename_i a b
    simp only [m_call, m_comma, lib_reverse]
    cases meaning h a s <;> cases meaning h b s <;> simp [bind, Except.bind, Agree, Except.toOption]
  | head_tail ha =>
    simp only [m_call, m_comma, lib_head, lib_tail]
    cases meaning h y s with
    | error e => exact .rfl
    | ok v => exact .of_eq (congrArg Except.ok (List.take_append_drop 1 v))
  | first =>
    rename_i a
    rw [m_filter h s _ _ rfl, m_call]
    simp only [filtered_first, lib_head]
    exact .rfl
  | empty =>
    rename_i a
    rw [m_not, truth, m_call, m_call]
    simp only [lib_empty, lib_exists]
    cases meaning h a s with
    | error e => exact .rfl
    | ok v => exact .of_eq (by cases v <;> rfl)
  | @swap t t' n n' a b ht =>
    obtain ⟨f, g, hf, hg, he⟩ := Swap.op_swap h ht
    rw [m_binary h s hf, m_binary h s hg]
    cases meaning h a s with
    | error e => cases meaning h b s <;> exact .errors
    | ok A =>
      cases meaning h b s with
      | error e => exact .errors
      | ok B => exact .of_eq (he A B)
  | concat =>
    rename_i a b
    rw [m_concat, m_call2]
    simp only [lib_concat]
    exact .rfl
  | exists_empty =>
    rename_i a
    rw [m_not, truth, m_call, m_call]
    simp only [lib_empty, lib_exists]
    cases meaning h a s with
    | error e => exact .rfl
    | ok v => exact .of_eq (by cases v <;> rfl)
  | count_reverse hf =>
    rename_i f a
    simp only [List.mem_cons, List.not_mem_nil, or_false] at hf
    rw [m_call, m_call, m_call]
    simp only [lib_reverse]
    cases meaning h a s with
    | error e => exact .rfl
    | ok v =>
      refine .of_eq ?_
      show library h f [v.reverse] s = library h f [v] s
      rcases hf with rfl | rfl | rfl
      · rw [lib_count, lib_count, List.length_reverse]
      · rw [lib_empty, lib_empty, List.length_reverse]
      · rw [lib_exists, lib_exists, List.length_reverse]
  | some =>
    rename_i n a b
    rw [m_some, m_not, truth, m_every]
    have hg : ∀ i : XItem, (do XSeq.ebv (← meaning h (Q.not b) (s.bind n [i]))) =
        ((do XSeq.ebv (← meaning h b (s.bind n [i]))) >>= fun t => .ok !t) := fun i => t_not h (s.bind n [i]) b
    cases meaning h a s with
    | error e => exact .rfl
    | ok q =>
      have := allM_not _ _ hg q
      refine .of_eq ?_
      simp only [bind, Except.bind] at this ⊢
      rw [this]
      generalize (List.allM _ q : Except XErr Bool) = r
      cases r <;> rfl
  | some_none => rw [m_some, m_none, m_no]; exact .rfl
  | every_none => rw [m_every, m_none, m_yes]; exact .rfl
  | @compare_some t n m k a c ht hs hn =>
    obtain ⟨op, hop⟩ := general_of h ht
    obtain ⟨v, h1, _⟩ := simple_meaning h hs (s := s) (s' := s) fun _ _ => rfl
    have h2 : ∀ i : XItem, meaning h c (s.bind n [i]) = .ok v := by
      intro i
      obtain ⟨w, h3, h4⟩ := simple_meaning h hs (s := s) (s' := s.bind n [i]) fun k hk => by
        have : k ≠ n := fun e => hn (e ▸ hk)
        simp [Scene.bind, this]
      rw [h1] at h3; cases h3; exact h4
    rw [m_binary h s hop, m_some]
    cases meaning h a s with
    | error e => exact .rfl
    | ok A =>
      refine .of_eq ?_
      have h3 : ∀ i : XItem, (meaning h (.node t k (Q.var n) c) (s.bind n [i]) >>= XSeq.ebv) =
          .ok ((v.map (XItem.atomize h)).any fun y => pairTest op (i.atomize h) y) := by
        intro i
        rw [m_binary h _ hop, m_var, h2]
        simp only [bind, Except.bind, Scene.bind, if_true, generalCmp_eq, List.map_cons, List.map_nil, List.any_cons, List.any_nil,
          Bool.or_false]
        rfl
      simp only [h1, bind, Except.bind] at h3 ⊢
      simp only [h3, anyM_pure, generalCmp_eq, List.any_map]
      rfl
  | if_yes ha => rw [m_ite', t_yes]; exact .rfl
  | if_no hb => rw [m_ite', t_no]; exact .rfl
  | yes_and => rw [m_and', t_yes, m_boolean]; exact .rfl
  | no_and => rw [m_and', t_no, m_no]; exact .rfl
  | yes_or => rw [m_or', t_yes, m_yes]; exact .rfl
  | no_or => rw [m_or', t_no, m_boolean]; exact .rfl
  | if_again =>
    rename_i c a b d
    simp only [m_ite']
    rcases truth h s c with e | (_ | _) <;> exact .rfl
  | if_if =>
    rename_i c d e a b
    simp only [m_ite', t_ite]
    rcases truth h s c with e | (_ | _) <;> exact .rfl
  | call_if =>
    rename_i f c a b
    simp only [m_call, m_ite']
    rcases truth h s c with e | (_ | _) <;> exact .rfl
  | comma_if =>
    rename_i c a b d
    simp only [m_comma, m_ite']
    rcases truth h s c with e | (_ | _) <;> exact .rfl
  | for_if =>
    rename_i n c a b d
    simp only [m_for, m_ite']
    rcases truth h s c with e | (_ | _) <;> exact .rfl
  | let_if =>
    rename_i n c a b d
    simp only [m_let, m_ite']
    rcases truth h s c with e | (_ | _) <;> exact .rfl
  | let_if' hs hn =>
    rename_i n c a b d
    obtain ⟨v, h1, _⟩ := simple_meaning h hs (s := s) (s' := s) fun _ _ => rfl
    simp only [m_let, m_ite', h1]
    have : Agree (truth h (s.bind n v) c) (truth h s c) := by
      refine Agree.bindL (meaning_alike h ⟨rfl, fun k hk => ?_, .inr ⟨rfl, rfl⟩⟩)
      have : k ≠ n := fun e => hn (e ▸ hk)
      simp [Scene.bind, this]
    exact Agree.bindL this
  | filter_yes ha =>
    rw [m_filter h s _ _ rfl]
    cases meaning h y s with
    | error e => exact .rfl
    | ok q =>
      refine (filtered_free h s (p := Q.yes) .yes ?_ false q).trans (.of_eq ?_)
      · exact ⟨fun _ => ⟨by decide, by decide⟩, trivial, trivial⟩
      · simp only [t_yes]
        exact (loop_self (γ := XItem) _ id (fun i => rfl) q).trans (by simp)
  | for_filter hp bp hf hn =>
    rename_i n a b p
    rw [m_filter h s _ _ hp.notNil, m_for, m_for, bind_assoc]
    simp only [m_filter h _ _ _ hp.notNil, bind_assoc, pure_bind]
    refine Agree.bind .rfl fun q => ?_
    refine Agree.trans (Agree.bind .rfl fun vs => filtered_free h s bp hf false vs.flatten) ?_
    refine (loop_loop (α := XItem) (β := XItem) (γ := XItem) (fun i => meaning h b (s.bind n [i]))
      (fun x => truth h (s.over x) p >>= fun b => .ok (if b then [x] else [])) q).trans ?_
    refine Agree.bindL (Agree.mapM _ fun i _ => Agree.bind .rfl fun l => ?_)
    refine Agree.trans ?_ (filtered_free h (s.bind n [i]) bp hf false l).symm
    refine Agree.bindL (Agree.mapM _ fun x _ => Agree.bindL (Agree.bindL (meaning_alike h ⟨rfl, fun k hk => ?_, .inl hf⟩)))
    have : k ≠ n := fun e => hn (e ▸ hk)
    simp [Scene.bind, Scene.over, this]
  | count_zero =>
    rename_i a
    rw [m_eq, m_call, m_call]
    simp only [lib_empty, lib_count, m_int]
    cases meaning h a s with
    | error e => exact .rfl
    | ok v =>
      have := (int_compare h .eq v.length 0).1
      have e := (opGives_iff (general_op h .eq)).1 this
      refine .of_eq ?_
      have e0 : atoi (S "0") = 0 := by rfl
      simp only [bind, Except.bind, e0]
      rw [show generalEq h [.integer v.length] [.integer 0] = generalCmp h .eq [.integer v.length] [.integer 0] from rfl, e]
      cases v with
      | nil => rfl
      | cons i v =>
        have : ((v.length : Int) + 1) ≠ 0 := by omega
        simp [Cmp.onInt, this]

end Laws

/-- The query gives the value `v` (however much fuel beyond some amount the evaluator has). -/
def Answers (h : Heap) (start : NodeId) (q : Str) (v : XSeq) : Prop := ∃ n, ∀ m, n ≤ m → evalXPath h m start q = .ok v

/-- The query ends with an error. -/
def Raises (h : Heap) (start : NodeId) (q : Str) : Prop :=
  ∃ n e, e ≠ .outOfFuel ∧ ∀ m, n ≤ m → evalXPath h m start q = .error e

theorem Laws.answers {q q' : Str} {x y : XNode} (hq : Parser.compileXPath q = .ok x) (hq' : Parser.compileXPath q' = .ok y)
    (hx : CallFree x ∧ WellNamed x) (hy : CallFree y ∧ WellNamed y) (h : Heap) (start : NodeId)
    (ha : Laws.Agree (meaning h x (Scene.start start)) (meaning h y (Scene.start start))) (v : XSeq) :
    Answers h start q v ↔ Answers h start q' v :=
  (C94_lexical hq hx.1 hx.2 h start v).trans ((ha.ok_iff v).trans (C94_lexical hq' hy.1 hy.2 h start v).symm)

theorem Laws.raises {q q' : Str} {x y : XNode} (hq : Parser.compileXPath q = .ok x) (hq' : Parser.compileXPath q' = .ok y)
    (hx : CallFree x ∧ WellNamed x) (hy : CallFree y ∧ WellNamed y) (fx : FirstOrder x) (fy : FirstOrder y) (h : Heap) (start : NodeId)
    (ha : Laws.Agree (meaning h x (Scene.start start)) (meaning h y (Scene.start start))) :
    Raises h start q ↔ Raises h start q' := by
  refine (C94_fails hq hx.1 hx.2 fx h start).trans (Iff.trans ?_ (C94_fails hq' hy.1 hy.2 fy h start).symm)
  revert ha
  generalize meaning h x (Scene.start start) = a
  generalize meaning h y (Scene.start start) = b
  intro ha
  cases a <;> cases b <;> simp_all [Laws.Agree, Except.toOption]

/-- **C97**: expressions with the same meaning at every place can replace one another anywhere in a query. -/
theorem C97_replace {R : XNode → XNode → Prop}
    (hR : ∀ x y, R x y → IsExpr x ∧ IsExpr y ∧ ∀ h s v, meaning h x s = .ok v ↔ meaning h y s = .ok v)
    {q q' : Str} {x y : XNode} (hq : Parser.compileXPath q = .ok x) (hq' : Parser.compileXPath q' = .ok y)
    (hx : CallFree x ∧ WellNamed x) (hy : CallFree y ∧ WellNamed y) (hw : Within R x y) (h : Heap) (start : NodeId) :
    (∀ v, Answers h start q v ↔ Answers h start q' v) ∧
    (FirstOrder x → FirstOrder y → (Raises h start q ↔ Raises h start q')) := by
  have ha := Laws.within_sound h (R := R) (fun a b k => ⟨(hR a b k).1, (hR a b k).2.1, fun s => by
    have := (hR a b k).2.2 h s
    revert this
    generalize meaning h a s = u
    generalize meaning h b s = w
    intro hv
    cases u with
    | ok u => exact .of_eq ((hv u).1 rfl).symm
    | error e =>
      cases w with
      | ok w => exact .of_eq ((hv w).2 rfl)
      | error e' => exact .errors⟩) hw (Scene.start start)
  exact ⟨Laws.answers hq hq' hx hy h start ha, fun fx fy => Laws.raises hq hq' hx hy fx fy h start ha⟩

theorem Laws.equal_sound (h : Heap) {x y : XNode} (he : Equal x y) (s : Scene) : Laws.Agree (meaning h x s) (meaning h y s) := by
  induction he with
  | step hw => exact Laws.within_sound h (fun a b k => ⟨(Laws.law_expr k).1, (Laws.law_expr k).2, fun s => Laws.law_sound h s k⟩) hw s
  | symm _ ih => exact ih.symm
  | trans _ _ i1 i2 => exact i1.trans i2

/-- **C97**: the laws hold at every place: the two sides have the same value, or neither has one. -/
theorem C97_laws {x y : XNode} (hl : Law x y) (h : Heap) (s : Scene) (v : XSeq) : meaning h x s = .ok v ↔ meaning h y s = .ok v :=
  (Laws.law_sound h s hl).ok_iff v

/-- **C97**: queries that the laws make equal, applied in any number of steps at any places in them and in either direction, give the same answers and
raise errors for the same documents. -/
theorem C97_equal {q q' : Str} {x y : XNode} (hq : Parser.compileXPath q = .ok x) (hq' : Parser.compileXPath q' = .ok y)
    (hx : CallFree x ∧ WellNamed x) (hy : CallFree y ∧ WellNamed y) (he : Equal x y) (h : Heap) (start : NodeId) :
    (∀ v, Answers h start q v ↔ Answers h start q' v) ∧
    (FirstOrder x → FirstOrder y → (Raises h start q ↔ Raises h start q')) :=
  have ha := Laws.equal_sound h he (Scene.start start)
  ⟨Laws.answers hq hq' hx hy h start ha, fun fx fy => Laws.raises hq hq' hx hy fx fy h start ha⟩

/-! ### Two pairs of queries -/

/-- `$y > $z` with any names. -/
def lawBody (y z : Str) : XNode := .node .operatorGeneralGT (S ">") (Q.var y) (Q.var z)

/-- `(3, $z)` -/
def lawRange (z : Str) : XNode := Q.paren (Q.comma (Q.int (S "3")) (Q.var z))

/-- `count(for $x in (1, 2) return (every $y in (3, $x) satisfies $y > $x))` -/
def lawTree1 : XNode := Q.call (S "fn:count") (Q.forIn (S "x") (Q.paren (Q.comma (Q.int (S "1")) (Q.int (S "2"))))
  (Q.paren (Q.every (S "y") (lawRange (S "x")) (lawBody (S "y") (S "x")))))

/-- `count(for $z in (1, 2) return not(some $y in (3, $z) satisfies not($y > $z)))` -/
def lawTree2 : XNode := Q.call (S "fn:count") (Q.forIn (S "z") (Q.paren (Q.comma (Q.int (S "1")) (Q.int (S "2"))))
  (Q.not (Q.some (S "y") (lawRange (S "z")) (Q.not (lawBody (S "y") (S "z"))))))

theorem law_compile1 : Parser.compileXPath (S "count(for $x in (1, 2) return (every $y in (3, $x) satisfies $y > $x))") = .ok lawTree1 := by
  unfold lawTree1 lawRange lawBody Q.call Q.forIn Q.paren Q.comma Q.int Q.every Q.var
  run_compile

theorem law_compile2 :
    Parser.compileXPath (S "count(for $z in (1, 2) return not(some $y in (3, $z) satisfies not($y > $z)))") = .ok lawTree2 := by
  unfold lawTree2 lawRange lawBody Q.not Q.call Q.forIn Q.paren Q.comma Q.int Q.some Q.var
  run_compile

/-- Three steps: the parentheses go, `every` is written with `some`, and the variable of `for` gets another name. -/
theorem law_equal : Equal lawTree1 lawTree2 := by
  refine .trans (y := Q.call (S "fn:count") (Q.forIn (S "x") (Q.paren (Q.comma (Q.int (S "1")) (Q.int (S "2"))))
    (Q.every (S "y") (lawRange (S "x")) (lawBody (S "y") (S "x"))))) (.step ?_)
    (.trans (y := Q.call (S "fn:count") (Q.forIn (S "x") (Q.paren (Q.comma (Q.int (S "1")) (Q.int (S "2"))))
    (Q.not (Q.some (S "y") (lawRange (S "x")) (Q.not (lawBody (S "y") (S "x"))))))) (.step ?_) (.step (.here (.rename (by decide) ?_))))
  · refine .inside (by decide) (by decide) (by decide) (by decide) .same (.inside (by decide) (by decide) (by decide) (by decide) ?_ .same)
    refine .inside (by decide) (by decide) (by decide) (by decide) .same (.inside (by decide) (by decide) (by decide) (by decide) .same ?_)
    exact .here (.paren (by decide))
  · refine .inside (by decide) (by decide) (by decide) (by decide) .same (.inside (by decide) (by decide) (by decide) (by decide) ?_ .same)
    refine .inside (by decide) (by decide) (by decide) (by decide) .same (.inside (by decide) (by decide) (by decide) (by decide) .same ?_)
    exact .here .every
  · unfold lawTree2 lawRange lawBody Q.not Q.call Q.forIn Q.paren Q.comma Q.int Q.some
    repeat first
      | exact .nil
      | exact .var (.inl ⟨rfl, rfl⟩)
      | exact .var (.inr ⟨by decide, by decide, .inl ⟨rfl, rfl⟩⟩)
      | refine .binder (by decide) ?_ ?_
      | refine .other (by decide) (fun k => absurd k (by decide)) (fun k => absurd k (by decide)) (fun k => absurd k (by decide)) ?_ ?_

/-- The two queries give the same answers and raise errors in the same cases. -/
example (h : Heap) (start : NodeId) :=
  C97_equal law_compile1 law_compile2 (by decide +kernel) (by decide +kernel) law_equal h start

/-- `//b[. = 'u'][@k = 'v']/c` with the predicates of the step given. -/
def stepTree (ps : List XNode) : XNode :=
  .node .operatorPath (S "parse_path_expr SlashSlash 1") (.node .axisRoot (S "/") .nil .nil)
    (.node .operatorPath (S "parse_path_expr SlashSlash 2") (.node .axisDescendantOrSelf (S "node()") .nil .nil)
      (.node .operatorPath (S "parse_relative_path_expr TOP") (.node .axisChild (S "b") .nil (predChain false ps))
        (.node .operatorPath (S "parse_relative_path_expr Slash") (.node .axisChild (S "c") .nil .nil) .nil)))

def isU : XNode := Q.eq Q.context (.node .stringLiteral (S "u") .nil .nil)
def isV : XNode := Q.eq (.node .axisAttribute (S "k") .nil .nil) (.node .stringLiteral (S "v") .nil .nil)

theorem step_compile1 : Parser.compileXPath (S "//b[. = 'u'][@k = 'v']/c") = .ok (stepTree [isU, isV]) := by
  unfold stepTree isU isV Q.eq Q.context predChain
  run_compile

theorem step_compile2 : Parser.compileXPath (S "//b[. = 'u' and @k = 'v']/c") = .ok (stepTree [Q.and isU isV]) := by
  unfold stepTree isU isV Q.eq Q.context Q.and predChain
  run_compile

/-- The same elements. -/
example (h : Heap) (start : NodeId) (v : XSeq) :
    Answers h start (S "//b[. = 'u'][@k = 'v']/c") v ↔ Answers h start (S "//b[. = 'u' and @k = 'v']/c") v := by
  refine (C97_equal step_compile1 step_compile2 (by decide +kernel) (by decide +kernel) (.step ?_) h start).1 v
  refine .inside (by decide) (by decide) (by decide) (by decide) .same ?_
  refine .inside (by decide) (by decide) (by decide) (by decide) .same ?_
  refine .inside (by decide) (by decide) (by decide) (by decide) ?_ .same
  exact .here (.step_filter (ps := []) (qs := []) false (by decide) (by decide) (by decide) (.general (by decide)) (.general (by decide))
    (by unfold isV Q.eq PositionFree; decide))

end Amxml
