import Verif.Spec.Applied
import Verif.Lemmas.Scoping

/-!
# The evaluator follows the lexical meaning of calls
-/

namespace Amxml
namespace Applied
open Spec Scoping

/-- The outcome of an evaluation follows the meaning: both have the same value, and only variables in `Q` changed; or both fail, the evaluation not for
want of depth; or nothing is claimed. -/
inductive Follows {α : Type} (Q : List Str) (env : Env) : Except XErr (α × Env) → Except XErr α → Prop where
  | ok {v : α} {env' : Env} : Frame Q env env' → Follows Q env (.ok (v, env')) (.ok v)
  | error {e e' : XErr} (he : e ≠ .outOfFuel := by decide) (hs : e = e' ∨ e = .typeError := by first | exact .inl rfl | exact .inr rfl) :
      Follows Q env (.error e) (.error e')
  | free {o : Except XErr (α × Env)} : Follows Q env o (.error .outOfFuel)

namespace Follows
variable {α β : Type} {Q : List Str} {env : Env}

theorem pure (v : α) : Follows Q env ((Pure.pure v : E α) env) (.ok v) := .ok (Frame.refl env)

theorem lift (r : Except XErr α) : Follows Q env (liftE r env) r := by
  cases r with
  | ok v => exact .ok (Frame.refl env)
  | error e =>
    by_cases he : e = .outOfFuel
    · subst he; exact .free
    · exact .error he

theorem bind {a : E α} {f : α → E β} {r : Except XErr α} {g : α → Except XErr β} (ha : Follows Q env (a env) r)
    (hf : ∀ v env', Frame Q env env' → Follows Q env' (f v env') (g v)) : Follows Q env ((a >>= f) env) (r >>= g) := by
  rw [E.bind_run]
  generalize a env = o at ha
  cases ha with
  | ok fr =>
    rename_i v env'
    have := hf v env' fr
    show Follows Q env (f v env') (g v)
    generalize f v env' = o at this
    generalize g v = r at this
    cases this with
    | ok fr' => exact .ok (fr.trans fr')
    | error he hs => exact .error he hs
    | free => exact .free
  | error he hs => exact .error he hs
  | free => exact .free

theorem mono {Q' : List Str} {o : Except XErr (α × Env)} {r : Except XErr α} (h : Follows Q env o r) (hq : ∀ n ∈ Q, n ∈ Q') :
    Follows Q' env o r := by
  cases h with
  | ok fr => exact .ok (fr.mono hq)
  | error he hs => exact .error he hs
  | free => exact .free

/-- With something made of the value. -/
theorem map {a : E α} {f : α → β} {r : Except XErr α} (ha : Follows Q env (a env) r) :
    Follows Q env ((a >>= fun v => Pure.pure (f v)) env) (r >>= fun v => Pure.pure (f v)) :=
  bind ha fun _ _ _ => .ok (Frame.refl _)

theorem listE {f : α → E β} {g : α → Except XErr β} (l : List α)
    (H : ∀ x ∈ l, ∀ env', Frame Q env env' → Follows Q env' (f x env') (g x)) : Follows Q env (Amxml.listE f l env) (l.mapM g) := by
  induction l generalizing env with
  | nil => exact .ok (Frame.refl _)
  | cons x l ih =>
    rw [List.mapM_cons]
    refine bind (H x (by simp) _ (Frame.refl _)) fun v env' fr => ?_
    refine bind (ih fun y hy env'' fr' => H y (by simp [hy]) _ (fr.trans fr')) fun vs _ _ => .ok (Frame.refl _)

theorem concatE {f : XItem → E XSeq} {g : XItem → Except XErr XSeq} (l : XSeq)
    (H : ∀ x ∈ l, ∀ env', Frame Q env env' → Follows Q env' (f x env') (g x)) :
    Follows Q env (Amxml.concatE f l env) (l.mapM g >>= fun vs => .ok vs.flatten) := by
  have e : Amxml.concatE f l = (Amxml.listE f l >>= fun vs => Pure.pure vs.flatten) := by
    clear H
    induction l with
    | nil => rfl
    | cons x l ih =>
      simp only [Amxml.concatE, Amxml.listE, ih, bind_assoc, pure_bind, List.flatten_cons]
  rw [e]
  exact bind (listE l H) fun vs _ _ => .ok (Frame.refl _)

theorem filterLoop {ev : Evaluator} {p : XNode} {g : Nat → XItem → Except XErr XSeq} (rev : Bool) (last : Nat) (q : XSeq) (i : Nat)
    (H : ∀ x ∈ q, ∀ k env', Frame Q env env' → Follows Q env' (atPosition ev p k last x env') (g k x)) (hl : i + q.length = last) :
    Follows Q env (Amxml.filterLoop ev p rev last i q env) (do
      let vs ← (q.zipIdx i).mapM fun e => do
        let v ← g (along rev last (e.2 + 1)) e.1
        Pure.pure (if selects (along rev last (e.2 + 1)) v then [e.1] else [])
      Pure.pure vs.flatten) := by
  induction q generalizing env i with
  | nil => exact .ok (Frame.refl _)
  | cons x q ih =>
    simp only [List.zipIdx_cons, List.mapM_cons, bind_assoc, pure_bind]
    have ek : (if rev then last - i else i + 1) = along rev last (i + 1) := by
      unfold along
      cases rev
      · rfl
      · simp only [if_true]; omega
    show Follows Q env ((_ >>= fun v => _ >>= fun r => Pure.pure _ : E XSeq) env) _
    rw [ek]
    refine bind (H x (by simp) _ _ (Frame.refl _)) fun v env' fr => ?_
    have := ih (i := i + 1) (env := env') (fun y hy k env'' fr' => H y (by simp [hy]) _ _ (fr.trans fr'))
      (by simp only [List.length_cons] at hl; omega)
    have hk : keeps (along rev last (i + 1)) v = selects (along rev last (i + 1)) v := by
      unfold keeps selects
      rcases v with _ | ⟨a, _ | ⟨b, v⟩⟩
      · rfl
      · cases a <;> rfl
      · cases a <;> rfl
    have := bind (f := fun r => Pure.pure (if keeps (along rev last (i + 1)) v then x :: r else r)) (g := fun r => .ok (if selects (along rev last (i + 1)) v then x :: r else r)) this fun vs _ _ => by
      rw [hk]; exact .ok (Frame.refl _)
    refine Eq.mp ?_ this
    congr 1
    simp only [bind_assoc, pure_bind]
    congr 1
    funext vs
    show Except.ok _ = Except.ok _
    rw [List.flatten_cons]
    split <;> rfl

theorem filtered {ev : Evaluator} {p : XNode} {m : Scene → Except XErr XSeq} (rev : Bool) (q : XSeq) {s : Scene}
    (H : ∀ x ∈ q, ∀ k env', Frame Q env env' → Follows Q env' (atPosition ev p k q.length x env') (m (s.item x k q.length))) :
    Follows Q env (filterByPredicate ev q p rev env) (if p.isNil then .error .cantOccur else Spec.filtered rev m s q) := by
  unfold filterByPredicate
  split
  · exact .error
  · exact filterLoop rev q.length q 0 H (by simp)

theorem atPosition {ev : Evaluator} {p : XNode} {r : Except XErr XSeq} {x : XItem} {k last : Nat}
    (H : Follows Q { env with position := k, last := last } (ev [x] p { env with position := k, last := last }) r) :
    Follows Q env (Amxml.atPosition ev p k last x env) r := by
  unfold Amxml.atPosition
  generalize ev [x] p { env with position := k, last := last } = o at H
  cases H with
  | ok fr => exact .ok ⟨rfl, rfl, fr.vars⟩
  | error he hs => exact .error he hs
  | free => exact .free

theorem forLoop {b : E XSeq} {g : XItem → Except XErr XSeq} {n : Str} (q : XSeq)
    (H : ∀ x ∈ q, ∀ env', Frame Q env env' → Follows Q (env'.setVar n [x]) (b (env'.setVar n [x])) (g x)) :
    Follows Q env (Amxml.forLoop n b q env) (q.mapM g >>= fun vs => .ok vs.flatten) := by
  have e : Amxml.forLoop n b q = Amxml.concatE (fun x => do
      modifyE fun env => env.setVar n [x]
      let v ← b
      modifyE fun env => env.removeVar n
      Pure.pure v) q := by
    clear H
    induction q with
    | nil => rfl
    | cons x l ih => simp only [Amxml.concatE, Amxml.forLoop, ih, bind_assoc, pure_bind]
  rw [e]
  refine concatE q fun x hx env' fr => ?_
  have := H x hx env' fr
  rw [E.bind_run, modifyE_run]
  simp only
  rw [E.bind_run]
  generalize b (env'.setVar n [x]) = o at this
  generalize g x = r at this
  cases this with
  | ok fr' => exact .ok fr'.scope
  | error he hs => exact .error he hs
  | free => exact .free

theorem letBind {b : E XSeq} {r : Except XErr XSeq} {n : Str} {v : XSeq}
    (H : Follows Q (env.setVar n v) (b (env.setVar n v)) r) : Follows Q env ((do
      modifyE fun env => env.setVar n v
      let r ← b
      modifyE fun env => env.removeVar n
      Pure.pure r : E XSeq) env) r := by
  rw [E.bind_run, modifyE_run]
  simp only
  rw [E.bind_run]
  generalize b (env.setVar n v) = o at H
  cases H with
  | ok fr' => exact .ok fr'.scope
  | error he hs => exact .error he hs
  | free => exact .free

/-- `some` (`stop = true`) and `every`. -/
def quantM (stop : Bool) (F : XItem → Except XErr Bool) (q : XSeq) : Except XErr Bool := if stop then q.anyM F else q.allM F

theorem quantM_cons (stop : Bool) (F : XItem → Except XErr Bool) (x : XItem) (q : XSeq) :
    quantM stop F (x :: q) = (F x >>= fun t => if t = stop then .ok stop else quantM stop F q) := by
  cases stop
  · show List.allM F (x :: q) = _
    rw [List.allM]; congr 1; funext t; cases t <;> rfl
  · show List.anyM F (x :: q) = _
    rw [List.anyM]; congr 1; funext t; cases t <;> rfl

theorem quantLoop {b : E XSeq} {g : XItem → Except XErr XSeq} {n : Str} (hn : n ∈ Q) (stop : Bool) (q : XSeq)
    (H : ∀ x ∈ q, ∀ env', Frame Q env env' → Follows Q (env'.setVar n [x]) (b (env'.setVar n [x])) (g x)) :
    Follows Q env (Amxml.quantLoop n stop b q env) (quantM stop (fun i => g i >>= XSeq.ebv) q >>= fun t => .ok [.boolean t]) := by
  induction q generalizing env with
  | nil => cases stop <;> exact .ok (Frame.refl _)
  | cons x q ih =>
    unfold Amxml.quantLoop
    rw [E.bind_run, modifyE_run]
    simp only
    rw [E.bind_run, quantM_cons]
    have h1 := H x (by simp) env (Frame.refl _)
    have h2 : ∀ env', Frame Q env env' → _ := fun env' fr => ih (env := env') fun y hy env'' fr' => H y (by simp [hy]) env'' (fr.trans fr')
    generalize b (env.setVar n [x]) = o at h1
    generalize g x = r at h1
    cases h1 with
    | error he hs => exact .error he hs
    | free => exact .free
    | ok fr =>
      rename_i v env'
      simp only
      rw [E.bind_run]
      show Follows Q env _ ((XSeq.ebv v >>= fun t => if t = stop then .ok stop else quantM stop (fun i => g i >>= XSeq.ebv) q) >>=
        fun t => .ok [XItem.boolean t])
      cases XSeq.ebv v with
      | error e =>
        by_cases he : e = .outOfFuel
        · subst he; exact .free
        · exact .error he
      | ok t =>
        show Follows Q env ((if t = stop then Pure.pure (xbool stop) else _ : E XSeq) env')
          ((if t = stop then .ok stop else quantM stop (fun i => g i >>= XSeq.ebv) q) >>= fun t => .ok [XItem.boolean t])
        by_cases e : t = stop
        · rw [if_pos e, if_pos e]
          exact .ok (fr.stay hn)
        · rw [if_neg e, if_neg e]
          have h2 := h2 _ fr.scope
          rw [E.bind_run, modifyE_run]
          simp only
          generalize Amxml.quantLoop n stop b q (env'.removeVar n) = o at h2 ⊢
          generalize (quantM stop (fun i => g i >>= XSeq.ebv) q >>= fun t => .ok [XItem.boolean t]) = r' at h2 ⊢
          cases h2 with
          | ok fr' => exact .ok (fr.scope.trans fr')
          | error he hs => exact .error he hs
          | free => exact .free

/-- The result unless there is a mixture. -/
def notBoth {α : Type} (b : Bool) (r : α) : Except XErr α := if b then .error .typeError else .ok r

/-- The loop of a path: with `node`, `atom` telling what came before. -/
theorem pathLoop {f : XItem → E XSeq} {g : XItem → Except XErr XSeq} (q : XSeq) (node atom : Bool) (hna : ¬ (node && atom) = true)
    (H : ∀ x ∈ q, ∀ env', Frame Q env env' → Follows Q env' (f x env') (g x)) :
    Follows Q env (Amxml.pathLoop f node atom q env) (q.mapM g >>= fun vs =>
      notBoth ((node || (vs.filter fun v => !v.isEmpty).any XSeq.isNoAtom) && (atom || (vs.filter fun v => !v.isEmpty).any fun v => !XSeq.isNoAtom v))
        (node || (vs.filter fun v => !v.isEmpty).any XSeq.isNoAtom, vs.flatten)) := by
  induction q generalizing env node atom with
  | nil =>
    rw [List.mapM_nil]
    show Follows Q env (.ok ((node, []), env)) (notBoth ((node || false) && (atom || false)) (node || false, []))
    rw [Bool.or_false, Bool.or_false]
    unfold notBoth
    rw [if_neg hna]
    exact .ok (Frame.refl _)
  | cons x q ih =>
    rw [List.mapM_cons]
    unfold Amxml.pathLoop
    rw [bind_assoc]
    refine bind (H x (by simp) env (Frame.refl _)) fun v env' fr => ?_
    have hrest : ∀ y ∈ q, ∀ env'', Frame Q env' env'' → Follows Q env'' (f y env'') (g y) :=
      fun y hy env'' fr' => H y (by simp [hy]) env'' (fr.trans fr')
    rw [bind_assoc]
    simp only [pure_bind]
    by_cases hv : v.isEmpty = true
    · have hv' : v = [] := by simpa using hv
      subst hv'
      exact ih node atom hna hrest
    · rw [if_neg hv]
      have he : (!v.isEmpty) = true := by simpa using hv
      simp only [List.filter_cons, he, if_true, List.any_cons, List.flatten_cons]
      by_cases hm : ((node || XSeq.isNoAtom v) && (atom || !XSeq.isNoAtom v)) = true
      · rw [if_pos hm]
        cases q.mapM g with
        | error e => exact .error
        | ok vs =>
          simp only [Bind.bind, Except.bind]
          generalize (vs.filter _).any XSeq.isNoAtom = u
          generalize (vs.filter _).any (fun v => !XSeq.isNoAtom v) = w
          have : ((node || (XSeq.isNoAtom v || u)) && (atom || (!XSeq.isNoAtom v || w))) = true := by
            revert hm
            cases node <;> cases atom <;> cases XSeq.isNoAtom v <;> simp
          rw [this]
          exact .error
      · rw [if_neg hm]
        have := ih (env := env') (node || XSeq.isNoAtom v) (atom || !XSeq.isNoAtom v) hm hrest
        have := bind (f := fun r => Pure.pure (r.1, v ++ r.2)) (g := fun r => .ok (r.1, v ++ r.2)) this fun r _ _ => .ok (Frame.refl _)
        refine Eq.mp ?_ this
        congr 1
        rw [bind_assoc]
        congr 1
        funext vs
        simp only [Bool.or_assoc]
        generalize (vs.filter _).any XSeq.isNoAtom = u
        generalize (vs.filter _).any (fun v => !XSeq.isNoAtom v) = w
        generalize (node || (XSeq.isNoAtom v || u)) = u'
        generalize (atom || (!XSeq.isNoAtom v || w)) = w'
        cases u' <;> cases w' <;> rfl

theorem any_all {l : List XSeq} {p : XSeq → Bool} : (l.any p) = !(l.all fun x => !p x) := by
  induction l with
  | nil => rfl
  | cons x l ih => simp only [List.any_cons, List.all_cons, ih]; cases p x <;> simp

theorem pathOver (h : Heap) {f : XItem → E XSeq} {g : XItem → Except XErr XSeq} (q : XSeq)
    (H : ∀ x ∈ q, ∀ env', Frame Q env env' → Follows Q env' (f x env') (g x)) :
    Follows Q env (Amxml.pathOver h f q env) (if XSeq.isNoAtom q then q.mapM g >>= joined h else .error .typeError) := by
  unfold Amxml.pathOver
  split
  · have := pathLoop q false false (by simp) H
    have := bind (f := fun r => if r.1 then Pure.pure (XSeq.ofNodes (sortByDocOrder h (XSeq.toNodeset r.2))) else Pure.pure r.2)
      (g := fun r => .ok (if r.1 then XSeq.ofNodes (sortByDocOrder h (XSeq.toNodeset r.2)) else r.2)) this
      (fun r env' fr => by split <;> exact .ok (Frame.refl _))
    refine Eq.mp ?_ this
    congr 1
    rw [bind_assoc]
    congr 1
    funext vs
    have hfl : vs.flatten = (vs.filter fun v => !v.isEmpty).flatten := by
      induction vs with
      | nil => rfl
      | cons v vs ih => cases v <;> simp [ih]
    unfold joined
    simp only [Bool.false_or]
    rw [hfl]
    generalize (vs.filter fun v => !v.isEmpty) = ws
    rw [any_all (p := XSeq.isNoAtom), any_all (p := fun v => !XSeq.isNoAtom v)]
    simp only [Bool.not_not]
    cases h1 : ws.all XSeq.isNoAtom <;> cases h2 : ws.all (fun v => !XSeq.isNoAtom v)
    · rfl
    · rfl
    · rfl
    · have : ws = [] := by
        cases ws with
        | nil => rfl
        | cons w ws => simp only [List.all_cons, Bool.and_eq_true] at h1 h2; simp [h1.1] at h2
      subst this
      rfl
  · exact .error

end Follows

/-! ## The expressions -/

/-- `y` is evaluated as a part of `x`. -/
structure Part (y x : XNode) : Prop where
  named : Apart y
  free : ∀ n ∈ used y, n ∈ used x
  quant : ∀ n ∈ tested y, n ∈ tested x

theorem apart_node {t : XNodeType} {n : Str} {l r : XNode} (h : Apart (.node t n l r)) (ht : t ∉ itemKinds) :
    (∀ m ∈ used (.node t n l r), m ∉ tested (.node t n l r)) ∧ Apart l ∧ Apart r := by
  rw [Apart, if_neg ht] at h
  exact h

theorem _root_.Amxml.Spec.Apart.apart {x : XNode} (h : Apart x) : ∀ n ∈ used x, n ∉ tested x := by
  cases x with
  | nil => intro n hn; cases hn
  | node t m l r =>
    by_cases ht : t ∈ itemKinds
    · intro n hn; rw [used, if_pos ht] at hn; cases hn
    · exact (apart_node h ht).1

theorem Part.trans {z y x : XNode} (h : Part z y) (k : Part y x) : Part z x :=
  ⟨h.named, fun n hn => k.free n (h.free n hn), fun n hn => k.quant n (h.quant n hn)⟩

theorem Part.refl {x : XNode} (k : Apart x) : Part x x := ⟨k, fun _ => id, fun _ => id⟩

theorem tested_left {t : XNodeType} {n : Str} {l r : XNode} (ht : t ∉ itemKinds) : ∀ m ∈ tested l, m ∈ tested (.node t n l r) := by
  intro m hm
  rw [tested, if_neg ht]
  split <;> simp [hm]

theorem tested_right {t : XNodeType} {n : Str} {l r : XNode} (ht : t ∉ itemKinds) : ∀ m ∈ tested r, m ∈ tested (.node t n l r) := by
  intro m hm
  rw [tested, if_neg ht]
  split <;> simp [hm]

/-- The left side, of any expression but function items. -/
theorem Part.left {t : XNodeType} {n : Str} {l r x : XNode} (h : Part (.node t n l r) x) (ht : t ∉ itemKinds) : Part l x := by
  refine Part.trans ⟨(apart_node h.named ht).2.1, fun m hm => ?_, tested_left ht⟩ h
  rw [used, if_neg ht]
  split
  · simp [hm]
  · split <;> simp [hm]

/-- The right side of an expression that binds no variable there. -/
theorem Part.right {t : XNodeType} {n : Str} {l r x : XNode} (h : Part (.node t n l r) x)
    (ht : t ∉ itemKinds ∧ t ≠ .forVarBind ∧ t ≠ .letVarBind ∧ t ≠ .someVarBind ∧ t ≠ .everyVarBind) : Part r x := by
  refine Part.trans ⟨(apart_node h.named ht.1).2.2, fun m hm => ?_, tested_right ht.1⟩ h
  rw [used, if_neg ht.1]
  split
  · simp [hm]
  · rw [if_neg (by simp [ht.2])]
    simp [hm]

/-- What is to be shown of an expression. -/
def Good (cl : Caller) (h : Heap) (y : XNode) : Prop := ∀ c env s, Apart y → s.context = c → Fits (used y) env s →
  Follows (tested y) env (evaluate h c y env) (means cl h y s)

theorem Good.part {cl : Caller} {h : Heap} {y x : XNode} (H : Good cl h y) (p : Part y x) {c : XSeq} {env : Env} {s : Scene} (hc : s.context = c)
    (hf : Fits (used x) env s) : Follows (tested x) env (evaluate h c y env) (means cl h y s) :=
  (H c env s p.named hc (hf.mono p.free)).mono p.quant

/-- What is to be shown of the parts of an expression. -/
def GoodIn (cl : Caller) (h : Heap) (k : Nat) : Prop := ∀ y, sizeOf y < k → Good cl h y

variable {cl : Caller} {h : Heap} {k : Nat}

theorem orEmpty {y x : XNode} (H : Good cl h y) (p : Part y x) {c : XSeq} {env : Env} {s : Scene} (hc : s.context = c)
    (hf : Fits (used x) env s) :
    Follows (tested x) env (evalOrEmpty (evaluate h) c y env) (if y.isNil then .ok [] else means cl h y s) := by
  unfold evalOrEmpty
  split
  · exact .ok (Frame.refl _)
  · exact H.part p hc hf

theorem chosen_follows {x : XNode} (hw : Apart x) (r : XNode) (H : GoodIn cl h (sizeOf r + 1)) (p : Part r x) {env : Env} {s : Scene}
    (hf : Fits (used x) env s) (q : XSeq) :
    Follows (tested x) env (filterByPredicates (evaluate h) r.chain q env) (chosen cl h r s q) := by
  induction r generalizing env q with
  | nil => exact .ok (Frame.refl _)
  | node t n l r _ ih =>
    rw [chain_node]
    have hl : Good cl h l := H l (by simp; omega)
    have hr : GoodIn cl h (sizeOf r + 1) := fun y hy => H y (by simp; omega)
    have main : ∀ rev : Bool, Part l x → Part r x → Follows (tested x) env
        ((filterByPredicate (evaluate h) q l rev >>= fun q' => filterByPredicates (evaluate h) r.chain q') env)
        (if l.isNil then .error .cantOccur else (Spec.filtered rev (means cl h l) s q >>= fun q' => chosen cl h r s q')) := by
      intro rev pl pr
      have h1 : Follows (tested x) env (filterByPredicate (evaluate h) q l rev env)
          (if l.isNil then .error .cantOccur else Spec.filtered rev (means cl h l) s q) := by
        refine Follows.filtered rev q fun i hi k env' fr => Follows.atPosition ?_
        have hf' := hf.frame fr hw.apart
        exact hl.part pl rfl ⟨rfl, rfl, hf'.vars⟩
      have := Follows.bind (f := fun q' => filterByPredicates (evaluate h) r.chain q') (g := fun q' => chosen cl h r s q') h1
        fun q' env' fr => ih hr pr (hf.frame fr hw.apart) q'
      revert this
      cases l.isNil <;> exact id
    by_cases hn : t = .nil
    · subst hn
      exact .ok (Frame.refl _)
    rw [if_neg hn]
    by_cases h1 : t = .predicateTop
    · subst h1
      have pr : Part r x := p.right (by decide)
      exact main false (p.left (by decide)) pr
    by_cases h2 : t = .predicateRevTop
    · subst h2
      have pr : Part r x := p.right (by decide)
      exact main true (p.left (by decide)) pr
    have e : filterByPredicates (evaluate h) (.node t n l r :: r.chain) q = liftE (.error .cantOccur) := by
      unfold filterByPredicates
      cases t <;> first | rfl | contradiction
    have e' : chosen cl h (.node t n l r) s q = .error .cantOccur := by
      unfold chosen
      cases t <;> first | rfl | contradiction
    rw [e, e']
    exact .error

theorem argumentValues_follows {x : XNode} (hw : Apart x) (r : XNode) (H : GoodIn cl h (sizeOf r + 1)) (p : Part r x) {c : XSeq} {env : Env} {s : Scene}
    (hc : s.context = c) (hf : Fits (used x) env s) :
    Follows (tested x) env (listE (callArg (evaluate h) c) r.chain env) (argumentValues cl h r s) := by
  induction r generalizing env with
  | nil => exact .ok (Frame.refl _)
  | node t n l r _ ih =>
    rw [chain_node]
    have hl : Good cl h l := H l (by simp; omega)
    have hr : GoodIn cl h (sizeOf r + 1) := fun y hy => H y (by simp; omega)
    by_cases hn : t = .nil
    · subst hn
      exact .ok (Frame.refl _)
    rw [if_neg hn]
    by_cases h1 : t = .argumentTop
    · subst h1
      have pr : Part r x := p.right (by decide)
      exact Follows.bind (hl.part (p.left (by decide)) hc hf) fun v env' fr =>
        Follows.bind (ih hr pr (hf.frame fr hw.apart)) fun vs _ _ => .ok (Frame.refl _)
    have e : callArg (evaluate h) c (.node t n l r) = liftE (.error .cantOccur) := by
      unfold callArg
      cases t <;> first | rfl | contradiction
    have e' : argumentValues cl h (.node t n l r) s = .error .cantOccur := by
      unfold argumentValues
      cases t <;> first | rfl | contradiction
    rw [e']
    unfold listE
    rw [E.bind_run, e]
    exact .error

theorem memberValues_follows {x : XNode} (hw : Apart x) (r : XNode) (H : GoodIn cl h (sizeOf r + 1)) (p : Part r x) {c : XSeq} {env : Env} {s : Scene}
    (hc : s.context = c) (hf : Fits (used x) env s) :
    Follows (tested x) env (listE (arrayEntryE (evaluate h) c) r.chain env) (memberValues cl h r s) := by
  induction r generalizing env with
  | nil => exact .ok (Frame.refl _)
  | node t n l r _ ih =>
    rw [chain_node]
    have hl : Good cl h l := H l (by simp; omega)
    have hr : GoodIn cl h (sizeOf r + 1) := fun y hy => H y (by simp; omega)
    by_cases hn : t = .nil
    · subst hn
      exact .ok (Frame.refl _)
    rw [if_neg hn]
    by_cases h1 : t = .arrayEntry
    · subst h1
      have pr : Part r x := p.right (by decide)
      exact Follows.bind (hl.part (p.left (by decide)) hc hf) fun v env' fr =>
        Follows.bind (ih hr pr (hf.frame fr hw.apart)) fun vs _ _ => .ok (Frame.refl _)
    have e : arrayEntryE (evaluate h) c (.node t n l r) = liftE (.error .cantOccur) := by
      unfold arrayEntryE
      exact if_pos h1
    have e' : memberValues cl h (.node t n l r) s = .error .cantOccur := by
      unfold memberValues
      cases t <;> first | rfl | contradiction
    rw [e']
    unfold listE
    rw [E.bind_run, e]
    exact .error

theorem entryValues_follows {x : XNode} (hw : Apart x) (r : XNode) (H : GoodIn cl h (sizeOf r + 1)) (p : Part r x) {c : XSeq} {env : Env} {s : Scene}
    (hc : s.context = c) (hf : Fits (used x) env s) :
    Follows (tested x) env (listE (mapEntryE (evaluate h) c) r.chain env) (entryValues cl h r s) := by
  induction r generalizing env with
  | nil => exact .ok (Frame.refl _)
  | node t n l r _ ih =>
    rw [chain_node]
    have hr : GoodIn cl h (sizeOf r + 1) := fun y hy => H y (by simp; omega)
    by_cases hn : t = .nil
    · subst hn
      exact .ok (Frame.refl _)
    rw [if_neg hn]
    have fail : ∀ {a : E (XItem × XSeq)} {f}, a = liftE (.error .cantOccur) → entryValues cl h (.node t n l r) s = .error .cantOccur →
        Follows (tested x) env ((a >>= f) env : Except XErr (List (XItem × XSeq) × Env)) (entryValues cl h (.node t n l r) s) := by
      intro a f e e'
      rw [e', E.bind_run, e]
      exact .error
    by_cases h1 : t = .mapConstruct
    · subst h1
      have pr : Part r x := p.right (by decide)
      cases l with
      | nil => exact fail rfl rfl
      | node t' n' kx vx =>
        by_cases h2 : t' = .mapEntry
        · subst h2
          have hk : Good cl h kx := H kx (by simp; omega)
          have hv : Good cl h vx := H vx (by simp; omega)
          have e1 : entryValues cl h (.node .mapConstruct n (.node .mapEntry n' kx vx) r) s = (do
              let e ← (do
                let k ← means cl h kx s
                let k ← XSeq.item1 k
                let v ← means cl h vx s
                pure (k, v))
              let es ← entryValues cl h r s
              pure (e :: es)) := by
            rw [entryValues]
            simp only [bind_assoc, pure_bind]
          rw [e1]
          refine Follows.bind (a := mapEntryE (evaluate h) c (.node .mapConstruct n (.node .mapEntry n' kx vx) r)) ?_ fun v env' fr =>
            Follows.bind (ih hr pr (hf.frame fr hw.apart)) fun vs _ _ => .ok (Frame.refl _)
          exact Follows.bind (hk.part ((p.left (by decide)).left (by decide)) hc hf) fun kv env' fr => Follows.bind (Follows.lift _) fun k' env'' fr' =>
            Follows.bind (hv.part ((p.left (by decide)).right (by decide)) hc (hf.frame (fr.trans fr') hw.apart)) fun _ _ _ => .ok (Frame.refl _)
        · refine fail ?_ ?_
          · unfold mapEntryE
            rw [if_neg (by simp [XNode.ty]), if_pos (by simpa [XNode.ty, XNode.left] using h2)]
          · unfold entryValues
            cases t' <;> first | rfl | contradiction
    · refine fail ?_ ?_
      · unfold mapEntryE
        exact if_pos h1
      · unfold entryValues
        cases t <;> first | rfl | contradiction

theorem findCtxFn_two {name : Str} {k : Nat} {f : CtxFn} (hf : findCtxFn name k = some f) (hc : f = .forEach ∨ f = .filter) :
    k = 2 ∧ (f = .forEach → name = S "fn:for-each") ∧ (f = .filter → name = S "fn:filter") := by
  have tbl : ∀ e ∈ funcContextTbl, (e.2.2 = .forEach ∨ e.2.2 = .filter) →
      e.1 = 2 ∧ (e.2.2 = .forEach → e.2.1 = S "fn:for-each") ∧ (e.2.2 = .filter → e.2.1 = S "fn:filter") := by
    decide +kernel
  unfold findCtxFn at hf
  rw [Option.map_eq_some_iff] at hf
  obtain ⟨e, he, hf⟩ := hf
  have := List.find?_some he
  simp only [Bool.and_eq_true, beq_iff_eq] at this
  have := tbl e (List.mem_of_find?_eq_some he) (by rw [hf]; exact hc)
  subst hf
  simp_all

/-- A library function sees of the environment the focus only. -/
theorem library_follows (call : XNode → List XSeq → XSeq → E XSeq) {Q : List Str} {f : Str} (vs : List XSeq)
    (h1 : findCtxFn f vs.length ≠ some .forEach) (h2 : findCtxFn f vs.length ≠ some .filter) {env : Env} {s : Scene}
    (hp : env.position = s.position) (hl : env.last = s.last) :
    Follows Q env (evaluateFunction h call f vs s.context env) (library h f vs s) := by
  unfold library evaluateFunction
  have lift : ∀ r : Except XErr XSeq, Follows Q env (liftE r env) ((liftE r (⟨s.position, s.last, []⟩ : Env)).map fun r => r.1) := by
    intro r
    cases r with
    | ok v => exact .ok (Frame.refl _)
    | error e =>
      by_cases he : e = .outOfFuel
      · subst he; exact .free
      · exact .error he
  cases hf : findCtxFn f vs.length with
  | some g =>
    cases g <;> first
      | exact lift _
      | (exact absurd hf h1)
      | (exact absurd hf h2)
      | (simp only [applyCtxFn, hp, hl]; exact .ok (Frame.refl _))
  | none =>
    cases findPureFn f vs.length with
    | some g => exact lift _
    | none => exact lift _

/-- What is to be shown of the calling of function items. -/
def CallsWell (cl : Caller) (h : Heap) : Prop := ∀ f vs env (s : Scene), env.position = s.position → env.last = s.last →
  Follows [] env (call h f vs s.context env) (cl f vs s)

theorem named_follows (hcl : CallsWell cl h) {Q : List Str} (f : Str) (vs : List XSeq) {env : Env} {s : Scene}
    (hp : env.position = s.position) (hl : env.last = s.last) :
    Follows Q env (evaluateFunction h (call h) f vs s.context env) (named cl h f vs s) := by
  have ctx1 : findCtxFn (S "fn:for-each") 2 = some .forEach := by decide +kernel
  have ctx2 : findCtxFn (S "fn:filter") 2 = some .filter := by decide +kernel
  have step : ∀ g (i : XItem) (env' : Env), Frame Q env env' → Follows Q env' (call h g [[i]] s.context env') (cl g [[i]] s) := fun g i env' fr =>
    (hcl g [[i]] env' s (fr.position.trans hp) (fr.last.trans hl)).mono fun _ k => by cases k
  have other : (findCtxFn f vs.length ≠ some .forEach) → (findCtxFn f vs.length ≠ some .filter) → named cl h f vs s = library h f vs s →
      Follows Q env (evaluateFunction h (call h) f vs s.context env) (named cl h f vs s) := by
    intro h1 h2 e
    rw [e]
    exact library_follows _ vs h1 h2 hp hl
  have short : vs.length ≠ 2 → findCtxFn f vs.length ≠ some .forEach ∧ findCtxFn f vs.length ≠ some .filter := fun hk =>
    ⟨fun e => hk (findCtxFn_two e (.inl rfl)).1, fun e => hk (findCtxFn_two e (.inr rfl)).1⟩
  match vs, step, other, short with
  | [], _, other, short => exact other (short (by simp)).1 (short (by simp)).2 rfl
  | [a], _, other, short => exact other (short (by simp)).1 (short (by simp)).2 rfl
  | a :: b :: c :: l, _, other, short => exact other (short (by simp)).1 (short (by simp)).2 rfl
  | [q, g], step, other, _ =>
    by_cases e1 : f = S "fn:for-each"
    · subst e1
      unfold named evaluateFunction
      rw [show [q, g].length = 2 from rfl, ctx1]
      simp only
      rw [if_pos trivial]
      refine Follows.bind (Follows.lift _) fun g env' fr => ?_
      exact Follows.concatE q fun i _ env'' fr' => step g i env'' (fr.trans fr')
    · by_cases e2 : f = S "fn:filter"
      · subst e2
        unfold named evaluateFunction
        rw [show [q, g].length = 2 from rfl, ctx2]
        simp only
        rw [if_neg e1, if_pos trivial]
        refine Follows.bind (Follows.lift _) fun g env' fr => ?_
        refine Follows.concatE q fun i _ env'' fr' => ?_
        exact Follows.bind (step g i env'' (fr.trans fr')) fun v _ _ => Follows.bind (Follows.lift _) fun b _ _ => .ok (Frame.refl _)
      · refine other (fun e => e1 ((findCtxFn_two e (.inl rfl)).2.1 rfl)) (fun e => e2 ((findCtxFn_two e (.inr rfl)).2.2 rfl)) ?_
        unfold named
        simp only
        rw [if_neg e1, if_neg e2]

theorem applied_follows (hcl : CallsWell cl h) (hcall : ∀ f vs c, f.ty = .inlineFunction → call h f vs c = callInline h (evaluate h) f vs c) {Q : List Str}
    (v : XSeq) (vs : List XSeq) {env : Env} {s : Scene} (hp : env.position = s.position) (hl : env.last = s.last) :
    Follows Q env (applyTo h (evaluate h) s.context vs v env) (putTo cl h v vs s) := by
  unfold applyTo putTo
  split
  · rename_i f
    by_cases ht : f.ty = .inlineFunction
    · simp only [if_pos ht]
      rw [← hcall f vs s.context ht]
      exact (hcl f vs env s hp hl).mono fun _ k => by cases k
    · simp only [if_neg ht]
      exact .error
  · refine Follows.bind (Follows.lift _) fun k env' fr => ?_
    cases mapGet h _ k
    · exact .error
    · exact .ok (Frame.refl _)
  · refine Follows.bind (Follows.lift _) fun k env' fr => ?_
    cases arrayGet h _ k
    · exact .error
    · exact .ok (Frame.refl _)
  · rename_i h1 h2 h3
    split
    · exact absurd rfl (h1 _)
    · exact absurd rfl (h2 _)
    · exact absurd rfl (h3 _)
    · exact .error

theorem givenValues_follows {x : XNode} (hw : Apart x) (r : XNode) (H : GoodIn cl h (sizeOf r + 1))
    (p : Part r x) {c : XSeq} {env : Env} {s : Scene} (hc : s.context = c) (hf : Fits (used x) env s) :
    Follows (tested x) env (listE (fun a : XNode => evaluate h c a.left) r.chain env) (givenValues cl h r s) := by
  induction r generalizing env with
  | nil => exact .ok (Frame.refl _)
  | node t n l r _ ih =>
    rw [chain_node]
    have hl : Good cl h l := H l (by simp; omega)
    have hr : GoodIn cl h (sizeOf r + 1) := fun y hy => H y (by simp; omega)
    by_cases hn : t = .nil
    · subst hn
      exact .ok (Frame.refl _)
    rw [if_neg hn]
    by_cases h1 : t = .argumentTop
    · subst h1
      have pr : Part r x := p.right (by decide)
      exact Follows.bind (hl.part (p.left (by decide)) hc hf) fun v env' fr =>
        Follows.bind (ih hr pr (hf.frame fr hw.apart)) fun vs _ _ => .ok (Frame.refl _)
    have e' : givenValues cl h (.node t n l r) s = .error .outOfFuel := by
      unfold givenValues
      cases t <;> first | rfl | contradiction
    rw [e']
    exact .free

/-- The body of a binding. -/
theorem body_run {t : XNodeType} {n : Str} {l r : XNode} (ht : t = .forVarBind ∨ t = .letVarBind ∨ t = .someVarBind ∨ t = .everyVarBind)
    (hw : Apart (.node t n l r)) (H : Good cl h r) {s : Scene} {env : Env} (v : XSeq)
    (hf : Fits (used (.node t n l r)) env s) :
    Follows (tested (.node t n l r)) (env.setVar n v) (evaluate h s.context r (env.setVar n v)) (means cl h r (s.bind n v)) := by
  have hi : t ∉ itemKinds := by rcases ht with rfl | rfl | rfl | rfl <;> decide
  refine (H s.context _ (s.bind n v) (apart_node hw hi).2.2 rfl (hf.bind n v fun m hm hn => ?_)).mono (tested_right hi)
  rw [used, if_neg hi]
  rcases ht with rfl | rfl | rfl | rfl <;> simp [hm, hn]

theorem E.Conv.sandwich {α : Type} {F G : Nat → E α} {a : E α} (hF : E.Conv F a) (h1 : ∀ n, E.Le (F n) (G n)) (h2 : ∀ n, E.Le (G n) (F (n + 1))) :
    E.Conv G a := by
  intro env
  obtain ⟨n, hn⟩ := hF env
  refine ⟨n, fun m hm => ?_⟩
  by_cases ha : a env = .error .outOfFuel
  · by_cases hg : G m env = .error .outOfFuel
    · rw [hg, ha]
    · have := h2 m env hg
      rw [hn (m + 1) (by omega)] at this
      exact absurd (this.symm.trans ha) hg
  · have := h1 m env (by rw [hn m hm]; exact ha)
    rw [this, hn m hm]

/-- The recursion of the calling of function items, without depth. -/
theorem call_eq (h : Heap) (f : XNode) (args : List XSeq) (c : XSeq) : call h f args c = callStep h (evaluate h) (call h) f args c := by
  have hev : ∀ c x, E.Conv (fun n => eval h (n + 1) c x) (evaluate h c x) := fun c x => (evaluate_conv h c x).shift
  have hcl : ∀ f a c, E.Conv (fun n => callFunctionF h (eval h (n + 1)) n f a c) (call h f a c) := fun f a c =>
    E.Conv.sandwich (call_conv h f a c)
      (fun n => E.Le.callFunctionF h (eval_mono h (Nat.le_succ n)) n n (Nat.le_refl n) f a c)
      (fun n => E.Le.callFunctionF h (eval_mono h (Nat.le_refl _)) n (n + 1) (Nat.le_succ n) f a c)
  exact E.Conv.unique (F := fun n => callFunctionF h (eval h (n + 1)) (n + 1) f args c) (call_conv h f args c).shift
    (E.Conv.callStep h hcl hev f args c)

theorem call_inline (h : Heap) (f : XNode) (vs : List XSeq) (c : XSeq) (hf : f.ty = .inlineFunction) :
    call h f vs c = callInline h (evaluate h) f vs c := by
  rw [call_eq]
  unfold callStep
  rw [hf]

theorem step_run (hcl : CallsWell cl h) (H : GoodIn cl h k) {t : XNodeType} {n : Str} {l r : XNode} (hk : sizeOf (XNode.node t n l r) < k + 1) :
    Good cl h (.node t n l r) := by
  intro c env s hw hctx hf
  subst hctx
  by_cases hi : t ∈ itemKinds
  · rw [evaluate_eq]
    simp only [itemKinds, List.mem_cons, List.not_mem_nil, or_false] at hi
    rcases hi with rfl | rfl | rfl <;> exact .ok (Frame.refl _)
  have hl : Good cl h l := H l (by simp at hk; omega)
  have hr : Good cl h r := H r (by simp at hk; omega)
  have hrs : GoodIn cl h (sizeOf r + 1) := fun y hy => H y (by simp at hk; omega)
  have hls : GoodIn cl h (sizeOf l + 1) := fun y hy => H y (by simp at hk; omega)
  have p := Part.refl hw
  have pl := p.left hi
  have keep : ∀ {env'}, Frame (tested (.node t n l r)) env env' → Fits (used (.node t n l r)) env' s := fun fr => hf.frame fr hw.apart
  have hL := fun (env' : Env) fr => hl.part (c := s.context) (env := env') (s := s) pl rfl (keep fr)
  have hL0 := hL env (Frame.refl env)
  have hR := fun (pr : t ∉ itemKinds ∧ t ≠ .forVarBind ∧ t ≠ .letVarBind ∧ t ≠ .someVarBind ∧ t ≠ .everyVarBind) (env' : Env) fr =>
    hr.part (c := s.context) (env := env') (s := s) (p.right pr) rfl (keep fr)
  have hloc : t ∈ axes → Follows (tested (.node t n l r)) env (locationPath h (evaluate h) s.context (.node t n l r) env) (do
      let vs ← (XSeq.toNodeset s.context).mapM fun i =>
        match axisNodes h i (.node t n l r) with
        | none => .error .cantOccur
        | some ns => chosen cl h r s (XSeq.ofNodes ns)
      pure (XSeq.ofNodes (vs.flatMap XSeq.toNodeset))) := by
    intro hax
    have pr := p.right (by
      refine ⟨hi, ?_, ?_, ?_, ?_⟩ <;> (rintro rfl; revert hax; decide))
    refine Follows.bind (Follows.listE _ fun i _ env' fr => ?_) fun _ _ _ => .ok (Frame.refl _)
    unfold locStep
    show Follows _ env' ((match axisNodes h i (.node t n l r) with | none => liftE (.error .cantOccur) | some l => filterByPredicates (evaluate h) r.chain (XSeq.ofNodes l) : E XSeq) env') _
    cases axisNodes h i (.node t n l r) with
    | none => exact .error
    | some ns => exact chosen_follows hw r hrs pr (keep fr) _
  rw [evaluate_eq]
  have hbin : (∀ f, binaryOp h t = some f → evalStep h (call h) (evaluate h) s.context (.node t n l r) = (do
        let a ← evaluate h s.context l
        let b ← evaluate h s.context r
        liftE (f a b)) ∧ means cl h (.node t n l r) s = (do
        let a ← means cl h l s
        let b ← means cl h r s
        f a b) ∧ (t ∉ itemKinds ∧ t ≠ .forVarBind ∧ t ≠ .letVarBind ∧ t ≠ .someVarBind ∧ t ≠ .everyVarBind)) := by
    intro f hb
    cases t <;> first
      | (simp only [binaryOp, reduceCtorEq] at hb; done)
      | (cases hb; exact ⟨rfl, rfl, by decide⟩)
  cases hb : binaryOp h t with
  | some f =>
    obtain ⟨e1, e2, pr⟩ := hbin f hb
    rw [e1, e2]
    exact Follows.bind hL0 fun a env' fr => Follows.bind (hR pr env' fr) fun b _ _ => Follows.lift _
  | none =>
    clear hbin
    cases t
    all_goals first
      | (cases hb; done)
      | exact hloc (by decide)
      | exact .error
      | exact .ok (Frame.refl _)
      | exact Follows.lift (lookupWildcard h s.context)
      | skip
    case forExpr => exact hR (by decide) env (Frame.refl _)
    case letExpr => exact hR (by decide) env (Frame.refl _)
    case someExpr => exact hR (by decide) env (Frame.refl _)
    case everyExpr => exact hR (by decide) env (Frame.refl _)
    case parenthesizedExpr => exact orEmpty hl pl rfl hf
    case operatorPath =>
      refine Follows.bind (orEmpty hl pl rfl hf) fun q env' fr => ?_
      show Follows _ env' ((if r.isNil then pure q else pathOver h (fun i => evaluate h [i] r) q : E XSeq) env')
        (if r.isNil then .ok q else if XSeq.isNoAtom q then (q.mapM fun i => means cl h r (s.over i)) >>= joined h else .error .typeError)
      cases r.isNil
      · exact Follows.pathOver h q fun i _ env'' fr' => hr.part (p.right (by decide)) rfl ((keep (fr.trans fr')).over i)
      · exact .ok (Frame.refl _)
    case operatorMap =>
      refine Follows.bind (orEmpty hl pl rfl hf) fun q env' fr => ?_
      show Follows _ env' ((if r.isNil then pure q else concatE (fun i => evaluate h [i] r) q : E XSeq) env')
        (if r.isNil then .ok q else (q.mapM fun i => means cl h r (s.over i)) >>= fun vs => .ok vs.flatten)
      cases r.isNil
      · exact Follows.concatE q fun i _ env'' fr' => hr.part (p.right (by decide)) rfl ((keep (fr.trans fr')).over i)
      · exact .ok (Frame.refl _)
    case operatorOr =>
      refine Follows.bind hL0 fun a env' fr => Follows.bind (Follows.lift _) fun b env'' fr' => ?_
      cases b
      · exact Follows.bind (hR (by decide) env'' (fr.trans fr')) fun a' env3 fr3 => Follows.bind (Follows.lift _) fun b' env4 fr4 => .ok (Frame.refl _)
      · exact .ok (Frame.refl _)
    case operatorAnd =>
      refine Follows.bind hL0 fun a env' fr => Follows.bind (Follows.lift _) fun b env'' fr' => ?_
      cases b
      · exact .ok (Frame.refl _)
      · exact Follows.bind (hR (by decide) env'' (fr.trans fr')) fun a' env3 fr3 => Follows.bind (Follows.lift _) fun b' env4 fr4 => .ok (Frame.refl _)
    case operatorUnaryPlus => exact Follows.bind (hR (by decide) env (Frame.refl _)) fun a env' fr => Follows.lift _
    case operatorUnaryMinus => exact Follows.bind (hR (by decide) env (Frame.refl _)) fun a env' fr => Follows.lift _
    case operatorInstanceOf =>
      exact Follows.bind hL0 fun a env' fr => Follows.bind (Follows.lift _) fun _ _ _ => .ok (Frame.refl _)
    case operatorCastableAs => exact Follows.bind hL0 fun a env' fr => .ok (Frame.refl _)
    case operatorCastAs => exact Follows.bind hL0 fun a env' fr => Follows.lift _
    case ifExpr =>
      have pr := p.right (by decide)
      cases r with
      | nil => exact Follows.bind hL0 fun a env' fr => .error
      | node t' n' x y =>
        by_cases e : t' = .ifThenElse
        · subst e
          have hx : Good cl h x := H x (by simp at hk; omega)
          have hy : Good cl h y := H y (by simp at hk; omega)
          refine Follows.bind hL0 fun a env' fr => Follows.bind (Follows.lift _) fun b env'' fr' => ?_
          cases b
          · exact hy.part (pr.right (by decide)) rfl (keep (fr.trans fr'))
          · exact hx.part (pr.left (by decide)) rfl (keep (fr.trans fr'))
        · have e1 : means cl h (.node .ifExpr n l (.node t' n' x y)) s = (means cl h l s >>= fun _ => .error .cantOccur) := by
            cases t' <;> first | rfl | contradiction
          rw [e1]
          refine Follows.bind hL0 fun a env' fr => ?_
          show Follows _ env' ((if t' ≠ .ifThenElse then liftE (.error .cantOccur) else _ : E XSeq) env') _
          rw [if_pos e]
          exact .error
    case forVarBind =>
      refine Follows.bind hL0 fun q env' fr => ?_
      exact Follows.forLoop q fun i _ env'' fr' => body_run (by simp) hw hr [i] (keep (fr.trans fr'))
    case letVarBind =>
      refine Follows.bind hL0 fun v env' fr => ?_
      exact Follows.letBind (body_run (by simp) hw hr v (keep fr))
    case someVarBind =>
      refine Follows.bind hL0 fun q env' fr => ?_
      exact Follows.quantLoop (by simp [tested, XNode.name, itemKinds]) true q fun i _ env'' fr' => body_run (by simp) hw hr [i] (keep (fr.trans fr'))
    case everyVarBind =>
      refine Follows.bind hL0 fun q env' fr => ?_
      exact Follows.quantLoop (by simp [tested, XNode.name, itemKinds]) false q fun i _ env'' fr' => body_run (by simp) hw hr [i] (keep (fr.trans fr'))
    case varRef =>
      show Follows _ env (.ok ((env.getVar n).getD [], env)) (.ok (s.vars n))
      rw [hf.vars n (by simp [used, itemKinds])]
      exact .ok (Frame.refl _)
    case functionCall =>
      refine Follows.bind (argumentValues_follows hw r hrs (p.right (by decide)) rfl hf) fun vs env' fr => ?_
      exact named_follows hcl n vs (keep fr).position (keep fr).last
    case applyPredicate =>
      cases r with
      | nil => exact Follows.bind hL0 fun q env' fr => .free
      | node t' n' x y =>
        by_cases ht : t' = .predicateTop
        · subst ht
          have pr := (p.right (by decide)).left (by decide)
          have hx : Good cl h x := H x (by simp at hk; omega)
          refine Follows.bind hL0 fun q env' fr => ?_
          refine Follows.filtered false q fun i hi k env'' fr' => Follows.atPosition ?_
          have hf' := keep (fr.trans fr')
          exact hx.part pr rfl ⟨rfl, rfl, hf'.vars⟩
        · have e1 : means cl h (.node .applyPredicate n l (.node t' n' x y)) s = (means cl h l s >>= fun _ => .error .outOfFuel) := by
            cases t' <;> first | rfl | contradiction
          rw [e1]
          exact Follows.bind hL0 fun q env' fr => .free
    case applyArgument =>
      cases r with
      | nil => exact Follows.bind hL0 fun q env' fr => .free
      | node t' n' x y =>
        by_cases ht : t' = .argumentListTop
        · subst ht
          have pr := (p.right (by decide)).left (by decide)
          have hx : GoodIn cl h (sizeOf x + 1) := fun y hy => H y (by simp at hk; omega)
          refine Follows.bind hL0 fun q env' fr => ?_
          refine Follows.bind (givenValues_follows hw x hx pr rfl (keep fr)) fun vs env'' fr' => ?_
          exact applied_follows hcl (call_inline h) q vs (keep (fr.trans fr')).position (keep (fr.trans fr')).last
        · have e1 : means cl h (.node .applyArgument n l (.node t' n' x y)) s = (means cl h l s >>= fun _ => .error .outOfFuel) := by
            cases t' <;> first | rfl | contradiction
          rw [e1]
          exact Follows.bind hL0 fun q env' fr => .free
    case map => exact Follows.bind (entryValues_follows hw l hls pl rfl hf) fun _ _ _ => .ok (Frame.refl _)
    case squareArray => exact Follows.bind (memberValues_follows hw l hls pl rfl hf) fun _ _ _ => .ok (Frame.refl _)
    case curlyArray => exact Follows.bind hL0 fun a env' fr => .ok (Frame.refl _)
    case unaryLookupByExpr => exact Follows.bind hL0 fun a env' fr => Follows.lift _

theorem good (hcl : CallsWell cl h) (x : XNode) : Good cl h x := by
  have : ∀ k, GoodIn cl h k := by
    intro k
    induction k with
    | zero => intro y hy; omega
    | succ k ih =>
      intro y hy
      cases y with
      | nil =>
        intro c env s _ _ _
        rw [evaluate_eq]
        exact .error
      | node t n l r => exact step_run hcl ih hy
  exact this (sizeOf x + 1) x (by omega)

/-! ## Calls -/

theorem apart_of_untested {x : XNode} (hx : tested x = []) : Apart x := by
  induction x with
  | nil => trivial
  | node t n l r ihl ihr =>
    rw [Apart]
    split
    · trivial
    · rename_i ht
      have h0 := hx
      rw [tested, if_neg ht] at hx
      by_cases hq : t = .someVarBind ∨ t = .everyVarBind
      · rw [if_pos hq] at hx; cases hx
      · rw [if_neg hq] at hx
        have h1 := List.append_eq_nil_iff.1 hx
        refine ⟨fun m _ hm => ?_, ihl h1.1, ihr h1.2⟩
        rw [h0] at hm
        cases hm

theorem lookup_zip {ns : List Str} {vs : List XSeq} (hl : vs.length = ns.length) (m : Str) : (ns.zip vs).lookup m = none ↔ m ∉ ns := by
  induction ns generalizing vs with
  | nil => simp
  | cons n ns ih =>
    cases vs with
    | nil => cases hl
    | cons v vs =>
      rw [List.zip_cons_cons, List.lookup_cons]
      by_cases e : m = n
      · subst e; simp
      · rw [beq_false_of_ne e]
        simp only [List.mem_cons, e, false_or]
        exact ih (by simpa using hl)

theorem lookup_zip_none {ns : List Str} (vs : List XSeq) {m : Str} (hm : m ∉ ns) : (ns.zip vs).lookup m = none := by
  induction ns generalizing vs with
  | nil => simp
  | cons n ns ih =>
    cases vs with
    | nil => rfl
    | cons v vs =>
      rw [List.zip_cons_cons, List.lookup_cons, beq_false_of_ne fun e => hm (by simp [e])]
      exact ih vs fun k => hm (by simp [k])

/-- The variables of the parameters. -/
def bound (ps : List (Str × XNode)) (vs : List XSeq) (env : Env) : Env := (ps.zip vs).foldl (fun e b => e.setVar b.1.1 b.2) env

theorem bound_focus (ps : List (Str × XNode)) (vs : List XSeq) (env : Env) :
    (bound ps vs env).position = env.position ∧ (bound ps vs env).last = env.last := by
  unfold bound
  generalize ps.zip vs = l
  induction l generalizing env with
  | nil => exact ⟨rfl, rfl⟩
  | cons b l ih => exact ih (env.setVar b.1.1 b.2)

theorem bindParams_run (h : Heap) (ps : List (Str × XNode)) (vs : List XSeq) (hl : vs.length = ps.length) (env : Env) :
    bindParams h ps vs env = (admitted h ps vs).map fun _ => ((), bound ps vs env) := by
  induction ps generalizing vs env with
  | nil =>
    cases vs with
    | nil => rfl
    | cons v vs => cases hl
  | cons p ps ih =>
    cases vs with
    | nil => cases hl
    | cons v vs =>
      obtain ⟨n, t⟩ := p
      rw [bindParams, E.bind_run]
      have ih := ih vs (by simpa using hl) (env.setVar n v)
      unfold admitted at ih ⊢
      rw [List.zip_cons_cons, List.forM]
      cases matchSequenceType h v t with
      | error e => rfl
      | ok b =>
        cases b
        · rfl
        · exact ih

theorem stack_bound (ps : List (Str × XNode)) (vs : List XSeq) (hn : (ps.map fun p => p.1).Nodup) (env : Env) (m : Str) :
    stack (bound ps vs env) m = ((((ps.map fun p => p.1).zip vs).lookup m).map fun v => (m, v)).toList ++ stack env m := by
  induction ps generalizing vs env with
  | nil => rfl
  | cons p ps ih =>
    cases vs with
    | nil => rfl
    | cons v vs =>
      obtain ⟨n, t⟩ := p
      rw [List.map_cons, List.nodup_cons] at hn
      have ih := ih vs hn.2 (env.setVar n v)
      rw [show bound ((n, t) :: ps) (v :: vs) env = bound ps vs (env.setVar n v) from rfl, ih, stack_setVar]
      rw [List.map_cons, List.zip_cons_cons, List.lookup_cons]
      by_cases e : n = m
      · subst e
        rw [if_pos rfl]
        have : ((ps.map fun p => p.1).zip vs).lookup n = none := lookup_zip_none vs hn.1
        rw [this]
        simp
      · rw [if_neg e]
        have e2 : (m == n) = false := beq_false_of_ne fun k => e k.symm
        rw [e2]

theorem stack_removed (ns : List Str) (hn : ns.Nodup) (env : Env) (m : Str) :
    stack (ns.foldr (fun n e => e.removeVar n) env) m = if m ∈ ns then (stack env m).tail else stack env m := by
  induction ns with
  | nil => rfl
  | cons n ns ih =>
    rw [List.nodup_cons] at hn
    rw [List.foldr_cons, stack_removeVar, ih hn.2]
    by_cases e : n = m
    · subst e
      simp [hn.1]
    · have e' : ¬ m = n := fun k => e k.symm
      simp [e, e']

theorem removed_focus (ns : List Str) (env : Env) :
    (ns.foldr (fun n e => e.removeVar n) env).position = env.position ∧ (ns.foldr (fun n e => e.removeVar n) env).last = env.last := by
  induction ns with
  | nil => exact ⟨rfl, rfl⟩
  | cons n ns ih => exact ih

theorem inline_follows (hcl : CallsWell cl h) {f : XNode} (hf : Closed f) {vs : List XSeq} (hl : vs.length = (parametersOf f).length)
    {env : Env} {s : Scene} (hp : env.position = s.position) (hq : env.last = s.last) :
    Follows [] env (callInline h (evaluate h) f vs s.context env) (do
      admitted h (parametersOf f) vs
      means cl h f.left (s.inside (parametersOf f) vs)) := by
  unfold callInline
  rw [show paramsOf f = parametersOf f from rfl]
  generalize hps : parametersOf f = ps at hl
  obtain ⟨hn, hu, ht⟩ := hf
  rw [hps] at hn hu
  rw [E.bind_run, bindParams_run h ps vs hl]
  cases admitted h ps vs with
  | error e =>
    by_cases he : e = .outOfFuel
    · subst he; exact .free
    · exact .error he
  | ok u =>
    show Follows [] env ((_ >>= fun v => _ : E XSeq) (bound ps vs env)) (means cl h f.left (s.inside ps vs))
    rw [E.bind_run]
    have hfoc := bound_focus ps vs env
    have hfits : Fits (used f.left) (bound ps vs env) (s.inside ps vs) := by
      refine ⟨hfoc.1.trans hp, hfoc.2.trans hq, fun m hm => ?_⟩
      rw [getVar_stack, stack_bound ps vs hn]
      show _ = (((ps.map fun p => p.1).zip vs).lookup m).getD []
      cases hk : ((ps.map fun p => p.1).zip vs).lookup m with
      | some v => rfl
      | none =>
        exact absurd (hu m hm) ((lookup_zip (by simpa using hl) m).1 hk)
    have hrun := good hcl f.left s.context (bound ps vs env) (s.inside ps vs) (apart_of_untested ht) rfl hfits
    rw [ht] at hrun
    generalize evaluate h s.context f.left (bound ps vs env) = o at hrun
    generalize means cl h f.left (s.inside ps vs) = r at hrun
    cases hrun with
    | free => exact .free
    | error he hs => exact .error he hs
    | ok fr =>
      rename_i v env'
      refine .ok ⟨?_, ?_, fun m _ => ?_⟩
      · exact (removed_focus _ _).1.trans (fr.position.trans hfoc.1)
      · exact (removed_focus _ _).2.trans (fr.last.trans hfoc.2)
      · show stack ((ps.map fun p => p.1).foldr (fun n e => e.removeVar n) env') m = stack env m
        rw [stack_removed _ hn, fr.vars m (by simp), stack_bound ps vs hn]
        split
        · rename_i hm
          cases hk : ((ps.map fun p => p.1).zip vs).lookup m with
          | some v => rfl
          | none => exact absurd hm ((lookup_zip (by simpa using hl) m).1 hk)
        · rename_i hm
          rw [(lookup_zip (by simpa using hl) m).2 hm]
          rfl

theorem Fits.start {F : List Str} {env : Env} {s : Scene} (hp : env.position = s.position) (hl : env.last = s.last) (hF : F = []) : Fits F env s :=
  ⟨hp, hl, fun n hn => by rw [hF] at hn; cases hn⟩

theorem filled_follows (hcl : CallsWell cl h) (r : XNode) (hu : used r = []) (ht : tested r = []) (vs : List XSeq) {env : Env} {s : Scene}
    (hp : env.position = s.position) (hq : env.last = s.last) :
    Follows [] env (partialArgs (evaluate h) s.context r.chain vs env) (filledValues cl h s r.chain vs) := by
  induction r generalizing env vs with
  | nil => exact .ok (Frame.refl _)
  | node t n l r _ ih =>
    rw [chain_node]
    by_cases hn : t = .nil
    · rw [if_pos hn]
      exact .ok (Frame.refl _)
    rw [if_neg hn]
    have part : t ∉ itemKinds → t ≠ .varRef → (t ≠ .forVarBind ∧ t ≠ .letVarBind ∧ t ≠ .someVarBind ∧ t ≠ .everyVarBind) →
        (used l = [] ∧ used r = []) ∧ tested l = [] ∧ tested r = [] := by
      intro h1 h2 h3
      rw [used, if_neg h1, if_neg h2, if_neg (by simp [h3])] at hu
      rw [tested, if_neg h1, if_neg (by simp [h3])] at ht
      exact ⟨List.append_eq_nil_iff.1 hu, List.append_eq_nil_iff.1 ht⟩
    by_cases h1 : t = .argumentTop
    · subst h1
      obtain ⟨⟨ul, ur⟩, tl, tr⟩ := part (by decide) (by decide) (by decide)
      have hrun := good hcl l s.context env s (apart_of_untested tl) rfl (Fits.start hp hq ul)
      rw [tl] at hrun
      exact Follows.bind hrun fun v env' fr =>
        Follows.bind (ih ur tr vs (fr.position.trans hp) (fr.last.trans hq)) fun vs _ _ => .ok (Frame.refl _)
    by_cases h2 : t = .argumentPlaceholder
    · subst h2
      obtain ⟨⟨ul, ur⟩, tl, tr⟩ := part (by decide) (by decide) (by decide)
      cases vs with
      | nil => exact .error
      | cons v vs => exact Follows.bind (ih ur tr vs hp hq) fun vs _ _ => .ok (Frame.refl _)
    have e : partialArgs (evaluate h) s.context (.node t n l r :: r.chain) vs = liftE (.error .cantOccur) := by
      unfold partialArgs
      cases t <;> first | rfl | contradiction
    have e' : filledValues cl h s (.node t n l r :: r.chain) vs = .error .cantOccur := by
      unfold filledValues
      cases t <;> first | rfl | contradiction
    rw [e, e']
    exact .error

theorem callsWell (h : Heap) (n : Nat) : CallsWell (callItem h n) h := by
  induction n with
  | zero => intro f vs env s _ _; exact .free
  | succ n ih =>
    intro f vs env s hp hq
    rw [call_eq]
    unfold callStep callItem
    generalize ht : f.ty = t
    by_cases h1 : t = .inlineFunction
    · subst h1
      show Follows [] env (callInline h (evaluate h) f vs s.context env) (if _ then _ else _)
      by_cases hc : Closed f ∧ vs.length = (parametersOf f).length
      · rw [if_pos hc]
        exact inline_follows ih hc.1 hc.2 hp hq
      · rw [if_neg hc]
        exact .free
    by_cases h2 : t = .namedFunctionRef
    · subst h2
      simp only
      rcases splitHash f.name with _ | ⟨nm, _ | ⟨ar, _⟩⟩
      · exact .error
      · exact .error
      · simp only
        by_cases ha : asUsize (atoi ar) = vs.length
        · rw [if_pos ha, if_pos ha]
          exact named_follows ih nm vs hp hq
        · rw [if_neg ha, if_neg ha]
          exact .error
    by_cases h3 : t = .partialFunctionCall
    · subst h3
      simp only
      by_cases hc : used f.right = [] ∧ tested f.right = []
      · rw [if_pos hc]
        refine Follows.bind (filled_follows ih f.right hc.1 hc.2 vs hp hq) fun as env' fr => ?_
        exact named_follows ih _ as (fr.position.trans hp) (fr.last.trans hq)
      · rw [if_neg hc]
        exact .free
    cases t <;> first | exact .error | contradiction

end Applied
end Amxml
