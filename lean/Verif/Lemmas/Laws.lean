import Verif.Spec.Laws
import Verif.Lemmas.Scoping
import Verif.Props.XPath

/-!
# Simulation: expressions and places with the same meaning

Used for the laws of expressions (C97): replacing expressions by equal ones, and places an expression cannot tell apart.
-/

namespace Amxml
open Spec
namespace Laws

/-- The same result, up to the kind of error. -/
def Agree {α : Type} (a b : Except XErr α) : Prop := a.toOption = b.toOption

namespace Agree
variable {α β : Type}
theorem rfl {a : Except XErr α} : Agree a a := Eq.refl _
theorem symm {a b : Except XErr α} (h : Agree a b) : Agree b a := Eq.symm h
theorem trans {a b c : Except XErr α} (h : Agree a b) (k : Agree b c) : Agree a c := Eq.trans h k
theorem of_eq {a b : Except XErr α} (h : a = b) : Agree a b := by subst h; exact rfl
theorem errors {e e' : XErr} : Agree (.error e : Except XErr α) (.error e') := Eq.refl _
theorem bind {a a' : Except XErr α} {f f' : α → Except XErr β} (h : Agree a a') (k : ∀ v, Agree (f v) (f' v)) :
    Agree (a >>= f) (a' >>= f') := by
  cases a <;> cases a' <;> first | exact Eq.refl _ | (cases h; done) | (cases h; exact k _)
theorem bindL {a a' : Except XErr α} {f : α → Except XErr β} (h : Agree a a') : Agree (a >>= f) (a' >>= f) := bind h fun _ => rfl
theorem mapM {f f' : α → Except XErr β} (l : List α) (k : ∀ v ∈ l, Agree (f v) (f' v)) : Agree (l.mapM f) (l.mapM f') := by
  induction l with
  | nil => exact rfl
  | cons x l ih =>
    rw [List.mapM_cons, List.mapM_cons]
    exact bind (k x (by simp)) fun v => bindL (ih fun y hy => k y (by simp [hy]))
theorem anyM {f f' : α → Except XErr Bool} (l : List α) (k : ∀ v, Agree (f v) (f' v)) : Agree (l.anyM f) (l.anyM f') := by
  induction l with
  | nil => exact rfl
  | cons x l ih =>
    rw [List.anyM, List.anyM]
    refine bind (k x) fun v => ?_
    cases v
    · exact ih
    · exact rfl
theorem allM {f f' : α → Except XErr Bool} (l : List α) (k : ∀ v, Agree (f v) (f' v)) : Agree (l.allM f) (l.allM f') := by
  induction l with
  | nil => exact rfl
  | cons x l ih =>
    rw [List.allM, List.allM]
    refine bind (k x) fun v => ?_
    cases v
    · exact rfl
    · exact ih
/-- Agreement of results: the same values. -/
theorem ok_iff {a b : Except XErr α} (h : Agree a b) (v : α) : a = .ok v ↔ b = .ok v := by
  cases a <;> cases b <;> first | (cases h; done) | (cases h; exact Iff.rfl) | (constructor <;> (intro k; cases k))
end Agree

theorem _root_.Amxml.Spec.IsExpr.notNil {a : XNode} (ha : IsExpr a) : a.isNil = false := by
  cases e : a.isNil with
  | false => rfl
  | true =>
    have : a.ty = .nil := by simpa [XNode.isNil] using e
    exact absurd (by rw [this]; decide) ha

theorem _root_.Amxml.Spec.IsExpr.type {t : XNodeType} {n : Str} {l r : XNode} (ha : IsExpr (.node t n l r)) : t ∉ parts := ha

variable (h : Heap) (s : Scene)

theorem m_paren {a : XNode} (ha : IsExpr a) : meaning h (Q.paren a) s = meaning h a s := by
  simp [Q.paren, meaning, ha.notNil]
theorem m_none : meaning h Q.none s = .ok [] := by simp [Q.none, meaning, XNode.isNil, XNode.ty]
theorem m_comma (a b : XNode) : meaning h (Q.comma a b) s = (do
    let x ← meaning h a s
    let y ← meaning h b s
    .ok (x ++ y)) := by simp [Q.comma, meaning, binaryOp, opConcatenate]
theorem m_and (a b : XNode) : meaning h (Q.and a b) s = (do
    if ← XSeq.ebv (← meaning h a s) then pure [.boolean (← XSeq.ebv (← meaning h b s))] else pure [.boolean false]) := by
  simp [Q.and, meaning]
theorem m_or (a b : XNode) : meaning h (Q.or a b) s = (do
    if ← XSeq.ebv (← meaning h a s) then pure [.boolean true] else pure [.boolean (← XSeq.ebv (← meaning h b s))]) := by
  simp [Q.or, meaning]
theorem m_ite (c a b : XNode) : meaning h (Q.ite c a b) s = (do
    if ← XSeq.ebv (← meaning h c s) then meaning h a s else meaning h b s) := by simp [Q.ite, meaning]
theorem m_call (f : Str) (a : XNode) : meaning h (Q.call f a) s = (do library h f [← meaning h a s] s) := by
  simp only [Q.call, meaning, arguments]
  cases meaning h a s <;> rfl
theorem m_call0 (f : Str) : meaning h (Q.call0 f) s = library h f [] s := by
  simp only [Q.call0, meaning, arguments]
  rfl
theorem m_call2 (f : Str) (a b : XNode) : meaning h (Q.call2 f a b) s = (do
    let x ← meaning h a s
    let y ← meaning h b s
    library h f [x, y] s) := by
  simp only [Q.call2, meaning, arguments]
  cases meaning h a s <;> cases meaning h b s <;> rfl
theorem m_for (n : Str) (a b : XNode) : meaning h (Q.forIn n a b) s = (do
      let q ← meaning h a s
      let vs ← q.mapM fun i => meaning h b (s.bind n [i])
      pure vs.flatten) := by simp [Q.forIn, meaning]
theorem m_let (n : Str) (a b : XNode) : meaning h (Q.letBe n a b) s = (do
      let q ← meaning h a s
      meaning h b (s.bind n q)) := by simp [Q.letBe, meaning]
theorem m_some (n : Str) (a b : XNode) : meaning h (Q.some n a b) s = (do
      let q ← meaning h a s
      let t ← q.anyM fun i => do XSeq.ebv (← meaning h b (s.bind n [i]))
      pure [.boolean t]) := by simp [Q.some, meaning]
theorem m_every (n : Str) (a b : XNode) : meaning h (Q.every n a b) s = (do
      let q ← meaning h a s
      let t ← q.allM fun i => do XSeq.ebv (← meaning h b (s.bind n [i]))
      pure [.boolean t]) := by simp [Q.every, meaning]
theorem m_var (n : Str) : meaning h (Q.var n) s = .ok (s.vars n) := by simp [Q.var, meaning]
theorem m_context : meaning h Q.context s = .ok s.context := by simp [Q.context, meaning]
theorem m_int (n : Str) : meaning h (Q.int n) s = .ok [.integer (atoi n)] := by simp [Q.int, meaning]
theorem m_eq (a b : XNode) : meaning h (Q.eq a b) s = (do
    let x ← meaning h a s
    let y ← meaning h b s
    generalEq h x y) := by simp [Q.eq, meaning, binaryOp]
theorem m_concat (a b : XNode) : meaning h (Q.concat a b) s = (do
    let x ← meaning h a s
    let y ← meaning h b s
    fnConcat h [x, y]) := by simp [Q.concat, meaning, binaryOp]
theorem m_filter (a p : XNode) (hp : p.isNil = false) : meaning h (Q.filter a p) s = (do
    let q ← meaning h a s
    filtered false (meaning h p) s q) := by simp [Q.filter, meaning, hp]
theorem m_map (a b : XNode) (ha : a.isNil = false) (hb : b.isNil = false) : meaning h (Q.map a b) s = (do
    let q ← meaning h a s
    let vs ← q.mapM fun i => meaning h b (s.over i)
    pure vs.flatten) := by simp [Q.map, meaning, ha, hb]

/-! ### Simulation -/

/-- A relation between expressions at places that follows the way `meaning` goes. -/
structure Simulates (h : Heap) (A : XNode → XNode → Scene → Scene → Prop) : Prop where
  context : ∀ {x y s s'}, A x y s s' → s.context = s'.context
  over : ∀ {x y s s'}, A x y s s' → ∀ i, A x y (s.over i) (s'.over i)
  item : ∀ {x y s s'}, A x y s s' → ∀ i p k, A x y (s.item i p k) (s'.item i p k)
  step : ∀ {x y s s'}, A x y s s' → (IsExpr x ∧ IsExpr y ∧ Agree (meaning h x s) (meaning h y s')) ∨ (x = .nil ∧ y = .nil) ∨
    ∃ t n n' l l' r r', x = .node t n l r ∧ y = .node t n' l' r' ∧ A l l' s s' ∧
      (t ∉ [XNodeType.inlineFunction, .namedFunctionRef, .partialFunctionCall]) ∧
      (t ∈ [XNodeType.operatorInstanceOf, .operatorCastableAs, .operatorCastAs] → r = r') ∧
      (t ∈ axes → l = l' ∧ n = n') ∧
      (t = .applyPredicate → (r = .nil ∧ r' = .nil) ∨
        ∃ t1 n1 p q t2 n2 p' q', r = .node t1 n1 p q ∧ r' = .node t2 n2 p' q' ∧ A p p' s s') ∧
      (t ∈ [XNodeType.forVarBind, .letVarBind, .someVarBind, .everyVarBind] → ∀ v, A r r' (s.bind n v) (s'.bind n' v)) ∧
      (t ∉ [XNodeType.forVarBind, .letVarBind, .someVarBind, .everyVarBind] → A r r' s s') ∧
      (t ∈ [XNodeType.stringLiteral, .integerLiteral, .decimalLiteral, .doubleLiteral, .functionCall] → n = n') ∧
      (t = .varRef → s.vars n = s'.vars n') ∧
      (t = .functionCall → ∀ vs, Agree (library h n vs s) (library h n vs s'))

/-- What follows for an expression. -/
def Sound (h : Heap) (A : XNode → XNode → Scene → Scene → Prop) (k : Nat) : Prop :=
  ∀ x y s s', sizeOf x < k → A x y s s' → Agree (meaning h x s) (meaning h y s')

section
variable {h : Heap}
theorem predicates_expr {x : XNode} (hx : IsExpr x) (s : Scene) (q : XSeq) : predicates h x s q = .error .cantOccur := by
  cases x with
  | nil => exact absurd (by decide) hx
  | node t n l r =>
    have := hx.type
    unfold predicates
    cases t <;> first | rfl | exact absurd (by decide) this

theorem arguments_expr {x : XNode} (hx : IsExpr x) (s : Scene) : arguments h x s = .error .cantOccur := by
  cases x with
  | nil => exact absurd (by decide) hx
  | node t n l r =>
    have := hx.type
    unfold arguments
    cases t <;> first | rfl | exact absurd (by decide) this

theorem entries_expr {x : XNode} (hx : IsExpr x) (s : Scene) : entries h x s = .error .cantOccur := by
  cases x with
  | nil => exact absurd (by decide) hx
  | node t n l r =>
    have := hx.type
    unfold entries
    cases t <;> first | rfl | exact absurd (by decide) this

theorem members_expr {x : XNode} (hx : IsExpr x) (s : Scene) : members h x s = .error .cantOccur := by
  cases x with
  | nil => exact absurd (by decide) hx
  | node t n l r =>
    have := hx.type
    unfold members
    cases t <;> first | rfl | exact absurd (by decide) this

end

namespace Simulates
variable {h : Heap} {A : XNode → XNode → Scene → Scene → Prop} (sim : Simulates h A) {k : Nat}
include sim

theorem isNil {x y : XNode} {s s' : Scene} (hA : A x y s s') : x.isNil = y.isNil := by
  rcases sim.step hA with ⟨h1, h2, _⟩ | ⟨rfl, rfl⟩ | ⟨t, n, n', l, l', r, r', rfl, rfl, _⟩
  · rw [h1.notNil, h2.notNil]
  · rfl
  · rfl

theorem filtered {p p' : XNode} (H : Sound h A k) (hk : sizeOf p < k) {s s' : Scene} (hA : A p p' s s') (rev : Bool) (q : XSeq) :
    Agree (Spec.filtered rev (meaning h p) s q) (Spec.filtered rev (meaning h p') s' q) := by
  unfold Spec.filtered
  exact Agree.bindL (Agree.mapM _ fun e _ => Agree.bindL (H _ _ _ _ hk (sim.item hA _ _ _)))

theorem predicates {x y : XNode} (H : Sound h A (sizeOf x)) {s s' : Scene} (hA : A x y s s') (q : XSeq) :
    Agree (Spec.predicates h x s q) (Spec.predicates h y s' q) := by
  induction x generalizing y q with
  | nil =>
    rcases sim.step hA with ⟨h1, _⟩ | ⟨_, rfl⟩ | ⟨t, n, n', l, l', r, r', h1, _⟩
    · exact absurd (by decide) h1
    · exact .rfl
    · cases h1
  | node t n l r _ ih =>
    rcases sim.step hA with ⟨h1, h2, _⟩ | ⟨h1, _⟩ | ⟨t, n, n', l, l', r, r', h1, rfl, hl, -, -, -, -, -, hr, -, -⟩
    · rw [predicates_expr h1, predicates_expr h2]; exact .rfl
    · cases h1
    · cases h1
      have hr' : Sound h A (sizeOf r) := fun a b s s' hk => H a b s s' (by simp; omega)
      have main : ∀ rev, A r r' s s' → Agree (if l.isNil then .error .cantOccur else (Spec.filtered rev (meaning h l) s q >>= fun q' => Spec.predicates h r s q'))
          (if l'.isNil then .error .cantOccur else (Spec.filtered rev (meaning h l') s' q >>= fun q' => Spec.predicates h r' s' q')) := by
        intro rev hA'
        rw [sim.isNil hl]
        split
        · exact .rfl
        · exact Agree.bind (sim.filtered H (by simp; omega) hl rev q) fun q' => ih hr' hA' q'
      cases t <;> first
        | exact main false (hr (by decide))
        | exact main true (hr (by decide))
        | exact .rfl

theorem arguments {x y : XNode} (H : Sound h A (sizeOf x)) {s s' : Scene} (hA : A x y s s') :
    Agree (Spec.arguments h x s) (Spec.arguments h y s') := by
  induction x generalizing y with
  | nil =>
    rcases sim.step hA with ⟨h1, _⟩ | ⟨_, rfl⟩ | ⟨t, n, n', l, l', r, r', h1, _⟩
    · exact absurd (by decide) h1
    · exact .rfl
    · cases h1
  | node t n l r _ ih =>
    rcases sim.step hA with ⟨h1, h2, _⟩ | ⟨h1, _⟩ | ⟨t, n, n', l, l', r, r', h1, rfl, hl, -, -, -, -, -, hr, -, -⟩
    · rw [arguments_expr h1, arguments_expr h2]; exact .rfl
    · cases h1
    · cases h1
      have hr' : Sound h A (sizeOf r) := fun a b s s' hk => H a b s s' (by simp; omega)
      have hl' := H l l' s s' (by simp; omega) hl
      cases t <;> first
        | exact Agree.bind hl' fun v => Agree.bindL (ih hr' (hr (by decide)))
        | exact .rfl

theorem members {x y : XNode} (H : Sound h A (sizeOf x)) {s s' : Scene} (hA : A x y s s') :
    Agree (Spec.members h x s) (Spec.members h y s') := by
  induction x generalizing y with
  | nil =>
    rcases sim.step hA with ⟨h1, _⟩ | ⟨_, rfl⟩ | ⟨t, n, n', l, l', r, r', h1, _⟩
    · exact absurd (by decide) h1
    · exact .rfl
    · cases h1
  | node t n l r _ ih =>
    rcases sim.step hA with ⟨h1, h2, _⟩ | ⟨h1, _⟩ | ⟨t, n, n', l, l', r, r', h1, rfl, hl, -, -, -, -, -, hr, -, -⟩
    · rw [members_expr h1, members_expr h2]; exact .rfl
    · cases h1
    · cases h1
      have hr' : Sound h A (sizeOf r) := fun a b s s' hk => H a b s s' (by simp; omega)
      have hl' := H l l' s s' (by simp; omega) hl
      cases t <;> first
        | exact Agree.bind hl' fun v => Agree.bindL (ih hr' (hr (by decide)))
        | exact .rfl

theorem entries {x y : XNode} (H : Sound h A (sizeOf x)) {s s' : Scene} (hA : A x y s s') :
    Agree (Spec.entries h x s) (Spec.entries h y s') := by
  induction x generalizing y with
  | nil =>
    rcases sim.step hA with ⟨h1, _⟩ | ⟨_, rfl⟩ | ⟨t, n, n', l, l', r, r', h1, _⟩
    · exact absurd (by decide) h1
    · exact .rfl
    · cases h1
  | node t n l r _ ih =>
    rcases sim.step hA with ⟨h1, h2, _⟩ | ⟨h1, _⟩ | ⟨t, n, n', l, l', r, r', h1, rfl, hl, -, -, -, -, -, hr, -, -⟩
    · rw [entries_expr h1, entries_expr h2]; exact .rfl
    · cases h1
    · cases h1
      have hr' : Sound h A (sizeOf r) := fun a b s s' hk => H a b s s' (by simp; omega)
      by_cases ht : t = .mapConstruct
      · subst ht
        have bad : ∀ {n z r s}, z.ty ≠ .mapEntry → Spec.entries h (.node .mapConstruct n z r) s = .error .cantOccur := by
          intro n z r s hz
          cases z with
          | nil => rfl
          | node t n l r =>
            unfold Spec.entries
            cases t <;> first | rfl | exact absurd rfl hz
        rcases sim.step hl with ⟨h1, h2, _⟩ | ⟨rfl, rfl⟩ | ⟨t, m, m', a, a', b, b', rfl, rfl, ha, -, -, -, -, -, hb, -, -⟩
        · rw [bad (fun e => h1 (by rw [e]; decide)), bad (fun e => h2 (by rw [e]; decide))]; exact .rfl
        · exact .rfl
        · by_cases ht : t = .mapEntry
          · subst ht
            exact Agree.bind (H _ _ _ _ (by simp; omega) ha) fun kv => Agree.bind .rfl fun k =>
              Agree.bind (H _ _ _ _ (by simp; omega) (hb (by decide))) fun v => Agree.bindL (ih hr' (hr (by decide)))
          · rw [bad (z := .node t m a b) ht, bad (z := .node t m' a' b') ht]; exact .rfl
      · unfold Spec.entries
        cases t <;> first | exact .rfl | contradiction

theorem step_sound (H : Sound h A k) {x y : XNode} (hk : sizeOf x < k + 1) {s s' : Scene} (hA : A x y s s') :
    Agree (meaning h x s) (meaning h y s') := by
  have hctx := sim.context hA
  rcases sim.step hA with ⟨_, _, h1⟩ | ⟨rfl, rfl⟩ | ⟨t, n, n', l, l', r, r', rfl, rfl, hl, hfn, htype, hax, hap, hb, hr, hn, hv, hlib⟩
  · exact h1
  · exact .rfl
  have hL := H l l' s s' (by simp at hk; omega) hl
  have hR := fun ht => H r r' s s' (by simp at hk; omega) (hr ht)
  have hB := fun ht v => H r r' _ _ (by simp at hk; omega) (hb ht v)
  have hls : Sound h A (sizeOf l) := fun a b s s' hj => H a b s s' (by simp at hk; omega)
  have hrs : Sound h A (sizeOf r) := fun a b s s' hj => H a b s s' (by simp at hk; omega)
  have hbin : (∀ f, binaryOp h t = some f → (∀ n l r s, meaning h (.node t n l r) s = (do
        let a ← meaning h l s
        let b ← meaning h r s
        f a b)) ∧ t ∉ [XNodeType.forVarBind, .letVarBind, .someVarBind, .everyVarBind]) := by
    intro f hb
    cases t <;> first
      | (simp only [binaryOp, reduceCtorEq] at hb; done)
      | (cases hb; exact ⟨fun _ _ _ _ => rfl, by decide⟩)
  have hor : Agree (if l.isNil then .ok [] else meaning h l s) (if l'.isNil then .ok [] else meaning h l' s') := by
    rw [sim.isNil hl]
    split
    · exact .rfl
    · exact hL
  cases hb' : binaryOp h t with
  | some f =>
    obtain ⟨e1, ht⟩ := hbin f hb'
    rw [e1, e1]
    exact Agree.bind hL fun a => Agree.bindL (hR ht)
  | none =>
    clear hbin
    have hloc : t ∈ axes → Agree (do
        let vs ← (XSeq.toNodeset s.context).mapM fun i =>
          match axisNodes h i (.node t n l r) with
          | none => .error .cantOccur
          | some ns => Spec.predicates h r s (XSeq.ofNodes ns)
        pure (XSeq.ofNodes (vs.flatMap XSeq.toNodeset))) (do
        let vs ← (XSeq.toNodeset s'.context).mapM fun i =>
          match axisNodes h i (.node t n' l' r') with
          | none => .error .cantOccur
          | some ns => Spec.predicates h r' s' (XSeq.ofNodes ns)
        pure (XSeq.ofNodes (vs.flatMap XSeq.toNodeset))) := by
      intro ht
      obtain ⟨rfl, rfl⟩ := hax ht
      have hA' := hr (by intro hm; revert hm ht; cases t <;> decide)
      rw [← hctx]
      refine Agree.bindL (Agree.mapM _ fun i _ => ?_)
      have e : axisNodes h i (.node t n l r') = axisNodes h i (.node t n l r) := axisNodes_right ..
      rw [e]
      cases axisNodes h i (.node t n l r) with
      | none => exact .rfl
      | some ns => exact sim.predicates hrs hA' _
    cases t
    all_goals first
      | (cases hb'; done)
      | exact hloc (by decide)
      | exact absurd (by decide) hfn
      | exact hR (by decide)
      | exact .of_eq (by rw [hn (by decide)]; rfl)
      | exact .rfl
      | skip
    case parenthesizedExpr => exact hor
    case contextItem => exact .of_eq (congrArg Except.ok hctx)
    case varRef => exact .of_eq (congrArg Except.ok (hv rfl))
    case operatorPath =>
      refine Agree.bind hor fun q => ?_
      have hA' := hr (by decide)
      rw [sim.isNil hA']
      cases r'.isNil
      · show Agree (if XSeq.isNoAtom q then (q.mapM fun i => meaning h r (s.over i)) >>= joined h else .error .typeError)
          (if XSeq.isNoAtom q then (q.mapM fun i => meaning h r' (s'.over i)) >>= joined h else .error .typeError)
        cases XSeq.isNoAtom q
        · exact .rfl
        · exact Agree.bindL (Agree.mapM _ fun i _ => H _ _ _ _ (by simp at hk; omega) (sim.over hA' i))
      · exact .rfl
    case operatorMap =>
      refine Agree.bind hor fun q => ?_
      have hA' := hr (by decide)
      rw [sim.isNil hA']
      cases r'.isNil
      · exact Agree.bindL (Agree.mapM _ fun i _ => H _ _ _ _ (by simp at hk; omega) (sim.over hA' i))
      · exact .rfl
    case operatorOr =>
      refine Agree.bind hL fun a => Agree.bind .rfl fun b => ?_
      cases b
      · exact Agree.bindL (hR (by decide))
      · exact .rfl
    case operatorAnd =>
      refine Agree.bind hL fun a => Agree.bind .rfl fun b => ?_
      cases b
      · exact .rfl
      · exact Agree.bindL (hR (by decide))
    case operatorUnaryPlus => exact Agree.bindL (hR (by decide))
    case operatorUnaryMinus => exact Agree.bindL (hR (by decide))
    case operatorInstanceOf => rw [htype (by decide)]; exact Agree.bindL hL
    case operatorCastableAs => rw [htype (by decide)]; exact Agree.bindL hL
    case operatorCastAs => rw [htype (by decide)]; exact Agree.bindL hL
    case forVarBind => exact Agree.bind hL fun q => Agree.bindL (Agree.mapM _ fun i _ => hB (by decide) [i])
    case letVarBind => exact Agree.bind hL fun q => hB (by decide) q
    case someVarBind =>
      exact Agree.bind hL fun q => Agree.bindL (Agree.anyM _ fun i => Agree.bindL (hB (by decide) [i]))
    case everyVarBind =>
      exact Agree.bind hL fun q => Agree.bindL (Agree.allM _ fun i => Agree.bindL (hB (by decide) [i]))
    case functionCall =>
      obtain rfl := hn (by decide)
      exact Agree.bind (sim.arguments hrs (hr (by decide))) fun vs => hlib rfl vs
    case map => exact Agree.bindL (sim.entries hls hl)
    case squareArray => exact Agree.bindL (sim.members hls hl)
    case curlyArray => exact Agree.bindL hL
    case unaryLookupByWildcard =>
      show Agree (lookupWildcard h s.context) (lookupWildcard h s'.context)
      rw [hctx]; exact .rfl
    case unaryLookupByExpr =>
      refine Agree.bind hL fun q => ?_
      rw [hctx]; exact .rfl
    case applyPredicate =>
      rcases hap rfl with ⟨rfl, rfl⟩ | ⟨t1, n1, p, q1, t2, n2, p', q2, rfl, rfl, hp⟩
      · exact Agree.bindL hL
      · refine Agree.bind hL fun q => ?_
        show Agree (if p.isNil then .error .cantOccur else Spec.filtered false (meaning h p) s q)
          (if p'.isNil then .error .cantOccur else Spec.filtered false (meaning h p') s' q)
        rw [sim.isNil hp]
        split
        · exact .rfl
        · exact sim.filtered H (by simp at hk; omega) hp false q
    case ifExpr =>
      have bad : ∀ {z : XNode} {s : Scene} {n : Str} {l : XNode}, z.ty ≠ .ifThenElse → meaning h (.node .ifExpr n l z) s =
          (meaning h l s >>= fun _ => .error .cantOccur) := by
        intro z s n l hz
        cases z with
        | nil => rfl
        | node t n l r => cases t <;> first | rfl | exact absurd rfl hz
      rcases sim.step (hr (by decide)) with ⟨h1, h2, _⟩ | ⟨rfl, rfl⟩ | ⟨t, m, m', a, a', b, b', rfl, rfl, ha, -, -, -, -, -, hb, -, -⟩
      · rw [bad fun e => h1 (by rw [e]; decide), bad fun e => h2 (by rw [e]; decide)]
        exact Agree.bindL hL
      · exact Agree.bindL hL
      · by_cases ht : t = .ifThenElse
        · subst ht
          refine Agree.bind hL fun q => Agree.bind .rfl fun c => ?_
          cases c
          · exact H _ _ _ _ (by simp at hk; omega) (hb (by decide))
          · exact H _ _ _ _ (by simp at hk; omega) ha
        · rw [bad (z := .node t m a b) ht, bad (z := .node t m' a' b') ht]
          exact Agree.bindL hL

theorem sound {x y : XNode} {s s' : Scene} (hA : A x y s s') : Agree (meaning h x s) (meaning h y s') := by
  have : ∀ k, Sound h A k := by
    intro k
    induction k with
    | zero => intro x y s s' hk; omega
    | succ k ih => intro x y s s' hk hA; exact sim.step_sound ih hk hA
  exact this _ x y s s' (Nat.lt_succ_self _) hA

end Simulates

/-! ### What an expression looks at -/

theorem findCtxFn_focus {name : Str} {k : Nat} (h1 : name ≠ S "fn:position") (h2 : name ≠ S "fn:last") :
    findCtxFn name k ≠ some .position ∧ findCtxFn name k ≠ some .last := by
  have key : ∀ f, findCtxFn name k = some f → ∃ e ∈ funcContextTbl, e.2.1 = name ∧ e.2.2 = f := by
    intro f hf
    unfold findCtxFn at hf
    rw [Option.map_eq_some_iff] at hf
    obtain ⟨e, he, hf⟩ := hf
    have := List.find?_some he
    simp only [Bool.and_eq_true, beq_iff_eq] at this
    exact ⟨e, List.mem_of_find?_eq_some he, this.2, hf⟩
  have tbl : ∀ e ∈ funcContextTbl, (e.2.2 = .position → e.2.1 = S "fn:position") ∧ (e.2.2 = .last → e.2.1 = S "fn:last") := by
    decide +kernel
  constructor
  · intro h
    obtain ⟨e, he, hn, hf⟩ := key _ h
    exact h1 (hn ▸ (tbl e he).1 hf)
  · intro h
    obtain ⟨e, he, hn, hf⟩ := key _ h
    exact h2 (hn ▸ (tbl e he).2 hf)

/-- A library function looks at the context, and at position and size only if it is `position` or `last`. -/
theorem library_focus (h : Heap) {f : Str} {s s' : Scene} (hc : s.context = s'.context)
    (hp : (f ≠ S "fn:position" ∧ f ≠ S "fn:last") ∨ (s.position = s'.position ∧ s.last = s'.last)) (vs : List XSeq) :
    library h f vs s = library h f vs s' := by
  rcases hp with ⟨h1, h2⟩ | ⟨h1, h2⟩
  · unfold library evaluateFunction
    have hq := findCtxFn_focus (k := vs.length) h1 h2
    rw [hc]
    have lift : ∀ (r : Except XErr XSeq) (e e' : Env), (liftE r e).map (fun r => r.1) = (liftE r e').map fun r => r.1 := by
      intro r e e'; cases r <;> rfl
    have conc : ∀ (F : XItem → E XSeq) (e0 : XErr) (l : XSeq), (∀ x env, F x env = .error e0) → ∀ e e' : Env,
        (concatE F l e).map (fun r => r.1) = (concatE F l e').map fun r => r.1 := by
      intro F e0 l hF e e'
      cases l with
      | nil => rfl
      | cons x l =>
        have : ∀ e, concatE F (x :: l) e = .error e0 := by
          intro e
          show (F x >>= _) e = _
          rw [E.bind_run, hF]
        rw [this, this]
    cases hf : findCtxFn f vs.length with
    | some g =>
      cases g <;> first
        | exact lift _ _ _
        | exact absurd hf hq.1
        | exact absurd hf hq.2
        | (simp only [applyCtxFn]; exact lift _ _ _)
        | (simp only [applyCtxFn, E.bind_run]
           cases XSeq.fn1 (arg vs 1) with
           | error e => rfl
           | ok a => exact conc _ .cantOccur _ (fun _ _ => rfl) _ _)
    | none =>
      cases findPureFn f vs.length with
      | some g => exact lift _ _ _
      | none => exact lift _ _ _
  · unfold library
    rw [hc, h1, h2]

theorem everywhere_left {p : XNodeType → Str → XNode → XNode → Prop} {t n l r} (h : Everywhere p (.node t n l r)) : Everywhere p l := h.2.1
theorem everywhere_right {p : XNodeType → Str → XNode → XNode → Prop} {t n l r} (h : Everywhere p (.node t n l r)) : Everywhere p r := h.2.2

/-- Places that an expression cannot tell apart. -/
structure Alike (x : XNode) (s s' : Scene) : Prop where
  context : s.context = s'.context
  vars : ∀ m ∈ freeVars x, s.vars m = s'.vars m
  focus : PositionFree x ∨ (s.position = s'.position ∧ s.last = s'.last)

theorem free_left {t : XNodeType} {n : Str} {l r : XNode} {m : Str} (hm : m ∈ freeVars l) : m ∈ freeVars (.node t n l r) := by
  unfold freeVars
  split <;> simp_all

theorem free_right {t : XNodeType} {n : Str} {l r : XNode} {m : Str} (hm : m ∈ freeVars r)
    (ht : t ∉ [XNodeType.forVarBind, .letVarBind, .someVarBind, .everyVarBind]) : m ∈ freeVars (.node t n l r) := by
  simp only [List.mem_cons, List.not_mem_nil, or_false, not_or] at ht
  unfold freeVars
  split <;> simp_all

theorem free_body {t : XNodeType} {n : Str} {l r : XNode} {m : Str} (hm : m ∈ freeVars r) (hn : m ≠ n) : m ∈ freeVars (.node t n l r) := by
  unfold freeVars
  split <;> simp_all

theorem Alike.left {t n l r} {s s' : Scene} (h : Alike (.node t n l r) s s') : Alike l s s' :=
  ⟨h.context, fun m hm => h.vars m (free_left hm), h.focus.imp everywhere_left id⟩

theorem Alike.right {t n l r} {s s' : Scene} (h : Alike (.node t n l r) s s')
    (ht : t ∉ [XNodeType.forVarBind, .letVarBind, .someVarBind, .everyVarBind]) : Alike r s s' :=
  ⟨h.context, fun m hm => h.vars m (free_right hm ht), h.focus.imp everywhere_right id⟩

theorem Alike.body {t n l r} {s s' : Scene} (h : Alike (.node t n l r) s s') (v : XSeq) : Alike r (s.bind n v) (s'.bind n v) := by
  refine ⟨h.context, fun m hm => ?_, h.focus.imp everywhere_right id⟩
  unfold Scene.bind
  by_cases e : m = n
  · simp [e]
  · simp only [e, if_false]
    exact h.vars m (free_body hm e)

theorem alike_simulates (h : Heap) : Simulates h fun x y s s' => x = y ∧ Alike x s s' where
  context := fun hA => hA.2.context
  over := fun hA i => ⟨hA.1, rfl, hA.2.vars, hA.2.focus⟩
  item := fun hA i p k => ⟨hA.1, rfl, hA.2.vars, .inr ⟨rfl, rfl⟩⟩
  step := by
    rintro x y s s' ⟨rfl, hA⟩
    cases x with
    | nil => exact .inr (.inl ⟨rfl, rfl⟩)
    | node t n l r =>
      by_cases hf : t ∈ [XNodeType.inlineFunction, .namedFunctionRef, .partialFunctionCall]
      · have he : IsExpr (.node t n l r) := by
          show t ∉ parts
          intro hm; revert hf hm; cases t <;> decide
        refine .inl ⟨he, he, .of_eq ?_⟩
        have : ∀ s, meaning h (.node t n l r) s = .ok [.fn (.node t n l r)] := by
          intro s
          revert hf
          cases t <;> intro hf <;> first | rfl | (exact absurd hf (by decide))
        rw [this, this]
      · refine .inr (.inr ⟨t, n, n, l, l, r, r, rfl, rfl, ⟨rfl, hA.left⟩, hf, fun _ => rfl, fun _ => ⟨rfl, rfl⟩, ?_, fun _ v => ⟨rfl, hA.body v⟩,
          fun ht => ⟨rfl, hA.right ht⟩, fun _ => rfl, ?_, ?_⟩)
        · rintro rfl
          have hr := hA.right (by decide)
          cases r with
          | nil => exact .inl ⟨rfl, rfl⟩
          | node t1 n1 p q => exact .inr ⟨t1, n1, p, q, t1, n1, p, q, rfl, rfl, rfl, hr.left⟩
        · rintro rfl
          exact hA.vars n (by simp [freeVars])
        · rintro rfl vs
          exact .of_eq (library_focus h hA.context (hA.focus.imp (fun hp => hp.1 rfl) id) vs)

/-- An expression has the same meaning at places it cannot tell apart. -/
theorem meaning_alike (h : Heap) {x : XNode} {s s' : Scene} (hA : Alike x s s') : Agree (meaning h x s) (meaning h x s') :=
  (alike_simulates h).sound ⟨rfl, hA⟩

/-! ### Replacing expressions -/

theorem within_simulates (h : Heap) {R : XNode → XNode → Prop}
    (hR : ∀ x y, R x y → IsExpr x ∧ IsExpr y ∧ ∀ s, Agree (meaning h x s) (meaning h y s)) :
    Simulates h fun x y s s' => s = s' ∧ Within R x y where
  context := fun hA => by rw [hA.1]
  over := fun hA i => ⟨by rw [hA.1], hA.2⟩
  item := fun hA i p k => ⟨by rw [hA.1], hA.2⟩
  step := by
    rintro x y s s' ⟨rfl, hA⟩
    cases hA with
    | here hr => obtain ⟨h1, h2, h3⟩ := hR _ _ hr; exact .inl ⟨h1, h2, h3 s⟩
    | same =>
      by_cases he : IsExpr x
      · exact .inl ⟨he, he, .rfl⟩
      · cases x with
        | nil => exact .inr (.inl ⟨rfl, rfl⟩)
        | node t n l r =>
          have he : t ∈ parts := by
            by_contra hn
            exact he hn
          refine .inr (.inr ⟨t, n, n, l, l, r, r, rfl, rfl, ⟨rfl, .same⟩, ?_, fun _ => rfl, fun _ => ⟨rfl, rfl⟩, ?_, fun _ v => ⟨rfl, .same⟩,
            fun ht => ⟨rfl, .same⟩, fun _ => rfl, fun _ => rfl, fun _ _ => .rfl⟩)
          · intro hm; revert hm he; cases t <;> decide
          · rintro rfl; exact absurd he (by decide)
    | @inside t n l l' r r' h1 h2 h3 h4 h5 h6 =>
      refine .inr (.inr ⟨t, n, n, l, l', r, r', rfl, rfl, ⟨rfl, h5⟩, h1, h2, fun ht => ⟨h3 ht, rfl⟩, ?_, fun _ v => ⟨rfl, h6⟩,
        fun _ => ⟨rfl, h6⟩, fun _ => rfl, fun _ => rfl, fun _ _ => .rfl⟩)
      rintro rfl
      have h4 := h4 rfl
      cases h6 with
      | here hr => exact absurd (by rw [h4]; decide) (hR _ _ hr).1
      | same =>
        cases r with
        | nil => exact .inl ⟨rfl, rfl⟩
        | node t1 n1 p q => exact .inr ⟨t1, n1, p, q, t1, n1, p, q, rfl, rfl, rfl, .same⟩
      | inside _ _ _ _ k1 k2 => exact .inr ⟨_, _, _, _, _, _, _, _, rfl, rfl, rfl, k1⟩

theorem within_sound (h : Heap) {R : XNode → XNode → Prop}
    (hR : ∀ x y, R x y → IsExpr x ∧ IsExpr y ∧ ∀ s, Agree (meaning h x s) (meaning h y s)) {x y : XNode} (hw : Within R x y) (s : Scene) :
    Agree (meaning h x s) (meaning h y s) := (within_simulates h hR).sound ⟨rfl, hw⟩

/-! ### Renaming -/

theorem function_item {t : XNodeType} (hf : t ∈ functionItems) (h : Heap) (n : Str) (l r : XNode) :
    IsExpr (.node t n l r) ∧ ∀ s, meaning h (.node t n l r) s = .ok [.fn (.node t n l r)] := by
  constructor
  · show t ∉ parts
    intro hm; revert hf hm; cases t <;> decide
  · intro s
    revert hf
    cases t <;> intro hf <;> first | rfl | (exact absurd hf (by decide))

theorem binder_other {t : XNodeType} (ht : t ∈ binders) :
    t ∉ [XNodeType.inlineFunction, .namedFunctionRef, .partialFunctionCall] ∧
    t ∉ [XNodeType.operatorInstanceOf, .operatorCastableAs, .operatorCastAs] ∧ t ∉ axes ∧ t ≠ .applyPredicate ∧
    t ∉ [XNodeType.stringLiteral, .integerLiteral, .decimalLiteral, .doubleLiteral, .functionCall] ∧ t ≠ .varRef ∧ t ≠ .functionCall := by
  revert ht; cases t <;> decide

theorem other_item {t : XNodeType} (ht : t ∉ .varRef :: (binders ++ functionItems)) :
    t ∉ [XNodeType.inlineFunction, .namedFunctionRef, .partialFunctionCall] := by
  revert ht; cases t <;> decide

/-- Expressions that are the same up to the names of bound variables, at places where the bindings correspond. -/
structure Alpha (ρ : List (Str × Str)) (x y : XNode) (s s' : Scene) : Prop where
  renamed : Renamed ρ x y
  context : s.context = s'.context
  position : s.position = s'.position
  last : s.last = s'.last
  vars : ∀ n n', Refer ρ n n' → s.vars n = s'.vars n'

theorem alpha_simulates (h : Heap) : Simulates h fun x y s s' => ∃ ρ, Alpha ρ x y s s' where
  context := fun ⟨_, hA⟩ => hA.context
  over := fun ⟨ρ, hA⟩ _ => ⟨ρ, hA.renamed, rfl, hA.position, hA.last, hA.vars⟩
  item := fun ⟨ρ, hA⟩ _ _ _ => ⟨ρ, hA.renamed, rfl, rfl, rfl, hA.vars⟩
  step := by
    rintro x y s s' ⟨ρ, hx, hc, hp, hl, hv⟩
    cases hx with
    | nil => exact .inr (.inl ⟨rfl, rfl⟩)
    | @var _ n n' hr =>
      refine .inl ⟨show XNodeType.varRef ∉ parts by decide, show XNodeType.varRef ∉ parts by decide, ?_⟩
      rw [m_var, m_var, hv n n' hr]
      exact .rfl
    | @binder _ t n n' l l' r r' ht k1 k2 =>
      obtain ⟨b1, b2, b3, b4, b5, b6, b7⟩ := binder_other ht
      refine .inr (.inr ⟨t, n, n', l, l', r, r', rfl, rfl, ⟨ρ, k1, hc, hp, hl, hv⟩, b1, fun k => absurd k b2, fun k => absurd k b3,
        fun k => absurd k b4, fun _ v => ⟨_, k2, hc, hp, hl, ?_⟩,
        fun hn => absurd ht hn, fun k => absurd k b5, fun k => absurd k b6, fun k => absurd k b7⟩)
      · intro m m' hm
        unfold Scene.bind
        rcases hm with ⟨rfl, rfl⟩ | ⟨h1, h2, h3⟩
        · simp
        · simp only [h1, h2, if_false]; exact hv m m' h3
    | @item _ t n l r ht =>
      have := function_item ht h n l r
      refine .inl ⟨this.1, this.1, ?_⟩
      rw [this.2, this.2]
      exact .rfl
    | @other _ t n l l' r r' ht h1 h2 h3 k1 k2 =>
      refine .inr (.inr ⟨t, n, n, l, l', r, r', rfl, rfl, ⟨ρ, k1, hc, hp, hl, hv⟩, ?_, h1, fun ha => ⟨h2 ha, rfl⟩, ?_, ?_, fun _ => ⟨ρ, k2, hc, hp, hl, hv⟩,
        fun _ => rfl, ?_, ?_⟩)
      · exact other_item ht
      · intro ha
        have h3 := h3 ha
        cases k2 with
        | nil => exact .inl ⟨rfl, rfl⟩
        | var hr => cases h3
        | item ht => cases h3; exact absurd ht (by decide)
        | binder ht => cases h3; exact absurd ht (by decide)
        | other _ _ _ _ j1 _ => exact .inr ⟨_, _, _, _, _, _, _, _, rfl, rfl, ρ, j1, hc, hp, hl, hv⟩
      · intro hm; exact absurd (List.mem_cons_of_mem _ (List.mem_append_left _ hm)) ht
      · rintro rfl; exact absurd (List.mem_cons_self ..) ht
      · rintro rfl vs
        exact .of_eq (library_focus h hc (.inr ⟨hp, hl⟩) vs)

theorem renamed_sound (h : Heap) {x y : XNode} (hr : Renamed [] x y) (s : Scene) : Agree (meaning h x s) (meaning h y s) :=
  (alpha_simulates h).sound ⟨[], hr, rfl, rfl, rfl, fun n n' e => congrArg s.vars e⟩

/-! ### Putting in a literal -/

theorem simple_meaning (h : Heap) {c : XNode} (hc : Simple c) {s s' : Scene} (hs : ∀ m ∈ freeVars c, s.vars m = s'.vars m) :
    ∃ v, meaning h c s = .ok v ∧ meaning h c s' = .ok v := by
  cases hc with
  | @literal t n ht =>
    revert ht
    cases t <;> intro ht <;> first | exact ⟨_, rfl, rfl⟩ | (exact absurd ht (by decide))
  | @var n => exact ⟨s.vars n, m_var .., by rw [m_var, hs n (by simp [Q.var, freeVars])]⟩

theorem simple_expr {c : XNode} (hc : Simple c) : IsExpr c := by
  cases hc with
  | @literal t n ht =>
    show t ∉ parts
    revert ht; cases t <;> decide
  | var => exact show XNodeType.varRef ∉ parts by decide

/-- Expressions of which the second has the simple expression in place of the variable, at places where the variable has its value. -/
structure Put (n : Str) (c : XNode) (h : Heap) (x y : XNode) (s s' : Scene) : Prop where
  filled : Filled n c x y
  context : s.context = s'.context
  position : s.position = s'.position
  last : s.last = s'.last
  vars : ∀ m, m ≠ n → s.vars m = s'.vars m
  value : meaning h c s' = .ok (s.vars n)

theorem put_simulates (h : Heap) (n : Str) {c : XNode} (hs : Simple c) : Simulates h (Put n c h) where
  context := fun hA => hA.context
  over := fun {x y s s'} hA i => ⟨hA.filled, rfl, hA.position, hA.last, hA.vars, by
    obtain ⟨v, h1, h2⟩ := simple_meaning h hs (s := s') (s' := s'.over i) (fun m _ => rfl)
    exact h2.trans (h1.symm.trans hA.value)⟩
  item := fun {x y s s'} hA i p k => ⟨hA.filled, rfl, rfl, rfl, hA.vars, by
    obtain ⟨v, h1, h2⟩ := simple_meaning h hs (s := s') (s' := s'.item i p k) (fun m _ => rfl)
    exact h2.trans (h1.symm.trans hA.value)⟩
  step := by
    rintro x y s s' ⟨hx, hc, hp, hl, hv, hw⟩
    cases hx with
    | var =>
      refine .inl ⟨show XNodeType.varRef ∉ parts by decide, simple_expr hs, ?_⟩
      rw [m_var, hw]
      exact .rfl
    | same hn =>
      by_cases he : IsExpr x
      · exact .inl ⟨he, he, meaning_alike h ⟨hc, fun m hm => hv m fun e => hn (e ▸ hm), .inr ⟨hp, hl⟩⟩⟩
      · cases x with
        | nil => exact .inr (.inl ⟨rfl, rfl⟩)
        | node t k l r =>
          have he : t ∈ parts := by
            by_contra hk
            exact he hk
          have hb : t ∉ [XNodeType.forVarBind, .letVarBind, .someVarBind, .everyVarBind] := by revert he; cases t <;> decide
          have hl' : Put n c h l l s s' := ⟨.same fun k => hn (free_left k), hc, hp, hl, hv, hw⟩
          have hr' : Put n c h r r s s' := ⟨.same fun k => hn (free_right k hb), hc, hp, hl, hv, hw⟩
          refine .inr (.inr ⟨t, k, k, l, l, r, r, rfl, rfl, hl', ?_, fun _ => rfl, fun _ => ⟨rfl, rfl⟩, ?_, fun k => absurd k hb,
            fun ht => hr', fun _ => rfl, ?_, ?_⟩)
          · intro hm; revert hm he; cases t <;> decide
          · rintro rfl; exact absurd he (by decide)
          · rintro rfl; exact absurd he (by decide)
          · rintro rfl; exact absurd he (by decide)
    | @binder t m l l' r r' ht hm hf k1 k2 =>
      obtain ⟨b1, b2, b3, b4, b5, b6, b7⟩ := binder_other ht
      refine .inr (.inr ⟨t, m, m, l, l', r, r', rfl, rfl, ⟨k1, hc, hp, hl, hv, hw⟩, b1, fun k => absurd k b2, fun k => absurd k b3,
        fun k => absurd k b4, fun _ v => ⟨k2, hc, hp, hl, ?_, ?_⟩,
        fun hn => absurd ht hn, fun _ => rfl, fun k => absurd k b6, fun k => absurd k b7⟩)
      · intro k hk
        unfold Scene.bind
        by_cases e : k = m
        · simp [e]
        · simp only [e, if_false]; exact hv k hk
      · obtain ⟨w, h1, h2⟩ := simple_meaning h hs (s := s') (s' := s'.bind m v) (fun k hk => by
          have : k ≠ m := fun e => hf (e ▸ hk)
          simp [Scene.bind, this])
        rw [h2, ← h1, hw]
        have : n ≠ m := fun e => hm e.symm
        simp [Scene.bind, this]
    | @other t m l l' r r' ht h1 h2 h3 k1 k2 =>
      refine .inr (.inr ⟨t, m, m, l, l', r, r', rfl, rfl, ⟨k1, hc, hp, hl, hv, hw⟩, ?_, h1, fun ha => ⟨h2 ha, rfl⟩, ?_, ?_,
        fun _ => ⟨k2, hc, hp, hl, hv, hw⟩, fun _ => rfl, ?_, ?_⟩)
      · exact other_item ht
      · intro ha
        have h3 := h3 ha
        cases k2 with
        | var => cases h3
        | same hn =>
          cases r with
          | nil => exact .inl ⟨rfl, rfl⟩
          | node t1 n1 p q => exact .inr ⟨_, _, _, _, _, _, _, _, rfl, rfl, .same fun k => hn (free_left k), hc, hp, hl, hv, hw⟩
        | binder ht => cases h3; exact absurd ht (by decide)
        | other _ _ _ _ j1 _ => exact .inr ⟨_, _, _, _, _, _, _, _, rfl, rfl, j1, hc, hp, hl, hv, hw⟩
      · intro hm; exact absurd (List.mem_cons_of_mem _ (List.mem_append_left _ hm)) ht
      · rintro rfl; exact absurd (List.mem_cons_self ..) ht
      · rintro rfl vs
        exact .of_eq (library_focus h hc (.inr ⟨hp, hl⟩) vs)

theorem renamed_expr {ρ : List (Str × Str)} {x y : XNode} (hr : Renamed ρ x y) (hx : IsExpr x) : IsExpr y := by
  cases hr <;> exact hx

theorem filled_expr {n : Str} {c x y : XNode} (hc : Simple c) (hr : Filled n c x y) (hx : IsExpr x) : IsExpr y := by
  cases hr with
  | var => exact simple_expr hc
  | same _ => exact hx
  | binder _ _ _ _ _ => exact hx
  | other _ _ _ _ _ _ => exact hx

/-! ### Library functions and truth -/

variable (h : Heap) (s : Scene)

theorem lib {f : Str} {vs : List XSeq} {g : PureFn} (h1 : findCtxFn f vs.length = none) (h2 : findPureFn f vs.length = some g) :
    library h f vs s = g h vs := by
  unfold library evaluateFunction
  rw [h1, h2]
  show Except.map _ (liftE (g h vs) _) = _
  cases g h vs <;> rfl

theorem lib_not (v : XSeq) : library h (S "fn:not") [v] s = fnNot v :=
  lib h s (f := S "fn:not") (vs := [v]) (g := fun _ a => fnNot (arg a 0)) (by rfl) (by rfl)
theorem lib_boolean (v : XSeq) : library h (S "fn:boolean") [v] s = fnBoolean v :=
  lib h s (f := S "fn:boolean") (vs := [v]) (g := fun _ a => fnBoolean (arg a 0)) (by rfl) (by rfl)
theorem lib_true : library h (S "fn:true") [] s = .ok [.boolean true] :=
  lib h s (f := S "fn:true") (vs := []) (g := fun _ _ => .ok (xbool true)) (by rfl) (by rfl)
theorem lib_false : library h (S "fn:false") [] s = .ok [.boolean false] :=
  lib h s (f := S "fn:false") (vs := []) (g := fun _ _ => .ok (xbool false)) (by rfl) (by rfl)
theorem lib_exists (v : XSeq) : library h (S "fn:exists") [v] s = .ok [.boolean (v.length != 0)] :=
  lib h s (f := S "fn:exists") (vs := [v]) (g := fun _ a => fnExists (arg a 0)) (by rfl) (by rfl)
theorem lib_empty (v : XSeq) : library h (S "fn:empty") [v] s = .ok [.boolean (v.length == 0)] :=
  lib h s (f := S "fn:empty") (vs := [v]) (g := fun _ a => fnEmpty (arg a 0)) (by rfl) (by rfl)
theorem lib_count (v : XSeq) : library h (S "fn:count") [v] s = .ok [.integer v.length] :=
  lib h s (f := S "fn:count") (vs := [v]) (g := fun _ a => fnCount (arg a 0)) (by rfl) (by rfl)
theorem lib_reverse (v : XSeq) : library h (S "fn:reverse") [v] s = .ok v.reverse :=
  lib h s (f := S "fn:reverse") (vs := [v]) (g := fun _ a => fnReverse (arg a 0)) (by rfl) (by rfl)
theorem lib_head (v : XSeq) : library h (S "fn:head") [v] s = .ok (v.take 1) :=
  lib h s (f := S "fn:head") (vs := [v]) (g := fun _ a => fnHead (arg a 0)) (by rfl) (by rfl)
theorem lib_tail (v : XSeq) : library h (S "fn:tail") [v] s = .ok (v.drop 1) :=
  lib h s (f := S "fn:tail") (vs := [v]) (g := fun _ a => fnTail (arg a 0)) (by rfl) (by rfl)

theorem lib_concat (v w : XSeq) : library h (S "fn:concat") [v, w] s = fnConcat h [v, w] :=
  lib h s (f := S "fn:concat") (vs := [v, w]) (g := fnConcat) (by rfl) (by rfl)

theorem m_yes : meaning h Q.yes s = .ok [.boolean true] := (m_call0 h s _).trans (lib_true h s)
theorem m_no : meaning h Q.no s = .ok [.boolean false] := (m_call0 h s _).trans (lib_false h s)

/-- The effective boolean value of an expression. -/
def truth (x : XNode) : Except XErr Bool := do XSeq.ebv (← meaning h x s)

theorem m_not (a : XNode) : meaning h (Q.not a) s = (truth h s a >>= fun b => .ok [.boolean !b]) := by
  rw [Q.not, m_call, truth]
  simp only [lib_not, fnNot]
  cases meaning h a s with
  | error e => rfl
  | ok v => show Except.map _ (XSeq.ebv v) = (XSeq.ebv v >>= _); cases XSeq.ebv v <;> rfl
theorem m_boolean (a : XNode) : meaning h (Q.boolean a) s = (truth h s a >>= fun b => .ok [.boolean b]) := by
  rw [Q.boolean, m_call, truth]
  simp only [lib_boolean, fnBoolean]
  cases meaning h a s with
  | error e => rfl
  | ok v => show Except.map _ (XSeq.ebv v) = (XSeq.ebv v >>= _); cases XSeq.ebv v <;> rfl
theorem m_and' (a b : XNode) : meaning h (Q.and a b) s = (truth h s a >>= fun x =>
    if x then (truth h s b >>= fun y => .ok [.boolean y]) else .ok [.boolean false]) := by
  rw [m_and]; simp only [truth, bind_assoc]; rfl
theorem m_or' (a b : XNode) : meaning h (Q.or a b) s = (truth h s a >>= fun x =>
    if x then .ok [.boolean true] else (truth h s b >>= fun y => .ok [.boolean y])) := by
  rw [m_or]; simp only [truth, bind_assoc]; rfl
theorem m_ite' (c a b : XNode) : meaning h (Q.ite c a b) s = (truth h s c >>= fun x =>
    if x then meaning h a s else meaning h b s) := by
  rw [m_ite]; simp only [truth, bind_assoc]
theorem t_not (a : XNode) : truth h s (Q.not a) = (truth h s a >>= fun b => .ok !b) := by
  rw [truth, m_not]; cases truth h s a <;> rfl
theorem t_yes : truth h s Q.yes = .ok true := by rw [truth, m_yes]; rfl
theorem t_no : truth h s Q.no = .ok false := by rw [truth, m_no]; rfl
theorem t_ite (c a b : XNode) : truth h s (Q.ite c a b) = (truth h s c >>= fun x => if x then truth h s a else truth h s b) := by
  rw [truth, m_ite']
  cases truth h s c with
  | error e => rfl
  | ok x => cases x <;> rfl
theorem t_boolean (a : XNode) : truth h s (Q.boolean a) = truth h s a := by
  rw [truth, m_boolean]; cases truth h s a <;> rfl
theorem t_and (a b : XNode) : truth h s (Q.and a b) = (truth h s a >>= fun x => if x then truth h s b else .ok false) := by
  rw [truth, m_and']
  cases truth h s a with
  | error e => rfl
  | ok x => cases x <;> (try rfl); show ((truth h s b >>= _) >>= _) = truth h s b; cases truth h s b <;> rfl
theorem t_or (a b : XNode) : truth h s (Q.or a b) = (truth h s a >>= fun x => if x then .ok true else truth h s b) := by
  rw [truth, m_or']
  cases truth h s a with
  | error e => rfl
  | ok x => cases x <;> (try rfl); show ((truth h s b >>= _) >>= _) = truth h s b; cases truth h s b <;> rfl

/-- The value of a boolean-valued expression is a boolean. -/
theorem boolean_value {x : XNode} (hx : BooleanValued x) : meaning h x s = (truth h s x >>= fun b => .ok [.boolean b]) := by
  have key : ∀ {m : Except XErr XSeq}, (∀ v, m = .ok v → ∃ b, v = [.boolean b]) → m = ((m >>= fun v => XSeq.ebv v) >>= fun b => .ok [.boolean b]) := by
    intro m hm
    cases m with
    | error e => rfl
    | ok v => obtain ⟨b, rfl⟩ := hm v rfl; rfl
  induction hx with
  | @general t n l r ht =>
    refine key fun v hv => ?_
    have : ∃ num str bool, meaning h (.node t n l r) s = (do
        let a ← meaning h l s
        let b ← meaning h r s
        generalComparison h num str bool a b) := by
      simp only [List.mem_cons, List.not_mem_nil, or_false] at ht
      rcases ht with rfl | rfl | rfl | rfl | rfl | rfl <;> exact ⟨_, _, _, rfl⟩
    obtain ⟨num, str, bool, e⟩ := this
    rw [e] at hv
    cases hl : meaning h l s with
    | error e => rw [hl] at hv; cases hv
    | ok a =>
      cases hr : meaning h r s with
      | error e => rw [hl, hr] at hv; cases hv
      | ok b => rw [hl, hr] at hv; cases hv; exact ⟨_, rfl⟩
  | @logic t n l r ht =>
    refine key fun v hv => ?_
    simp only [List.mem_cons, List.not_mem_nil, or_false] at ht
    rcases ht with rfl | rfl
    · have e := m_and' h s l r
      have e' : meaning h (.node .operatorAnd n l r) s = meaning h (Q.and l r) s := rfl
      rw [e', e] at hv
      cases hl : truth h s l with
      | error e => rw [hl] at hv; cases hv
      | ok a =>
        cases hr : truth h s r with
        | error e => rw [hl, hr] at hv; cases a <;> cases hv; exact ⟨_, rfl⟩
        | ok b => rw [hl, hr] at hv; cases a <;> cases hv <;> exact ⟨_, rfl⟩
    · have e := m_or' h s l r
      have e' : meaning h (.node .operatorOr n l r) s = meaning h (Q.or l r) s := rfl
      rw [e', e] at hv
      cases hl : truth h s l with
      | error e => rw [hl] at hv; cases hv
      | ok a =>
        cases hr : truth h s r with
        | error e => rw [hl, hr] at hv; cases a <;> cases hv; exact ⟨_, rfl⟩
        | ok b => rw [hl, hr] at hv; cases a <;> cases hv <;> exact ⟨_, rfl⟩
  | @some n a b =>
    refine key fun v hv => ?_
    rw [m_some] at hv
    cases hl : meaning h a s with
    | error e => rw [hl] at hv; cases hv
    | ok q =>
      rw [hl] at hv
      cases hr : q.anyM fun i => do XSeq.ebv (← meaning h b (s.bind n [i])) with
      | error e => simp only [bind, Except.bind] at hv hr; rw [hr] at hv; cases hv
      | ok b => simp only [bind, Except.bind] at hv hr; rw [hr] at hv; cases hv; exact ⟨_, rfl⟩
  | @every n a b =>
    refine key fun v hv => ?_
    rw [m_every] at hv
    cases hl : meaning h a s with
    | error e => rw [hl] at hv; cases hv
    | ok q =>
      rw [hl] at hv
      cases hr : q.allM fun i => do XSeq.ebv (← meaning h b (s.bind n [i])) with
      | error e => simp only [bind, Except.bind] at hv hr; rw [hr] at hv; cases hv
      | ok b => simp only [bind, Except.bind] at hv hr; rw [hr] at hv; cases hv; exact ⟨_, rfl⟩
  | @call f a hf =>
    simp only [List.mem_cons, List.not_mem_nil, or_false] at hf
    rcases hf with rfl | rfl | rfl | rfl
    · rw [show Q.call (S "fn:not") a = Q.not a from rfl, m_not, t_not]; cases truth h s a <;> rfl
    · rw [show Q.call (S "fn:boolean") a = Q.boolean a from rfl, m_boolean, t_boolean]
    · rw [truth, m_call]; simp only [lib_exists]; cases meaning h a s <;> rfl
    · rw [truth, m_call]; simp only [lib_empty]; cases meaning h a s <;> rfl
  | paren _ ha ih => rw [truth, m_paren h s ha]; exact ih
  | yes => rw [m_yes, t_yes]; rfl
  | no => rw [m_no, t_no]; rfl
end Laws
end Amxml
