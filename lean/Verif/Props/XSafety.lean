import Verif.Lemmas.Safety
import Verif.Props.XHigher
import Verif.Props.XGrammar

/-!
# C80: queries end, with a value or an error
-/

namespace Amxml
open Spec

namespace Safety

section
variable {rank : Str → Option Nat} {lv : Nat} {tame : Prop} {k : Nat} {h : Heap}

/-- The values that a variable may have: any, if its name has no rank; else a function of this rank, or something that is no function. -/
def Named (rank : Str → Option Nat) (n : Str) (v : XSeq) : Prop := ∀ j ∈ rank n, ∀ f, v = [.fn f] → CallsBelow rank j f

/-- Functions of rank `m` are safe. -/
def Bodies (rank : Str → Option Nat) (m lv : Nat) (tame : Prop) (k : Nat) (h : Heap) : Prop :=
  ∀ y, CallsBelow rank m y → Good rank lv tame k y → (tame → y.ty ≠ .nil) → ∀ c, Clean (Good rank lv tame k) c →
    SafeE tame (Good rank lv tame k) (Named rank) (Clean (Good rank lv tame k)) (evaluate h c y)

/-- The parts of the function item are safe: its body, or the arguments that it has. -/
def Parts (rank : Str → Option Nat) (lv : Nat) (tame : Prop) (k : Nat) (h : Heap) (f : XNode) : Prop :=
  (f.ty = .inlineFunction → ∀ c, Clean (Good rank lv tame k) c →
    SafeE tame (Good rank lv tame k) (Named rank) (Clean (Good rank lv tame k)) (evaluate h c f.left)) ∧
  (f.ty = .partialFunctionCall → ∀ a ∈ f.right.chain, a.ty = .argumentTop → ∀ c, Clean (Good rank lv tame k) c →
    SafeE tame (Good rank lv tame k) (Named rank) (Clean (Good rank lv tame k)) (evaluate h c a.left))

/-- The body of a harmless inline function is there. -/
theorem body_present {f : XNode} (hf : Good rank lv tame k f) (ht : f.ty = .inlineFunction) (t : tame) : f.left.ty ≠ .nil :=
  (Everywhere.here (hf.2 t).1 (ne_nil (x := f) (by rw [ht]; decide))).2.2.2.2.1 (Or.inr ht)

/-- The parts are safe if trees of the rank of the function are. -/
theorem parts_of {m : Nat} (hB : Bodies rank m lv tame k h) {f : XNode} (hf : Good rank lv tame k f)
    (hl : f.ty = .inlineFunction ∨ f.ty = .partialFunctionCall → CallsBelow rank m f.left ∧ CallsBelow rank m f.right) : Parts rank lv tame k h f := by
  refine ⟨fun ht c hc => hB _ (hl (Or.inl ht)).1 hf.left (body_present hf ht) c hc, fun ht a ha hat c hc => ?_⟩
  have hga := hf.right.chain a ha
  exact hB _ (Everywhere.left (Everywhere.chain (hl (Or.inr ht)).2 a ha)) hga.left (fun t => hga.needL (by rw [hat]; decide) t) c hc

/-- The parts of any function are safe if trees of the greatest rank are. -/
theorem parts_all (hB : Bodies rank lv lv tame k h) {f : XNode} (hf : Good rank lv tame k f) : Parts rank lv tame k h f :=
  parts_of hB hf fun ht => (Everywhere.here hf.1 (ne_nil (x := f) (by rcases ht with ht | ht <;> rw [ht] <;> decide))).1 ht

theorem bare_depth : ∀ x : XNode, (bare x).depth ≤ x.depth
  | .nil => Nat.le_refl _
  | .node t n l r => by
    rw [bare.eq_def]
    split
    · rename_i heq
      cases heq
      have := bare_depth l
      simp only [XNode.depth]
      omega
    · exact Nat.le_refl _

theorem Everywhere.bare {p} : ∀ {x : XNode}, Everywhere p x → Everywhere p (bare x)
  | .nil, h => h
  | .node t n l r, h => by
    rw [Spec.bare.eq_def]
    split
    · rename_i heq
      cases heq
      exact Everywhere.bare h.2.1
    · exact h

theorem Good.bare {x : XNode} (hx : Good rank lv tame k x) : Good rank lv tame k (bare x) :=
  ⟨Everywhere.bare hx.1, fun t => ⟨Everywhere.bare (hx.2 t).1, Everywhere.bare (hx.2 t).2⟩⟩

/-- Parentheses around an expression change nothing. -/
theorem evaluate_bare (c : XSeq) : ∀ x : XNode, (bare x).ty ≠ .nil → evaluate h c x = evaluate h c (bare x)
  | .nil, hx => absurd rfl hx
  | .node t n l r, hx => by
    rw [Spec.bare.eq_def] at hx ⊢
    split at hx
    · rename_i heq
      cases heq
      have ih := evaluate_bare c l hx
      rw [← ih, evaluate_eq]
      show evalOrEmpty (evaluate h) c l = _
      unfold evalOrEmpty
      rw [if_neg]
      intro hl
      cases l with
      | nil => exact hx rfl
      | node t' n' l' r' =>
        have : t' = .nil := by simpa [XNode.isNil, XNode.ty] using hl
        subst this
        exact hx rfl
    · rfl

/-- What a safe evaluation gives, and what it gives whenever it gives a value. -/
theorem SafeE.and {P : XNode → Prop} {N : Str → XSeq → Prop} {α : Type} {p q : α → Prop} {m : E α} (hp : SafeE tame P N p m)
    (hq : ∀ env, CleanEnv P N env → ∀ a env', m env = .ok (a, env') → q a) : SafeE tame P N (fun a => p a ∧ q a) m := by
  intro env he
  have h1 := hp env he
  cases hm : m env with
  | ok r =>
    rw [hm] at h1
    exact ⟨⟨h1.1, hq env he r.1 r.2 hm⟩, h1.2⟩
  | error e =>
    rw [hm] at h1
    exact h1

theorem SafeE.listAt {P : XNode → Prop} {N : Str → XSeq → Prop} {α β : Type} {p : α → β → Prop} {f : α → E β} (l : List α)
    (hf : ∀ a ∈ l, SafeE tame P N (p a) (f a)) : SafeE tame P N (fun bs : List β => List.Forall₂ p l bs) (Amxml.listE f l) := by
  induction l with
  | nil => exact SafeE.pure .nil
  | cons x l ih =>
    exact SafeE.bind (hf x (by simp)) fun v hv => SafeE.bind (ih fun a ha => hf a (by simp [ha])) fun r hr => SafeE.pure (.cons hv hr)

theorem forall₂_mem_right {α β : Type} {p : α → β → Prop} {l : List α} {r : List β} (hp : List.Forall₂ p l r) : ∀ b ∈ r, ∃ a ∈ l, p a b := by
  induction hp with
  | nil => exact nofun
  | cons h1 _ ih =>
    intro b hb
    rcases List.mem_cons.1 hb with rfl | hb
    · exact ⟨_, by simp, h1⟩
    · obtain ⟨a, ha, hab⟩ := ih b hb
      exact ⟨a, by simp [ha], hab⟩

/-- The value of a function, a map or an array that is written out: if it is a function item, it is what is written. -/
theorem written_value {y : XNode} (hw : WrittenFunction (bare y) ∨ WrittenData (bare y)) {c : XSeq} {env env' : Env} {f : XNode}
    (hv : evaluate h c y env = .ok ([.fn f], env')) : f = bare y ∧ WrittenFunction (bare y) := by
  have hnil : (bare y).ty ≠ .nil := by
    rcases hw with (h1 | h1 | h1) | (h1 | h1 | h1) <;> rw [h1] <;> decide
  rw [evaluate_bare c y hnil, evaluate_eq] at hv
  rcases hw with h1 | h1
  · refine ⟨?_, h1⟩
    have e2 : evalStep h (call h) (evaluate h) c (bare y) = pure [.fn (bare y)] := by
      unfold evalStep
      rcases h1 with h1 | h1 | h1 <;> rw [h1]
    rw [e2] at hv
    cases hv
    rfl
  · exfalso
    have last : ∀ {α : Type} (m : E α) (g : α → XItem), (∀ a, g a ≠ .fn f) → (m >>= fun a => pure [g a] : E XSeq) env = .ok ([.fn f], env') → False := by
      intro α m g hg hh
      rw [E.bind_run] at hh
      split at hh
      · injection hh with hh
        injection hh with hh
        injection hh with hh
        exact hg _ hh
      · cases hh
    unfold evalStep at hv
    rcases h1 with h1 | h1 | h1 <;> rw [h1] at hv
    · exact last _ _ (by intro a; simp) hv
    · exact last _ _ (by intro a; simp) hv
    · exact last _ (fun v : XSeq => .array (v.map fun i : XItem => [i])) (by intro a; simp) hv

/-- The value of something that may be called in a function of rank `m`: if it is a function item, its parts are safe. -/
theorem callee_parts {m : Nat} (hm : ∀ j < m, Bodies rank j lv tame k h) {y : XNode} (hy : Good rank lv tame k y) (hC : CallsBelow rank m y)
    (sub : ∀ z : XNode, z.depth < y.depth → Good rank lv tame k z → CallsBelow rank m z → (tame → z.ty ≠ .nil) → ∀ c, Clean (Good rank lv tame k) c →
      SafeE tame (Good rank lv tame k) (Named rank) (Clean (Good rank lv tame k)) (evaluate h c z))
    (hcal : Callee rank m y) (c : XSeq) (env : Env) (he : CleanEnv (Good rank lv tame k) (Named rank) env) (v : XSeq) (env' : Env)
    (hv : evaluate h c y env = .ok (v, env')) (f : XNode) (hf : v = [.fn f]) : Parts rank lv tame k h f := by
  subst hf
  have hd := bare_depth y
  have hyb := Good.bare hy
  have hCb : CallsBelow rank m (bare y) := Everywhere.bare hC
  have hnil : (bare y).ty ≠ .nil := by
    rcases hcal with (h1 | h1 | h1) | (h1 | h1 | h1) | ⟨h1, -⟩ <;> rw [h1] <;> decide
  have hx := ne_nil hnil
  rcases or_assoc.2 hcal with h1 | ⟨h1, j, hj, hlt⟩
  · obtain ⟨e, h2⟩ := written_value h1 hv
    subst e
    have d1 := left_depth _ hx
    have d2 := right_depth _ hx
    refine ⟨fun ht c hc => sub _ (by omega) hyb.left (Everywhere.left hCb) (body_present hyb ht) c hc, fun ht a ha hat c hc => ?_⟩
    have hga := hyb.right.chain a ha
    have d3 := chain_depth a ha
    have d4 := left_le a
    exact sub _ (by omega) hga.left (Everywhere.left (Everywhere.chain (Everywhere.right hCb) a ha)) (fun t => hga.needL (by rw [hat]; decide) t) c hc
  · rw [evaluate_bare c y hnil, evaluate_eq] at hv
    unfold evalStep at hv
    rw [h1] at hv
    have hv : (Except.ok ((env.getVar (bare y).name).getD [], env) : Except XErr (XSeq × Env)) = .ok ([.fn f], env') := hv
    injection hv with hv
    injection hv with hv hv2
    unfold Env.getVar at hv
    cases e : env.vars.find? fun b => b.1 == (bare y).name with
    | none => rw [e] at hv; cases hv
    | some b =>
      rw [e] at hv
      have hb := he b (List.mem_of_find?_eq_some e)
      have hn : b.1 = (bare y).name := by simpa using List.find?_some e
      have hv : b.2 = [.fn f] := hv
      have hgf : Good rank lv tame k f := by
        have := hb.1
        rw [hv] at this
        simpa [Clean, CleanItem] using this
      have hbf := hb.2 j (by rw [hn]; exact hj) f hv
      exact parts_of (hm j hlt) hgf fun _ => ⟨Everywhere.left hbf, Everywhere.right hbf⟩

theorem splitHash_head : ∀ (s : Str), ∃ ps, splitHash s = s.takeWhile (· ≠ '#') :: ps ∧ ('#' ∈ s → ps ≠ [])
  | [] => ⟨[], rfl, by simp⟩
  | c :: s => by
    obtain ⟨ps, h1, h2⟩ := splitHash_head s
    rw [splitHash]
    by_cases hc : c = '#'
    · subst hc
      exact ⟨splitHash s, by simp, fun _ => by rw [h1]; simp⟩
    · rw [if_neg hc, h1]
      refine ⟨ps, by simp [hc], fun hm => h2 ?_⟩
      simpa [Ne.symm hc] using hm

/-- Parameters hold no functions, or have no rank. -/
theorem named_params {f : XNode} (hf : Good rank lv tame k f) (ht : f.ty = .inlineFunction) :
    ∀ p ∈ f.right.right.chain, ∀ v, matchSequenceType h v p.left = .ok true → Named rank p.name v := by
  intro p hp v hv j hj g hg
  rcases (Everywhere.here hf.1 (ne_nil (x := f) (by rw [ht]; decide))).2.2.1 ht p hp with h1 | h1
  · rw [h1] at hj
    cases hj
  · exfalso
    subst hg
    unfold matchSequenceType matchSequenceTypeF at hv
    split at hv
    · cases hv
    split at hv
    · cases hv
    split at hv
    · cases hv
    · cases hv
    · unfold matchItems at hv
      simp only [List.mem_cons, List.not_mem_nil, or_false] at h1
      rcases h1 with h1 | h1 | h1 <;> rw [h1] at hv
      · cases hv
      · cases hv
      · cases hv

/-- A harmless function item can be called with one argument. -/
theorem call_safe (hk : tame → 1 ≤ k) {f : XNode} (hf : Good rank lv tame k f) (hP : Parts rank lv tame k h f) {x : XItem} (hx : CleanItem (Good rank lv tame k) x) {c : XSeq}
    (hc : Clean (Good rank lv tame k) c) : SafeE tame (Good rank lv tame k) (Named rank) (Clean (Good rank lv tame k)) (call h f [[x]] c) := by
  have ha : ∀ a ∈ [[x]], Clean (Good rank lv tame k) a := by simpa using clean_one.2 hx
  rw [call_eq]
  unfold callStep
  split
  · rename_i ht
    have hn := ne_nil (x := f) (by rw [ht]; decide)
    refine SafeE.callInline h (hP.1 ht c hc) (named_params hf ht) ha fun t => ?_
    · have := (Everywhere.here (hf.2 t).1 hn).2.2.2.2.2.2 ht
      have := hk t
      simp only [List.length_singleton]
      omega
  · rename_i ht
    have hn := ne_nil (x := f) (by rw [ht]; decide)
    obtain ⟨ps, h1, h2⟩ := splitHash_head f.name
    rw [h1]
    split
    · rename_i nm ar l he
      cases he
      split
      · exact SafeE.evaluateFunction h (Or.inr (Or.inl (by simp))) (fun t => (Everywhere.here (hf.2 t).1 hn).2.2.2.1 ht) ha hc
      · exact SafeE.lift fair_type
    · rename_i hne
      refine SafeE.lift (fair_panic fun t => ?_)
      have h3 := h2 ((Everywhere.here (hf.2 t).2 hn).2.2 ht)
      cases ps with
      | nil => exact h3 rfl
      | cons a l => exact hne _ _ _ rfl
  · rename_i ht
    have hn := ne_nil (x := f) (by rw [ht]; decide)
    have hff := Everywhere.here hf.1 hn
    exact SafeE.bind (SafeE.partialArgs _ _ (fun a hm hat => hP.2 ht a hm hat c hc) ha) fun as has =>
      SafeE.evaluateFunction h (Or.inl (hff.2.1 ht)) (fun t => (Everywhere.here (hf.2 t).1 hn).2.2.1 (Or.inr ht)) has hc
  · exact SafeE.lift fair_occur

/-- The operators not handled one by one are the binary ones. -/
theorem binary_needs {t : XNodeType} {f} (h1 : binaryOp h t = some f) : t ∈ needsLeft ∧ t ∈ needsRight := by
  cases t <;> first | (cases h1; done) | decide

theorem eval_safe (hk : tame → 1 ≤ k) {m : Nat} (hm : ∀ j < m, Bodies rank j lv tame k h) : ∀ (n : Nat) (x : XNode), x.depth < n → Good rank lv tame k x → (CallsBelow rank m x ∨ Bodies rank lv lv tame k h) → (tame → x.ty ≠ .nil) →
    ∀ c, Clean (Good rank lv tame k) c → SafeE tame (Good rank lv tame k) (Named rank) (Clean (Good rank lv tame k)) (evaluate h c x)
  | 0, _, hn, _, _, _, _, _ => absurd hn (by omega)
  | n + 1, x, hn, hg, hC, hnil, c, hc => by
    rw [evaluate_eq]
    by_cases hx0 : x.ty = .nil
    · unfold evalStep
      rw [hx0]
      exact SafeE.lift (fair_panic fun t => hnil t hx0)
    have hx := ne_nil hx0
    have hdl := left_depth x hx
    have hdr := right_depth x hx
    -- the parts of the tree
    have sub : ∀ y : XNode, y.depth < x.depth → Good rank lv tame k y → (CallsBelow rank m y ∨ Bodies rank lv lv tame k h) → (tame → y.ty ≠ .nil) → ∀ c, Clean (Good rank lv tame k) c →
        SafeE tame (Good rank lv tame k) (Named rank) (Clean (Good rank lv tame k)) (evaluate h c y) := fun y hy hgy hCy hny => eval_safe hk hm n y (by omega) hgy hCy hny
    have cl : CallsBelow rank m x.left ∨ Bodies rank lv lv tame k h := hC.imp Everywhere.left id
    have cr : CallsBelow rank m x.right ∨ Bodies rank lv lv tame k h := hC.imp Everywhere.right id
    have L : (tame → x.left.ty ≠ .nil) → ∀ c, Clean (Good rank lv tame k) c → SafeE tame (Good rank lv tame k) (Named rank) (Clean (Good rank lv tame k)) (evaluate h c x.left) := sub _ hdl hg.left cl
    have R : (tame → x.right.ty ≠ .nil) → ∀ c, Clean (Good rank lv tame k) c → SafeE tame (Good rank lv tame k) (Named rank) (Clean (Good rank lv tame k)) (evaluate h c x.right) := sub _ hdr hg.right cr
    have orE : SafeE tame (Good rank lv tame k) (Named rank) (Clean (Good rank lv tame k)) (evalOrEmpty (evaluate h) c x.left) := by
      unfold evalOrEmpty
      split
      · exact SafeE.pure clean_nil
      · rename_i hl
        exact L (fun _ => by simpa [XNode.isNil] using hl) c hc
    have nl : x.ty ∈ needsLeft → tame → x.left.ty ≠ .nil := hg.needL
    have nr : x.ty ∈ needsRight → tame → x.right.ty ≠ .nil := hg.needR
    have unranked : x.ty = .forVarBind ∨ x.ty = .someVarBind ∨ x.ty = .everyVarBind → ∀ v, Named rank x.name v := by
      intro ht v j hj
      rw [(Everywhere.here hg.1 hx).2.2.2.1 ht] at hj
      cases hj
    have tameHere := fun t : tame => Everywhere.here (hg.2 t).1 hx
    -- the parts of the left and the right chain
    have parts : ∀ z : XNode, z = x.left ∨ z = x.right → ∀ a ∈ z.chain, Good rank lv tame k a ∧ (CallsBelow rank m a ∨ Bodies rank lv lv tame k h) ∧ a.depth < x.depth := by
      rintro z (rfl | rfl) a ha
      · exact ⟨hg.left.chain a ha, cl.imp (fun hh => Everywhere.chain hh a ha) id, by have := chain_depth a ha; omega⟩
      · exact ⟨hg.right.chain a ha, cr.imp (fun hh => Everywhere.chain hh a ha) id, by have := chain_depth a ha; omega⟩
    have partL : ∀ z : XNode, z = x.left ∨ z = x.right → ∀ a ∈ z.chain, (tame → a.left.ty ≠ .nil) → ∀ c, Clean (Good rank lv tame k) c →
        SafeE tame (Good rank lv tame k) (Named rank) (Clean (Good rank lv tame k)) (evaluate h c a.left) := by
      intro z hz a ha
      obtain ⟨h1, h2, h3⟩ := parts z hz a ha
      exact sub _ (by have := left_le a; omega) h1.left (h2.imp Everywhere.left id)
    have loc : SafeE tame (Good rank lv tame k) (Named rank) (Clean (Good rank lv tame k)) (locationPath h (evaluate h) c x) := by
      refine SafeE.bind (p := Any) (fun env he => Safe.mono (SafeE.listE (p := Any) _ (fun i _ => ?_) env he) fun a ha => ⟨trivial, ha.2⟩) fun r _ => SafeE.pure (clean_nodes _)
      unfold locStep
      split
      · exact SafeE.lift fair_occur
      · exact fun env he => Safe.mono (SafeE.filterByPredicates _ _ (fun p hp hpn => partL _ (Or.inr rfl) p hp fun _ => hpn) (clean_nodes _) env he)
          fun a ha => ⟨trivial, ha.2⟩
    unfold evalStep
    split
    · rename_i ht; exact absurd ht hx0
    · refine SafeE.bind orE fun l hl => ?_
      split
      · exact SafeE.pure hl
      · rename_i hr
        exact SafeE.pathOver h (fun i hi => R (fun _ => by simpa [XNode.isNil] using hr) _ (clean_one.2 hi)) hl
    · refine SafeE.bind orE fun l hl => ?_
      split
      · exact SafeE.pure hl
      · rename_i hr
        exact SafeE.concatE _ hl fun i hi => R (fun _ => by simpa [XNode.isNil] using hr) _ (clean_one.2 hi)
    iterate 13 exact loc
    · exact SafeE.pure hc
    · rename_i ht
      refine SafeE.bind (L (nl (by rw [ht]; decide)) c hc) fun v hv => SafeE.filterByPredicate (fun hn => ?_) _ hv
      exact sub _ (by have := left_le x.right; omega) hg.right.left (cr.imp Everywhere.left id) fun _ => hn
    · -- a call of a function item, a map or an array
      rename_i ht
      refine SafeE.bind (p := fun v => Clean (Good rank lv tame k) v ∧ ∀ f, v = [.fn f] → Parts rank lv tame k h f) ?_ fun v hv => ?_
      · rcases hC with hC | hB
        · exact SafeE.and (L (nl (by rw [ht]; decide)) c hc) fun env he v env' hv f hf => callee_parts hm hg.left (Everywhere.left hC)
            (fun z hz hgz hCz hnz => sub z (by omega) hgz (Or.inl hCz) hnz) ((Everywhere.here hC hx).1 ht) c env he v env' hv f hf
        · exact SafeE.and (L (nl (by rw [ht]; decide)) c hc) fun env he v env' hv f hf => by
            have h1 := L (nl (by rw [ht]; decide)) c hc env he
            rw [hv, hf] at h1
            exact parts_all hB (by simpa [Clean, CleanItem] using h1.1)
      refine SafeE.bind (SafeE.listE (p := Clean (Good rank lv tame k)) _ fun a ha => ?_) fun args hargs => ?_
      · have hga := hg.right.left.chain a ha
        refine sub _ ?_ hga.left (cr.imp (fun hh => Everywhere.left (Everywhere.chain (Everywhere.left hh) a ha)) id) (fun t => hga.needL (by rw [((tameHere t).2.2.2.2.2.1 ht).1 a ha]; decide) t) c hc
        have h1 := left_le a
        have h2 := chain_depth a ha
        have h3 := left_le x.right
        omega
      · have first : Safe tame (CleanItem (Good rank lv tame k)) (firstArg args) := by
          unfold firstArg
          split
          · refine fair_panic fun t => ?_
            have := ((tameHere t).2.2.2.2.2.1 ht).2.1
            have := hargs.2
            simp at this
            omega
          · exact safe_item1 (hargs.1 _ (by simp))
        unfold applyTo
        split
        · rename_i f
          have hf : Good rank lv tame k f := by simpa [Clean, CleanItem] using hv.1
          split
          · rename_i hft
            have hfn := ne_nil (x := f) (by rw [hft]; decide)
            refine SafeE.callInline h ((hv.2 f rfl).1 hft c hc) (named_params hf hft) hargs.1 fun t => ?_
            · have h1 := (Everywhere.here (hf.2 t).1 hfn).2.2.2.2.2.2 hft
              have h2 := ((tameHere t).2.2.2.2.2.1 ht).2.2
              rw [hargs.2]
              omega
          · exact SafeE.lift fair_occur
        · rename_i e
          refine SafeE.bind (SafeE.lift first) fun key _ => ?_
          split
          · rename_i w hw
            exact SafeE.pure (clean_mapGet (by simpa [Clean, CleanItem] using hv.1) hw)
          · exact SafeE.lift fair_dynamic
        · rename_i e
          refine SafeE.bind (SafeE.lift first) fun key _ => ?_
          split
          · rename_i w hw
            exact SafeE.pure (clean_arrayGet (by simpa [Clean, CleanItem] using hv.1) hw)
          · exact SafeE.lift fair_dynamic
        · exact SafeE.lift fair_occur
    · rename_i ht
      refine SafeE.bind (L (nl (by rw [ht]; decide)) c hc) fun l _ => SafeE.bind (SafeE.lift (safe_ebv l)) fun b _ => ?_
      split
      · exact SafeE.pure (clean_bool _)
      · exact SafeE.bind (R (nr (by rw [ht]; decide)) c hc) fun r _ => SafeE.bind (SafeE.lift (safe_ebv r)) fun b _ => SafeE.pure (clean_bool _)
    · rename_i ht
      refine SafeE.bind (L (nl (by rw [ht]; decide)) c hc) fun l _ => SafeE.bind (SafeE.lift (safe_ebv l)) fun b _ => ?_
      split
      · exact SafeE.bind (R (nr (by rw [ht]; decide)) c hc) fun r _ => SafeE.bind (SafeE.lift (safe_ebv r)) fun b _ => SafeE.pure (clean_bool _)
      · exact SafeE.pure (clean_bool _)
    · rename_i ht
      exact SafeE.bind (R (nr (by rw [ht]; decide)) c hc) fun r hr => SafeE.lift (safe_opUnary safe_numUPlus hr)
    · rename_i ht
      exact SafeE.bind (R (nr (by rw [ht]; decide)) c hc) fun r hr =>
        SafeE.lift (safe_opUnary (safe_numUMinus fun t => (tameHere t).1 (by rw [ht]; decide)) hr)
    · rename_i ht
      refine SafeE.bind (L (nl (by rw [ht]; decide)) c hc) fun v _ => ?_
      split
      · exact SafeE.lift fair_occur
      · rename_i hr
        have hr : x.right.ty = .ifThenElse := Classical.byContradiction hr
        refine SafeE.bind (SafeE.lift (safe_ebv v)) fun b _ => ?_
        split
        · exact sub _ (by have := left_le x.right; omega) hg.right.left (cr.imp Everywhere.left id) (hg.right.needL (by rw [hr]; decide)) c hc
        · exact sub _ (by have := right_le x.right; omega) hg.right.right (cr.imp Everywhere.right id) (hg.right.needR (by rw [hr]; decide)) c hc
    iterate 4
      · rename_i ht
        exact R (nr (by rw [ht]; decide)) c hc
    · rename_i ht
      exact SafeE.bind (L (nl (by rw [ht]; decide)) c hc) fun l hl => SafeE.forLoop (unranked (Or.inl ht)) (R (nr (by rw [ht]; decide)) c hc) l hl
    · rename_i ht
      refine SafeE.bind (SafeE.and (q := Named rank x.name) (L (nl (by rw [ht]; decide)) c hc) fun env he v env' hv j hj f hf => ?_) fun l hl =>
        SafeE.bind (SafeE.set hl.1 hl.2) fun _ _ =>
        SafeE.bind (R (nr (by rw [ht]; decide)) c hc) fun r hr => SafeE.bind (SafeE.remove _) fun _ _ => SafeE.pure hr
      subst hf
      have hb := (Everywhere.here hg.1 hx).2.2.2.2 ht j hj
      obtain ⟨e, h1⟩ := written_value (hb.symm.imp And.left id) hv
      subst e
      rcases hb with h2 | h2
      · rcases h1 with h1 | h1 | h1 <;> rcases h2 with h2 | h2 | h2 <;> rw [h1] at h2 <;> cases h2
      · exact h2.2
    · rename_i ht
      exact SafeE.bind (L (nl (by rw [ht]; decide)) c hc) fun l hl => SafeE.quantLoop (unranked (Or.inr (Or.inl ht))) (R (nr (by rw [ht]; decide)) c hc) l hl
    · rename_i ht
      exact SafeE.bind (L (nl (by rw [ht]; decide)) c hc) fun l hl => SafeE.quantLoop (unranked (Or.inr (Or.inr ht))) (R (nr (by rw [ht]; decide)) c hc) l hl
    · rename_i ht
      exact SafeE.bind (L (nl (by rw [ht]; decide)) c hc) fun l hl => SafeE.bind (SafeE.lift (safe_sequenceType h l _)) fun b _ => SafeE.pure (clean_bool _)
    · rename_i ht
      exact SafeE.bind (L (nl (by rw [ht]; decide)) c hc) fun l hl => SafeE.pure (clean_bool _)
    · rename_i ht
      exact SafeE.bind (L (nl (by rw [ht]; decide)) c hc) fun l hl => SafeE.lift (safe_castAs h l _)
    · -- a call of a function of the library
      rename_i ht
      have safeArg : ∀ a ∈ x.right.chain, SafeE tame (Good rank lv tame k) (Named rank) (Clean (Good rank lv tame k)) (callArg (evaluate h) c a) := by
        intro a ha
        unfold callArg
        split
        · rename_i hat
          exact partL _ (Or.inr rfl) a ha ((parts _ (Or.inr rfl) a ha).1.needL (by rw [hat]; decide)) c hc
        · exact SafeE.lift fair_occur
      rcases hC with hC | hB
      · refine SafeE.bind (SafeE.listAt (p := fun a v => Clean (Good rank lv tame k) v ∧ (Callee rank m a.left → ∀ f, v = [.fn f] → Parts rank lv tame k h f)) _
          fun a ha => SafeE.and (safeArg a ha) fun env he v env' hv hcal f hf => ?_) fun args hargs => ?_
        · obtain ⟨h1, h2, h3⟩ := parts _ (Or.inr rfl) a ha
          have h2 : CallsBelow rank m a := Everywhere.chain (Everywhere.right hC) a ha
          by_cases hat : a.ty = .argumentTop
          · have hv : evaluate h c a.left env = .ok (v, env') := by
              rw [← hv]
              unfold callArg
              rw [hat]
            have h4 := left_le a
            exact callee_parts hm h1.left (Everywhere.left h2) (fun z hz hgz hCz hnz => sub z (by omega) hgz (Or.inl hCz) hnz) hcal c env he v env' hv f hf
          · exfalso
            have h5 : callArg (evaluate h) c a = liftE (.error .cantOccur) := by
              unfold callArg
              split
              · rename_i h5
                exact absurd h5 hat
              · rfl
            rw [h5] at hv
            cases hv
        · have hcl : ∀ a ∈ args, Clean (Good rank lv tame k) a := by
            intro a ha
            obtain ⟨b, -, hb⟩ := forall₂_mem_right hargs a ha
            exact hb.1
          refine SafeE.evaluateFunction h ?_ (fun t => (tameHere t).2.2.1 (Or.inl ht)) hcl hc
          by_cases hn : x.name ∈ callers
          · have hcal := (Everywhere.here hC hx).2 ht hn
            refine Or.inr (Or.inr fun f i hf harg hi => call_safe hk hf ?_ hi hc)
            revert hargs hcal
            generalize x.right.chain = ch
            intro hargs hcal
            cases hargs with
            | nil => cases harg
            | cons h1 h2 =>
              cases h2 with
              | nil => cases harg
              | cons h2 h3 => exact h2.2 hcal f harg
          · exact Or.inl hn
      · refine SafeE.bind (SafeE.listE (p := Clean (Good rank lv tame k)) _ safeArg) fun args hargs => ?_
        exact SafeE.evaluateFunction h (Or.inr (Or.inr fun f i hf _ hi => call_safe hk hf (parts_all hB hf) hi hc)) (fun t => (tameHere t).2.2.1 (Or.inl ht)) hargs.1 hc
    · exact SafeE.pure (clean_str _)
    · exact SafeE.pure (clean_int _)
    · exact SafeE.pure (clean_dec _)
    · exact SafeE.pure (clean_dbl _)
    iterate 3 exact SafeE.pure (clean_one.2 (by simpa [CleanItem] using hg))
    · refine SafeE.bind (SafeE.listE (p := fun e : XItem × XSeq => CleanItem (Good rank lv tame k) e.1 ∧ Clean (Good rank lv tame k) e.2) _ fun m hm => ?_) fun e he =>
        SafeE.pure (clean_one.2 (by rw [CleanItem, entries_iff]; exact he.1))
      obtain ⟨h1, h2, h3⟩ := parts _ (Or.inl rfl) m hm
      unfold mapEntryE
      split
      · exact SafeE.lift fair_occur
      · split
        · exact SafeE.lift fair_occur
        · rename_i hme
          have hme : m.left.ty = .mapEntry := Classical.byContradiction hme
          have hd := left_le m
          refine SafeE.bind (sub _ (by have := left_le m.left; omega) h1.left.left (h2.imp (fun hh => Everywhere.left (Everywhere.left hh)) id)
            (h1.left.needL (by rw [hme]; decide)) c hc) fun key hkey => SafeE.bind (SafeE.lift (safe_item1 hkey)) fun key hkey => ?_
          exact SafeE.bind (sub _ (by have := right_le m.left; omega) h1.left.right (h2.imp (fun hh => Everywhere.right (Everywhere.left hh)) id)
            (h1.left.needR (by rw [hme]; decide)) c hc) fun v hv => SafeE.pure ⟨hkey, hv⟩
    · refine SafeE.bind (SafeE.listE (p := Clean (Good rank lv tame k)) _ fun m hm => ?_) fun e he =>
        SafeE.pure (clean_one.2 (by rw [CleanItem, members_iff]; exact he.1))
      unfold arrayEntryE
      split
      · exact SafeE.lift fair_occur
      · rename_i hme
        have hme : m.ty = .arrayEntry := Classical.byContradiction hme
        exact partL _ (Or.inl rfl) m hm ((parts _ (Or.inl rfl) m hm).1.needL (by rw [hme]; decide)) c hc
    · rename_i ht
      refine SafeE.bind (L (fun t => (tameHere t).2.2.2.2.1 (Or.inl ht)) c hc) fun v hv => SafeE.pure (clean_one.2 ?_)
      rw [CleanItem, members_iff]
      intro s hs
      obtain ⟨i, hi, rfl⟩ := List.mem_map.1 hs
      exact clean_one.2 ((clean_iff v).1 hv i hi)
    · rename_i ht
      have hnt : ¬ tame := fun t => (tameHere t).2.1 ht
      refine SafeE.lift ?_
      unfold lookupWildcard
      split
      · rename_i e
        have he : CleanEntries (Good rank lv tame k) e := by simpa [Clean, CleanItem] using hc
        generalize e.map (·.1) = keys
        induction keys with
        | nil => exact clean_nil (P := Good rank lv tame k)
        | cons key keys ih =>
          rw [lookupAll]
          split
          · exact fair_panic hnt
          · rename_i v hv
            exact Safe.map ih fun r hr => clean_append (clean_mapGet he hv) hr
      · rename_i a
        have ha : CleanMembers (Good rank lv tame k) a := by simpa [Clean, CleanItem] using hc
        show Clean (Good rank lv tame k) _
        rw [clean_iff]
        intro i hi
        obtain ⟨m, hm, hi⟩ := List.mem_flatten.1 hi
        exact (clean_iff m).1 ((members_iff a).1 ha m hm) i hi
      · exact fair_type
    · rename_i ht
      refine SafeE.bind (L (nl (by rw [ht]; decide)) c hc) fun keys _ => SafeE.lift ?_
      unfold lookupKeys
      split
      · rename_i e
        have he : CleanEntries (Good rank lv tame k) e := by simpa [Clean, CleanItem] using hc
        show Clean (Good rank lv tame k) _
        rw [clean_iff]
        intro i hi
        obtain ⟨m, hm, hi⟩ := List.mem_flatMap.1 hi
        exact (clean_iff _).1 (clean_getD fun v hv => clean_mapGet he hv) i hi
      · rename_i a
        have ha : CleanMembers (Good rank lv tame k) a := by simpa [Clean, CleanItem] using hc
        show Clean (Good rank lv tame k) _
        rw [clean_iff]
        intro i hi
        obtain ⟨m, hm, hi⟩ := List.mem_flatMap.1 hi
        exact (clean_iff _).1 (clean_getD fun v hv => clean_arrayGet ha hv) i hi
      · exact fair_type
    · intro env he
      refine ⟨clean_getD fun v hv => ?_, he⟩
      unfold Env.getVar at hv
      cases e : env.vars.find? fun b => b.1 == x.name with
      | none => rw [e] at hv; cases hv
      | some b => rw [e] at hv; cases hv; exact (he b (List.mem_of_find?_eq_some e)).1
    · exact orE
    · split
      · rename_i f hf
        obtain ⟨h1, h2⟩ := binary_needs hf
        exact SafeE.bind (L (nl h1) c hc) fun l hl => SafeE.bind (R (nr h2) c hc) fun r hr =>
          SafeE.lift (safe_binaryOp h hf (fun t => (tameHere t).1) hl hr)
      · exact SafeE.lift fair_occur

theorem bodies (hk : tame → 1 ≤ k) (m : Nat) : Bodies rank m lv tame k h := by
  induction m using Nat.strong_induction_on with
  | _ m ih => exact fun y hy hg hn c hc => eval_safe hk ih (y.depth + 1) y (by omega) hg (Or.inl hy) hn c hc

theorem eval_good (hk : tame → 1 ≤ k) {x : XNode} (hg : Good rank lv tame k x) (hn : tame → x.ty ≠ .nil) {c : XSeq} (hc : Clean (Good rank lv tame k) c) :
    SafeE tame (Good rank lv tame k) (Named rank) (Clean (Good rank lv tame k)) (evaluate h c x) :=
  eval_safe hk (m := 0) (fun _ hj => absurd hj (Nat.not_lt_zero _)) (x.depth + 1) x (by omega) hg (Or.inr (bodies hk lv)) hn c hc

end

theorem complete_node {t : XNodeType} {n : Str} {l r : XNode} (hl : t ∉ needsLeft ∨ l.isNil = false) (hr : t ∉ needsRight ∨ r.isNil = false)
    (ht : t ≠ .namedFunctionRef) (cl : Complete l) (cr : Complete r) : Complete (.node t n l r) := by
  have aux : ∀ {x : XNode}, x.isNil = false → x.ty ≠ .nil := fun {x} h => by simpa [XNode.isNil] using h
  exact ⟨⟨fun h => hl.elim (absurd h) aux, fun h => hr.elim (absurd h) aux, fun h => absurd h ht⟩, cl, cr⟩

theorem complete_tip {t : XNodeType} {n : Str} (hl : t ∉ needsLeft) (hr : t ∉ needsRight) (ht : t ≠ .namedFunctionRef) : Complete (tip t n) :=
  complete_node (Or.inl hl) (Or.inl hr) ht trivial trivial

/-- Puts a tree together from complete parts. -/
macro "complete" : tactic => `(tactic| repeat' first
  | assumption
  | trivial
  | (refine complete_tip ?_ ?_ ?_ <;> decide)
  | (refine complete_node ?_ ?_ ?_ ?_ ?_)
  | decide
  | exact Or.inl (by decide)
  | (refine Or.inr ?_; first | assumption | rfl))

theorem complete_kind {ts : List Tok} {x : XNode} (h : KindTestD ts x) : Complete x := by
  cases h with
  | simple hs =>
    simp only [simpleTests, List.mem_cons, List.not_mem_nil, or_false, Prod.mk.injEq] at hs
    rcases hs with ⟨-, rfl⟩ | ⟨-, rfl⟩ | ⟨-, rfl⟩ | ⟨-, rfl⟩ <;> complete
  | documentElement _ => unfold elementTree; complete
  | element _ => unfold elementTree; complete
  | _ => complete

theorem complete_type {c : TCat} {ts : List Tok} {x : XNode} {bad : List TType} (h : TypeD c ts x bad) : Complete x := by
  induction h with
  | kind h => have := complete_kind h; complete
  | anyMap => unfold anyItems; complete
  | anyArray => unfold anyItems; complete
  | _ => complete

theorem complete_as {ts : List Tok} {x : XNode} (h : AsD ts x) : Complete x := by
  cases h with
  | none => unfold anyItems; complete
  | «as» h => exact complete_type h

theorem complete_params {ts : List Tok} {x : XNode} (h : ParamsD ts x) : Complete x := by
  induction h with
  | last _ h => have := complete_as h; complete
  | more _ h _ ih => have := complete_as h; complete

theorem complete_test {ts : List Tok} {n : Str} {x : XNode} {bad : List TType} (h : NodeTestD ts n x bad) : Complete x := by
  cases h with
  | kind h => have := complete_kind h; complete
  | _ => complete

theorem complete_typeOp {l k t ts x bad} (h : TypeOpD l k t ts x bad) : Complete x ∧ t ∉ needsRight ∧ t ≠ .namedFunctionRef := by
  cases h with
  | instanceOf h => exact ⟨complete_type h, by decide⟩
  | treatAs h => exact ⟨complete_type h, by decide⟩
  | castableAs h => refine ⟨?_, by decide⟩; cases h <;> complete
  | castAs h => refine ⟨?_, by decide⟩; cases h <;> complete

theorem complete_follow {x y : XNode} (hx : Complete x) (ht : x.ty ∉ needsRight) (hy : Complete y) : Complete (followedBy x y) := by
  cases x with
  | nil => trivial
  | node t n l r => exact ⟨⟨hx.1.1, fun h => absurd h ht, hx.1.2.2⟩, hx.2.1, hy⟩

theorem complete_derives {c : Cat} {ts : List Tok} {x : XNode} {bad : List TType} (h : Derives c ts x bad) :
    Complete x ∧ ∀ k, c = .elem k → x.ty ∉ needsRight := by
  induction h with
  | tighter _ _ _ ih => exact ⟨ih.1, nofun⟩
  | left hb _ h1 _ h2 i1 i2 | nonassoc hb _ h1 _ h2 i1 i2 =>
    have := (show ∀ e ∈ binary, e.2.2 ≠ .namedFunctionRef by decide) _ hb
    exact ⟨complete_node (Or.inr (Parser.derives_ne_nil h1 trivial)) (Or.inr (Parser.derives_ne_nil h2 trivial)) this i1.1 i2.1, nofun⟩
  | typeOp h1 _ h2 i1 =>
    obtain ⟨h3, h4, h5⟩ := complete_typeOp h2
    exact ⟨complete_node (Or.inr (Parser.derives_ne_nil h1 trivial)) (Or.inl h4) h5 i1.1 h3, nofun⟩
  | clause h1 i1 =>
    rename_i c _ _ _ _
    have := Parser.derives_ne_nil h1 trivial
    have := i1.1
    cases c <;> exact ⟨by unfold Clause.tree; complete, nofun⟩
  | bindLast _ _ h1 _ h2 i1 i2 =>
    have := Parser.derives_ne_nil h1 trivial
    have := Parser.derives_ne_nil h2 trivial
    exact ⟨complete_node (Or.inr (by assumption)) (Or.inr (by assumption)) (by unfold Clause.bind; split <;> decide) i1.1 i2.1, nofun⟩
  | bindMore _ _ h1 h2 i1 i2 =>
    have := Parser.derives_ne_nil h1 trivial
    have := Parser.derives_ne_nil h2 trivial
    exact ⟨complete_node (Or.inr (by assumption)) (Or.inr (by assumption)) (by unfold Clause.bind; split <;> decide) i1.1 i2.1, nofun⟩
  | cond h1 h2 _ h3 i1 i2 i3 =>
    have := Parser.derives_ne_nil h1 trivial
    have := Parser.derives_ne_nil h2 trivial
    have := Parser.derives_ne_nil h3 trivial
    obtain ⟨i1, -⟩ := i1
    obtain ⟨i2, -⟩ := i2
    obtain ⟨i3, -⟩ := i3
    exact ⟨by complete, nofun⟩
  | axis ha ht _ ih =>
    have := complete_test ht
    obtain ⟨ih, -⟩ := ih
    refine ⟨?_, nofun⟩
    have h2 := (show ∀ e ∈ axisNames, e.2.1 ∉ needsLeft ∧ e.2.1 ∉ needsRight ∧ e.2.1 ≠ .namedFunctionRef by decide) _ ha
    exact complete_node (Or.inl h2.1) (Or.inl h2.2.1) h2.2.2 this ih
  | atStep ht _ ih =>
    have := complete_test ht
    obtain ⟨ih, -⟩ := ih
    exact ⟨by complete, nofun⟩
  | child ht _ _ ih =>
    have := complete_test ht
    obtain ⟨ih, -⟩ := ih
    exact ⟨by complete, nofun⟩
  | preds h1 _ i1 i2 =>
    obtain ⟨i1, -⟩ := i1
    obtain ⟨i2, -⟩ := i2
    refine ⟨complete_node (Or.inl ?_) (Or.inl ?_) ?_ i1 i2, nofun⟩ <;> split <;> decide
  | call _ _ _ ih =>
    refine ⟨?_, nofun⟩
    split <;> exact complete_node (Or.inl (by decide)) (Or.inl (by decide)) (by decide) trivial ih.1
  | reference _ => exact ⟨⟨⟨nofun, nofun, fun _ => by simp [S]⟩, trivial, trivial⟩, nofun⟩
  | function0 ht _ ih =>
    have := complete_as ht
    obtain ⟨ih, -⟩ := ih
    exact ⟨by complete, nofun⟩
  | function hp ht _ ih =>
    have := complete_as ht
    have := complete_params hp
    obtain ⟨ih, -⟩ := ih
    exact ⟨by complete, nofun⟩
  | moreElems h1 h2 i1 i2 => exact ⟨complete_follow i1.1 (i1.2 _ rfl) i2.1, nofun⟩
  | argument h1 ih =>
    have := Parser.derives_ne_nil h1 trivial
    obtain ⟨ih, -⟩ := ih
    exact ⟨by complete, fun _ _ => (show XNodeType.argumentTop ∉ needsRight by decide)⟩
  | placeholder => exact ⟨by complete, fun _ _ => (show XNodeType.argumentPlaceholder ∉ needsRight by decide)⟩
  | member h1 ih =>
    have := Parser.derives_ne_nil h1 trivial
    obtain ⟨ih, -⟩ := ih
    exact ⟨by complete, fun _ _ => (show XNodeType.arrayEntry ∉ needsRight by decide)⟩
  | entry h1 _ h2 i1 i2 =>
    have := Parser.derives_ne_nil h1 trivial
    have := Parser.derives_ne_nil h2 trivial
    obtain ⟨i1, -⟩ := i1
    obtain ⟨i2, -⟩ := i2
    exact ⟨by complete, fun _ _ => (show XNodeType.mapConstruct ∉ needsRight by decide)⟩
  | elems _ ih | lastElem _ ih | present _ ih | lookup _ ih | primary _ ih | expression _ ih | relative _ ih | oneStep _ ih => exact ⟨ih.1, nofun⟩
  | arrow h1 _ _ i1 i2 | arrowVar h1 _ _ i1 i2 =>
    have := Parser.derives_ne_nil h1 trivial
    obtain ⟨i1, -⟩ := i1
    obtain ⟨i2, -⟩ := i2
    exact ⟨by complete, nofun⟩
  | minus h1 ih | plus h1 ih =>
    have := Parser.derives_ne_nil h1 trivial
    obtain ⟨ih, -⟩ := ih
    exact ⟨by complete, nofun⟩
  | filter h1 _ i1 i2 | apply h1 _ i1 i2 =>
    have := Parser.derives_ne_nil h1 trivial
    obtain ⟨i1, -⟩ := i1
    obtain ⟨i2, -⟩ := i2
    exact ⟨by complete, nofun⟩
  | find _ _ i1 i2 | steps _ _ i1 i2 | slashMore _ _ i1 i2 =>
    obtain ⟨i1, -⟩ := i1
    obtain ⟨i2, -⟩ := i2
    exact ⟨by complete, nofun⟩
  | dslashMore _ _ i1 i2 =>
    obtain ⟨i1, -⟩ := i1
    obtain ⟨i2, -⟩ := i2
    exact ⟨by unfold dslash; complete, nofun⟩
  | dslashLast _ ih | rootedAll _ ih =>
    obtain ⟨ih, -⟩ := ih
    exact ⟨by unfold dslash; complete, nofun⟩
  | rooted _ ih | slashLast _ ih | paren _ ih | map _ ih | curlyArray _ ih | squareArray _ ih | lookupExpr _ ih =>
    obtain ⟨ih, -⟩ := ih
    exact ⟨by complete, nofun⟩
  | _ => exact ⟨by complete, nofun⟩

end Safety

/-- Whether every node of a tree has a property can be tested. -/
instance everywhereDecidable (p : XNodeType → Str → XNode → XNode → Prop) [∀ t n l r, Decidable (p t n l r)] : ∀ x, Decidable (Everywhere p x)
  | .nil => .isTrue trivial
  | .node t n l r =>
    have := everywhereDecidable p l
    have := everywhereDecidable p r
    inferInstanceAs (Decidable (p t n l r ∧ Everywhere p l ∧ Everywhere p r))

instance (x : XNode) : Decidable (CallFree x) := by unfold CallFree; infer_instance
instance (x : XNode) : Decidable (FirstOrder x) := by unfold FirstOrder; infer_instance
set_option synthInstance.maxSize 1000 in
set_option synthInstance.maxHeartbeats 200000 in
instance (k : Nat) (x : XNode) : Decidable (Harmless k x) := by
  unfold Harmless
  infer_instance

instance (x : XNode) : Decidable (WrittenFunction x) := by unfold WrittenFunction; infer_instance
instance (x : XNode) : Decidable (WrittenData x) := by unfold WrittenData; infer_instance
instance (rank : Str → Option Nat) (k : Nat) (x : XNode) : Decidable (Callee rank k x) := by unfold Callee; infer_instance
instance (rank : Str → Option Nat) (k : Nat) (x : XNode) : Decidable (CallsBelow rank k x) := by unfold CallsBelow; infer_instance
set_option synthInstance.maxSize 1000 in
set_option synthInstance.maxHeartbeats 200000 in
instance (rank : Str → Option Nat) (k : Nat) (x : XNode) : Decidable (Ranked rank k x) := by unfold Ranked; infer_instance

theorem Spec.Everywhere.mono {p q : XNodeType → Str → XNode → XNode → Prop} (hpq : ∀ t n l r, p t n l r → q t n l r) :
    ∀ {x : XNode}, Everywhere p x → Everywhere q x
  | .nil, _ => trivial
  | .node _ _ _ _, hx => ⟨hpq _ _ _ _ hx.1, Spec.Everywhere.mono hpq hx.2.1, Spec.Everywhere.mono hpq hx.2.2⟩

/-- A query none of whose functions calls a function item respects the ranks, without any rank. -/
theorem Spec.FirstOrder.ranked {x : XNode} (hx : FirstOrder x) : Ranked (fun _ => none) 0 x := by
  have below : ∀ {y : XNode}, CallFree y → CallsBelow (fun _ => none) 0 y := fun hy =>
    Spec.Everywhere.mono (fun t n l r h1 => ⟨fun ht => absurd ht h1.1, fun ht hn => absurd hn (h1.2 ht)⟩) hy
  exact Spec.Everywhere.mono (fun t n l r h1 => ⟨fun ht => (h1.1 ht).imp below below, h1.2, fun _ _ _ => Or.inl rfl, fun _ => rfl, nofun⟩) hx

/-- C80 (partial): a query whose functions call only what is written at the place of the call and, by their names, functions of lower rank, ends, on every
document and from every node: with some depth of recursion and all greater ones the result is the same, and is a value, an error or a panic. (Missing:
queries that end for another reason.) -/
theorem C80_ends_partial {q : Str} {x : XNode} (hq : Parser.compileXPath q = .ok x) {rank : Str → Option Nat} {k : Nat} (hf : Ranked rank k x) (h : Heap) (start : NodeId) :
    ∃ n r, r ≠ .error .outOfFuel ∧ ∀ m, n ≤ m → evalXPath h m start q = r := by
  obtain ⟨n, hn⟩ := eval_of_evaluate h [.node start] x Env.new
  have hs := Safety.eval_good (tame := False) (k := 0) (h := h) nofun (x := x) ⟨hf, nofun⟩ nofun (c := [.node start])
    (by simp [Safety.Clean, Safety.CleanItem]) Env.new (by intro b hb; cases hb)
  refine ⟨n, _, ?_, fun m hm => by unfold evalXPath; rw [hq]; simp only [matchXPath]; rw [hn m hm]⟩
  cases e : evaluate h [.node start] x Env.new with
  | ok v => simp
  | error e' =>
    rw [e] at hs
    simp only [ne_eq, Except.error.injEq]
    exact hs.1

/-- C80 (partial): a query that is an expression of the grammar (its tree is one that the grammar gives), whose functions call only what is written at the
place and functions of lower rank, and that does nothing that can panic, ends with a value or an error. (Missing: queries that could panic and do not.) -/
theorem C80_no_panic_partial {q : Str} {x : XNode} (hq : Parser.compileXPath q = .ok x) {ts : List Tok} {bad : List TType}
    (hd : Derives (.level 1) ts x bad) {rank : Str → Option Nat} {j : Nat} (hf : Ranked rank j x) {k : Nat} (hk : 1 ≤ k) (hT : Harmless k x) (h : Heap) (start : NodeId) :
    ∃ n r, r ≠ .error .outOfFuel ∧ r ≠ .error .panic ∧ ∀ m, n ≤ m → evalXPath h m start q = r := by
  obtain ⟨n, hn⟩ := eval_of_evaluate h [.node start] x Env.new
  have hs := Safety.eval_good (tame := True) (k := k) (h := h) (fun _ => hk) (x := x) ⟨hf, fun _ => ⟨hT, (Safety.complete_derives hd).1⟩⟩
    (fun _ => by simpa [XNode.isNil] using Parser.derives_ne_nil hd trivial) (c := [.node start])
    (by simp [Safety.Clean, Safety.CleanItem]) Env.new (by intro b hb; cases hb)
  refine ⟨n, _, ?_, ?_, fun m hm => by unfold evalXPath; rw [hq]; simp only [matchXPath]; rw [hn m hm]⟩
  all_goals
    cases e : evaluate h [.node start] x Env.new with
    | ok v => simp
    | error e' =>
      rw [e] at hs
      simp only [ne_eq, Except.error.injEq]
      first | exact hs.1 | exact hs.2.1 trivial

/-- `for-each(a, function($x) { $x = 2 })` meets the hypotheses, and so does not panic on any document. -/
example : ∃ x ts bad, Parser.compileXPath (S "for-each(a, function($x) { $x = 2 })") = .ok x ∧ Derives (.level 1) ts x bad ∧ FirstOrder x ∧ Harmless 1 x := by
  have hname : ∀ (d n : Str), n ≠ [] → NameD d [⟨.name, n⟩] (if d = [] then n else d ++ S ":" ++ n) _ := fun d n hn => .ncname hn
  have ha : Derives (.level 2) [⟨.name, S "a"⟩] (tip .axisChild (S "a")) [.sharp, .colonAsterisk, .colon] :=
    .loosen 2 (.relative (.oneStep (.child (ps := []) (.name (.ncname (by decide))) (by simp) .noPreds))) (by omega) (by omega) (by omega)
  have hx : Derives (.level 6) [⟨.dollar, S "$"⟩, ⟨.name, S "x"⟩] (tip .varRef (S "x")) _ := .prim 6 (.varRef (hname [] (S "x") (by decide)))
  have hb := Derives.nonassoc (l := 5) (k := ⟨.generalEQ, S "="⟩) (t := .operatorGeneralEQ) (by decide) (by decide) hx (by decide) (.prim 6 (.integer (s := S "2")))
  have hf := Derives.function (s := S "function") (l := S "(") (r := S ")") (c := S "{") (d := S "}")
    (ParamsD.last (d := S "$") (hname [] (S "x") (by decide)) .none) .none (.present (.loosen 1 hb (by omega) (by omega) (by omega)))
  have hl := Derives.moreElems (c := S ",") (.argument ha) (.lastElem (.argument (.prim 2 hf)))
  have hc := Derives.call (l := S "(") (r := S ")") (hname (S "fn") (S "for-each") (by decide)) (.elems hl) (by unfold Callable; decide +kernel)
  refine ⟨_, _, _, ?_, .prim 1 hc, by decide +kernel, by decide +kernel⟩
  run_compile

/-- Ranks for a list of names: the place in the list. -/
private def inOrder (names : List Str) (n : Str) : Option Nat := names.findIdx? (· == n)

private theorem of_check {p : XNode → Prop} [DecidablePred p] {q : Str}
    (hc : (match Parser.compileXPath q with | .ok x => decide (p x) | .error _ => false) = true) : ∃ x, Parser.compileXPath q = .ok x ∧ p x := by
  split at hc
  · rename_i x hx
    exact ⟨x, hx, of_decide_eq_true hc⟩
  · cases hc

/-- Functions in functions, functions that call functions bound before, and maps: hypotheses of `C80_ends_partial` that are met, and not by queries none of
whose functions calls a function. -/
example :
    (∃ x, Parser.compileXPath (S "for-each(1 to 3, function($x) { for-each(1 to $x, function($y) { $y * $x }) })") = .ok x ∧
      Ranked (inOrder []) 0 x ∧ ¬ FirstOrder x) ∧
    (∃ x, Parser.compileXPath (S "let $f := function($x) { $x + 1 }, $g := function($a) { $f($f($a)) } return for-each(//b, function($e) { $g(count($e/c)) })") = .ok x ∧
      Ranked (inOrder [S "f", S "g"]) 2 x ∧ ¬ FirstOrder x) ∧
    (∃ x, Parser.compileXPath (S "let $m := map {'a' : 1} return //b ! (function($e) { $m(name($e)) })(.)") = .ok x ∧
      Ranked (inOrder [S "m"]) 1 x ∧ ¬ FirstOrder x) ∧
    (∃ x, Parser.compileXPath (S "for-each([1, 2, 3], function($a as array(*)) { $a(2) })") = .ok x ∧ Ranked (inOrder [S "a"]) 1 x ∧ ¬ FirstOrder x) :=
  ⟨of_check (by decide +kernel), of_check (by decide +kernel), of_check (by decide +kernel), of_check (by decide +kernel)⟩

/-- The tree of `$f()`. -/
private def callF : XNode := .node .applyArgument [] (tip .varRef (S "f")) (tip .argumentListTop [])

/-- A function whose body is `$f()`, called where `$f` is that function, calls itself and so on, without end. -/
private theorem callF_endless (h : Heap) (c : XSeq) {f : XNode} (ht : f.ty = .inlineFunction) (hb : f.left = callF) (hp : paramsOf f = []) :
    ∀ n env, env.getVar (S "f") = some [.fn f] → eval h n c callF env = .error .outOfFuel
  | 0, _, _ => rfl
  | 1, _, _ => rfl
  | n + 2, env, hv => by
    have ih := callF_endless h c ht hb hp (n + 1) env hv
    have h1 : eval h (n + 1) c (tip .varRef (S "f")) env = .ok ([.fn f], env) := by
      show Except.ok ((env.getVar (S "f")).getD [], env) = _
      rw [hv]
      rfl
    have h2 : listE (fun a : XNode => eval h (n + 1) c a.left) (tip .argumentListTop []).left.chain env = .ok ([], env) := rfl
    show (do
      let v ← eval h (n + 1) c (tip .varRef (S "f"))
      let args ← listE (fun a : XNode => eval h (n + 1) c a.left) (tip .argumentListTop []).left.chain
      applyTo h (eval h (n + 1)) c args v : E XSeq) env = _
    rw [E.bind_run, h1]
    simp only
    rw [E.bind_run, h2]
    simp only [applyTo, ht, if_pos, callInline, hp, hb]
    rw [E.bind_run]
    have h3 : bindParams h [] [] env = .ok ((), env) := rfl
    rw [h3]
    simp only
    rw [E.bind_run, ih]

/-- C80 as stated fails: a function can call itself through the variable it is bound to, because variables are looked up where a function is called. No
depth of recursion is enough (the stack overflows). -/
theorem C80_endless (h : Heap) (start : NodeId) (n : Nat) : evalXPath h n start (S "let $f := function() { $f() } return $f()") = .error .outOfFuel := by
  have hq : Parser.compileXPath (S "let $f := function() { $f() } return $f()") = .ok
      (.node .letExpr (S "let") .nil (.node .letVarBind (S "f") (.node .inlineFunction (S "(inline function)") callF
        (.node .returnType [] anyItems .nil)) callF)) := by run_compile
  unfold evalXPath
  rw [hq]
  simp only [matchXPath]
  cases n with
  | zero => rfl
  | succ n =>
    cases n with
    | zero => rfl
    | succ n =>
      cases n with
      | zero => rfl
      | succ n =>
        rw [eval, evalStep.eq_def]
        simp only [XNode.ty, XNode.right]
        rw [eval, evalStep.eq_def]
        simp only [XNode.ty, XNode.right, XNode.left, XNode.name]
        rw [E.bind_run]
        generalize hf : XNode.node .inlineFunction (S "(inline function)") callF (.node .returnType [] anyItems .nil) = f
        have h1 : eval h (n + 1) [.node start] f Env.new = .ok ([.fn f], Env.new) := by rw [← hf]; rfl
        rw [h1]
        simp only
        rw [E.bind_run, modifyE_run]
        simp only
        rw [E.bind_run, callF_endless h _ (by rw [← hf]; rfl) (by rw [← hf]; rfl) (by rw [← hf]; rfl) (n + 1) _ rfl]

/-- C80 as stated fails: what panics. Integer arithmetic that leaves the range of `i64` (where overflow is checked, as in a debug build), in an operator and in
functions. -/
theorem C80_overflow :
    evalXPath .empty 30 0 (S "9223372036854775807 + 1") = .error .panic ∧
    evalXPath .empty 30 0 (S "9223372036854775807 * 2") = .error .panic ∧
    evalXPath .empty 30 0 (S "(0 - 9223372036854775807 - 1) idiv -1") = .error .panic ∧
    evalXPath .empty 30 0 (S "(0 - 9223372036854775807 - 1) mod -1") = .error .panic ∧
    evalXPath .empty 30 0 (S "abs(0 - 9223372036854775807 - 1)") = .error .panic ∧
    evalXPath .empty 30 0 (S "sum((9223372036854775807, 1))") = .error .panic ∧
    evalXPath .empty 30 0 (S "avg((9223372036854775807, 1))") = .error .panic ∧
    evalXPath .empty 30 0 (S "substring('abc', 9223372036854775807, 2)") = .error .panic ∧
    evalXPath .empty 30 0 (S "subsequence((1, 2), 9223372036854775807, 2)") = .error .panic ∧
    evalXPath .empty 30 0 (S "insert-before((1, 2), 0 - 9223372036854775807 - 1, 3)") = .error .panic := by
  refine ⟨?_, ?_, ?_, ?_, ?_, ?_, ?_, ?_, ?_, ?_⟩ <;> run_query

/-- C80 as stated fails: what panics besides. Empty braces, a map or an array called without argument, a `?` in the call of a function item, more arguments than an
inline function has parameters, `?*` on a map with an array as key. -/
theorem C80_violated :
    evalXPath .empty 30 0 (S "array {}") = .error .panic ∧
    evalXPath .empty 30 0 (S "function($x) {}(1)") = .error .panic ∧
    evalXPath .empty 30 0 (S "map {'a' : 1}()") = .error .panic ∧
    evalXPath .empty 30 0 (S "[1]()") = .error .panic ∧
    evalXPath .empty 30 0 (S "let $f := function($x) { $x } return $f(?)") = .error .panic ∧
    evalXPath .empty 30 0 (S "function($x) { 1 }(1, 2)") = .error .panic ∧
    evalXPath .empty 30 0 (S "for-each(1, function() { 1 })") = .error .panic ∧
    evalXPath .empty 30 0 (S "map {[1] : 2}?*") = .error .panic := by
  refine ⟨?_, ?_, ?_, ?_, ?_, ?_, ?_, ?_⟩ <;> run_query

end Amxml
