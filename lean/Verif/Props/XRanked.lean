import Verif.Props.XDepth

/-!
# C116: how deep evaluation recurses, where functions call functions
-/

namespace Amxml
open Spec

namespace XRanked
open Safety

section
variable {rank : Str → Option Nat} {lv D : Nat} {h : Heap}

/-- The function items that are met: made by a query of depth `D` that respects the ranks. -/
def Small (rank : Str → Option Nat) (lv D : Nat) (f : XNode) : Prop := Ranked rank lv f ∧ f.depth ≤ D

theorem Small.left {x : XNode} (h : Small rank lv D x) : Small rank lv D x.left := ⟨Everywhere.left h.1, Nat.le_trans (left_le x) h.2⟩
theorem Small.right {x : XNode} (h : Small rank lv D x) : Small rank lv D x.right := ⟨Everywhere.right h.1, Nat.le_trans (right_le x) h.2⟩
theorem Small.chain {x : XNode} (h : Small rank lv D x) (a : XNode) (ha : a ∈ x.chain) : Small rank lv D a :=
  ⟨Everywhere.chain h.1 a ha, Nat.le_trans (chain_depth a ha) h.2⟩
theorem Small.bare {x : XNode} (h : Small rank lv D x) : Small rank lv D (bare x) := ⟨Everywhere.bare h.1, Nat.le_trans (bare_depth x) h.2⟩

/-- The evaluation neither reaches the bound nor makes other function items. -/
abbrev Fine (rank : Str → Option Nat) (lv D : Nat) (m : E XSeq) : Prop := SafeE False (Small rank lv D) (Named rank) (Clean (Small rank lv D)) m

/-- The parts of the function item are evaluated with `n` nested calls. -/
def Ready (rank : Str → Option Nat) (lv D : Nat) (h : Heap) (n : Nat) (f : XNode) : Prop :=
  (f.ty = .inlineFunction → ∀ c, Clean (Small rank lv D) c → Fine rank lv D (eval h n c f.left)) ∧
  (f.ty = .partialFunctionCall → ∀ a ∈ f.right.chain, a.ty = .argumentTop → ∀ c, Clean (Small rank lv D) c → Fine rank lv D (eval h n c a.left))

/-- Trees of rank `j` are evaluated with `n` nested calls. -/
def Inner (rank : Str → Option Nat) (lv D : Nat) (h : Heap) (n j : Nat) : Prop :=
  ∀ y, Small rank lv D y → CallsBelow rank j y → ∀ c, Clean (Small rank lv D) c → Fine rank lv D (eval h n c y)

theorem ready_of {n j : Nat} (hB : Inner rank lv D h n j) {f : XNode} (hf : Small rank lv D f)
    (hl : f.ty = .inlineFunction ∨ f.ty = .partialFunctionCall → CallsBelow rank j f.left ∧ CallsBelow rank j f.right) : Ready rank lv D h n f :=
  ⟨fun ht c hc => hB _ hf.left (hl (Or.inl ht)).1 c hc, fun ht a ha _ c hc =>
    hB _ (hf.right.chain a ha).left (Everywhere.left (Everywhere.chain (hl (Or.inr ht)).2 a ha)) c hc⟩

theorem ready_all {n : Nat} (hB : Inner rank lv D h n lv) {f : XNode} (hf : Small rank lv D f) : Ready rank lv D h n f :=
  ready_of hB hf fun ht => (Everywhere.here hf.1 (ne_nil (x := f) (by rcases ht with ht | ht <;> rw [ht] <;> decide))).1 ht

/-- What is evaluated with a bounded depth is what is evaluated. -/
theorem evaluate_of {n : Nat} {c : XSeq} {y : XNode} {env env' : Env} {v : XSeq} (hv : eval h n c y env = .ok (v, env')) :
    evaluate h c y env = .ok (v, env') := by
  obtain ⟨n0, h0⟩ := eval_of_evaluate h c y env
  rw [← h0 (max n n0) (Nat.le_max_right _ _), eval_mono h (Nat.le_max_left n n0) c y env (by rw [hv]; simp), hv]

/-- The value of something that may be called in a function of rank `m`: if it is a function item, its parts are evaluated. -/
theorem callee_ready {m n : Nat} (hm : ∀ j < m, Inner rank lv D h n j) {y : XNode} (hy : Small rank lv D y) (hC : CallsBelow rank m y)
    (sub : ∀ z : XNode, z.depth < y.depth → Small rank lv D z → CallsBelow rank m z → ∀ c, Clean (Small rank lv D) c → Fine rank lv D (eval h n c z))
    (hcal : Callee rank m y) (c : XSeq) (env : Env) (he : CleanEnv (Small rank lv D) (Named rank) env) (v : XSeq) (env' : Env)
    (hv : eval h n c y env = .ok (v, env')) (f : XNode) (hf : v = [.fn f]) : Ready rank lv D h n f := by
  subst hf
  have hv := evaluate_of hv
  have hd := bare_depth y
  have hyb := hy.bare
  have hCb : CallsBelow rank m (bare y) := Everywhere.bare hC
  have hnil : (bare y).ty ≠ .nil := by
    rcases hcal with (h1 | h1 | h1) | (h1 | h1 | h1) | ⟨h1, -⟩ <;> rw [h1] <;> decide
  have hx := ne_nil hnil
  rcases or_assoc.2 hcal with h1 | ⟨h1, j, hj, hlt⟩
  · obtain ⟨e, h2⟩ := written_value h1 hv
    subst e
    have d1 := left_depth _ hx
    have d2 := right_depth _ hx
    refine ⟨fun ht c hc => sub _ (by omega) hyb.left (Everywhere.left hCb) c hc, fun ht a ha hat c hc => ?_⟩
    have hga := hyb.right.chain a ha
    have d3 := chain_depth a ha
    have d4 := left_le a
    exact sub _ (by omega) hga.left (Everywhere.left (Everywhere.chain (Everywhere.right hCb) a ha)) c hc
  · rw [evaluate_bare c y hnil, evaluate_eq] at hv
    unfold evalStep at hv
    rw [h1] at hv
    have hv : (Except.ok ((env.getVar (bare y).name).getD [], env) : Except XErr (XSeq × Env)) = .ok ([.fn f], env') := hv
    injection hv with hv
    injection hv with hv hv2
    unfold Env.getVar at hv
    cases e : env.vars.find? fun b => b.1 == (bare y).name with
    | none => rw [e] at hv; cases hv
    | some b =>
      rw [e] at hv
      have hb := he b (List.mem_of_find?_eq_some e)
      have hn : b.1 = (bare y).name := by simpa using List.find?_some e
      have hv : b.2 = [.fn f] := hv
      have hgf : Small rank lv D f := by
        have := hb.1
        rw [hv] at this
        simpa [Clean, CleanItem] using this
      have hbf := hb.2 j (by rw [hn]; exact hj) f hv
      exact ready_of (hm j hlt) hgf fun _ => ⟨Everywhere.left hbf, Everywhere.right hbf⟩

/-- A function item can be called with one argument. -/
theorem call_fine {n : Nat} {f : XNode} (hf : Small rank lv D f) (hP : Ready rank lv D h n f) {x : XItem} (hx : CleanItem (Small rank lv D) x) {c : XSeq}
    (hc : Clean (Small rank lv D) c) (hn : 0 < n) : Fine rank lv D (callFunctionF h (eval h n) n f [[x]] c) := by
  have ha : ∀ a ∈ [[x]], Clean (Small rank lv D) a := by simpa using clean_one.2 hx
  obtain ⟨m, rfl⟩ : ∃ m, n = m + 1 := ⟨n - 1, by omega⟩
  rw [callFunctionF]
  unfold callStep
  split
  · rename_i ht
    exact SafeE.callInline h (hP.1 ht c hc) (named_params (k := 0) (tame := False) ⟨hf.1, nofun⟩ ht) ha nofun
  · split
    · split
      · exact SafeE.evaluateFunction h (Or.inr (Or.inl (by simp))) nofun ha hc
      · exact SafeE.lift fair_type
    · exact SafeE.lift (fair_panic id)
  · rename_i ht
    have h0 := ne_nil (x := f) (by rw [ht]; decide)
    have hff := Everywhere.here hf.1 h0
    exact SafeE.bind (SafeE.partialArgs _ _ (fun a hm hat => hP.2 ht a hm hat c hc) ha) fun as has =>
      SafeE.evaluateFunction h (Or.inl (hff.2.1 ht)) nofun has hc
  · exact SafeE.lift fair_occur

theorem eval_fine : ∀ (n m : Nat) (x : XNode), x.depth + m * (D + 1) < n → Small rank lv D x → CallsBelow rank m x ∨ lv + 1 ≤ m → ∀ c, Clean (Small rank lv D) c → Fine rank lv D (eval h n c x)
  | 0, _, _, hn, _, _, _, _ => absurd hn (by omega)
  | n + 1, m, x, hn, hg, hC, c, hc => by
    rw [eval]
    by_cases hx0 : x.ty = .nil
    · unfold evalStep
      rw [hx0]
      exact SafeE.lift (fair_panic id)
    have hx := ne_nil hx0
    have hdl := left_depth x hx
    have hdr := right_depth x hx
    have sub : ∀ y : XNode, y.depth < x.depth → Small rank lv D y → (CallsBelow rank m y ∨ lv + 1 ≤ m) → ∀ c, Clean (Small rank lv D) c → Fine rank lv D (eval h n c y) :=
      fun y hy hgy hCy => eval_fine n m y (by omega) hgy hCy
    have inner : ∀ j < m, Inner rank lv D h n j := by
      intro j hj y hy hCy c hc
      have h1 : (j + 1) * (D + 1) ≤ m * (D + 1) := Nat.mul_le_mul_right _ hj
      rw [Nat.succ_mul] at h1
      have := hy.2
      exact eval_fine n j y (by omega) hy (Or.inl hCy) c hc
    have pos : 0 < n := by omega
    have unranked : x.ty = .forVarBind ∨ x.ty = .someVarBind ∨ x.ty = .everyVarBind → ∀ v, Named rank x.name v := by
      intro ht v j hj
      rw [(Everywhere.here hg.1 hx).2.2.2.1 ht] at hj
      cases hj
    have cl : CallsBelow rank m x.left ∨ lv + 1 ≤ m := hC.imp Everywhere.left id
    have cr : CallsBelow rank m x.right ∨ lv + 1 ≤ m := hC.imp Everywhere.right id
    have L := sub _ hdl hg.left cl
    have R := sub _ hdr hg.right cr
    have orE : Fine rank lv D (evalOrEmpty (eval h n) c x.left) := by
      unfold evalOrEmpty
      split
      · exact SafeE.pure Safety.clean_nil
      · exact L c hc
    have parts : ∀ z : XNode, z = x.left ∨ z = x.right → ∀ a ∈ z.chain, Small rank lv D a ∧ (CallsBelow rank m a ∨ lv + 1 ≤ m) ∧ a.depth < x.depth := by
      rintro z (rfl | rfl) a ha
      · exact ⟨hg.left.chain a ha, cl.imp (fun hh => Everywhere.chain hh a ha) id, by have := chain_depth a ha; omega⟩
      · exact ⟨hg.right.chain a ha, cr.imp (fun hh => Everywhere.chain hh a ha) id, by have := chain_depth a ha; omega⟩
    have partL : ∀ z : XNode, z = x.left ∨ z = x.right → ∀ a ∈ z.chain, ∀ c, Clean (Small rank lv D) c → Fine rank lv D (eval h n c a.left) := by
      intro z hz a ha
      obtain ⟨h1, h2, h3⟩ := parts z hz a ha
      exact sub _ (by have := left_le a; omega) h1.left (h2.imp Everywhere.left id)
    have loc : Fine rank lv D (locationPath h (eval h n) c x) := by
      refine SafeE.bind (p := Any) (fun env he => Safe.mono (SafeE.listE (p := Any) _ (fun i _ => ?_) env he) fun a ha => ⟨trivial, ha.2⟩) fun r _ => SafeE.pure (clean_nodes _)
      unfold locStep
      split
      · exact SafeE.lift fair_occur
      · exact fun env he => Safe.mono (SafeE.filterByPredicates _ _ (fun p hp _ => partL _ (Or.inr rfl) p hp) (clean_nodes _) env he)
          fun a ha => ⟨trivial, ha.2⟩
    unfold evalStep
    split
    · rename_i ht; exact absurd ht hx0
    · refine SafeE.bind orE fun l hl => ?_
      split
      · exact SafeE.pure hl
      · exact SafeE.pathOver h (fun i hi => R _ (clean_one.2 hi)) hl
    · refine SafeE.bind orE fun l hl => ?_
      split
      · exact SafeE.pure hl
      · exact SafeE.concatE _ hl fun i hi => R _ (clean_one.2 hi)
    iterate 13 exact loc
    · exact SafeE.pure hc
    · refine SafeE.bind (L c hc) fun v hv => SafeE.filterByPredicate (fun _ => ?_) _ hv
      exact sub _ (by have := left_le x.right; omega) hg.right.left (cr.imp Everywhere.left id)
    · -- a call of a function item, a map or an array
      rename_i ht
      refine SafeE.bind (p := fun v => Clean (Small rank lv D) v ∧ ∀ f, v = [.fn f] → Ready rank lv D h n f) ?_ fun v hv => ?_
      · rcases hC with hC | hB
        · exact SafeE.and (L c hc) fun env he v env' hv f hf => callee_ready inner hg.left (Everywhere.left hC)
            (fun z hz hgz hCz => sub z (by omega) hgz (Or.inl hCz)) ((Everywhere.here hC hx).1 ht) c env he v env' hv f hf
        · exact SafeE.and (L c hc) fun env he v env' hv f hf => by
            have h1 := L c hc env he
            rw [hv, hf] at h1
            exact ready_all (inner lv hB) (by simpa [Clean, CleanItem] using h1.1)
      refine SafeE.bind (SafeE.listE (p := Clean (Small rank lv D)) _ fun a ha => ?_) fun args hargs => ?_
      · have hga := hg.right.left.chain a ha
        refine sub _ ?_ hga.left (cr.imp (fun hh => Everywhere.left (Everywhere.chain (Everywhere.left hh) a ha)) id) c hc
        have h1 := left_le a
        have h2 := chain_depth a ha
        have h3 := left_le x.right
        omega
      · have first : Safe False (CleanItem (Small rank lv D)) (firstArg args) := by
          unfold firstArg
          split
          · exact fair_panic id
          · exact safe_item1 (hargs.1 _ (by simp))
        unfold applyTo
        split
        · rename_i f
          have hf : Small rank lv D f := by simpa [Clean, CleanItem] using hv.1
          split
          · rename_i hft
            exact SafeE.callInline h ((hv.2 f rfl).1 hft c hc) (named_params (k := 0) (tame := False) ⟨hf.1, nofun⟩ hft) hargs.1 nofun
          · exact SafeE.lift fair_occur
        · rename_i e
          refine SafeE.bind (SafeE.lift first) fun key _ => ?_
          split
          · rename_i w hw
            exact SafeE.pure (clean_mapGet (by simpa [Clean, CleanItem] using hv.1) hw)
          · exact SafeE.lift fair_dynamic
        · rename_i e
          refine SafeE.bind (SafeE.lift first) fun key _ => ?_
          split
          · rename_i w hw
            exact SafeE.pure (clean_arrayGet (by simpa [Clean, CleanItem] using hv.1) hw)
          · exact SafeE.lift fair_dynamic
        · exact SafeE.lift fair_occur
    · refine SafeE.bind (L c hc) fun l _ => SafeE.bind (SafeE.lift (safe_ebv l)) fun b _ => ?_
      split
      · exact SafeE.pure (clean_bool _)
      · exact SafeE.bind (R c hc) fun r _ => SafeE.bind (SafeE.lift (safe_ebv r)) fun b _ => SafeE.pure (clean_bool _)
    · refine SafeE.bind (L c hc) fun l _ => SafeE.bind (SafeE.lift (safe_ebv l)) fun b _ => ?_
      split
      · exact SafeE.bind (R c hc) fun r _ => SafeE.bind (SafeE.lift (safe_ebv r)) fun b _ => SafeE.pure (clean_bool _)
      · exact SafeE.pure (clean_bool _)
    · exact SafeE.bind (R c hc) fun r hr => SafeE.lift (safe_opUnary safe_numUPlus hr)
    · exact SafeE.bind (R c hc) fun r hr => SafeE.lift (safe_opUnary (safe_numUMinus id) hr)
    · refine SafeE.bind (L c hc) fun v _ => ?_
      split
      · exact SafeE.lift fair_occur
      · refine SafeE.bind (SafeE.lift (safe_ebv v)) fun b _ => ?_
        split
        · exact sub _ (by have := left_le x.right; omega) hg.right.left (cr.imp Everywhere.left id) c hc
        · exact sub _ (by have := right_le x.right; omega) hg.right.right (cr.imp Everywhere.right id) c hc
    iterate 4 exact R c hc
    · rename_i ht
      exact SafeE.bind (L c hc) fun l hl => SafeE.forLoop (unranked (Or.inl ht)) (R c hc) l hl
    · rename_i ht
      refine SafeE.bind (SafeE.and (q := Named rank x.name) (L c hc) fun env he v env' hv j hj f hf => ?_) fun l hl =>
        SafeE.bind (SafeE.set hl.1 hl.2) fun _ _ =>
        SafeE.bind (R c hc) fun r hr => SafeE.bind (SafeE.remove _) fun _ _ => SafeE.pure hr
      subst hf
      have hb := (Everywhere.here hg.1 hx).2.2.2.2 ht j hj
      obtain ⟨e, h1⟩ := written_value (hb.symm.imp And.left id) (evaluate_of hv)
      subst e
      rcases hb with h2 | h2
      · rcases h1 with h1 | h1 | h1 <;> rcases h2 with h2 | h2 | h2 <;> rw [h1] at h2 <;> cases h2
      · exact h2.2
    · rename_i ht
      exact SafeE.bind (L c hc) fun l hl => SafeE.quantLoop (unranked (Or.inr (Or.inl ht))) (R c hc) l hl
    · rename_i ht
      exact SafeE.bind (L c hc) fun l hl => SafeE.quantLoop (unranked (Or.inr (Or.inr ht))) (R c hc) l hl
    · exact SafeE.bind (L c hc) fun l hl => SafeE.bind (SafeE.lift (safe_sequenceType h l _)) fun b _ => SafeE.pure (clean_bool _)
    · exact SafeE.bind (L c hc) fun l hl => SafeE.pure (clean_bool _)
    · exact SafeE.bind (L c hc) fun l hl => SafeE.lift (safe_castAs h l _)
    · -- a call of a function of the library
      rename_i ht
      have safeArg : ∀ a ∈ x.right.chain, Fine rank lv D (callArg (eval h n) c a) := by
        intro a ha
        unfold callArg
        split
        · exact partL _ (Or.inr rfl) a ha c hc
        · exact SafeE.lift fair_occur
      rcases hC with hC | hB
      · refine SafeE.bind (SafeE.listAt (p := fun a v => Clean (Small rank lv D) v ∧ (Callee rank m a.left → ∀ f, v = [.fn f] → Ready rank lv D h n f)) _
          fun a ha => SafeE.and (safeArg a ha) fun env he v env' hv hcal f hf => ?_) fun args hargs => ?_
        · obtain ⟨h1, h2, h3⟩ := parts _ (Or.inr rfl) a ha
          have h2 : CallsBelow rank m a := Everywhere.chain (Everywhere.right hC) a ha
          by_cases hat : a.ty = .argumentTop
          · have hv : eval h n c a.left env = .ok (v, env') := by
              rw [← hv]
              unfold callArg
              rw [hat]
            have h4 := left_le a
            exact callee_ready inner h1.left (Everywhere.left h2) (fun z hz hgz hCz => sub z (by omega) hgz (Or.inl hCz)) hcal c env he v env' hv f hf
          · exfalso
            have h5 : callArg (eval h n) c a = liftE (.error .cantOccur) := by
              unfold callArg
              split
              · rename_i h5
                exact absurd h5 hat
              · rfl
            rw [h5] at hv
            cases hv
        · have hcl : ∀ a ∈ args, Clean (Small rank lv D) a := by
            intro a ha
            obtain ⟨b, -, hb⟩ := forall₂_mem_right hargs a ha
            exact hb.1
          refine SafeE.evaluateFunction h ?_ nofun hcl hc
          by_cases hn : x.name ∈ callers
          · have hcal := (Everywhere.here hC hx).2 ht hn
            refine Or.inr (Or.inr fun f i hf harg hi => call_fine hf ?_ hi hc pos)
            revert hargs hcal
            generalize x.right.chain = ch
            intro hargs hcal
            cases hargs with
            | nil => cases harg
            | cons h1 h2 =>
              cases h2 with
              | nil => cases harg
              | cons h2 h3 => exact h2.2 hcal f harg
          · exact Or.inl hn
      · refine SafeE.bind (SafeE.listE (p := Clean (Small rank lv D)) _ safeArg) fun args hargs => ?_
        exact SafeE.evaluateFunction h (Or.inr (Or.inr fun f i hf _ hi => call_fine hf (ready_all (inner lv hB) hf) hi hc pos)) nofun hargs.1 hc
    · exact SafeE.pure (clean_str _)
    · exact SafeE.pure (clean_int _)
    · exact SafeE.pure (clean_dec _)
    · exact SafeE.pure (clean_dbl _)
    iterate 3 exact SafeE.pure (clean_one.2 (by simpa [CleanItem] using hg))
    · refine SafeE.bind (SafeE.listE (p := fun e : XItem × XSeq => CleanItem (Small rank lv D) e.1 ∧ Clean (Small rank lv D) e.2) _ fun w hw => ?_) fun e he =>
        SafeE.pure (clean_one.2 (by rw [CleanItem, entries_iff]; exact he.1))
      obtain ⟨h1, h2, h3⟩ := parts _ (Or.inl rfl) w hw
      have hd := left_le w
      unfold mapEntryE
      split
      · exact SafeE.lift fair_occur
      · split
        · exact SafeE.lift fair_occur
        · refine SafeE.bind (sub _ (by have := left_le w.left; omega) h1.left.left (h2.imp (fun hh => Everywhere.left (Everywhere.left hh)) id) c hc) fun key hkey =>
            SafeE.bind (SafeE.lift (safe_item1 hkey)) fun key hkey => ?_
          exact SafeE.bind (sub _ (by have := right_le w.left; omega) h1.left.right (h2.imp (fun hh => Everywhere.right (Everywhere.left hh)) id) c hc) fun v hv =>
            SafeE.pure ⟨hkey, hv⟩
    · refine SafeE.bind (SafeE.listE (p := Clean (Small rank lv D)) _ fun m hm => ?_) fun e he => SafeE.pure (clean_one.2 (by rw [CleanItem, members_iff]; exact he.1))
      unfold arrayEntryE
      split
      · exact SafeE.lift fair_occur
      · exact partL _ (Or.inl rfl) m hm c hc
    · refine SafeE.bind (L c hc) fun v hv => SafeE.pure (clean_one.2 ?_)
      rw [CleanItem, members_iff]
      intro s hs
      obtain ⟨i, hi, rfl⟩ := List.mem_map.1 hs
      exact clean_one.2 ((clean_iff v).1 hv i hi)
    · refine SafeE.lift ?_
      unfold lookupWildcard
      split
      · rename_i e
        have he : CleanEntries (Small rank lv D) e := by simpa [Clean, CleanItem] using hc
        generalize e.map (·.1) = keys
        induction keys with
        | nil => exact Safety.clean_nil (P := Small rank lv D)
        | cons key keys ih =>
          rw [lookupAll]
          split
          · exact fair_panic id
          · rename_i v hv
            exact Safe.map ih fun r hr => Safety.clean_append (clean_mapGet he hv) hr
      · rename_i a
        have ha : CleanMembers (Small rank lv D) a := by simpa [Clean, CleanItem] using hc
        show Clean (Small rank lv D) _
        rw [clean_iff]
        intro i hi
        obtain ⟨m, hm, hi⟩ := List.mem_flatten.1 hi
        exact (clean_iff m).1 ((members_iff a).1 ha m hm) i hi
      · exact fair_type
    · refine SafeE.bind (L c hc) fun keys _ => SafeE.lift ?_
      unfold lookupKeys
      split
      · rename_i e
        have he : CleanEntries (Small rank lv D) e := by simpa [Clean, CleanItem] using hc
        show Clean (Small rank lv D) _
        rw [clean_iff]
        intro i hi
        obtain ⟨m, hm, hi⟩ := List.mem_flatMap.1 hi
        exact (clean_iff _).1 (clean_getD fun v hv => clean_mapGet he hv) i hi
      · rename_i a
        have ha : CleanMembers (Small rank lv D) a := by simpa [Clean, CleanItem] using hc
        show Clean (Small rank lv D) _
        rw [clean_iff]
        intro i hi
        obtain ⟨m, hm, hi⟩ := List.mem_flatMap.1 hi
        exact (clean_iff _).1 (clean_getD fun v hv => clean_arrayGet ha hv) i hi
      · exact fair_type
    · intro env he
      refine ⟨clean_getD fun v hv => ?_, he⟩
      unfold Env.getVar at hv
      cases e : env.vars.find? fun b => b.1 == x.name with
      | none => rw [e] at hv; cases hv
      | some b => rw [e] at hv; cases hv; exact (he b (List.mem_of_find?_eq_some e)).1
    · exact orE
    · split
      · rename_i f hf
        exact SafeE.bind (L c hc) fun l hl => SafeE.bind (R c hc) fun r hr => SafeE.lift (safe_binaryOp h hf nofun hl hr)
      · exact SafeE.lift fair_occur

end
end XRanked

/-- **C116**, functions that call functions: let the query respect ranks up to `k` (every function calls only what is written at the place of the call, and functions of lower
rank by their names). Then evaluating it recurses no deeper than `k + 2` times five calls for each character of the query, and one, on every document; if what is called
outside of functions has a rank below `m`, `m + 1` times. -/
theorem C116_ranked (q : Str) (x : XNode) (h0 : '\x00' ∉ q) (hq : Parser.compileXPath q = .ok x) (rank : Str → Option Nat) (k : Nat) (hf : Ranked rank k x) (h : Heap) (start : NodeId) :
    ∃ r, r ≠ .error .outOfFuel ∧ (∀ n, (k + 2) * (5 * q.length + 1) ≤ n → evalXPath h n start q = r) ∧
      (∀ m, CallsBelow rank m x → ∀ n, (m + 1) * (5 * q.length + 1) ≤ n → evalXPath h n start q = r) := by
  obtain ⟨n0, r, hr, hn⟩ := C80_ends_partial hq hf h start
  have hd : x.depth ≤ 5 * q.length := Nat.le_trans (XDepth.depth_count x) (C115_no_larger q x h0 hq)
  have key : ∀ m n, (CallsBelow rank m x ∨ k + 1 ≤ m) → (m + 1) * (5 * q.length + 1) ≤ n → evalXPath h n start q = r := by
    intro m n hC hlt
    have h1 : m * (x.depth + 1) ≤ m * (5 * q.length + 1) := Nat.mul_le_mul_left _ (by omega)
    rw [Nat.succ_mul] at hlt
    have hs := XRanked.eval_fine (D := x.depth) (h := h) n m x (by omega) ⟨hf, Nat.le_refl _⟩ hC [.node start] (by simp [Safety.Clean, Safety.CleanItem]) Env.new
      (by intro b hb; cases hb)
    have hm := eval_mono h (Nat.le_max_left n n0) [.node start] x Env.new (by
      intro e
      rw [e] at hs
      exact hs.1 rfl)
    rw [← hn (max n n0) (Nat.le_max_right _ _)]
    unfold evalXPath
    rw [hq]
    simp only [matchXPath, hm]
  exact ⟨r, hr, fun n hlt => key (k + 1) n (Or.inr (Nat.le_refl _)) hlt, fun m hC n hlt => key m n (Or.inl hC) hlt⟩

/-- Ranks for a list of names: the place in the list. -/
private def inOrder (names : List Str) (n : Str) : Option Nat := names.findIdx? (· == n)

private theorem of_check {p : XNode → Prop} [DecidablePred p] {q : Str}
    (hc : (match Parser.compileXPath q with | .ok x => decide (p x) | .error _ => false) = true) : ∃ x, Parser.compileXPath q = .ok x ∧ p x := by
  split at hc
  · rename_i x hx
    exact ⟨x, hx, of_decide_eq_true hc⟩
  · cases hc

/-- A query that meets the hypotheses, with ranks up to 2. -/
example : ∃ x, Parser.compileXPath (S "let $f := function($x) { $x + 1 }, $g := function($a) { $f($f($a)) } return for-each(//b, function($e) { $g(count($e/c)) })") = .ok x ∧
    Ranked (inOrder [S "f", S "g"]) 2 x ∧ CallsBelow (inOrder [S "f", S "g"]) 2 x :=
  of_check (by decide +kernel)

end Amxml
