import Verif.Props.XSafety
import Verif.Props.XSizes

/-!
# C116: how deep evaluation recurses

The evaluation with a bounded depth of recursion (`eval h n`) is shown not to reach the bound, by induction over the tree: function items that the query makes
have bodies that call no functions, and no deeper than the query.
-/

namespace Amxml
open Spec

namespace XDepth
open Safety

/-- The function items that are met: made by a query of depth `D` none of whose functions calls functions. -/
def Small (D : Nat) (f : XNode) : Prop := FirstOrder f ∧ f.depth ≤ D

/-- Nothing is asked of variables. -/
def Free : Str → XSeq → Prop := fun _ _ => True

theorem Small.left {D : Nat} {x : XNode} (h : Small D x) : Small D x.left := ⟨Everywhere.left h.1, Nat.le_trans (left_le x) h.2⟩
theorem Small.right {D : Nat} {x : XNode} (h : Small D x) : Small D x.right := ⟨Everywhere.right h.1, Nat.le_trans (right_le x) h.2⟩
theorem Small.chain {D : Nat} {x : XNode} (h : Small D x) (a : XNode) (ha : a ∈ x.chain) : Small D a :=
  ⟨Everywhere.chain h.1 a ha, Nat.le_trans (chain_depth a ha) h.2⟩

section
variable {D : Nat} {h : Heap}

/-- The evaluation neither reaches the bound nor makes other function items. -/
abbrev Fine (D : Nat) (m : E XSeq) : Prop := SafeE False (Small D) Free (Clean (Small D)) m

/-- A function item can be called with one argument. -/
theorem call_fine {n : Nat} (ih : ∀ y : XNode, Small D y → y.depth < D → CallFree y → ∀ c, Clean (Small D) c → Fine D (eval h n c y))
    {f : XNode} (hf : Small D f) {x : XItem} (hx : CleanItem (Small D) x) {c : XSeq} (hc : Clean (Small D) c) (hn : 0 < n) :
    Fine D (callFunctionF h (eval h n) n f [[x]] c) := by
  have ha : ∀ a ∈ [[x]], Clean (Small D) a := by simpa using clean_one.2 hx
  obtain ⟨m, rfl⟩ : ∃ m, n = m + 1 := ⟨n - 1, by omega⟩
  rw [callFunctionF]
  unfold callStep
  split
  · rename_i ht
    have h0 := ne_nil (x := f) (by rw [ht]; decide)
    exact SafeE.callInline h (ih _ hf.left (by have := left_depth f h0; have := hf.2; omega) ((Everywhere.here hf.1 h0).1 (Or.inl ht)).1 c hc)
      (fun _ _ _ _ => trivial) ha nofun
  · split
    · split
      · exact SafeE.evaluateFunction h (Or.inr (Or.inl (by simp))) nofun ha hc
      · exact SafeE.lift fair_type
    · exact SafeE.lift (fair_panic id)
  · rename_i ht
    have h0 := ne_nil (x := f) (by rw [ht]; decide)
    have hff := Everywhere.here hf.1 h0
    refine SafeE.bind (SafeE.partialArgs _ _ (fun a hm hat => ih _ (hf.right.chain a hm).left ?_ (Everywhere.left (Everywhere.chain (hff.1 (Or.inr ht)).2 a hm)) c hc) ha) fun as has =>
      SafeE.evaluateFunction h (Or.inl (hff.2 ht)) nofun has hc
    have h1 := left_le a
    have h2 := chain_depth a hm
    have h3 := right_depth f h0
    have := hf.2
    omega
  · exact SafeE.lift fair_occur

theorem eval_fine : ∀ (n K : Nat) (x : XNode), x.depth + K < n → Small D x → CallFree x ∨ D + 1 ≤ K → ∀ c, Clean (Small D) c → Fine D (eval h n c x)
  | 0, _, _, hn, _, _, _, _ => absurd hn (by omega)
  | n + 1, K, x, hn, hg, hC, c, hc => by
    rw [eval]
    by_cases hx0 : x.ty = .nil
    · unfold evalStep
      rw [hx0]
      exact SafeE.lift (fair_panic id)
    have hx := ne_nil hx0
    have hdl := left_depth x hx
    have hdr := right_depth x hx
    have sub : ∀ y : XNode, y.depth < x.depth → Small D y → (CallFree y ∨ D + 1 ≤ K) → ∀ c, Clean (Small D) c → Fine D (eval h n c y) :=
      fun y hy hgy hCy => eval_fine n K y (by omega) hgy hCy
    have inner : D + 1 ≤ K → ∀ y : XNode, Small D y → y.depth < D → CallFree y → ∀ c, Clean (Small D) c → Fine D (eval h n c y) :=
      fun hK y hgy hy hCy => eval_fine n 0 y (by omega) hgy (Or.inl hCy)
    have cl : CallFree x.left ∨ D + 1 ≤ K := hC.imp Everywhere.left id
    have cr : CallFree x.right ∨ D + 1 ≤ K := hC.imp Everywhere.right id
    have L := sub _ hdl hg.left cl
    have R := sub _ hdr hg.right cr
    have orE : Fine D (evalOrEmpty (eval h n) c x.left) := by
      unfold evalOrEmpty
      split
      · exact SafeE.pure Safety.clean_nil
      · exact L c hc
    have parts : ∀ z : XNode, z = x.left ∨ z = x.right → ∀ a ∈ z.chain, Small D a ∧ (CallFree a ∨ D + 1 ≤ K) ∧ a.depth < x.depth := by
      rintro z (rfl | rfl) a ha
      · exact ⟨hg.left.chain a ha, cl.imp (fun hh => Everywhere.chain hh a ha) id, by have := chain_depth a ha; omega⟩
      · exact ⟨hg.right.chain a ha, cr.imp (fun hh => Everywhere.chain hh a ha) id, by have := chain_depth a ha; omega⟩
    have partL : ∀ z : XNode, z = x.left ∨ z = x.right → ∀ a ∈ z.chain, ∀ c, Clean (Small D) c → Fine D (eval h n c a.left) := by
      intro z hz a ha
      obtain ⟨h1, h2, h3⟩ := parts z hz a ha
      exact sub _ (by have := left_le a; omega) h1.left (h2.imp Everywhere.left id)
    have loc : Fine D (locationPath h (eval h n) c x) := by
      refine SafeE.bind (p := Any) (fun env he => Safe.mono (SafeE.listE (p := Any) _ (fun i _ => ?_) env he) fun a ha => ⟨trivial, ha.2⟩) fun r _ => SafeE.pure (clean_nodes _)
      unfold locStep
      split
      · exact SafeE.lift fair_occur
      · exact fun env he => Safe.mono (SafeE.filterByPredicates _ _ (fun p hp _ => partL _ (Or.inr rfl) p hp) (clean_nodes _) env he)
          fun a ha => ⟨trivial, ha.2⟩
    unfold evalStep
    split
    · rename_i ht; exact absurd ht hx0
    · refine SafeE.bind orE fun l hl => ?_
      split
      · exact SafeE.pure hl
      · exact SafeE.pathOver h (fun i hi => R _ (clean_one.2 hi)) hl
    · refine SafeE.bind orE fun l hl => ?_
      split
      · exact SafeE.pure hl
      · exact SafeE.concatE _ hl fun i hi => R _ (clean_one.2 hi)
    iterate 13 exact loc
    · exact SafeE.pure hc
    · refine SafeE.bind (L c hc) fun v hv => SafeE.filterByPredicate (fun _ => ?_) _ hv
      exact sub _ (by have := left_le x.right; omega) hg.right.left (cr.imp Everywhere.left id)
    · -- a call of a function item, a map or an array
      rename_i ht
      have hK : D + 1 ≤ K := hC.resolve_left fun hC => (Everywhere.here hC hx).1 ht
      refine SafeE.bind (L c hc) fun v hv => SafeE.bind (SafeE.listE (p := Clean (Small D)) _ fun a ha => ?_) fun args hargs => ?_
      · have hga := hg.right.left.chain a ha
        refine sub _ ?_ hga.left (Or.inr hK) c hc
        have h1 := left_le a
        have h2 := chain_depth a ha
        have h3 := left_le x.right
        omega
      · have first : Safe False (CleanItem (Small D)) (firstArg args) := by
          unfold firstArg
          split
          · exact fair_panic id
          · exact safe_item1 (hargs.1 _ (by simp))
        unfold applyTo
        split
        · rename_i f
          have hf : Small D f := by simpa [Clean, CleanItem] using hv
          split
          · rename_i hft
            have h0 := ne_nil (x := f) (by rw [hft]; decide)
            exact SafeE.callInline h (inner hK _ hf.left (by have := left_depth f h0; have := hf.2; omega) ((Everywhere.here hf.1 h0).1 (Or.inl hft)).1 c hc)
              (fun _ _ _ _ => trivial) hargs.1 nofun
          · exact SafeE.lift fair_occur
        · rename_i e
          refine SafeE.bind (SafeE.lift first) fun key _ => ?_
          split
          · rename_i w hw
            exact SafeE.pure (clean_mapGet (by simpa [Clean, CleanItem] using hv) hw)
          · exact SafeE.lift fair_dynamic
        · rename_i e
          refine SafeE.bind (SafeE.lift first) fun key _ => ?_
          split
          · rename_i w hw
            exact SafeE.pure (clean_arrayGet (by simpa [Clean, CleanItem] using hv) hw)
          · exact SafeE.lift fair_dynamic
        · exact SafeE.lift fair_occur
    · refine SafeE.bind (L c hc) fun l _ => SafeE.bind (SafeE.lift (safe_ebv l)) fun b _ => ?_
      split
      · exact SafeE.pure (clean_bool _)
      · exact SafeE.bind (R c hc) fun r _ => SafeE.bind (SafeE.lift (safe_ebv r)) fun b _ => SafeE.pure (clean_bool _)
    · refine SafeE.bind (L c hc) fun l _ => SafeE.bind (SafeE.lift (safe_ebv l)) fun b _ => ?_
      split
      · exact SafeE.bind (R c hc) fun r _ => SafeE.bind (SafeE.lift (safe_ebv r)) fun b _ => SafeE.pure (clean_bool _)
      · exact SafeE.pure (clean_bool _)
    · exact SafeE.bind (R c hc) fun r hr => SafeE.lift (safe_opUnary safe_numUPlus hr)
    · exact SafeE.bind (R c hc) fun r hr => SafeE.lift (safe_opUnary (safe_numUMinus id) hr)
    · refine SafeE.bind (L c hc) fun v _ => ?_
      split
      · exact SafeE.lift fair_occur
      · refine SafeE.bind (SafeE.lift (safe_ebv v)) fun b _ => ?_
        split
        · exact sub _ (by have := left_le x.right; omega) hg.right.left (cr.imp Everywhere.left id) c hc
        · exact sub _ (by have := right_le x.right; omega) hg.right.right (cr.imp Everywhere.right id) c hc
    iterate 4 exact R c hc
    · exact SafeE.bind (L c hc) fun l hl => SafeE.forLoop (fun _ => trivial) (R c hc) l hl
    · exact SafeE.bind (L c hc) fun l hl => SafeE.bind (SafeE.set hl trivial) fun _ _ => SafeE.bind (R c hc) fun r hr =>
        SafeE.bind (SafeE.remove _) fun _ _ => SafeE.pure hr
    iterate 2 exact SafeE.bind (L c hc) fun l hl => SafeE.quantLoop (fun _ => trivial) (R c hc) l hl
    · exact SafeE.bind (L c hc) fun l hl => SafeE.bind (SafeE.lift (safe_sequenceType h l _)) fun b _ => SafeE.pure (clean_bool _)
    · exact SafeE.bind (L c hc) fun l hl => SafeE.pure (clean_bool _)
    · exact SafeE.bind (L c hc) fun l hl => SafeE.lift (safe_castAs h l _)
    · -- a call of a function of the library
      rename_i ht
      refine SafeE.bind (SafeE.listE (p := Clean (Small D)) _ fun a ha => ?_) fun args hargs => SafeE.evaluateFunction h ?_ nofun hargs.1 hc
      · unfold callArg
        split
        · exact partL _ (Or.inr rfl) a ha c hc
        · exact SafeE.lift fair_occur
      · rcases hC with hC | hK
        · exact Or.inl ((Everywhere.here hC hx).2 ht)
        · exact Or.inr (Or.inr fun f i hf _ hi => call_fine (inner hK) hf hi hc (by omega))
    · exact SafeE.pure (clean_str _)
    · exact SafeE.pure (clean_int _)
    · exact SafeE.pure (clean_dec _)
    · exact SafeE.pure (clean_dbl _)
    iterate 3 exact SafeE.pure (clean_one.2 (by simpa [CleanItem] using hg))
    · refine SafeE.bind (SafeE.listE (p := fun e : XItem × XSeq => CleanItem (Small D) e.1 ∧ Clean (Small D) e.2) _ fun m hm => ?_) fun e he =>
        SafeE.pure (clean_one.2 (by rw [CleanItem, entries_iff]; exact he.1))
      obtain ⟨h1, h2, h3⟩ := parts _ (Or.inl rfl) m hm
      have hd := left_le m
      unfold mapEntryE
      split
      · exact SafeE.lift fair_occur
      · split
        · exact SafeE.lift fair_occur
        · refine SafeE.bind (sub _ (by have := left_le m.left; omega) h1.left.left (h2.imp (fun hh => Everywhere.left (Everywhere.left hh)) id) c hc) fun key hkey =>
            SafeE.bind (SafeE.lift (safe_item1 hkey)) fun key hkey => ?_
          exact SafeE.bind (sub _ (by have := right_le m.left; omega) h1.left.right (h2.imp (fun hh => Everywhere.right (Everywhere.left hh)) id) c hc) fun v hv =>
            SafeE.pure ⟨hkey, hv⟩
    · refine SafeE.bind (SafeE.listE (p := Clean (Small D)) _ fun m hm => ?_) fun e he => SafeE.pure (clean_one.2 (by rw [CleanItem, members_iff]; exact he.1))
      unfold arrayEntryE
      split
      · exact SafeE.lift fair_occur
      · exact partL _ (Or.inl rfl) m hm c hc
    · refine SafeE.bind (L c hc) fun v hv => SafeE.pure (clean_one.2 ?_)
      rw [CleanItem, members_iff]
      intro s hs
      obtain ⟨i, hi, rfl⟩ := List.mem_map.1 hs
      exact clean_one.2 ((clean_iff v).1 hv i hi)
    · refine SafeE.lift ?_
      unfold lookupWildcard
      split
      · rename_i e
        have he : CleanEntries (Small D) e := by simpa [Clean, CleanItem] using hc
        generalize e.map (·.1) = keys
        induction keys with
        | nil => exact Safety.clean_nil (P := Small D)
        | cons key keys ih =>
          rw [lookupAll]
          split
          · exact fair_panic id
          · rename_i v hv
            exact Safe.map ih fun r hr => Safety.clean_append (clean_mapGet he hv) hr
      · rename_i a
        have ha : CleanMembers (Small D) a := by simpa [Clean, CleanItem] using hc
        show Clean (Small D) _
        rw [clean_iff]
        intro i hi
        obtain ⟨m, hm, hi⟩ := List.mem_flatten.1 hi
        exact (clean_iff m).1 ((members_iff a).1 ha m hm) i hi
      · exact fair_type
    · refine SafeE.bind (L c hc) fun keys _ => SafeE.lift ?_
      unfold lookupKeys
      split
      · rename_i e
        have he : CleanEntries (Small D) e := by simpa [Clean, CleanItem] using hc
        show Clean (Small D) _
        rw [clean_iff]
        intro i hi
        obtain ⟨m, hm, hi⟩ := List.mem_flatMap.1 hi
        exact (clean_iff _).1 (clean_getD fun v hv => clean_mapGet he hv) i hi
      · rename_i a
        have ha : CleanMembers (Small D) a := by simpa [Clean, CleanItem] using hc
        show Clean (Small D) _
        rw [clean_iff]
        intro i hi
        obtain ⟨m, hm, hi⟩ := List.mem_flatMap.1 hi
        exact (clean_iff _).1 (clean_getD fun v hv => clean_arrayGet ha hv) i hi
      · exact fair_type
    · intro env he
      refine ⟨clean_getD fun v hv => ?_, he⟩
      unfold Env.getVar at hv
      cases e : env.vars.find? fun b => b.1 == x.name with
      | none => rw [e] at hv; cases hv
      | some b => rw [e] at hv; cases hv; exact (he b (List.mem_of_find?_eq_some e)).1
    · exact orE
    · split
      · rename_i f hf
        exact SafeE.bind (L c hc) fun l hl => SafeE.bind (R c hc) fun r hr => SafeE.lift (safe_binaryOp h hf nofun hl hr)
      · exact SafeE.lift fair_occur

end

theorem depth_count : ∀ x : XNode, x.depth ≤ nodeCount x
  | .nil => Nat.le_refl _
  | .node t n l r => by
    have := depth_count l
    have := depth_count r
    simp only [XNode.depth, nodeCount]
    omega

end XDepth

/-- **C116**: let the functions that a query makes not call function items. Evaluating it recurses no deeper than ten times the number of characters of the query,
five times if the query itself calls none, on every document: with that depth of recursion, or any greater one, the result is the same, and it is a value, an error or
a panic. -/
theorem C116_depth (q : Str) (x : XNode) (h0 : '\x00' ∉ q) (hq : Parser.compileXPath q = .ok x) (hf : FirstOrder x) (h : Heap) (start : NodeId) :
    ∃ r, r ≠ .error .outOfFuel ∧ (∀ n, 10 * q.length + 1 < n → evalXPath h n start q = r) ∧
      (CallFree x → ∀ n, 5 * q.length < n → evalXPath h n start q = r) := by
  obtain ⟨n0, r, hr, hn⟩ := C80_ends_partial hq hf.ranked h start
  have hd : x.depth ≤ 5 * q.length := Nat.le_trans (XDepth.depth_count x) (C115_no_larger q x h0 hq)
  have key : ∀ K n, (CallFree x ∨ x.depth + 1 ≤ K) → x.depth + K < n → evalXPath h n start q = r := by
    intro K n hC hlt
    have hs := XDepth.eval_fine (D := x.depth) (h := h) n K x hlt ⟨hf, Nat.le_refl _⟩ hC [.node start] (by simp [Safety.Clean, Safety.CleanItem]) Env.new
      (by intro b hb; cases hb)
    have hm := eval_mono h (Nat.le_max_left n n0) [.node start] x Env.new (by
      intro e
      rw [e] at hs
      exact hs.1 rfl)
    rw [← hn (max n n0) (Nat.le_max_right _ _)]
    unfold evalXPath
    rw [hq]
    simp only [matchXPath, hm]
  exact ⟨r, hr, fun n hlt => key (x.depth + 1) n (Or.inr (Nat.le_refl _)) (by omega), fun hC n hlt => key 0 n (Or.inl hC) (by omega)⟩

private theorem of_check {p : XNode → Prop} [DecidablePred p] {q : Str}
    (hc : (match Parser.compileXPath q with | .ok x => decide (p x) | .error _ => false) = true) : ∃ x, Parser.compileXPath q = .ok x ∧ p x := by
  split at hc
  · rename_i x hx
    exact ⟨x, hx, of_decide_eq_true hc⟩
  · cases hc

/-- Queries that meet the hypotheses. -/
example : ∃ x, Parser.compileXPath (S "for $i in //a[count(b) > 2] return ($i/b[last()], some $j in $i/c satisfies $j = 'x')") = .ok x ∧ CallFree x ∧ FirstOrder x :=
  of_check (by decide +kernel)

example : ∃ x, Parser.compileXPath (S "let $f := function($x) { $x + 1 } return for-each((1, 2), $f) ! $f(.)") = .ok x ∧ ¬ CallFree x ∧ FirstOrder x :=
  of_check (by decide +kernel)

end Amxml
