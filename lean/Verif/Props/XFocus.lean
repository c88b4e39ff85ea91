import Verif.Lemmas.Focus
import Verif.Lemmas.Decide
import Verif.Props.XPath
import Verif.Props.XFunc
import Verif.Props.XOper

/-!
# Concatenation, `!`, the comparison of strings, and the focus

C75 (the comma, parentheses, `||`, `!`), C79 (`fn:compare`, `fn:codepoint-equal`), C81 (`position()` and `last()`).
-/

namespace Amxml
open Spec

/-! ## C75: the comma, parentheses, `||` and `!` -/

theorem isNil_of_value {h : Heap} {c : XSeq} {x : XNode} {env : Env} {v : XSeq} (hx : Value h c x env v) : x.isNil = false := by
  cases hn : x.isNil with
  | false => rfl
  | true =>
    exfalso
    have ht : x.ty = .nil := by simpa [XNode.isNil] using hn
    unfold Value at hx
    rw [evaluate_eq] at hx
    unfold evalStep at hx
    rw [ht] at hx
    cases hx

/-- **C75**: `A, B` is the items of `A` followed by those of `B`; a sequence in parentheses is the sequence; `()` is empty. -/
theorem C75_concatenation (h : Heap) (A B : XSeq) :
    OpGives h .operatorConcatenate A B (A ++ B) ∧
    (∀ c env n x r, Value h c x env A → Value h c (.node .parenthesizedExpr n x r) env A) ∧
    (∀ c env n r, Value h c (.node .parenthesizedExpr n .nil r) env []) := by
  refine ⟨(opGives_iff (f := opConcatenate) rfl).2 rfl, ?_, ?_⟩
  · intro c env n x r hx
    unfold Value
    rw [evaluate_eq]
    show evalOrEmpty (evaluate h) c x env = _
    rw [evalOrEmpty_of (isNil_of_value hx)]
    exact hx
  · intro c env n r
    unfold Value
    rw [evaluate_eq]; rfl

/-- Hence the comma is associative and `()` is its neutral element, whatever the operands are: nested parentheses do not nest sequences. -/
theorem C75_flat (h : Heap) (A B C : XSeq) :
    (∀ v w, OpGives h .operatorConcatenate A B v → OpGives h .operatorConcatenate v C w →
      ∃ u, OpGives h .operatorConcatenate B C u ∧ OpGives h .operatorConcatenate A u w) ∧
    OpGives h .operatorConcatenate A [] A ∧ OpGives h .operatorConcatenate [] A A := by
  have tr : ∀ {A B v : XSeq}, OpGives h .operatorConcatenate A B v ↔ A ++ B = v := by
    intro A B v
    rw [opGives_iff (f := opConcatenate) rfl]
    exact ⟨fun e => by cases e; rfl, fun e => by subst e; rfl⟩
  refine ⟨?_, tr.2 (by simp), tr.2 (by simp)⟩
  intro v w hv hw
  rw [tr] at hv hw
  exact ⟨B ++ C, tr.2 rfl, tr.2 (by subst hv hw; simp)⟩

/-- **C75**: `A || B` is the text of `A` followed by the text of `B`; an operand of several items is a type error. -/
theorem C75_concat (h : Heap) (A B : XSeq) :
    (∀ s t, TextOf h A s → TextOf h B t → OpGives h .operatorConcat A B [.string (s ++ t)]) ∧
    (2 ≤ A.length → OpFails h .operatorConcat A B .typeError) ∧
    (∀ s, TextOf h A s → 2 ≤ B.length → OpFails h .operatorConcat A B .typeError) := by
  have two : ∀ A : XSeq, 2 ≤ A.length → concatPiece h A = .error .typeError := by
    intro A hA
    match A, hA with
    | x :: y :: r, _ => rfl
  refine ⟨?_, ?_, ?_⟩
  · intro s t hs ht
    rw [textOf_iff] at hs ht
    refine (opGives_iff (f := fun a b => fnConcat h [a, b]) rfl).2 ?_
    show ([A, B].mapM (concatPiece h)).map _ = _
    rw [mapM_ok (r := [s, t]) (.cons hs (.cons ht .nil))]
    simp [Except.map]
  · intro hA
    refine (opFails_iff (f := fun a b => fnConcat h [a, b]) rfl).2 ⟨?_, by simp⟩
    show ([A, B].mapM (concatPiece h)).map _ = _
    rw [List.mapM_cons, two A hA]; rfl
  · intro s hs hB
    rw [textOf_iff] at hs
    refine (opFails_iff (f := fun a b => fnConcat h [a, b]) rfl).2 ⟨?_, by simp⟩
    show ([A, B].mapM (concatPiece h)).map _ = _
    rw [List.mapM_cons, hs]
    show ((do let b ← [B].mapM (concatPiece h); pure (s :: b) : Except XErr (List Str))).map _ = _
    rw [List.mapM_cons, two B hB]; rfl

theorem concatE_value {f : XItem → E XSeq} {env : Env} {w : XItem → XSeq} : ∀ s : XSeq, (∀ x ∈ s, f x env = .ok (w x, env)) →
    concatE f s env = .ok (s.flatMap w, env) := by
  intro s
  induction s with
  | nil => intro _; rfl
  | cons x s ih =>
    intro hs
    rw [concatE, E.bind_run, hs x (by simp)]
    simp only
    rw [E.bind_run, ih fun y hy => hs y (by simp [hy])]
    rfl

/-- **C75**: `A ! B` is `B` for each item of `A` as context, in order, concatenated; unlike a path it neither sorts nor removes duplicates,
and its operands may be any items. -/
theorem C75_map (h : Heap) (c : XSeq) (env : Env) (n : Str) (a b : XNode) (hb : b.isNil = false) (A : XSeq) (w : XItem → XSeq)
    (ha : Value h c a env A) (hw : ∀ x ∈ A, Value h [x] b env (w x)) :
    Value h c (.node .operatorMap n a b) env (A.flatMap w) := by
  have hv : a.isNil = false := isNil_of_value ha
  unfold Value at *
  rw [evaluate_eq]
  show (do let l ← evalOrEmpty (evaluate h) c a
           if b.isNil then pure l else concatE (fun i => evaluate h [i] b) l : E XSeq) env = _
  rw [hb]
  unfold evalOrEmpty
  rw [hv, E.bind_run]
  simp only [Bool.false_eq_true, if_false]
  rw [ha]
  exact concatE_value A fun x hx => hw x hx

/-! ## C79: the comparison of strings -/

/-- **C79**: `fn:compare` is -1, 0 or 1 as the first string is before, equal to or after the second in the order of the code points;
`fn:codepoint-equal` is true exactly for equal strings. -/
theorem C79_compare (h : Heap) (s t : Str) :
    (∃ n : Int, CallGives h (S "fn:compare") [[.string s], [.string t]] [.integer n] ∧
      (n = -1 ↔ StrBefore s t) ∧ (n = 0 ↔ s = t) ∧ (n = 1 ↔ StrBefore t s) ∧ (n = -1 ∨ n = 0 ∨ n = 1)) ∧
    CallGives h (S "fn:codepoint-equal") [[.string s], [.string t]] [.boolean (decide (s = t))] := by
  refine ⟨⟨if strLt s t then -1 else if s = t then 0 else 1, calls_of 2 _ (hg := rfl), ?_, strOrd_eq s t, ?_, ?_⟩, ?_⟩
  · rw [← strLt_iff]
    split
    · simp [*]
    · split <;> simp_all
  · rw [← strLt_iff]
    have tri : strLt s t = true → strLt t s = true → False := by
      intro h1 h2
      rw [strLt_iff] at h1 h2
      exact strBefore_asymm s t h1 h2
    split
    · rename_i hst
      constructor
      · intro hh; exact absurd hh (by decide)
      · intro hh; exact (tri hst hh).elim
    · rename_i hst
      split
      · rename_i he
        subst he
        constructor
        · intro hh; exact absurd hh (by decide)
        · intro hh; exact absurd hh hst
      · rename_i hne
        simp only [true_iff]
        rw [strLt_iff] at hst ⊢
        rcases strBefore_total s t with h1 | h1 | h1
        · exact absurd h1 hst
        · exact absurd h1 hne
        · exact h1
  · split
    · simp
    · split <;> simp
  · refine calls_of 2 _ (hg := ?_)
    show fnCodepointEqual [.string s] [.string t] = _
    unfold fnCodepointEqual
    simp only [List.isEmpty_cons, Bool.false_eq_true, or_self, if_false, XSeq.string1, Except.bind, Except.map]
    have inj : (s.map codepointOf == t.map codepointOf) = decide (s = t) := by
      rw [Bool.eq_iff_iff, beq_iff_eq, decide_eq_true_iff]
      constructor
      · intro he
        exact List.map_injective_iff.2 (fun a b hab => by
          rw [codepointOf_eq, codepointOf_eq] at hab
          exact Char.ext (UInt32.toNat_inj.1 hab)) he
      · rintro rfl; rfl
    rw [inj]; rfl

/-- **C79**, other operands: an empty operand gives the empty sequence; otherwise operands that are not strings are a type error. -/
theorem C79_other (h : Heap) (f : Str) (hf : f = S "fn:compare" ∨ f = S "fn:codepoint-equal") (A B : XSeq) :
    (A = [] ∨ B = [] → CallGives h f [A, B] []) ∧
    (A ≠ [] → B ≠ [] → ((∀ s, A ≠ [.string s]) ∨ ∀ s, B ≠ [.string s]) → CallFails h f [A, B] .typeError) := by
  have str : ∀ A : XSeq, (∀ s, A ≠ [.string s]) → XSeq.string1 A = .error .typeError := by
    intro A hA
    unfold XSeq.string1
    split
    · exact absurd rfl (hA _)
    · rfl
  have str' : ∀ A : XSeq, (∃ s, A = [.string s]) ∨ XSeq.string1 A = .error .typeError := by
    intro A
    by_cases hA : ∃ s, A = [.string s]
    · exact .inl hA
    · exact .inr (str A fun s hs => hA ⟨s, hs⟩)
  have emp : ∀ A : XSeq, A ≠ [] → A.isEmpty = false := by
    intro A hA; cases A with
    | nil => exact absurd rfl hA
    | cons _ _ => rfl
  constructor
  · intro he
    have he' : A.isEmpty = true ∨ B.isEmpty = true := by
      rcases he with rfl | rfl
      · exact .inl rfl
      · exact .inr rfl
    rcases hf with rfl | rfl
    · refine calls_of 2 _ (hg := ?_)
      show fnCompare A B = _
      unfold fnCompare
      rw [if_pos he']
    · refine calls_of 2 _ (hg := ?_)
      show fnCodepointEqual A B = _
      unfold fnCodepointEqual
      rw [if_pos he']
  · intro hA hB hs
    have hne : ¬ (A.isEmpty = true ∨ B.isEmpty = true) := by rw [emp A hA, emp B hB]; simp
    have key : ∀ g : Str → Str → Except XErr XSeq,
        ((XSeq.string1 A).bind fun s => (XSeq.string1 B).bind fun t => g s t) = .error .typeError := by
      intro g
      rcases str' A with ⟨s, rfl⟩ | hA'
      · rcases hs with hs | hs
        · exact absurd rfl (hs s)
        · rw [str B hs]; rfl
      · rw [hA']; rfl
    rcases hf with rfl | rfl
    · refine fails_of 2 _ (hg := ?_)
      show fnCompare A B = _
      unfold fnCompare
      rw [if_neg hne]
      exact key _
    · refine fails_of 2 _ (hg := ?_)
      show fnCodepointEqual A B = _
      unfold fnCodepointEqual
      rw [if_neg hne]
      have : ∀ (e : Except XErr Str) (k : Str → XSeq), e.map k = e.bind fun t => .ok (k t) := by intro e k; cases e <;> rfl
      simp only [this]
      exact key _

/-! ## C81: `position()` and `last()` -/

/-- The calls `position()` and `last()`. -/
def Spec.positionCall : XNode := callOf (S "fn:position") []
/-- The call `last()`. -/
def Spec.lastCall : XNode := callOf (S "fn:last") []

/-- **C81**: no evaluation changes what `position()` and `last()` mean for the expressions evaluated after it: predicates inside it count
for themselves only. -/
theorem C81_focus (h : Heap) (c c' : XSeq) (x : XNode) (env env' : Env) (v w : XSeq) (hx : evaluate h c x env = .ok (v, env')) :
    (Value h c' positionCall env w ↔ Value h c' positionCall env' w) ∧ (Value h c' lastCall env w ↔ Value h c' lastCall env' w) := by
  obtain ⟨h1, h2⟩ := evaluate_focus h c x env v env' hx
  have val : ∀ env : Env, (Value h c' positionCall env w ↔ w = [.integer env.position]) ∧
      (Value h c' lastCall env w ↔ w = [.integer env.last]) := by
    intro env
    obtain ⟨p, l⟩ := C35_position_last h c' env .nil env.position env.last
    constructor
    · constructor
      · intro hw
        have : evaluate h c' positionCall env = .ok ([.integer env.position], env) := p
        unfold Value at hw
        rw [this] at hw; cases hw; rfl
      · rintro rfl; exact p
    · constructor
      · intro hw
        have : evaluate h c' lastCall env = .ok ([.integer env.last], env) := l
        unfold Value at hw
        rw [this] at hw; cases hw; rfl
      · rintro rfl; exact l
  rw [(val env).1, (val env').1, (val env).2, (val env').2, h1, h2]
  exact ⟨Iff.rfl, Iff.rfl⟩

/-- The comparison of two integers, decided. -/
def Spec.Cmp.onInt : Cmp → Int → Int → Bool
  | .eq, a, b => decide (a = b)
  | .ne, a, b => decide (a ≠ b)
  | .lt, a, b => decide (a < b)
  | .le, a, b => decide (a ≤ b)
  | .gt, a, b => decide (a > b)
  | .ge, a, b => decide (a ≥ b)

theorem onInt_iff (op : Cmp) (a b : Int) : op.onInt a b = true ↔ op.rel (· < ·) (· = ·) a b := by
  cases op <;> simp [Cmp.onInt, Cmp.rel] <;> omega

theorem int_compare (h : Heap) (op : Cmp) (a b : Int) :
    OpGives h op.general [.integer a] [.integer b] [.boolean (op.onInt a b)] ∧
    OpGives h op.value [.integer a] [.integer b] [.boolean (op.onInt a b)] := by
  have nc : ¬ NaNCase op (.integer a) (.integer b) := by
    intro hn
    cases op <;> simp only [NaNCase] at hn <;> exact hn.1 a b ⟨rfl, rfl⟩
  constructor
  · obtain ⟨b', hb, hi⟩ := (C37_expression h op [.integer a] [.integer b]).1
    have : b' = op.onInt a b := by
      rw [Bool.eq_iff_iff, hi, onInt_iff]
      simp only [List.mem_cons, List.mem_nil_iff, or_false, exists_eq_left]
      show Holds op (.integer a) (.integer b) ∨ NaNCase op (.integer a) (.integer b) ↔ _
      exact ⟨fun hh => hh.resolve_right nc, .inl⟩
    rwa [this] at hb
  · obtain ⟨b', hb, hi⟩ := (C39_expression h op (.integer a) (.integer b)).1 (.inl ⟨rfl, rfl⟩)
    have : b' = op.onInt a b := by
      rw [Bool.eq_iff_iff, hi, onInt_iff]
      show Holds op (.integer a) (.integer b) ∨ NaNCase op (.integer a) (.integer b) ↔ _
      exact ⟨fun hh => hh.resolve_right nc, .inl⟩
    rwa [this] at hb

/-- The predicate `position() op e`, with a general or a value comparison. -/
theorem position_filter (h : Heap) (rev : Bool) (env : Env) (s : XSeq) (op : Cmp) (t : XNodeType) (ht : t = op.general ∨ t = op.value) (m : Str)
    (e : XNode) (n : Int) (he : ∀ k x, s[k]? = some x → Value h [x] e (atPos env (along rev s.length (k + 1)) s.length) [.integer n]) :
    Filter h rev env (.node t m positionCall e) s (fun k => op.onInt (along rev s.length k) n) := by
  intro k x hx
  have hp := (C35_position_last h [x] env .nil (along rev s.length (k + 1)) s.length).1
  refine ⟨[.boolean (op.onInt (along rev s.length (k + 1)) n)], ?_, .boolean _, rfl⟩
  rcases ht with rfl | rfl
  · exact (int_compare h op _ n).1 _ _ m _ _ hp (he k x hx)
  · exact (int_compare h op _ n).2 _ _ m _ _ hp (he k x hx)

/-- **C81**: `A[position() op E]`, where `E` is the integer `n` for every item of `A`, is the items of `A` whose position `p`, counted
from 1, satisfies `p op n`, in their order. -/
theorem C81_filter_partial (h : Heap) (c : XSeq) (nm m m' : Str) (tp : XNodeType) (a q e : XNode) (env : Env) (s : XSeq) (ha : Value h c a env s)
    (op : Cmp) (t : XNodeType) (ht : t = op.general ∨ t = op.value) (n : Int)
    (he : ∀ k x, s[k]? = some x → Value h [x] e (atPos env (k + 1) s.length) [.integer n]) :
    Value h c (.node .applyPredicate nm a (.node tp m' (.node t m positionCall e) q)) env
      (select (fun p => op.onInt p n) s) :=
  C36_filter_partial h c nm m' tp a _ q (by rcases ht with rfl | rfl <;> cases op <;> rfl) env s ha _ (position_filter h false env s op t ht m e n he)

/-- **C81**: in a step, positions count along the axis: from the end on the reverse axes. -/
theorem C81_step_partial (h : Heap) (ax : XNodeType) (hax : ax ∈ axes) (nm m : Str) (l e : XNode) (rev : Bool) (i : NodeId) (env : Env) (s : XSeq)
    (hs : Value h [.node i] (.node ax nm l .nil) env s) (op : Cmp) (t : XNodeType) (ht : t = op.general ∨ t = op.value) (n : Int)
    (he : ∀ k x, s[k]? = some x → Value h [x] e (atPos env (along rev s.length (k + 1)) s.length) [.integer n]) :
    Value h [.node i] (.node ax nm l (predChain rev [.node t m positionCall e])) env
      (select (fun p => op.onInt (along rev s.length p) n) s) :=
  C36_step_partial h ax hax nm l rev [.node t m positionCall e] (by simp; rcases ht with rfl | rfl <;> cases op <;> rfl) i env s _ hs
    (.cons (position_filter h rev env s op t ht m e n he) .nil)

/-- `last()` is the number of items: `A[position() = last()]` is the last item, `A[position() < last()]` all others. -/
theorem C81_last_partial (h : Heap) (c : XSeq) (nm m m' : Str) (tp : XNodeType) (a q : XNode) (env : Env) (s : XSeq) (x : XItem)
    (ha : Value h c a env (s ++ [x])) :
    Value h c (.node .applyPredicate nm a (.node tp m' (.node .operatorGeneralEQ m positionCall lastCall) q)) env [x] ∧
    Value h c (.node .applyPredicate nm a (.node tp m' (.node .operatorGeneralLT m positionCall lastCall) q)) env s := by
  have he : ∀ (k : Nat) (y : XItem), (s ++ [x])[k]? = some y →
      Value h [y] lastCall (atPos env (k + 1) (s ++ [x]).length) [.integer ((s ++ [x]).length : Nat)] :=
    fun k y _ => (C35_position_last h [y] env .nil (k + 1) (s ++ [x]).length).2
  have h1 := C81_filter_partial h c nm m m' tp a q lastCall env (s ++ [x]) ha .eq _ (.inl rfl) _ he
  have h2 := C81_filter_partial h c nm m m' tp a q lastCall env (s ++ [x]) ha .lt _ (.inl rfl) _ he
  have key : ∀ (r : XSeq) (i N : Nat), N = i + r.length →
      selectFrom (fun p => Cmp.eq.onInt (p : Nat) (N : Nat)) i (r ++ [x]) = [x] ∧
      selectFrom (fun p => Cmp.lt.onInt (p : Nat) (N : Nat)) i (r ++ [x]) = r := by
    intro r
    induction r with
    | nil =>
      intro i N hN
      subst hN
      simp [selectFrom, Cmp.onInt]
    | cons y r ih =>
      intro i N hN
      obtain ⟨e1, e2⟩ := ih (i + 1) N (by simp at hN; omega)
      simp only [List.length_cons] at hN
      have n1 : ¬ ((i : Int) = (N : Int)) := by omega
      have n2 : (i : Int) < (N : Int) := by omega
      constructor
      · simp only [List.cons_append, selectFrom, Cmp.onInt, n1, decide_false, Bool.false_eq_true, if_false]
        exact e1
      · simp only [List.cons_append, selectFrom, Cmp.onInt, n2, decide_true, if_true]
        exact congrArg (y :: ·) e2
  obtain ⟨k1, k2⟩ := key s 1 (s ++ [x]).length (by simp; omega)
  unfold select at h1 h2
  rw [k1] at h1; rw [k2] at h2
  exact ⟨h1, h2⟩

/-- **C81** is false of the code outside predicates: the right sides of `!` and `/` and the body of the query should count the items they are
evaluated for, but see the numbers of the predicate around them, or 0. -/
theorem C81_violated :
    evalXPath .empty 20 0 (S "position()") = .ok [.integer 0] ∧
    evalXPath .empty 20 0 (S "('a', 'b') ! position()") = .ok [.integer 0, .integer 0] ∧
    evalXPath .empty 20 0 (S "(7, 8)[position() = 2] ! last()") = .ok [.integer 0] ∧
    evalXPath editSample 20 0 (S "/a/*/position()") = .ok [.integer 0, .integer 0] ∧
    evalXPath .empty 20 0 (S "(7, 8)[((1, 2, 3) ! last()) = 2]") = .ok [.integer 7, .integer 8] := by
  refine ⟨?_, ?_, ?_, ?_, ?_⟩ <;> run_query

/-! ## The hypotheses are met -/

/-- A query with each of the operators of C75. -/
example : evalXPath .empty 20 0 (S "(1, (2, ()), 3)") = .ok [.integer 1, .integer 2, .integer 3] := by run_query
example : evalXPath .empty 20 0 (S "'a' || 1 || ()") = .ok [.string (S "a1")] := by run_query
example : evalXPath .empty 20 0 (S "(1, 2) ! (., . + 1)") = .ok [.integer 1, .integer 2, .integer 2, .integer 3] := by run_query
example : evalXPath .empty 20 0 (S "(compare('a', 'b'), compare('ab', 'a'), compare('', ''))") =
    .ok [.integer (-1), .integer 1, .integer 0] := by run_query
example : evalXPath .empty 20 0 (S "(5, 6, 7)[position() >= 2]") = .ok [.integer 6, .integer 7] := by run_query
example : evalXPath .empty 20 0 (S "(5, 6, 7)[position() ne last()]") = .ok [.integer 5, .integer 6] := by run_query
/-- The hypotheses of `C75_map` with two items. -/
example : Value .empty [] (.node .operatorMap [] (.node .varRef (S "x") .nil .nil) (.node .contextItem [] .nil .nil))
    (withVar .new (S "x") [.integer 1, .string (S "b")]) [.integer 1, .string (S "b")] :=
  C75_map .empty [] _ [] _ _ rfl [.integer 1, .string (S "b")] (fun x => [x])
    (by unfold Value; rw [evaluate_eq]; rfl) (fun x _ => by unfold Value; rw [evaluate_eq]; rfl)
/-- The hypotheses of `C81_last_partial` with two items. -/
example := C81_last_partial .empty [] [] [] [] .predicateTop (.node .varRef (S "x") .nil .nil) .nil
  (withVar .new (S "x") [.integer 1, .string (S "b")]) [.integer 1] (.string (S "b")) (by unfold Value; rw [evaluate_eq]; rfl)

end Amxml
