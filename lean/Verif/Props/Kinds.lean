import Verif.Lemmas.Late
import Verif.Lemmas.Decide
import Verif.Props.XParse

/-!
# Property C123: syntax errors tell about the query only
-/

namespace Amxml
open Spec

/-- The kinds of errors that tell about the text of a query: XPathSyntaxError and Unimplemented. -/
def Spec.OfText (e : XErr) : Prop := e = .syntaxError ∨ e = .unimplemented

/-- **C123**: a query gives an error that tells about its text if and only if its text does not compile with that error, for every document, node, and depth of recursion. -/
theorem C123_text (q : Str) (e : XErr) (he : OfText e) (h : Heap) (n : Nat) (start : NodeId) :
    evalXPath h n start q = .error e ↔ Parser.compileXPath q = .error e := by
  unfold evalXPath
  cases hc : Parser.compileXPath q with
  | error b => simp
  | ok x =>
    refine ⟨fun hm => ?_, nofun⟩
    change matchXPath h n start x = _ at hm
    rw [matchXPath] at hm
    cases hb : eval h n [.node start] x Env.new with
    | ok r => rw [hb] at hm; cases hm
    | error b =>
      rw [hb] at hm
      cases hm
      have := Stage.LateE.eval h n [.node start] x Env.new _ hb
      rcases he with rfl | rfl
      · exact absurd rfl this.1
      · exact absurd rfl this.2

/-- **C123**: such an error of one query in one document at one node is the error of that query in every document, at every node, and through every function that takes queries
(`get_first_node` gives nothing, as for every error). -/
theorem C123_everywhere (q : Str) (e : XErr) (he : OfText e) (h h' : Heap) (n n' : Nat) (start start' : NodeId) (hq : evalXPath h n start q = .error e) :
    evalXPath h' n' start' q = .error e ∧ getNodeset h' n' start' q = .error e ∧ getFirstNode h' n' start' q = .ok none ∧
      ∀ {σ : Type} (f : σ → NodeId → σ) (s : σ), eachNode h' n' start' q f s = .error e := by
  have h1 : evalXPath h' n' start' q = .error e := (C123_text q e he h' n' start').2 ((C123_text q e he h n start).1 hq)
  have h2 : getNodeset h' n' start' q = .error e := by unfold getNodeset; rw [h1]; rfl
  refine ⟨h1, h2, ?_, fun f s => ?_⟩
  · unfold getFirstNode; rw [h2]; rcases he with rfl | rfl <;> rfl
  · unfold eachNode; rw [h2]; rfl

/-- **C123**: every query (that is not blank, see C52) either is rejected, with the same error in every document at every node, or is rejected nowhere: its errors, if any, are a type error,
a dynamic error or an inner error ("Can't Occur"), besides panics and endless recursion. -/
theorem C123_kinds (q : Str) (h0 : '\x00' ∉ q) (hb : ¬ Blank q) :
    (∃ e, OfText e ∧ ∀ h n start, evalXPath h n start q = .error e) ∨
    (∀ h n start e, evalXPath h n start q = .error e → e = .typeError ∨ e = .dynamicError ∨ e = .cantOccur ∨ e = .panic ∨ e = .outOfFuel) := by
  rcases C54_parser_total q h0 hb with ⟨x, hx⟩ | hx | hx
  · refine .inr fun h n start e hq => ?_
    have key : ∀ e', OfText e' → e ≠ e' := by
      rintro e' he' rfl
      rw [(C123_text q e he' h n start).1 hq] at hx
      cases hx
    cases e with
    | syntaxError => exact absurd rfl (key _ (.inl rfl))
    | unimplemented => exact absurd rfl (key _ (.inr rfl))
    | _ => simp
  · exact .inl ⟨_, .inl rfl, fun h n start => (C123_text q _ (.inl rfl) h n start).2 hx⟩
  · exact .inl ⟨_, .inr rfl, fun h n start => (C123_text q _ (.inr rfl) h n start).2 hx⟩

/-- **C123**: in particular the branch of an `if` that is not taken, or a predicate of an empty step, is looked at, too: a query that gives a value in one document at one node
is never rejected in another. -/
theorem C123_value (q : Str) (h h' : Heap) (n n' : Nat) (start start' : NodeId) (v : XSeq) (hq : evalXPath h n start q = .ok v) (e : XErr)
    (he : evalXPath h' n' start' q = .error e) : ¬ OfText e := by
  intro ht
  rw [(C123_text q e ht h n start).2 ((C123_text q e ht h' n' start').1 he)] at hq
  cases hq

/-- Rejected although what is wrong would never be evaluated; and not rejected although the evaluation fails. -/
example : evalXPath Heap.empty 20 0 (S "if (true()) then 1 else 1 +)") = .error .syntaxError ∧
    evalXPath Heap.empty 20 0 (S "if (true()) then 1 else namespace::a") = .error .unimplemented ∧
    evalXPath Heap.empty 20 0 (S "if (true()) then 1 else 'a' + 1") = .ok [.integer 1] ∧
    evalXPath Heap.empty 20 0 (S "'a' + 1") = .error .typeError ∧ evalXPath Heap.empty 20 0 (S "1 idiv 0") = .error .dynamicError ∧
    OfText .syntaxError ∧ ¬ Blank (S "'a' + 1") ∧ '\x00' ∉ S "'a' + 1" := by
  refine ⟨by run_query, by run_query, by run_query, by run_query, by run_query, .inl rfl, ?_, by decide⟩
  intro hb
  cases hb with
  | white c s hc _ => revert hc; unfold IsWhite; decide

end Amxml
