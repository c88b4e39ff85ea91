import Verif.Lemmas.PathLaws

/-!
# C98: queries that the rules make equal have the same answers

`Spec/PathLaws.lean` has the rules: those of Boolean algebra and of sets, the abbreviations, positions, conditions moved between paths and predicates,
axes in terms of other axes, and reverse axes turned round. Here: texts of queries that the rules make equal have the same answers through every entry
of the API, from every node of every document that can come about.
-/

namespace Amxml
open Spec

open Classical in
/-- **C98**: two queries that the rules make equal give the same nodes, in the same order, through every entry of the API. -/
theorem C98_query (h : Heap) (hr : Reach h) (r : NodeId) (F : Forest NodeId) (hd : DocTree h r F) (hp : PlainAttrs h r F) (p q : Query)
    (he : PathEq (.query p) (.query q)) (hok : p.Ok) (hok' : q.Ok) (i : NodeId) (hi : i ∈ docIds h (.cons r F .nil)) :
    ∃ (l : List NodeId) (N : Nat), ∀ n, N ≤ n →
      (evalXPath h n i p.text = .ok (l.map .node) ∧ evalXPath h n i q.text = .ok (l.map .node)) ∧
      (getNodeset h n i p.text = .ok l ∧ getNodeset h n i q.text = .ok l) ∧
      (getFirstNode h n i p.text = .ok l.head? ∧ getFirstNode h n i q.text = .ok l.head?) ∧
      (eachNode h n i p.text (fun calls x => calls ++ [x]) [] = .ok l ∧ eachNode h n i q.text (fun calls x => calls ++ [x]) [] = .ok l) := by
  obtain ⟨N, hN⟩ := C92_query h hr r F hd hp p hok i hi
  obtain ⟨M, hM⟩ := C92_query h hr r F hd hp q hok' i hi
  have e : q.nodes h r F i = p.nodes h r F i := by
    unfold Query.nodes
    apply List.filter_congr
    intro j _
    rw [Bool.eq_iff_iff, decide_eq_true_iff, decide_eq_true_iff]
    exact (PathLaws.sound hr hd hp he i hi j).symm
  rw [e] at hM
  refine ⟨p.nodes h r F i, N + M, fun n hn => ?_⟩
  obtain ⟨a1, a2, a3, a4⟩ := hN n (by omega)
  obtain ⟨b1, b2, b3, b4⟩ := hM n (by omega)
  exact ⟨⟨a1, b1⟩, ⟨a2, b2⟩, ⟨a3, b3⟩, a4, b4⟩

/-- **C98**: two conditions that the rules make equal have the same truth value. -/
theorem C98_condition (h : Heap) (hr : Reach h) (r : NodeId) (F : Forest NodeId) (hd : DocTree h r F) (hp : PlainAttrs h r F) (a b : QCond)
    (he : PathEq (.cond a) (.cond b)) (hok : a.Ok) (hok' : b.Ok) (i : NodeId) (hi : i ∈ docIds h (.cons r F .nil)) :
    ∃ (v : Bool) (N : Nat), ∀ n, N ≤ n → evalXPath h n i a.text = .ok [.boolean v] ∧ evalXPath h n i b.text = .ok [.boolean v] := by
  obtain ⟨v, N, hv, hN⟩ := C92_condition h hr r F hd hp a hok i hi
  obtain ⟨w, M, hw, hM⟩ := C92_condition h hr r F hd hp b hok' i hi
  have e : w = v := by
    rw [Bool.eq_iff_iff, hv, hw]
    exact (PathLaws.sound hr hd hp he i hi).symm
  subst e
  exact ⟨w, N + M, fun n hn => ⟨hN n (by omega), hM n (by omega)⟩⟩

/-! ## Some consequences -/

/-- `//T` is `/descendant::T`, with the same conditions after it. -/
theorem C98_deep (T : PTest) (ps : QPreds) (hp : ps.Plain) :
    PathEq (.path (.abs true (.one (.step (.child T) ps)))) (.path (.abs false (.one (onAxis (S "descendant") T ps)))) := by
  refine .trans (.law (.absDeep _)) (.abs _ ?_)
  refine .trans (.symm (.law (.selfLeft _))) (.trans (.symm (.law (.deep _ _))) ?_)
  exact .trans (.law (.deepChild _ _ _ hp)) (.law (.selfLeft _))

/-- Reverse axes are not needed: `/descendant-or-self::T/preceding::U` asks for the `U`s that are followed by a `T`. -/
theorem C98_preceding (T U : PTest) :
    PathEq (.path (.abs false (.more (onAxis (S "descendant-or-self") T) false (.one (onAxis (S "preceding") U)))))
      (.path (.abs false (.one (onAxis (S "descendant-or-self") U (.cond (hasRel (.one (onAxis (S "following") T))) .nil))))) :=
  .law (.turn (S "preceding") (S "following") T U .nil .nil (by decide) trivial trivial)

/-- `not(a or b)` is `not(a) and not(b)`. -/
theorem C98_de_morgan (a b : QCond) : PathEq (.cond (.no (.either a b))) (.cond (.both (.no a) (.no b))) := by
  refine .trans (.no (.either (.symm (.law (.notNot a))) (.symm (.law (.notNot b))))) ?_
  exact .trans (.no (.symm (.law (.notBoth _ _)))) (.law (.notNot _))

/-- `T/..` is `self::node()[boolean(T)]`. -/
theorem C98_there_and_back (T : PTest) : PathEq (.rel (.more (.step (.child T) .nil) false (.one .parent)))
    (.rel (.one (onAxis (S "self") .node (.cond (hasRel (.one (.step (.child T) .nil))) .nil)))) := by
  refine .trans (.more false (.law (.child _ _)) (.one (.law .parent))) (.trans (.law (.childParent _ _)) ?_)
  exact .one (.step _ (.cond (.has (.query (.rel (.one (.symm (.law (.child _ _))))))) (.refl _)))

/-! ## The hypotheses are met -/

/-- `/descendant-or-self::c/preceding::*[not(boolean(c) or boolean(@x))]|//b` and a query that the rules make equal to it. -/
def lawQuery : Query :=
  let named (n : String) : QRel := .one (.step (.child (.name (S n))) .nil)
  .also (.one (.abs false (.more (onAxis (S "descendant-or-self") (.name (S "c"))) false (.one (onAxis (S "preceding") .any
    (.cond (.no (.either (hasRel (named "c")) (hasRel (.one (.step (.attr (.name (S "x"))) .nil))))) .nil))))))
    (.abs true (named "b"))

def lawQuery' : Query :=
  let named (n : String) : QRel := .one (.step (.child (.name (S n))) .nil)
  .also (.one (.abs false (.one (onAxis (S "descendant") (.name (S "b"))))))
    (.abs false (.one (onAxis (S "descendant-or-self") .any
      (.cond (.both (.both (.no (hasRel (named "c"))) (.no (hasRel (.one (.step (.attr (.name (S "x"))) .nil))))) (hasRel (.one (onAxis (S "following") (.name (S "c")))))) .nil))))

example : lawQuery.text = S "/descendant-or-self::c/preceding::*[not(boolean(c) or boolean(@x))]|//b" ∧
    lawQuery'.text = S "/descendant::b|/descendant-or-self::*[(not(boolean(c)) and not(boolean(@x))) and boolean(following::c)]" := by decide +kernel

theorem lawQuery_ok : lawQuery.Ok ∧ lawQuery'.Ok := by
  unfold lawQuery lawQuery' onAxis hasRel
  simp only [Query.Ok, QPath.Ok, QRel.Ok, QStep.Ok, QPreds.Ok, QCond.Ok, Core.Ok, PTest.Ok]
  decide +kernel

theorem lawQuery_eq : PathEq (.query lawQuery) (.query lawQuery') := by
  refine .trans (.law (.unionComm _ _)) (.also (.query (C98_deep _ _ trivial)) ?_)
  refine .trans (.law (.turn (S "preceding") (S "following") _ _ _ _ (by decide) trivial trivial)) (.abs _ (.one (.step _ ?_)))
  refine .trans (.law (.fuse _ _ _)) (.cond (.both (C98_de_morgan _ _) (.refl _)) (.refl _))

example : evalXPath editSample 100 5 (S "/descendant-or-self::c/preceding::*[not(boolean(c) or boolean(@x))]|//b") = .ok [.node 4] := by run_query
example : evalXPath editSample 100 5 (S "/descendant::b|/descendant-or-self::*[(not(boolean(c)) and not(boolean(@x))) and boolean(following::c)]") = .ok [.node 4] := by
  run_query

end Amxml
