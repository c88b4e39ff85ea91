import Verif.Spec.Queries

/-!
# Laws of queries (specification)

Which queries of `Spec/Queries.lean` can be put for one another: the rules of Boolean algebra for conditions, of sets for unions, the abbreviations
written out, positions picked twice, conditions moved between paths and predicates, the axes in terms of each other, and the reverse axes done away
with. The relation `PathEq` is the least congruence with these rules. It speaks about the syntax only.
-/

namespace Amxml.Spec

/-- The step `w::T` with predicates. -/
def onAxis (w : Str) (T : PTest) (ps : QPreds := .nil) : QStep := .step (.along w T) ps

/-- The condition `boolean(q)` for a relative path. -/
def hasRel (q : QRel) : QCond := .has (.one (.rel q))

/-- A condition that always holds: `boolean(/)`. -/
def always : QCond := .has (.one .root)

/-- The predicates with one more at the end. -/
def QPreds.add (a : QCond) : QPreds → QPreds
  | .nil => .cond a .nil
  | .nth n ps => .nth n (ps.add a)
  | .last ps => .last (ps.add a)
  | .cond c ps => .cond c (ps.add a)

/-- No predicate picks by position. -/
def QPreds.Plain : QPreds → Prop
  | .nil => True
  | .cond _ ps => ps.Plain
  | _ => False

/-- Axes and the axes that lead back. -/
def inverses : List (Str × Str) := [
  (S "parent", S "child"), (S "ancestor", S "descendant"), (S "ancestor-or-self", S "descendant-or-self"),
  (S "preceding-sibling", S "following-sibling"), (S "preceding", S "following"), (S "self", S "self"),
  (S "child", S "parent"), (S "descendant", S "ancestor"), (S "descendant-or-self", S "ancestor-or-self"),
  (S "following-sibling", S "preceding-sibling"), (S "following", S "preceding")]

/-- The axes that never lead to an attribute. -/
def noAttribute : List Str := [S "child", S "descendant", S "parent", S "ancestor", S "following-sibling", S "preceding-sibling", S "following",
  S "preceding"]

/-- A piece of a query. -/
inductive QPart where
  | cond (c : QCond)
  | preds (ps : QPreds)
  | step (s : QStep)
  | rel (q : QRel)
  | path (p : QPath)
  | query (q : Query)

/-- The rules. -/
inductive PathLaw : QPart → QPart → Prop where
  -- conditions
  | notNot (a) : PathLaw (.cond (.no (.no a))) (.cond a)
  | notBoth (a b) : PathLaw (.cond (.no (.both a b))) (.cond (.either (.no a) (.no b)))
  | bothComm (a b) : PathLaw (.cond (.both a b)) (.cond (.both b a))
  | bothAssoc (a b c) : PathLaw (.cond (.both (.both a b) c)) (.cond (.both a (.both b c)))
  | bothSelf (a) : PathLaw (.cond (.both a a)) (.cond a)
  | absorb (a b) : PathLaw (.cond (.both a (.either a b))) (.cond a)
  | distribute (a b c) : PathLaw (.cond (.both a (.either b c))) (.cond (.either (.both a b) (.both a c)))
  | bothAlways (a) : PathLaw (.cond (.both a always)) (.cond a)
  | middle (a) : PathLaw (.cond (.either a (.no a))) (.cond always)
  | sameComm (p q) : PathLaw (.cond (.same p q)) (.cond (.same q p))
  /-- `boolean(q|p)` is `boolean(q) or boolean(p)` -/
  | hasUnion (q p) : PathLaw (.cond (.has (.also q p))) (.cond (.either (.has q) (.has (.one p))))
  /-- `(q|p)='v'` is `q='v' or p='v'` -/
  | eqUnion (q p v) : PathLaw (.cond (.eq (.also q p) v)) (.cond (.either (.eq q v) (.eq (.one p) v)))
  /-- `not(boolean(q))` is `count(q)=0` -/
  | hasNone (q) : PathLaw (.cond (.no (.has q))) (.cond (.count q 0))
  /-- `boolean(s/q)` is `boolean(s[boolean(q)])` -/
  | hasStep (c ps q) : PathLaw (.cond (hasRel (.more (.step c ps) false q))) (.cond (hasRel (.one (.step c (ps.add (hasRel q))))))
  /-- `s='v'` is `boolean(s[.='v'])` -/
  | eqStep (c ps v) : PathLaw (.cond (.eq (.one (.rel (.one (.step c ps)))) v))
      (.cond (hasRel (.one (.step c (ps.add (.eq (.one (.rel (.one .self))) v))))))
  -- predicates
  /-- `[c][d]` is `[c and d]` -/
  | fuse (c d ps) : PathLaw (.preds (.cond c (.cond d ps))) (.preds (.cond (.both c d) ps))
  | nthFirst (n ps) : PathLaw (.preds (.nth n (.nth 1 ps))) (.preds (.nth n ps))
  | nthLast (n ps) : PathLaw (.preds (.nth n (.last ps))) (.preds (.nth n ps))
  | nthNone (n m ps) : PathLaw (.preds (.nth n (.nth (m + 2) ps))) (.preds (.nth 0 .nil))
  | lastFirst (ps) : PathLaw (.preds (.last (.nth 1 ps))) (.preds (.last ps))
  | lastLast (ps) : PathLaw (.preds (.last (.last ps))) (.preds (.last ps))
  -- abbreviations
  | child (T ps) : PathLaw (.step (.step (.child T) ps)) (.step (onAxis (S "child") T ps))
  | attribute (T ps) : PathLaw (.step (.step (.attr T) ps)) (.step (onAxis (S "attribute") T ps))
  | parent : PathLaw (.step .parent) (.step (onAxis (S "parent") .node))
  | self : PathLaw (.step .self) (.step (onAxis (S "self") .node))
  /-- `s//q` is `s/descendant-or-self::node()/q` -/
  | deep (s q) : PathLaw (.rel (.more s true q)) (.rel (.more s false (.more (onAxis (S "descendant-or-self") .node) false q)))
  | absDeep (q) : PathLaw (.path (.abs true q)) (.path (.abs false (.more (onAxis (S "descendant-or-self") .node) false q)))
  | absSelf : PathLaw (.path (.abs false (.one .self))) (.path .root)
  -- steps that stay
  | selfLeft (q) : PathLaw (.rel (.more .self false q)) (.rel q)
  | selfRight (s) : PathLaw (.rel (.more s false (.one .self))) (.rel (.one s))
  /-- `s/self::node()[a]` is `s[a]` -/
  | filter (c ps a) : PathLaw (.rel (.more (.step c ps) false (.one (onAxis (S "self") .node (.cond a .nil))))) (.rel (.one (.step c (ps.add a))))
  -- the axes in terms of each other
  | descendant1 (T) : PathLaw (.rel (.one (onAxis (S "descendant") T))) (.rel (.more (onAxis (S "descendant-or-self") .node) false (.one (onAxis (S "child") T))))
  | descendant2 (T) : PathLaw (.rel (.one (onAxis (S "descendant") T))) (.rel (.more (onAxis (S "child") .node) false (.one (onAxis (S "descendant-or-self") T))))
  | ancestor1 (T) : PathLaw (.rel (.one (onAxis (S "ancestor") T))) (.rel (.more (onAxis (S "ancestor-or-self") .node) false (.one (onAxis (S "parent") T))))
  | ancestor2 (T) : PathLaw (.rel (.one (onAxis (S "ancestor") T))) (.rel (.more (onAxis (S "parent") .node) false (.one (onAxis (S "ancestor-or-self") T))))
  | descendantTwice (T) : PathLaw (.rel (.more (onAxis (S "descendant-or-self") .node) false (.one (onAxis (S "descendant-or-self") T))))
      (.rel (.one (onAxis (S "descendant-or-self") T)))
  /-- `s//T[c]` is `s/descendant::T[c]`, as long as no predicate picks by position -/
  | deepChild (s T ps) (hp : QPreds.Plain ps) : PathLaw (.rel (.more s true (.one (.step (.child T) ps)))) (.rel (.more s false (.one (onAxis (S "descendant") T ps))))
  | deepChildMore (s T ps d q) (hp : QPreds.Plain ps) : PathLaw (.rel (.more s true (.more (.step (.child T) ps) d q)))
      (.rel (.more s false (.more (onAxis (S "descendant") T ps) d q)))
  | following (w T ps U) (hw : w ∈ noAttribute) : PathLaw (.rel (.more (onAxis w T ps) false (.one (onAxis (S "following") U))))
      (.rel (.more (onAxis w T ps) false (.more (onAxis (S "ancestor-or-self") .node) false
        (.more (onAxis (S "following-sibling") .node) false (.one (onAxis (S "descendant-or-self") U))))))
  | preceding (w T ps U) (hw : w ∈ noAttribute) : PathLaw (.rel (.more (onAxis w T ps) false (.one (onAxis (S "preceding") U))))
      (.rel (.more (onAxis w T ps) false (.more (onAxis (S "ancestor-or-self") .node) false
        (.more (onAxis (S "preceding-sibling") .node) false (.one (onAxis (S "descendant-or-self") U))))))
  -- there and back
  | childParent (T U) : PathLaw (.rel (.more (onAxis (S "child") T) false (.one (onAxis (S "parent") U))))
      (.rel (.one (onAxis (S "self") U (.cond (hasRel (.one (onAxis (S "child") T))) .nil))))
  | attributeParent (T U) : PathLaw (.rel (.more (onAxis (S "attribute") T) false (.one (onAxis (S "parent") U))))
      (.rel (.one (onAxis (S "self") U (.cond (hasRel (.one (onAxis (S "attribute") T))) .nil))))
  | descendantParent (T U) : PathLaw (.rel (.more (onAxis (S "descendant") T) false (.one (onAxis (S "parent") U))))
      (.rel (.one (onAxis (S "descendant-or-self") U (.cond (hasRel (.one (onAxis (S "child") T))) .nil))))
  /-- `/descendant-or-self::T[c]/w::U[d]` is `/descendant-or-self::U[d][boolean(w'::T[c])]`, where `w'` leads back from where `w` leads -/
  | turn (w w' T U ps qs) (hw : (w, w') ∈ inverses) (hp : QPreds.Plain ps) (hq : QPreds.Plain qs) :
      PathLaw (.path (.abs false (.more (onAxis (S "descendant-or-self") T ps) false (.one (onAxis w U qs)))))
        (.path (.abs false (.one (onAxis (S "descendant-or-self") U (qs.add (hasRel (.one (onAxis w' T ps))))))))
  -- unions
  | unionSwap (q p p') : PathLaw (.query (.also (.also q p) p')) (.query (.also (.also q p') p))
  | unionComm (p p') : PathLaw (.query (.also (.one p) p')) (.query (.also (.one p') p))
  | unionSelf (p) : PathLaw (.query (.also (.one p) p)) (.query (.one p))
  | unionSame (q p) : PathLaw (.query (.also (.also q p) p)) (.query (.also q p))

/-- The least congruence with the rules. -/
inductive PathEq : QPart → QPart → Prop where
  | law {a b} : PathLaw a b → PathEq a b
  | refl (a) : PathEq a a
  | symm {a b} : PathEq a b → PathEq b a
  | trans {a b c} : PathEq a b → PathEq b c → PathEq a c
  | has {p q} : PathEq (.query p) (.query q) → PathEq (.cond (.has p)) (.cond (.has q))
  | eq {p q} (v) : PathEq (.query p) (.query q) → PathEq (.cond (.eq p v)) (.cond (.eq q v))
  | ne {p q} (v) : PathEq (.query p) (.query q) → PathEq (.cond (.ne p v)) (.cond (.ne q v))
  | same {p q p' q'} : PathEq (.query p) (.query q) → PathEq (.query p') (.query q') → PathEq (.cond (.same p p')) (.cond (.same q q'))
  | count {p q} (n) : PathEq (.query p) (.query q) → PathEq (.cond (.count p n)) (.cond (.count q n))
  | both {a b a' b'} : PathEq (.cond a) (.cond b) → PathEq (.cond a') (.cond b') → PathEq (.cond (.both a a')) (.cond (.both b b'))
  | either {a b a' b'} : PathEq (.cond a) (.cond b) → PathEq (.cond a') (.cond b') → PathEq (.cond (.either a a')) (.cond (.either b b'))
  | no {a b} : PathEq (.cond a) (.cond b) → PathEq (.cond (.no a)) (.cond (.no b))
  | nth (n) {ps qs} : PathEq (.preds ps) (.preds qs) → PathEq (.preds (.nth n ps)) (.preds (.nth n qs))
  | last {ps qs} : PathEq (.preds ps) (.preds qs) → PathEq (.preds (.last ps)) (.preds (.last qs))
  | cond {a b ps qs} : PathEq (.cond a) (.cond b) → PathEq (.preds ps) (.preds qs) → PathEq (.preds (.cond a ps)) (.preds (.cond b qs))
  | step (c) {ps qs} : PathEq (.preds ps) (.preds qs) → PathEq (.step (.step c ps)) (.step (.step c qs))
  | one {s t} : PathEq (.step s) (.step t) → PathEq (.rel (.one s)) (.rel (.one t))
  | more {s t} (d) {p q} : PathEq (.step s) (.step t) → PathEq (.rel p) (.rel q) → PathEq (.rel (.more s d p)) (.rel (.more t d q))
  | rel {p q} : PathEq (.rel p) (.rel q) → PathEq (.path (.rel p)) (.path (.rel q))
  | abs (d) {p q} : PathEq (.rel p) (.rel q) → PathEq (.path (.abs d p)) (.path (.abs d q))
  | query {p q} : PathEq (.path p) (.path q) → PathEq (.query (.one p)) (.query (.one q))
  | also {p q p' q'} : PathEq (.query p) (.query q) → PathEq (.path p') (.path q') → PathEq (.query (.also p p')) (.query (.also q q'))

end Amxml.Spec
