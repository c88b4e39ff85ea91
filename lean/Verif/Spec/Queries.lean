import Verif.Spec.Paths

/-!
# Queries (specification)

The location paths of `Spec/Paths.lean` with arbitrary conditions in their predicates, and unions of such paths, as texts and as sets of nodes:
`//a[count(b[@k='v']/c)=2]/..|/d`, `//item[not(boolean(@id)) or price!=../price]`. Nothing of the lexer, the parser or the evaluator is used here.
-/

namespace Amxml.Spec

mutual

/-- Conditions, as they are written. -/
inductive QCond where
  /-- `boolean(q)` -/
  | has (q : Query)
  /-- `q='v'` -/
  | eq (q : Query) (v : Str)
  /-- `q!='v'` -/
  | ne (q : Query) (v : Str)
  /-- `p=q` -/
  | same (p q : Query)
  /-- `count(q)=12` -/
  | count (q : Query) (n : Nat)
  /-- `a and b` -/
  | both (a b : QCond)
  /-- `a or b` -/
  | either (a b : QCond)
  /-- `not(a)` -/
  | no (a : QCond)

/-- Predicates. -/
inductive QPreds where
  | nil
  /-- `[12]` -/
  | nth (n : Nat) (ps : QPreds)
  /-- `[last()]` -/
  | last (ps : QPreds)
  /-- `[c]` -/
  | cond (c : QCond) (ps : QPreds)

/-- A step. -/
inductive QStep where
  /-- An axis, a test and predicates. -/
  | step (c : Core) (ps : QPreds)
  /-- `..` -/
  | parent
  /-- `.` -/
  | self

/-- Steps separated by `/` and `//`. -/
inductive QRel where
  | one (s : QStep)
  /-- `s/q`, or `s//q` if `deep` -/
  | more (s : QStep) (deep : Bool) (q : QRel)

/-- Paths. -/
inductive QPath where
  /-- `/` -/
  | root
  /-- `a/b` -/
  | rel (q : QRel)
  /-- `/a/b` or, if `deep`, `//a/b` -/
  | abs (deep : Bool) (q : QRel)

/-- Paths joined by `|`. -/
inductive Query where
  | one (p : QPath)
  /-- `q|p` -/
  | also (q : Query) (p : QPath)

end

/-! ## The texts -/

/-- Whether a condition can stand beside `and` and `or` without parentheses. -/
def QCond.simple : QCond → Bool
  | .has _ | .eq _ _ | .ne _ _ | .no _ => true
  | _ => false

/-- The text of a condition beside `and` or `or`. -/
def beside (simple : Bool) (s : Str) : Str := if simple then s else '(' :: s ++ S ")"

mutual

def QCond.text : QCond → Str
  | .has q => S "boolean(" ++ q.text ++ S ")"
  | .eq q v => q.text ++ '=' :: quoted '\'' v
  | .ne q v => q.text ++ S "!=" ++ quoted '\'' v
  | .same p q => p.text ++ '=' :: q.text
  | .count q n => S "count(" ++ q.text ++ S ")=" ++ F64.natStr n
  | .both a b => beside a.simple a.text ++ S " and " ++ beside b.simple b.text
  | .either a b => beside a.simple a.text ++ S " or " ++ beside b.simple b.text
  | .no a => S "not(" ++ a.text ++ S ")"

def QPreds.text : QPreds → Str
  | .nil => []
  | .nth n ps => '[' :: F64.natStr n ++ S "]" ++ ps.text
  | .last ps => S "[last()]" ++ ps.text
  | .cond c ps => '[' :: c.text ++ S "]" ++ ps.text

def QStep.text : QStep → Str
  | .step c ps => c.text ++ ps.text
  | .parent => S ".."
  | .self => S "."

def QRel.text : QRel → Str
  | .one s => s.text
  | .more s d q => s.text ++ slashes d ++ q.text

def QPath.text : QPath → Str
  | .root => S "/"
  | .rel q => q.text
  | .abs d q => slashes d ++ q.text

def Query.text : Query → Str
  | .one p => p.text
  | .also q p => q.text ++ '|' :: p.text

end

mutual

/-- The names are names, the numbers are in the range of integers, and there is no NUL in the strings. -/
def QCond.Ok : QCond → Prop
  | .has q => q.Ok
  | .eq q v | .ne q v => q.Ok ∧ '\x00' ∉ v
  | .same p q => p.Ok ∧ q.Ok
  | .count q n => q.Ok ∧ n < 2 ^ 63
  | .both a b | .either a b => a.Ok ∧ b.Ok
  | .no a => a.Ok

def QPreds.Ok : QPreds → Prop
  | .nil => True
  | .nth n ps => n < 2 ^ 63 ∧ ps.Ok
  | .last ps => ps.Ok
  | .cond c ps => c.Ok ∧ ps.Ok

def QStep.Ok : QStep → Prop
  | .step c ps => c.Ok ∧ ps.Ok
  | _ => True

def QRel.Ok : QRel → Prop
  | .one s => s.Ok
  | .more s _ q => s.Ok ∧ q.Ok

def QPath.Ok : QPath → Prop
  | .root => True
  | .rel q | .abs _ q => q.Ok

def Query.Ok : Query → Prop
  | .one p => p.Ok
  | .also q p => q.Ok ∧ p.Ok

end

/-! ## The meaning -/

/-- The `n`-th of a list of nodes in document order, counted from 1; along a reverse axis it is counted from the end. -/
def pick (rev : Bool) (n : Nat) (l : List NodeId) : List NodeId :=
  match n with
  | 0 => []
  | n + 1 => ((if rev then l.reverse else l)[n]?).toList

section
variable (h : Heap) (r : NodeId) (F : Forest NodeId)
open Classical

mutual

/-- The condition holds at the node `i`. -/
noncomputable def QCond.Holds : QCond → NodeId → Prop
  | .has q, i => ∃ j, q.Leads i j
  | .eq q v, i => ∃ j, q.Leads i j ∧ DataIs h j v
  | .ne q v, i => ∃ j, q.Leads i j ∧ ¬ DataIs h j v
  | .same p q, i => ∃ j k v, p.Leads i j ∧ q.Leads i k ∧ DataIs h j v ∧ DataIs h k v
  | .count q n, i => ((docIds h (.cons r F .nil)).filter fun j => q.Leads i j).length = n
  | .both a b, i => a.Holds i ∧ b.Holds i
  | .either a b, i => a.Holds i ∨ b.Holds i
  | .no a, i => ¬ a.Holds i

/-- What predicates leave of a list of nodes in document order; along a reverse axis positions are counted from its end, and each predicate counts anew. -/
noncomputable def QPreds.keep (rev : Bool) : QPreds → List NodeId → List NodeId
  | .nil, l => l
  | .nth n ps, l => ps.keep rev (pick rev n l)
  | .last ps, l => ps.keep rev (if rev then l.head? else l.getLast?).toList
  | .cond c ps, l => ps.keep rev (l.filter fun j => c.Holds j)

/-- The nodes the step selects from the node `i`: those of the document, in document order, that are on the axis and pass the test,
filtered by the predicates from left to right. -/
noncomputable def QStep.nodes : QStep → NodeId → List NodeId
  | .step c ps, i => ps.keep c.axis.2 ((docIds h (.cons r F .nil)).filter fun j => c.Reaches h r F i j)
  | .parent, i => (h.node i).parent.toList
  | .self, i => [i]

/-- The path leads from the node `i` to the node `j`. -/
noncomputable def QRel.Leads : QRel → NodeId → NodeId → Prop
  | .one s, i, j => j ∈ s.nodes i
  | .more s d q, i, j => ∃ k ∈ s.nodes i, ∃ k', Between h F d k k' ∧ q.Leads k' j

noncomputable def QPath.Leads : QPath → NodeId → NodeId → Prop
  | .root, _, j => j = r
  | .rel q, i, j => q.Leads i j
  | .abs d q, _, j => ∃ k, Between h F d r k ∧ q.Leads k j

noncomputable def Query.Leads : Query → NodeId → NodeId → Prop
  | .one p, i, j => p.Leads i j
  | .also q p, i, j => q.Leads i j ∨ p.Leads i j

end

/-- The nodes the query selects from the node `i`: those it leads to, in document order, each once. -/
noncomputable def Query.nodes (q : Query) (i : NodeId) : List NodeId := (docIds h (.cons r F .nil)).filter fun j => q.Leads h r F i j

end

end Amxml.Spec
