import Verif.Model.Dom

/-!
# Liveness of nodes: `Rc` and `Weak` (src/dom.rs:117-147)

`children` and `attributes` hold strong references (`Rc`), `parent` is a `Weak` reference. A node is freed when no
strong reference is left. `parent()`, `root()` and `namespace_uri()` do `upgrade().unwrap()` on the parent, which panics
if the parent has been freed.
-/

namespace Amxml

/-- The nodes kept alive by the handles `held` (`NodePtr`s in user variables): those reachable through strong
references. Simplification: a cycle of strong references is never freed even if it is not reachable (a leak); so the
set of living nodes is at least this, and exactly this in a heap without such cycles. -/
inductive Reachable (h : Heap) (held : NodeId → Prop) : NodeId → Prop where
  | held {i} : held i → Reachable h held i
  | child {i c} : Reachable h held i → c ∈ (h.node i).children → Reachable h held c
  | attr {i a} : Reachable h held i → a ∈ (h.node i).attributes → Reachable h held a

/-- `upgrade().unwrap()` of a parent reference: `none` = panic. -/
def upgrade (alive : NodeId → Bool) (p : NodeId) : Option NodeId := if alive p then some p else none

/-- `parent` (src/dom.rs:517-525), with panics (`none`). -/
def Heap.parentP (h : Heap) (alive : NodeId → Bool) (i : NodeId) : Option (Option NodeId) :=
  match (h.node i).parent with
  | some p => (upgrade alive p).map some
  | none => some none

/-- The loop of `root` (src/dom.rs:466-474), with panics. Fuel as in `rootF`. -/
def rootPF (h : Heap) (alive : NodeId → Bool) : Nat → NodeId → Option NodeId
  | 0, i => some i
  | fuel + 1, i =>
    match (h.node i).parent with
    | none => some i
    | some p =>
      match upgrade alive p with
      | none => none
      | some p => rootPF h alive fuel p

/-- `root` (src/dom.rs:466-474), with panics. -/
def Heap.rootP (h : Heap) (alive : NodeId → Bool) (i : NodeId) : Option NodeId := rootPF h alive (i + 1) i

/-- `root_element` (src/dom.rs:492-500), with panics. -/
def Heap.rootElementP (h : Heap) (alive : NodeId → Bool) (i : NodeId) : Option NodeId :=
  match h.rootP alive i with
  | none => none
  | some r => some (((h.node r).children.find? fun c => (h.node c).ntype = .element).getD r)

/-- The loop of `namespace_uri` (src/dom.rs:437-446), with panics. -/
def namespaceLoopP (h : Heap) (alive : NodeId → Bool) (attr : Str) : Nat → NodeId → Option Str
  | 0, _ => some []
  | fuel + 1, i =>
    if (h.node i).ntype ≠ .documentRoot then
      match h.attributeValue i attr with
      | some v => some v
      | none =>
        match (h.node i).parent with
        | some p =>
          match upgrade alive p with
          | none => none
          | some p => namespaceLoopP h alive attr fuel p
        | none => some []
    else some []

/-- The name of the namespace declaration for a node name (src/dom.rs:430-435). -/
def xmlnsAttr (name : Str) : Str :=
  if spaceName name ≠ [] then S "xmlns" ++ S ":" ++ spaceName name else S "xmlns"

/-- `namespace_uri` (src/dom.rs:429-449), with panics. -/
def Heap.namespaceUriP (h : Heap) (alive : NodeId → Bool) (i : NodeId) : Option Str :=
  namespaceLoopP h alive (xmlnsAttr (h.node i).name) (i + 1) i

end Amxml
