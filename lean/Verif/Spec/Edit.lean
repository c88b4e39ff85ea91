import Verif.Spec.Tree

/-!
# Specification vocabulary for DOM edits
-/

namespace Amxml.Spec

/-- Node `j` is the same in both heaps, up to the cached order number. -/
def SameNode (h h' : Heap) (j : NodeId) : Prop := h'.node j = { h.node j with order := (h'.node j).order }

/-- Replace the value of the first pair named `n`. -/
def replaceFirst (n v : Str) : List (Str × Str) → List (Str × Str)
  | [] => []
  | a :: as => if a.1 = n then (n, v) :: as else a :: replaceFirst n v as

/-- Remove the first pair named `n`. -/
def removeFirst (n : Str) : List (Str × Str) → List (Str × Str)
  | [] => []
  | a :: as => if a.1 = n then as else a :: removeFirst n as

/-- The editing functions of `NodePtr` (src/dom.rs:39-41) with their arguments. -/
inductive Edit where
  | setAttribute (i : NodeId) (n v : Str)
  | deleteAttribute (i : NodeId) (n : Str)
  | appendChild (i c : NodeId)
  | insertPrev (i x : NodeId)
  | insertNext (i x : NodeId)
  | deleteChild (i t : NodeId)
  | replaceWith (i x : NodeId)

/-- The effect of an edit. -/
def Edit.apply (h : Heap) : Edit → Heap
  | .setAttribute i n v => h.setAttribute i n v
  | .deleteAttribute i n => h.deleteAttribute i n
  | .appendChild i c => h.appendChild i c
  | .insertPrev i x => h.insertPrev i x
  | .insertNext i x => h.insertNext i x
  | .deleteChild i t => h.deleteChild i t
  | .replaceWith i x => h.replaceWith i x

/-- The arguments are existing nodes. -/
def Edit.Valid (h : Heap) : Edit → Prop
  | .setAttribute i _ _ | .deleteAttribute i _ => i < h.size
  | .appendChild i c | .insertPrev i c | .insertNext i c | .deleteChild i c | .replaceWith i c => i < h.size ∧ c < h.size

/-- The states a program can reach with `new_document`, edits with arbitrary nodes as arguments, and `document_order`
queries on nodes of well-linked documents. (The fuel of a query is any that suffices.) -/
inductive Reach : Heap → Prop where
  | empty : Reach Heap.empty
  | parse {h : Heap} {xml : Str} {h' : Heap} {r : NodeId} : Reach h → newDocument h xml = some (.ok (h', r)) → Reach h'
  | edit {h : Heap} (e : Edit) : Reach h → e.Valid h → Reach (e.apply h)
  | query {h : Heap} {r : NodeId} {F : Forest NodeId} {i : NodeId} {fuel : Nat} {o : Int} {h' : Heap} : Reach h →
      DocTree h r F → i ∈ docIds h (.cons r F .nil) → h.documentOrder fuel i = some (o, h') → Reach h'

/-- `document_order` gives, for all nodes of the document, numbers that increase strictly along document order. -/
def OrderCorrect (h : Heap) (r : NodeId) (F : Forest NodeId) : Prop :=
  ∃ o : NodeId → Int,
    (docIds h (.cons r F .nil)).Pairwise (fun i j => o i < o j) ∧
    ∀ i ∈ docIds h (.cons r F .nil), ∀ fuel > F.toList.length, ∃ h', h.documentOrder fuel i = some (o i, h')

end Amxml.Spec
