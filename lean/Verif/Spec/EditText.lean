import Verif.Spec.Edit
import Verif.Spec.Entity

/-!
# The text of a node, from the texts of its children (specification)
-/

namespace Amxml.Spec

/-- `to_string()` of the node returns `s`. (`n` bounds the depth of the recursion: any sufficiently large one will do.) -/
def Writes (h : Heap) (i : NodeId) (s : Str) : Prop := ∃ N, ∀ n, N ≤ n → h.toString n i = some s

/-- `inner_xml()` of the node returns `s`. -/
def WritesInner (h : Heap) (i : NodeId) (s : Str) : Prop := ∃ N, ∀ n, N ≤ n → h.innerXml n i = some s

/-- `to_string()` of the nodes `l` returns the strings `ss`, in order. -/
inductive WriteAll (h : Heap) : List NodeId → List Str → Prop where
  | nil : WriteAll h [] []
  | cons {i : NodeId} {l : List NodeId} {s : Str} {ss : List Str} : Writes h i s → WriteAll h l ss → WriteAll h (i :: l) (s :: ss)

/-- The text of a node with the given content and children with the given texts. -/
def nodeText (c : Content) (kids : List Str) : Str :=
  match c.ntype with
  | .documentRoot => kids.flatten
  | .element =>
    let head := S "<" ++ c.name ++ c.attrs.flatMap fun a => S " " ++ a.1 ++ S "=\"" ++ escape a.2 ++ S "\""
    if kids = [] then head ++ S "/>" else head ++ S ">" ++ kids.flatten ++ S "</" ++ c.name ++ S ">"
  | .text => escape c.value
  | .comment => S "<!--" ++ c.value ++ S "-->"
  | .xmlDecl => S "<?xml " ++ c.value ++ S "?>"
  | .instruction => S "<?" ++ c.name ++ S " " ++ c.value ++ S "?>"
  | .attribute | .directive => []

/-- The node `j` is the node `i`, or a child of it, or a child of a child, … -/
inductive Down (h : Heap) : NodeId → NodeId → Prop where
  | refl {i : NodeId} : Down h i i
  | child {i c j : NodeId} : c ∈ (h.node i).children → Down h c j → Down h i j

/-- Only elements and the root have children. (So it is in parsed documents; `append_child` on a text node would change that.) -/
def OnlyElementsNest (h : Heap) (r : NodeId) (F : Forest NodeId) : Prop :=
  ∀ i ∈ r :: F.toList, (h.node i).children ≠ [] → (h.node i).ntype = .element ∨ (h.node i).ntype = .documentRoot

/-- The text of the node `e` stands between `pre` and `post` in the text of the document `r`: whatever is done to `e` and the nodes below it (contents and children),
as long as the other nodes of the document keep their contents and children, the text of the document is `pre`, the text of `e`, `post`. -/
def Around (h : Heap) (r : NodeId) (F : Forest NodeId) (e : NodeId) (pre post : Str) : Prop :=
  ∀ h' s, (∀ j ∈ r :: F.toList, ¬ Down h e j → contentOf h' j = contentOf h j ∧ (h'.node j).children = (h.node j).children) →
    Writes h' e s → Writes h' r (pre ++ s ++ post)

end Amxml.Spec
