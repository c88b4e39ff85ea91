import Verif.Model.Axes
import Verif.Model.XItem

/-!
# The recursive functions over a document, with their depth of recursion

The same functions as in Model/Dom, Model/Axes and Model/XItem, but with the number of calls that may be nested (frames on the stack) as the first
argument: `none` if they are more. The loops over the children are loops here, too, so a node with many children needs no deeper stack than one with few.
-/

namespace Amxml

/-- A loop that calls a function for each node and appends what it gives (`for ch in children.iter() { s += &f(ch) }`, src/dom.rs:943-945). -/
def eachD {α : Type} (f : NodeId → Option (List α)) : List NodeId → Option (List α)
  | [] => some []
  | i :: is =>
    match f i with
    | none => none
    | some a =>
      match eachD f is with
      | none => none
      | some b => some (a ++ b)

/-- `to_string_with_indent` (src/dom.rs:939-995). -/
def toStringD (h : Heap) (step : Nat) : Nat → NodeId → Nat → Option Str
  | 0, _, _ => none
  | depth + 1, i, indent =>
    let n := h.node i
    let sp := List.replicate indent ' '
    let nl := nlIfPositive step
    match n.ntype with
    | .documentRoot => eachD (fun c => toStringD h step depth c indent) n.children
    | .element =>
      let start := sp ++ S "<" ++ n.name ++ attrsToString h n.attributes
      if n.children.length = 0 then some (start ++ S "/>" ++ nl)
      else (eachD (fun c => toStringD h step depth c (indent + step)) n.children).map fun inner =>
        start ++ S ">" ++ nl ++ inner ++ sp ++ S "</" ++ n.name ++ S ">" ++ nl
    | .text => some (sp ++ encodeEntity n.value ++ nl)
    | .comment => some (sp ++ S "<!--" ++ n.value ++ S "-->" ++ nl)
    | .xmlDecl => some (sp ++ S "<?xml " ++ n.value ++ S "?>" ++ nl)
    | .instruction => some (sp ++ S "<?" ++ n.name ++ S " " ++ n.value ++ S "?>" ++ nl)
    | .attribute => some []
    | .directive => some []

/-- `string_value` (src/xpath_impl/xitem.rs:295-312). -/
def stringValueD (h : Heap) : Nat → NodeId → Option Str
  | 0, _ => none
  | depth + 1, i =>
    match (h.node i).ntype with
    | .documentRoot | .element => eachD (stringValueD h depth) (h.node i).children
    | .text | .attribute | .comment => some (h.node i).value
    | .xmlDecl | .instruction => some ((h.node i).name ++ ' ' :: (h.node i).value)
    | .directive => some []

/-- `typed_value` (src/xpath_impl/xitem.rs:338-368). -/
def typedValueD (h : Heap) : Nat → NodeId → Option Str
  | 0, _ => none
  | depth + 1, i =>
    match (h.node i).ntype with
    | .documentRoot | .element => eachD (typedValueD h depth) (h.node i).children
    | .text | .attribute | .comment => some (h.node i).value
    | .instruction => some ((h.node i).name ++ ' ' :: (h.node i).value)
    | .xmlDecl | .directive => some []

/-- `array_descendant` (src/xpath_impl/eval.rs:917-924). -/
def descendantD (h : Heap) : Nat → NodeId → Option (List NodeId)
  | 0, _ => none
  | depth + 1, i => eachD (fun c => (descendantD h depth c).map (c :: ·)) (h.node i).children

/-- A loop that calls a function for each node, which changes the heap and gives a number to the next turn (src/dom.rs:915-917). -/
def turnsD (f : Heap → NodeId → Int → Option (Heap × Int)) : List NodeId → Heap → Int → Option (Heap × Int)
  | [], h, o => some (h, o)
  | c :: cs, h, o =>
    match f h c (o + 1) with
    | none => none
    | some (h', o') => turnsD f cs h' o'

/-- `setup_document_order_sub` (src/dom.rs:907-919). -/
def setupOrderD : Nat → Heap → NodeId → Int → Option (Heap × Int)
  | 0, _, _, _ => none
  | depth + 1, h, i, beg =>
    let h1 := h.modify i fun n => { n with order := beg }
    let r := setAttrOrders h1 (h1.node i).attributes (beg + 1)
    turnsD (setupOrderD depth) (r.1.node i).children r.1 r.2

end Amxml
