import Verif.Model.Sax

/-!
# The DOM (`src/dom.rs`)

The graph of `Rc<Node>`s with interior mutability is an explicit heap. A `NodePtr` / `RcNode` is an id; `Rc::ptr_eq`
(`PartialEq for NodePtr`, src/dom.rs:90-94) is equality of ids. `Weak` parent references are ids too; that
`upgrade().unwrap()` succeeds is a separate question (Model/Liveness.lean). Nodes are never removed from the heap.
`Rc::clone`, `unwrap_rc`, `rc_clone`, `wrap_rc_clone` (src/dom.rs:45-47, 924-934) are the identity.
-/

namespace Amxml

/-- Node ids (`NodePtr`) are natural numbers. -/
notation "NodeId" => Nat

/-- `NodeType` (src/dom.rs:103-112). -/
inductive NodeType where
  | documentRoot | element | text | comment | xmlDecl | instruction | attribute | directive
  deriving DecidableEq, Repr

/-- `Node` (src/dom.rs:117-125). -/
structure Node where
  ntype : NodeType
  order : Int
  name : Str
  value : Str
  parent : Option NodeId
  children : List NodeId
  attributes : List NodeId
  deriving DecidableEq, Repr

/-- `make_new_rc_node` (src/dom.rs:130-146): the record of a fresh node. -/
def mkNode (ntype : NodeType) (parent : Option NodeId) (name value : Str) : Node :=
  { ntype, order := 0, name, value, parent, children := [], attributes := [] }

/-- The heap: nodes with id below `size` have been allocated. -/
structure Heap where
  size : Nat
  node : NodeId → Node

/-- The heap before any allocation. -/
def Heap.empty : Heap := { size := 0, node := fun _ => mkNode .text none [] [] }

/-- Allocation (`Rc::new`, src/dom.rs:133). -/
def Heap.alloc (h : Heap) (n : Node) : Heap :=
  { size := h.size + 1, node := fun j => if j = h.size then n else h.node j }

/-- Mutation of a node through its `RefCell`s / `Cell`. -/
def Heap.modify (h : Heap) (i : NodeId) (f : Node → Node) : Heap :=
  { h with node := fun j => if j = i then f (h.node i) else h.node j }

/-- `Vec::insert` / `push` on the children: `some n` with `n ≤ len` inserts at `n`, otherwise the node is pushed
(src/dom.rs:156-160). `none` stands for `usize::MAX`, which is larger than any length. -/
def insertHint (hint : Option Nat) (i : NodeId) (l : List NodeId) : List NodeId :=
  match hint with
  | none => l ++ [i]
  | some n => if n ≤ l.length then l.take n ++ i :: l.drop n else l ++ [i]

/-- `make_new_child_rc_node` (src/dom.rs:152-163); the new id is the old `size`. -/
def Heap.makeChild (h : Heap) (ntype : NodeType) (parent : NodeId) (name value : Str) (hint : Option Nat) : Heap :=
  (h.alloc (mkNode ntype (some parent) name value)).modify parent fun n =>
    { n with children := insertHint hint h.size n.children }

/-- An attribute node created and pushed (src/dom.rs:192-197). -/
def Heap.pushAttr (h : Heap) (i : NodeId) (a : Str × Str) : Heap :=
  (h.alloc (mkNode .attribute (some i) a.1 a.2)).modify i fun n =>
    { n with attributes := n.attributes ++ [h.size] }

/-- Errors of `new_document` (src/dom.rs:202-205, 234). -/
inductive DocErr where
  | nameMismatch (curr name : Str)
  | syntaxErr (e : SaxErr)
  deriving Repr, DecidableEq

/-- One iteration of the loop in `new_document` for a token other than EOF (src/dom.rs:187-232): the new heap and the
new `curr_node`. -/
def stepToken (h : Heap) (cur : NodeId) : Token → Except DocErr (Heap × NodeId)
  | .eof => .ok (h, cur)
  | .startElement name attr =>
    let h1 := h.makeChild .element cur name [] none
    .ok (attr.foldl (fun h' a => h'.pushAttr h.size a) h1, h.size)
  | .endElement name =>
    if (h.node cur).name ≠ name then .error (.nameMismatch (h.node cur).name name)
    else .ok (h, ((h.node cur).parent).getD cur)
  | .charData s => .ok (h.makeChild .text cur [] s none, cur)
  | .procInst target inst =>
    if target = S "xml" then .ok (h.makeChild .xmlDecl cur (S "xml") inst none, cur)
    else .ok (h.makeChild .instruction cur target inst none, cur)
  | .comment s => .ok (h.makeChild .comment cur [] s none, cur)
  | .directive _ => .ok (h, cur)

/-- The loop of `new_document` (src/dom.rs:177-240). `none`: `raw_token` diverges, or the fuel is used up (which
does not happen with `fuel > d.measure`, see `buildLoop_fuel` in Lemmas/Build.lean). -/
def buildLoop : Nat → Dec → Heap → NodeId → Option (Except DocErr Heap)
  | 0, _, _, _ => none
  | fuel + 1, d, h, cur =>
    match rawToken d with
    | none => none
    | some (.error e, _) => some (.error (.syntaxErr e))
    | some (.ok .eof, _) => some (.ok h)
    | some (.ok tok, d') =>
      match stepToken h cur tok with
      | .error e => some (.error e)
      | .ok (h', cur') => buildLoop fuel d' h' cur'

/-- `new_document` (src/dom.rs:177-240), in a heap that may already hold other documents. The document root is the
node with id `h.size`. -/
def newDocument (h : Heap) (xml : Str) : Option (Except DocErr (Heap × NodeId)) :=
  let h1 := h.alloc (mkNode .documentRoot none [] [])
  (buildLoop (2 * xml.length + 2) (Dec.new xml) h1 h.size).map fun r => r.map fun h' => (h', h.size)

/-- `shallow_copy_rc_rels` (src/dom.rs:244-251). -/
def Heap.shallowCopy (h : Heap) (target source : NodeId) : Heap :=
  h.modify target fun n =>
    { n with children := n.children ++ (h.node source).children,
             attributes := n.attributes ++ (h.node source).attributes }

/-! ## `impl NodePtr` -/

/-- `local_name` (src/dom.rs:380-388), as a function of the name. -/
def localName (name : Str) : Str :=
  match splitOnce (S ":") name with
  | some (_, b) => b
  | none => name

/-- `space_name` (src/dom.rs:403-411). -/
def spaceName (name : Str) : Str :=
  match splitOnce (S ":") name with
  | some (a, _) => a
  | none => []

/-- The loop of `root` (src/dom.rs:466-474). Parents have smaller ids than their children (`Heap.WF`), so `i + 1`
rounds suffice. -/
def rootF (h : Heap) : Nat → NodeId → NodeId
  | 0, i => i
  | fuel + 1, i =>
    match (h.node i).parent with
    | none => i
    | some p => rootF h fuel p

/-- `root` (src/dom.rs:466-474). -/
def Heap.root (h : Heap) (i : NodeId) : NodeId := rootF h (i + 1) i

/-- `root_element` (src/dom.rs:492-500). -/
def Heap.rootElement (h : Heap) (i : NodeId) : NodeId :=
  (((h.node (h.root i)).children).find? fun c => (h.node c).ntype = .element).getD (h.root i)

/-- `nth_child` (src/dom.rs:581-588). -/
def Heap.nthChild (h : Heap) (i : NodeId) (n : Nat) : Option NodeId :=
  if n < (h.node i).children.length then (h.node i).children[n]? else none

/-- `first_child` (src/dom.rs:555-557). -/
def Heap.firstChild (h : Heap) (i : NodeId) : Option NodeId := h.nthChild i 0

/-- `clear_document_order` (src/dom.rs:883-886). -/
def Heap.clearOrder (h : Heap) (i : NodeId) : Heap := h.modify (h.root i) fun n => { n with order := 0 }

/-- `append_child` (src/dom.rs:614-619). -/
def Heap.appendChild (h : Heap) (self newChild : NodeId) : Heap :=
  (h.modify self fun n => { n with children := n.children ++ [newChild] }).clearOrder self

/-- `find_child_index` (src/dom.rs:774-783); `none` stands for `usize::MAX`. -/
def Heap.findChildIndex (h : Heap) (self target : NodeId) : Option Nat :=
  (h.node self).children.findIdx? (· == target)

/-- The copy made by the insertion functions (src/dom.rs:653-660, 697-704). -/
def Heap.insertCopy (h : Heap) (parent newNode : NodeId) (n : Nat) : Heap :=
  (h.makeChild (h.node newNode).ntype parent (h.node newNode).name (h.node newNode).value (some n)).shallowCopy
    h.size newNode

/-- `insert_as_previous_sibling` (src/dom.rs:644-663). -/
def Heap.insertPrev (h : Heap) (self newNode : NodeId) : Heap :=
  match (h.node self).parent with
  | none => h
  | some p =>
    let h := match h.findChildIndex p self with
      | some n => h.insertCopy p newNode n
      | none => h
    h.clearOrder self

/-- `insert_as_next_sibling` (src/dom.rs:688-707). -/
def Heap.insertNext (h : Heap) (self newNode : NodeId) : Heap :=
  match (h.node self).parent with
  | none => h
  | some p =>
    let h := match h.findChildIndex p self with
      | some n => h.insertCopy p newNode (n + 1)
      | none => h
    h.clearOrder self

/-- `delete_child` (src/dom.rs:730-737). -/
def Heap.deleteChild (h : Heap) (self target : NodeId) : Heap :=
  let h := match h.findChildIndex self target with
    | some n => h.modify self fun nd => { nd with children := nd.children.eraseIdx n }
    | none => h
  h.clearOrder self

/-- `replace_with` (src/dom.rs:761-769). -/
def Heap.replaceWith (h : Heap) (self newNode : NodeId) : Heap :=
  match (h.node self).parent with
  | none => h
  | some p => (((h.insertPrev self newNode).deleteChild p self).clearOrder self)

/-- `find_attribute_index` (src/dom.rs:871-879); `none` stands for `usize::MAX`. -/
def Heap.findAttributeIndex (h : Heap) (self : NodeId) (name : Str) : Option Nat :=
  (h.node self).attributes.findIdx? fun a => (h.node a).name == name

/-- `attribute_value` (src/dom.rs:800-808). -/
def Heap.attributeValue (h : Heap) (self : NodeId) (name : Str) : Option Str :=
  match h.findAttributeIndex self name with
  | some n => ((h.node self).attributes[n]?).map fun a => (h.node a).value
  | none => none

/-- `set_attribute` (src/dom.rs:829-843). -/
def Heap.setAttribute (h : Heap) (self : NodeId) (name value : Str) : Heap :=
  let a := h.size
  let h1 := h.alloc (mkNode .attribute (some self) name value)
  let h2 := match h1.findAttributeIndex self name with
    | some n => h1.modify self fun nd =>
        { nd with attributes := (nd.attributes.eraseIdx n).take n ++ a :: (nd.attributes.eraseIdx n).drop n }
    | none => h1.modify self fun nd => { nd with attributes := nd.attributes ++ [a] }
  h2.clearOrder self

/-- `delete_attribute` (src/dom.rs:860-867). -/
def Heap.deleteAttribute (h : Heap) (self : NodeId) (name : Str) : Heap :=
  let h1 := match h.findAttributeIndex self name with
    | some n => h.modify self fun nd => { nd with attributes := nd.attributes.eraseIdx n }
    | none => h
  h1.clearOrder self

/-- The loop of `namespace_uri` (src/dom.rs:437-446). -/
def namespaceLoop (h : Heap) (attr : Str) : Nat → NodeId → Str
  | 0, _ => []
  | fuel + 1, i =>
    if (h.node i).ntype ≠ .documentRoot then
      match h.attributeValue i attr with
      | some v => v
      | none =>
        match (h.node i).parent with
        | some p => namespaceLoop h attr fuel p
        | none => []
    else []

/-- `namespace_uri` (src/dom.rs:429-449). -/
def Heap.namespaceUri (h : Heap) (i : NodeId) : Str :=
  let space := spaceName (h.node i).name
  let attr := if space ≠ [] then S "xmlns" ++ S ":" ++ space else S "xmlns"
  namespaceLoop h attr (i + 1) i

/-! ## document order -/

/-- The orders given to the attributes (src/dom.rs:911-914). -/
def setAttrOrders (h : Heap) : List NodeId → Int → Heap × Int
  | [], order => (h, order)
  | a :: as, order => setAttrOrders (h.modify a fun n => { n with order := order }) as (order + 1)

/-- `setup_document_order_sub` (src/dom.rs:907-919) for a node and for a list of siblings; the list version is the
`for` loop over the children. Fuel bounds the recursion depth (a cyclic graph recurses forever): `none` = fuel used
up. -/
def setupOrderF : Nat → Heap → List NodeId → Int → Option (Heap × Int)
  | _, h, [], order => some (h, order)
  | 0, _, _ :: _, _ => none
  | fuel + 1, h, c :: cs, order =>
    -- `order = ch.setup_document_order_sub(order + 1)`
    let beg := order + 1
    let h1 := h.modify c fun n => { n with order := beg }
    let r := setAttrOrders h1 (h1.node c).attributes (beg + 1)
    match setupOrderF fuel r.1 (r.1.node c).children r.2 with
    | none => none
    | some (h2, o2) => setupOrderF fuel h2 cs o2

/-- `setup_document_order` (src/dom.rs:901-903): `setup_document_order_sub(1)` on the root, i.e. the loop body above
with `order = 0`. -/
def setupOrder (fuel : Nat) (h : Heap) (root : NodeId) : Option Heap := (setupOrderF fuel h [root] 0).map (·.1)

/-- `document_order` (src/dom.rs:891-897): the order and the heap afterwards. -/
def Heap.documentOrder (fuel : Nat) (h : Heap) (i : NodeId) : Option (Int × Heap) :=
  let root := h.root i
  if (h.node root).order = 0 then (setupOrder fuel h root).map fun h' => ((h'.node i).order, h')
  else some ((h.node i).order, h)

/-! ## serialisation -/

/-- `nl_if_positive` (src/dom.rs:1016-1018). -/
def nlIfPositive (n : Nat) : Str := if 0 < n then S "\n" else []

/-- The attributes in a start tag (src/dom.rs:950-953). -/
def attrsToString (h : Heap) (as : List NodeId) : Str :=
  as.flatMap fun a => S " " ++ (h.node a).name ++ S "=\"" ++ encodeEntity (h.node a).value ++ S "\""

/-- `to_string_with_indent` (src/dom.rs:939-995) applied to each node of a list of siblings, concatenated; `[i]` gives
the function itself. Fuel bounds the recursion; `none` = fuel used up. -/
def toStringF : Nat → Heap → List NodeId → (indent step : Nat) → Option Str
  | _, _, [], _, _ => some []
  | 0, _, _ :: _, _, _ => none
  | fuel + 1, h, i :: is, indent, step =>
    let n := h.node i
    let sp := List.replicate indent ' '
    let nl := nlIfPositive step
    let one : Option Str :=
      match n.ntype with
      | .documentRoot => toStringF fuel h n.children indent step
      | .element =>
        let start := sp ++ S "<" ++ n.name ++ attrsToString h n.attributes
        if n.children.length = 0 then some (start ++ S "/>" ++ nl)
        else (toStringF fuel h n.children (indent + step) step).map fun inner =>
          start ++ S ">" ++ nl ++ inner ++ sp ++ S "</" ++ n.name ++ S ">" ++ nl
      | .text => some (sp ++ encodeEntity n.value ++ nl)
      | .comment => some (sp ++ S "<!--" ++ n.value ++ S "-->" ++ nl)
      | .xmlDecl => some (sp ++ S "<?xml " ++ n.value ++ S "?>" ++ nl)
      | .instruction => some (sp ++ S "<?" ++ n.name ++ S " " ++ n.value ++ S "?>" ++ nl)
      | .attribute => some []
      | .directive => some []
    match one, toStringF fuel h is indent step with
    | some a, some b => some (a ++ b)
    | _, _ => none

/-- `to_string` (src/dom.rs:271-273). -/
def Heap.toString (fuel : Nat) (h : Heap) (i : NodeId) : Option Str := toStringF fuel h [i] 0 0

/-- `to_pretty_string` (src/dom.rs:297-299). -/
def Heap.toPrettyString (fuel : Nat) (h : Heap) (i : NodeId) : Option Str := toStringF fuel h [i] 0 4

/-- Appending to a buffer (`push_str`), where the appended call may not return. -/
def pushStr : Option Str → Option Str → Option Str
  | some a, some b => some (a ++ b)
  | _, _ => none

/-- `inner_xml` (src/dom.rs:315-321): the children's `to_string()`, concatenated. -/
def Heap.innerXml (fuel : Nat) (h : Heap) (i : NodeId) : Option Str :=
  (h.node i).children.foldl (fun acc c => pushStr acc (h.toString fuel c)) (some [])

end Amxml
