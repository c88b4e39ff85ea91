import Verif.Props.XQuery
import Verif.Props.XNodeFn

/-!
# C117: the accessors of a node and the queries for the same thing
-/

namespace Amxml
open Spec

/-- The query, asked at the node, selects these nodes, in this order, by all functions of the interface. -/
def Spec.Finds (h : Heap) (i : NodeId) (q : Str) (l : List NodeId) : Prop :=
  ∃ N, ∀ n, N ≤ n → evalXPath h n i q = .ok (l.map .node) ∧ getNodeset h n i q = .ok l ∧ getFirstNode h n i q = .ok l.head? ∧
    eachNode h n i q (fun calls x => calls ++ [x]) [] = .ok l

/-! ## Attributes are attribute nodes -/

namespace Accessors

/-- All attributes are attribute nodes, and allocated. -/
def Kinds (h : Heap) : Prop := ∀ i, ∀ a ∈ (h.node i).attributes, (h.node a).ntype = .attribute ∧ a < h.size

theorem Kinds.alloc {h : Heap} (hk : Kinds h) {n : Node} (hn : n.attributes = []) : Kinds (h.alloc n) := by
  intro i a ha
  simp only [Heap.alloc] at ha ⊢
  split at ha
  · rw [hn] at ha; cases ha
  · have := hk i a ha
    rw [if_neg (by omega)]
    exact ⟨this.1, by omega⟩

theorem Kinds.modify {h : Heap} (hk : Kinds h) {i : NodeId} {f : Node → Node} (hn : (f (h.node i)).ntype = (h.node i).ntype)
    (ha : ∀ a ∈ (f (h.node i)).attributes, (h.node a).ntype = .attribute ∧ a < h.size) : Kinds (h.modify i f) := by
  have nt : ∀ j, ((h.modify i f).node j).ntype = (h.node j).ntype := by
    intro j
    simp only [Heap.modify]
    split
    · rename_i e; rw [hn, e]
    · rfl
  intro j a hj
  rw [nt]
  simp only [Heap.modify] at hj ⊢
  split at hj
  · exact ha a hj
  · exact hk j a hj

/-- A change that leaves type and attributes. -/
theorem Kinds.keep {h : Heap} (hk : Kinds h) {i : NodeId} {f : Node → Node} (hn : (f (h.node i)).ntype = (h.node i).ntype)
    (ha : (f (h.node i)).attributes = (h.node i).attributes) : Kinds (h.modify i f) :=
  hk.modify hn fun a h' => hk i a (ha ▸ h')

theorem Kinds.clear {h : Heap} (hk : Kinds h) (i : NodeId) : Kinds (h.clearOrder i) := hk.keep rfl rfl

theorem Kinds.makeChild {h : Heap} (hk : Kinds h) (t : NodeType) (p : NodeId) (n v : Str) (k : Option Nat) : Kinds (h.makeChild t p n v k) :=
  (hk.alloc rfl).keep rfl rfl

theorem Kinds.pushAttr {h : Heap} (hk : Kinds h) (i : NodeId) (a : Str × Str) : Kinds (h.pushAttr i a) := by
  refine (hk.alloc rfl).modify rfl fun b hb => ?_
  rcases List.mem_append.1 hb with hb | hb
  · exact (hk.alloc rfl) i b hb
  · obtain rfl := List.mem_singleton.1 hb
    simp [Heap.alloc, mkNode]

theorem Kinds.insertCopy {h : Heap} (hk : Kinds h) (p x : NodeId) (n : Nat) : Kinds (h.insertCopy p x n) := by
  unfold Heap.insertCopy Heap.shallowCopy
  refine (hk.makeChild _ _ _ _ _).modify rfl fun b hb => ?_
  rcases List.mem_append.1 hb with hb | hb
  · exact hk.makeChild _ _ _ _ _ _ b hb
  · exact hk.makeChild _ _ _ _ _ x b hb

theorem Kinds.insertPrev {h : Heap} (hk : Kinds h) (i x : NodeId) : Kinds (h.insertPrev i x) := by
  unfold Heap.insertPrev
  split
  · exact hk
  · refine Kinds.clear ?_ _
    split
    · exact hk.insertCopy _ _ _
    · exact hk

theorem Kinds.insertNext {h : Heap} (hk : Kinds h) (i x : NodeId) : Kinds (h.insertNext i x) := by
  unfold Heap.insertNext
  split
  · exact hk
  · refine Kinds.clear ?_ _
    split
    · exact hk.insertCopy _ _ _
    · exact hk

theorem Kinds.deleteChild {h : Heap} (hk : Kinds h) (i x : NodeId) : Kinds (h.deleteChild i x) := by
  unfold Heap.deleteChild
  refine Kinds.clear ?_ _
  split
  · exact hk.keep rfl rfl
  · exact hk

theorem Kinds.edit {h : Heap} (hk : Kinds h) (e : Edit) : Kinds (e.apply h) := by
  cases e with
  | setAttribute i n v =>
    show Kinds (h.setAttribute i n v)
    unfold Heap.setAttribute
    have h1 : Kinds (h.alloc (mkNode .attribute (some i) n v)) := hk.alloc rfl
    have new : ((h.alloc (mkNode .attribute (some i) n v)).node h.size).ntype = .attribute ∧ h.size < (h.alloc (mkNode .attribute (some i) n v)).size := by
      simp [Heap.alloc, mkNode]
    refine Kinds.clear ?_ _
    split
    · refine h1.modify rfl fun b hb => ?_
      rcases List.mem_append.1 hb with hb | hb
      · exact h1 i b (List.mem_of_mem_eraseIdx (List.mem_of_mem_take hb))
      · rcases List.mem_cons.1 hb with rfl | hb
        · exact new
        · exact h1 i b (List.mem_of_mem_eraseIdx (List.mem_of_mem_drop hb))
    · refine h1.modify rfl fun b hb => ?_
      rcases List.mem_append.1 hb with hb | hb
      · exact h1 i b hb
      · obtain rfl := List.mem_singleton.1 hb
        exact new
  | deleteAttribute i n =>
    show Kinds (h.deleteAttribute i n)
    unfold Heap.deleteAttribute
    refine Kinds.clear ?_ _
    split
    · exact hk.modify rfl fun b hb => hk i b (List.mem_of_mem_eraseIdx hb)
    · exact hk
  | appendChild i c => exact Kinds.clear (hk.keep rfl rfl) _
  | insertPrev i x => exact hk.insertPrev i x
  | insertNext i x => exact hk.insertNext i x
  | deleteChild i x => exact hk.deleteChild i x
  | replaceWith i x =>
    show Kinds (h.replaceWith i x)
    unfold Heap.replaceWith
    split
    · exact hk
    · exact ((hk.insertPrev i x).deleteChild _ _).clear _

theorem Kinds.token {h h' : Heap} (hk : Kinds h) {cur cur' : NodeId} {t : Token} (hs : stepToken h cur t = .ok (h', cur')) : Kinds h' := by
  cases t with
  | startElement n as =>
    simp only [stepToken, Except.ok.injEq, Prod.mk.injEq] at hs
    obtain ⟨rfl, -⟩ := hs
    have : ∀ (as : List (Str × Str)) (g : Heap), Kinds g → Kinds (as.foldl (fun h' a => h'.pushAttr h.size a) g) := by
      intro as
      induction as with
      | nil => exact fun g hg => hg
      | cons a as ih => exact fun g hg => ih _ (hg.pushAttr _ _)
    exact this as _ (hk.makeChild _ _ _ _ _)
  | endElement n =>
    simp only [stepToken] at hs
    split at hs
    · cases hs
    · cases hs; exact hk
  | procInst a b =>
    simp only [stepToken] at hs
    split at hs <;> (cases hs; exact hk.makeChild _ _ _ _ _)
  | eof => cases hs; exact hk
  | directive s => cases hs; exact hk
  | charData s => cases hs; exact hk.makeChild _ _ _ _ _
  | comment s => cases hs; exact hk.makeChild _ _ _ _ _

theorem Kinds.tokens {h h' : Heap} (hk : Kinds h) {cur cur' : NodeId} {ts : List Token} (hs : buildTokens ts h cur = .ok (h', cur')) : Kinds h' := by
  induction ts generalizing h cur with
  | nil => cases hs; exact hk
  | cons t ts ih =>
    rw [buildTokens] at hs
    split at hs
    · cases hs
    · rename_i e; exact ih (hk.token e) hs

theorem reach_kinds {h : Heap} (hr : Reach h) : Kinds h := by
  induction hr with
  | empty => intro i a ha; cases ha
  | parse _ hd ih =>
    obtain ⟨-, ts, cur, -, hb⟩ := newDocument_ok hd
    exact Kinds.tokens (ih.alloc rfl) hb
  | edit e _ _ ih => exact ih.edit e
  | query hr hd hm hq ih =>
    unfold Heap.documentOrder at hq
    simp only [root_eq hd hr.inv.1 hm] at hq
    split at hq
    · simp only [Option.map_eq_some_iff, Prod.mk.injEq] at hq
      obtain ⟨h2, hs, _, rfl⟩ := hq
      obtain ⟨h3, hf, hsz, hsame, -⟩ := setupOrder_doc hd
      have : h2 = h3 := setupOrder_fuel hs hf
      subst this
      intro i a ha
      have e : ∀ j, h2.node j = _ := fun j => hsame j
      rw [e i] at ha
      rw [e a, hsz]
      exact ih i a ha
    · cases hq; exact ih

/-! ## Evaluating the queries -/

theorem finds_of {h : Heap} {i : NodeId} {q : Str} {x : XNode} {l : List NodeId} (hq : Parser.compileXPath q = .ok x)
    (hv : Value h [.node i] x Env.new (XSeq.ofNodes l)) : Finds h i q l := by
  obtain ⟨N, hN⟩ := eval_of_evaluate h [.node i] x Env.new
  refine ⟨N, fun n hn => ?_⟩
  have he : evalXPath h n i q = .ok (XSeq.ofNodes l) := by
    unfold evalXPath
    rw [hq]
    simp only [matchXPath]
    rw [hN n hn]
    unfold Value at hv
    rw [hv]
  obtain ⟨h1, h2, -, h4⟩ := C49_value h n i q _ he
  have e : nodesOf (XSeq.ofNodes l) = l := by rw [← nodesOf_eq]; exact toNodeset_ofNodes _
  rw [e] at h1 h2 h4
  exact ⟨he, h1, h2, h4⟩

theorem step_value {h : Heap} {i : NodeId} {t : XNodeType} {n : Str} {x : XNode} {l : List NodeId} (ht : t ∈ axes)
    (hl : axisNodes h i (.node t n x .nil) = some l) (env : Env) : Value h [.node i] (.node t n x .nil) env (XSeq.ofNodes l) := by
  unfold Value
  rw [step_run ht, E.bind_run]
  unfold locStep
  rw [hl]
  show Except.ok (XSeq.ofNodes (XSeq.toNodeset (XSeq.ofNodes l)), env) = _
  rw [toNodeset_ofNodes]

theorem filter_true {α : Type} {p : α → Bool} {l : List α} (h : ∀ x ∈ l, p x = true) : l.filter p = l := List.filter_eq_self.2 h

end Accessors

open Accessors

/-- **C117**, the surroundings of a node: for every node of every heap. -/
theorem C117_navigation (h : Heap) (i : NodeId) :
    Finds h i (S "node()") (h.node i).children ∧
    Finds h i (S "..") (h.node i).parent.toList ∧
    Finds h i (S "/") [h.root i] ∧
    Finds h i (S ".") [i] ∧
    (∀ k, k + 1 < 2 ^ 63 → Finds h i (S "node()[" ++ F64.natStr (k + 1) ++ S "]") (h.nthChild i k).toList) ∧
    Finds h i (S "node()[1]") (h.firstChild i).toList := by
  have ch : ∀ env, Value h [.node i] (Core.tree (.child .node) .nil) env (XSeq.ofNodes (h.node i).children) := fun env =>
    step_value (by decide) (by
      show some ((h.node i).children.filter _) = _
      rw [filter_true]
      intro j _; rfl) env
  have nth : ∀ k, k + 1 < 2 ^ 63 → Finds h i (S "node()[" ++ F64.natStr (k + 1) ++ S "]") (h.nthChild i k).toList := by
    intro k hk
    have hq := path_compiles (.rel (.one (.step (.child .node) [.nth (k + 1)]))) ⟨trivial, by
      intro p hp
      obtain rfl := List.mem_singleton.1 hp
      exact hk⟩
    have e : LPath.text (.rel (.one (.step (.child .node) [.nth (k + 1)]))) = S "node()[" ++ F64.natStr (k + 1) ++ S "]" := by
      show S "node()" ++ (('[' :: F64.natStr (k + 1) ++ S "]") ++ []) = _
      generalize F64.natStr (k + 1) = w
      simp [S]
    rw [e] at hq
    refine finds_of hq ?_
    have := C35_step_position h .axisChild (by decide) _ _ (tip .integerLiteral (F64.natStr (k + 1))) false rfl i Env.new _ (ch Env.new) (k + 1 : Nat)
      fun m x _ => nat_literal hk _ _
    refine Eq.mp ?_ this
    congr 1
    show ((XSeq.ofNodes (h.node i).children)[k]?).toList = _
    unfold Heap.nthChild XSeq.ofNodes
    rw [List.getElem?_map]
    split
    · cases (h.node i).children[k]? <;> rfl
    · rename_i hlt
      rw [List.getElem?_eq_none (by omega)]; rfl
  refine ⟨finds_of (x := Core.tree (.child .node) .nil) (by decide +kernel) (ch _), ?_, ?_, finds_of (x := tip .contextItem (S ".")) (by decide +kernel) (self_value _ _), nth, ?_⟩
  · refine finds_of (x := tip .axisParent (S "node()")) (by decide +kernel) (step_value (by decide) ?_ _)
    show (match (h.node i).parent with
      | some p => some (if matchNodeTest h p (tip .axisParent (S "node()")) then [p] else [])
      | none => some []) = _
    cases (h.node i).parent with
    | none => rfl
    | some p => rfl
  · refine finds_of (x := LPath.tree .root) (by decide +kernel) ?_
    have := step_value (h := h) (i := i) (t := .axisRoot) (n := S "node()") (x := .nil) (by decide) rfl Env.new
    unfold Value at this ⊢
    rw [evaluate_eq]
    show (evaluate h [.node i] (tip .axisRoot (S "node()")) >>= fun l => pure l : E XSeq) Env.new = _
    rw [E.bind_run, show tip .axisRoot (S "node()") = .node .axisRoot (S "node()") .nil .nil from rfl, this]
    rfl
  · exact nth 0 (by decide)

open Classical in
/-- **C117**, children and attributes with a test: the children that pass it, the attributes that pass it. -/
theorem C117_tests (h : Heap) (i : NodeId) (T : PTest) (hT : T.Ok) :
    Finds h i T.text' ((h.node i).children.filter fun j => T.toTest.Passes h .axisChild j) ∧
    Finds h i (S "@" ++ T.text') ((h.node i).attributes.filter fun a => T.toTest.Passes h .axisAttribute a) := by
  have pass : ∀ t j, matchNodeTest h j (stepOf t T.toTest) = decide (T.toTest.Passes h t j) := by
    intro t j
    rw [Bool.eq_iff_iff, nodeTest_iff h t _ (test_proper hT), decide_eq_true_iff]
  constructor
  · have hq := path_compiles (.rel (.one (.step (.child T) []))) ⟨hT, by simp⟩
    have e : LPath.text (.rel (.one (.step (.child T) []))) = T.text' := by
      show T.text' ++ [] = _
      simp
    rw [e] at hq
    refine finds_of hq (step_value (t := .axisChild) (by decide) ?_ _)
    show some ((h.node i).children.filter fun j => matchNodeTest h j (stepOf .axisChild T.toTest)) = _
    simp only [pass]
  · have hq := path_compiles (.rel (.one (.step (.attr T) []))) ⟨hT, by simp⟩
    have e : LPath.text (.rel (.one (.step (.attr T) []))) = S "@" ++ T.text' := by
      show ('@' :: T.text') ++ [] = _
      simp [S]
    rw [e] at hq
    refine finds_of hq (step_value (t := .axisAttribute) (by decide) ?_ _)
    show some ((h.node i).attributes.filter fun j => matchNodeTest h j (stepOf .axisAttribute T.toTest)) = _
    simp only [pass]

/-- A name as it stands in a query, with or without prefix. -/
def Spec.IsQName (m : Str) : Prop := IsNCName m ∨ ∃ p n, IsNCName p ∧ IsNCName n ∧ m = p ++ ':' :: n

theorem Accessors.qname_test {m : Str} (hm : IsQName m) : ∃ T : PTest, T.Ok ∧ T.text' = m ∧ T.toTest = .name m := by
  rcases hm with hm | ⟨p, n, hp, hn, rfl⟩
  · exact ⟨.name m, hm, rfl, rfl⟩
  · exact ⟨.qname p n, ⟨hp, hn⟩, rfl, rfl⟩

/-- **C117**, children by name. -/
theorem C117_children (h : Heap) (i : NodeId) :
    Finds h i (S "*") ((h.node i).children.filter fun j => (h.node j).ntype = .element) ∧
    Finds h i (S "text()") ((h.node i).children.filter fun j => (h.node j).ntype = .text) ∧
    ∀ m, IsQName m → Finds h i m ((h.node i).children.filter fun j => (h.node j).ntype = .element ∧ (h.node j).name = m) := by
  refine ⟨?_, ?_, fun m hm => ?_⟩
  · have := (C117_tests h i .any trivial).1
    refine Eq.mp ?_ this
    congr 1
    refine List.filter_congr fun j _ => ?_
    exact decide_eq_decide.2 Iff.rfl
  · have := (C117_tests h i .text trivial).1
    refine Eq.mp ?_ this
    congr 1
    refine List.filter_congr fun j _ => ?_
    exact decide_eq_decide.2 Iff.rfl
  · obtain ⟨T, hT, e, et⟩ := qname_test hm
    have := (C117_tests h i T hT).1
    rw [e] at this
    refine Eq.mp ?_ this
    congr 1
    refine List.filter_congr fun j _ => ?_
    rw [et]
    exact decide_eq_decide.2 Iff.rfl

/-- **C117**, the attributes of a node: for every node of every heap that parsing and editing lead to. -/
theorem C117_attributes (h : Heap) (hr : Reach h) (i : NodeId) :
    Finds h i (S "@*") (h.node i).attributes ∧
    ∀ m, IsQName m → Finds h i (S "@" ++ m) ((h.node i).attributes.filter fun a => (h.node a).name = m) ∧
      h.attributeValue i m = (((h.node i).attributes.filter fun a => (h.node a).name = m).head?).map fun a => (h.node a).value := by
  have kinds := reach_kinds hr i
  refine ⟨?_, fun m hm => ⟨?_, ?_⟩⟩
  · have := (C117_tests h i .any trivial).2
    rw [filter_true] at this
    · exact this
    · intro a ha
      exact @decide_eq_true _ (_) (kinds a ha).1
  · obtain ⟨T, hT, e, et⟩ := qname_test hm
    have := (C117_tests h i T hT).2
    rw [e] at this
    refine Eq.mp ?_ this
    congr 1
    refine List.filter_congr fun a ha => ?_
    rw [et]
    exact decide_eq_decide.2 ⟨fun k => k.2, fun k => ⟨(kinds a ha).1, k⟩⟩
  · unfold Heap.attributeValue Heap.findAttributeIndex
    generalize (h.node i).attributes = l
    induction l with
    | nil => rfl
    | cons a l ih =>
      rw [List.findIdx?_cons, List.filter_cons]
      by_cases e : (h.node a).name = m
      · simp [e]
      · rw [if_neg (by simpa using e), if_neg (by simpa using e), ← ih]
        cases List.findIdx? (fun a => (h.node a).name == m) l with
        | none => rfl
        | some k => simp

private theorem mem_nodes {h : Heap} {r : NodeId} {F : Forest NodeId} {p : LPath} {i j : NodeId} :
    j ∈ LPath.nodes h r F p i ↔ j ∈ docIds h (.cons r F .nil) ∧ p.Leads h r F i j := by
  unfold LPath.nodes; rw [List.mem_filter]; simp

private theorem mem_seg {h : Heap} {r : NodeId} {F : Forest NodeId} {c : Core} {i j : NodeId} :
    (Rel.one (.step c [])).Leads h r F i j ↔ j ∈ docIds h (.cons r F .nil) ∧ c.Reaches h r F i j := by
  show j ∈ Seg.nodes h r F i (.step c []) ↔ _
  unfold Seg.nodes
  simp [List.mem_filter]

/-- **C117**, the element of a document. -/
theorem C117_root_element (h : Heap) (hr : Reach h) (r : NodeId) (F : Forest NodeId) (hd : DocTree h r F) (hp : PlainAttrs h r F) (i : NodeId)
    (hi : i ∈ docIds h (.cons r F .nil)) :
    Finds h i (S "/*") ((h.node r).children.filter fun j => (h.node j).ntype = .element) ∧
    h.rootElement i = (((h.node r).children.filter fun j => (h.node j).ntype = .element).head?).getD r ∧ h.root i = r := by
  have hroot := root_eq hd hr.inv.1 hi
  have hrm : r ∈ docIds h (.cons r F .nil) := by simp [docIds]
  obtain ⟨N, hN⟩ := C88_path h hr r F hd hp (.abs false (.one (.step (.child .any) []))) ⟨trivial, by simp⟩ i hi
  have e : LPath.nodes h r F (.abs false (.one (.step (.child .any) []))) i = (h.node r).children.filter fun j => (h.node j).ntype = .element := by
    refine sublist_ext hd.nodup List.filter_sublist ?_ fun j => ?_
    · exact List.filter_sublist.trans (axisNodes_sublist hr.inv.1 hd hp hrm (x := stepOf .axisChild .anyNode) (by
        show some ((h.node r).children.filter _) = _
        rw [filter_true]
        intro j _; rfl))
    · rw [mem_nodes, List.mem_filter, decide_eq_true_iff]
      have hax := (onAxis_iff hr.inv.1 hd hp hrm j).2.2.1
      constructor
      · rintro ⟨-, k, hk, hj⟩
        obtain rfl : k = r := hk.resolve_right fun k => nomatch k.1
        have hj := (mem_seg.1 hj).2
        exact ⟨hax.2 hj.1, hj.2⟩
      · rintro ⟨h1, h2⟩
        have hin := (axisNodes_sublist hr.inv.1 hd hp hrm (x := stepOf .axisChild .anyNode) rfl).subset (List.mem_filter.2 ⟨h1, rfl⟩)
        exact ⟨hin, r, .inl rfl, mem_seg.2 ⟨hin, hax.1 h1, h2⟩⟩
  refine ⟨⟨N, fun n hn => e ▸ hN n hn⟩, ?_, hroot⟩
  unfold Heap.rootElement
  rw [hroot, List.head?_filter]

/-- **C117**, the names of a node. -/
theorem C117_names (h : Heap) (i : NodeId) : ∃ N, ∀ n, N ≤ n →
    evalXPath h n i (S "name()") = .ok [.string (h.node i).name] ∧
    evalXPath h n i (S "local-name()") = .ok [.string (localName (h.node i).name)] ∧
    evalXPath h n i (S "namespace-uri()") = .ok [.string (h.namespaceUri i)] := by
  have key : ∀ (q f v : Str), Parser.compileXPath q = .ok (callOf f []) → Value h [.node i] (callOf f []) Env.new [.string v] →
      ∃ N, ∀ n, N ≤ n → evalXPath h n i q = .ok [.string v] := by
    intro q f v hq hv
    obtain ⟨N, hN⟩ := eval_of_evaluate h [.node i] (callOf f []) Env.new
    refine ⟨N, fun n hn => ?_⟩
    unfold evalXPath
    rw [hq]
    simp only [matchXPath]
    rw [hN n hn]
    unfold Value at hv
    rw [hv]
  obtain ⟨c1, c2, c3⟩ := (C70_names h).1 i
  obtain ⟨n1, h1⟩ := key (S "name()") (S "fn:name") _ (by decide +kernel) (((C70_context h _ Env.new _ (by decide)).1 _).2 c1)
  obtain ⟨n2, h2⟩ := key (S "local-name()") (S "fn:local-name") _ (by decide +kernel) (((C70_context h _ Env.new _ (by decide)).1 _).2 c2)
  obtain ⟨n3, h3⟩ := key (S "namespace-uri()") (S "fn:namespace-uri") _ (by decide +kernel) (((C70_context h _ Env.new _ (by decide)).1 _).2 c3)
  exact ⟨max n1 (max n2 n3), fun n hn => ⟨h1 n (by omega), h2 n (by omega), h3 n (by omega)⟩⟩

/-- In `<a x="1" y="2"><b/><c/></a>` (document 0, element 1, attributes 2 and 3, children 4 and 5). -/
example : Finds editSample 1 (S "c") [5] ∧ Finds editSample 1 (S "@y") [3] ∧ editSample.attributeValue 1 (S "y") = some (S "2") ∧ Finds editSample 5 (S "/*") [1] ∧
    editSample.rootElement 5 = 1 ∧ Finds editSample 5 (S "..") [1] ∧ Finds editSample 1 (S "node()[2]") [5] := by
  have hr : Reach editSample := .parse .empty editSample_parsed
  refine ⟨(C117_children _ 1).2.2 (S "c") (.inl (by decide)), ((C117_attributes _ hr 1).2 (S "y") (.inl (by decide))).1, rfl,
    (C117_root_element _ hr 0 _ editSample_doc ⟨by decide, by decide⟩ 5 (by decide)).1, rfl, (C117_navigation _ 5).2.1, (C117_navigation _ 1).2.2.2.2.1 1 (by decide)⟩

end Amxml
