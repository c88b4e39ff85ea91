import Verif.Props.XAxes
import Verif.Props.Navigate
import Verif.Props.XAgg
import Verif.Lemmas.Decide

/-!
# Functions on nodes (C70) and string values (C71)
-/

namespace Amxml
open Spec

/-! ## Specification -/

/-- What a node contributes to the text of the nodes above it, and is its own text if it is no element and no document root: texts,
attributes and comments their value; an instruction its target, a blank and its data. -/
def Spec.ownText (n : Node) : Str :=
  match n.ntype with
  | .text | .attribute | .comment => n.value
  | .instruction | .xmlDecl => n.name ++ ' ' :: n.value
  | .element | .documentRoot | .directive => []

/-- `l` is the list of the nodes below `i`, in document order. -/
def Spec.Below (h : Heap) (r : NodeId) (F : Forest NodeId) (i : NodeId) (l : List NodeId) : Prop :=
  l.Sublist (r :: F.toList) ∧ ∀ j, j ∈ l ↔ j ∈ r :: F.toList ∧ Ancestor h i j

/-- The language tag `v` is the language `t` or one of its sub-languages, the upper and lower case of `v` aside. -/
def Spec.LangMatch (h : Heap) (v t : Str) : Prop :=
  ∃ u, CallGives h (S "fn:lower-case") [[.string v]] [.string u] ∧ (u = t ∨ ∃ w, u = t ++ '-' :: w)

/-! ## The text of a node -/

theorem stringValueF_forest {h : Heap} (k : Forest NodeId) : ∀ (p : Option NodeId) (fuel : Nat), Linked h p k → k.toList.length ≤ fuel →
    (∀ j ∈ k.toList, (h.node j).ntype ≠ .element ∧ (h.node j).ntype ≠ .documentRoot → (h.node j).children = []) →
    k.roots.flatMap (stringValueF h fuel) = k.toList.flatMap fun j => ownText (h.node j) := by
  induction k with
  | nil => intro p fuel _ _ _; rfl
  | cons a k r ih1 ih2 =>
    intro p fuel hl hf hleaf
    obtain ⟨h1, h2, h3, h4, h5⟩ := hl
    simp only [Forest.toList, List.length_cons, List.length_append] at hf
    obtain ⟨f, rfl⟩ : ∃ f, fuel = f + 1 := ⟨fuel - 1, by omega⟩
    have e2 := ih2 p (f + 1) h5 (by omega) (fun j hj => hleaf j (by simp [Forest.toList, hj]))
    have e1 := ih1 _ f h4 (by omega) (fun j hj => hleaf j (by simp [Forest.toList, hj]))
    simp only [Forest.roots, Forest.toList, List.flatMap_cons, List.flatMap_append, e2]
    have hk := hleaf a (by simp [Forest.toList])
    have hnil : (h.node a).children = [] → k = .nil := fun e => by rw [h3] at e; exact Forest.roots_eq_nil.1 e
    rw [← List.append_assoc]
    congr 1
    rw [stringValueF, ownText]
    cases ht : (h.node a).ntype with
    | element => simp only [h3, e1, List.nil_append]
    | documentRoot => simp only [h3, e1, List.nil_append]
    | _ =>
      have := hnil (hk (by rw [ht]; simp))
      subst this
      simp [Forest.toList]

theorem typedValueF_forest {h : Heap} (k : Forest NodeId) : ∀ (p : Option NodeId) (fuel : Nat), Linked h p k → k.toList.length ≤ fuel →
    (∀ j ∈ k.toList, (h.node j).ntype ≠ .element ∧ (h.node j).ntype ≠ .documentRoot → (h.node j).children = []) →
    k.roots.flatMap (typedValueF h fuel) = k.toList.flatMap fun j => if (h.node j).ntype = .xmlDecl then [] else ownText (h.node j) := by
  induction k with
  | nil => intro p fuel _ _ _; rfl
  | cons a k r ih1 ih2 =>
    intro p fuel hl hf hleaf
    obtain ⟨h1, h2, h3, h4, h5⟩ := hl
    simp only [Forest.toList, List.length_cons, List.length_append] at hf
    obtain ⟨f, rfl⟩ : ∃ f, fuel = f + 1 := ⟨fuel - 1, by omega⟩
    have e2 := ih2 p (f + 1) h5 (by omega) (fun j hj => hleaf j (by simp [Forest.toList, hj]))
    have e1 := ih1 _ f h4 (by omega) (fun j hj => hleaf j (by simp [Forest.toList, hj]))
    simp only [Forest.roots, Forest.toList, List.flatMap_cons, List.flatMap_append, e2]
    have hk := hleaf a (by simp [Forest.toList])
    have hnil : (h.node a).children = [] → k = .nil := fun e => by rw [h3] at e; exact Forest.roots_eq_nil.1 e
    rw [← List.append_assoc]
    congr 1
    rw [typedValueF, ownText]
    cases ht : (h.node a).ntype with
    | element => simp only [h3, e1]; rfl
    | documentRoot => simp only [h3, e1]; rfl
    | _ =>
      have := hnil (hk (by rw [ht]; simp))
      subst this
      simp [Forest.toList]

theorem sublist_mem_unique {α : Type} {s a b : List α} (hs : s.Nodup) (ha : a.Sublist s) (hb : b.Sublist s) (hab : ∀ x, x ∈ a ↔ x ∈ b) : a = b := by
  induction s generalizing a b with
  | nil => cases ha; cases hb; rfl
  | cons y s ih =>
    rw [List.nodup_cons] at hs
    have no : ∀ {l : List α}, l.Sublist s → y ∉ l := fun hl hy => hs.1 (hl.subset hy)
    cases ha with
    | cons _ ha =>
      cases hb with
      | cons _ hb => exact ih hs.2 ha hb hab
      | cons_cons _ hb => exact absurd ((hab y).2 (by simp)) (no ha)
    | cons_cons _ ha =>
      cases hb with
      | cons _ hb => exact absurd ((hab y).1 (by simp)) (no hb)
      | cons_cons _ hb =>
        congr 1
        refine ih hs.2 ha hb fun x => ?_
        have := hab x
        simp only [List.mem_cons] at this
        constructor
        · intro hx
          rcases this.1 (.inr hx) with rfl | h
          · exact absurd hx (no ha)
          · exact h
        · intro hx
          rcases this.2 (.inr hx) with rfl | h
          · exact absurd hx (no hb)
          · exact h

/-- The nodes below a node of a document, as a forest. -/
theorem below_forest {h : Heap} (hw : HeapWF h) {r : NodeId} {F : Forest NodeId} (hd : DocTree h r F) {i : NodeId} (hi : i ∈ r :: F.toList)
    {l : List NodeId} (hl : Below h r F i l) : ∃ k, l = k.toList ∧ (h.node i).children = k.roots ∧ Linked h (some i) k ∧
      k.toList.length ≤ h.size ∧ ∀ j ∈ k.toList, j ∈ F.toList := by
  have hnd := doc_toList_nodup hd
  have hlen := doc_length_le hd
  obtain ⟨pre, post, k, q, e1, e2, e3, e4, e5⟩ := forest_position hw _ _ hd.linked i (by simpa [Forest.toList] using hi)
  simp only [Forest.toList, List.append_nil] at e1
  have hle : k.toList.length + 1 ≤ h.size := by
    have := congrArg List.length e1
    simp at this hlen; omega
  have hsub : k.toList.Sublist (r :: F.toList) := by
    rw [e1]
    exact ((List.sublist_append_left _ _).trans (List.sublist_cons_self _ _)).trans (List.sublist_append_right _ _)
  have hdesc : arrayDescendant h i = k.toList := by
    simp only [arrayDescendant]
    rw [e2, descendantF_forest k _ _ e3]
    omega
  have hmem : ∀ j, j ∈ k.toList ↔ j ∈ r :: F.toList ∧ Ancestor h i j := by
    intro j
    constructor
    · intro hj; exact ⟨hsub.subset hj, toList_ancestor e3 j hj⟩
    · rintro ⟨hj, ha⟩
      rw [← hdesc]
      exact ((C30_ancestor_descendant h hw r F hd i hi).2 j hj).2 ha
  refine ⟨k, sublist_mem_unique hnd hl.1 hsub (fun x => by rw [hl.2, hmem]), e2, e3, by omega, fun j hj => ?_⟩
  have h1 := hsub.subset hj
  simp only [List.mem_cons] at h1
  rcases h1 with rfl | h1
  · have := toList_ancestor e3 j hj
    cases this with
    | parent e => rw [hd.linked.1] at e; cases e
    | step e _ => rw [hd.linked.1] at e; cases e
  · exact h1

theorem parsed_leaf {h : Heap} {r : NodeId} {F : Forest NodeId} (hd : ParsedDoc h r F) {j : NodeId} (hj : j ∈ F.toList)
    (ht : (h.node j).ntype ≠ .element ∧ (h.node j).ntype ≠ .documentRoot) : (h.node j).children = [] := ((hd.typed j hj).leaf ht.1).1

/-- The value of `fn:string` and `fn:data` for a node. -/
theorem node_text (h : Heap) (i : NodeId) : CallGives h (S "fn:string") [[.node i]] [.string (stringValue h i)] ∧
    CallGives h (S "fn:data") [[.node i]] [.string (typedValue h i)] :=
  ⟨calls_of 1 _ (hg := rfl), calls_of 1 _ (hg := rfl)⟩

/-- **C71**: the text of an element or of the document root is made of the texts of all nodes below it in document order; `fn:data` leaves
the XML declaration out. -/
theorem C71_inner (h : Heap) (hw : HeapWF h) (r : NodeId) (F : Forest NodeId) (hd : ParsedDoc h r F) (i : NodeId) (hi : i ∈ r :: F.toList)
    (ht : (h.node i).ntype = .element ∨ (h.node i).ntype = .documentRoot) (l : List NodeId) (hl : Below h r F i l) :
    CallGives h (S "fn:string") [[.node i]] [.string (l.flatMap fun j => ownText (h.node j))] ∧
    CallGives h (S "fn:data") [[.node i]] [.string ((l.filter fun j => (h.node j).ntype ≠ .xmlDecl).flatMap fun j => ownText (h.node j))] := by
  obtain ⟨k, rfl, hc, hk, hlen, hsub⟩ := below_forest hw hd.toDocTree hi hl
  have e1 : stringValue h i = k.toList.flatMap fun j => ownText (h.node j) := by
    rw [stringValue, stringValueF]
    rcases ht with ht | ht <;> simp only [ht, hc] <;> exact stringValueF_forest k _ _ hk hlen fun j hj => parsed_leaf hd (hsub j hj)
  have e2 : typedValue h i = (k.toList.filter fun j => (h.node j).ntype ≠ .xmlDecl).flatMap fun j => ownText (h.node j) := by
    have : typedValue h i = k.toList.flatMap fun j => if (h.node j).ntype = .xmlDecl then [] else ownText (h.node j) := by
      rw [typedValue, typedValueF]
      rcases ht with ht | ht <;> simp only [ht, hc] <;> exact typedValueF_forest k _ _ hk hlen fun j hj => parsed_leaf hd (hsub j hj)
    rw [this]
    generalize k.toList = s
    induction s with
    | nil => rfl
    | cons j s ih =>
      rw [List.flatMap_cons, ih, List.filter_cons]
      by_cases hx : (h.node j).ntype = .xmlDecl
      · simp [hx]
      · simp [hx]
  rw [← e1, ← e2]
  exact node_text h i

/-- **C71**, the XPath rule: if there are no comments and instructions below an element, its text is that of the text nodes below it, in
document order. -/
theorem C71_text_partial (h : Heap) (hw : HeapWF h) (r : NodeId) (F : Forest NodeId) (hd : ParsedDoc h r F) (i : NodeId) (hi : i ∈ r :: F.toList)
    (ht : (h.node i).ntype = .element ∨ (h.node i).ntype = .documentRoot) (l : List NodeId) (hl : Below h r F i l)
    (hn : ∀ j ∈ l, (h.node j).ntype = .element ∨ (h.node j).ntype = .text) :
    CallGives h (S "fn:string") [[.node i]] [.string ((l.filter fun j => (h.node j).ntype = .text).flatMap fun j => (h.node j).value)] ∧
    CallGives h (S "fn:data") [[.node i]] [.string ((l.filter fun j => (h.node j).ntype = .text).flatMap fun j => (h.node j).value)] := by
  obtain ⟨h1, h2⟩ := C71_inner h hw r F hd i hi ht l hl
  have hf : (l.filter fun j => (h.node j).ntype ≠ .xmlDecl) = l := by
    rw [List.filter_eq_self]
    intro j hj
    rcases hn j hj with e | e <;> simp [e]
  rw [hf] at h2
  have e : (l.flatMap fun j => ownText (h.node j)) = (l.filter fun j => (h.node j).ntype = .text).flatMap fun j => (h.node j).value := by
    clear hl h1 h2 hf
    induction l with
    | nil => rfl
    | cons j l ih =>
      rw [List.flatMap_cons, ih fun x hx => hn x (by simp [hx]), List.filter_cons]
      rcases hn j (by simp) with e | e <;> simp [ownText, e]
  rw [← e]
  exact ⟨h1, h2⟩

/-- **C71**: every other node, attributes included, has its own text. -/
theorem C71_leaf (h : Heap) (i : NodeId) (ht : (h.node i).ntype ≠ .element ∧ (h.node i).ntype ≠ .documentRoot) :
    CallGives h (S "fn:string") [[.node i]] [.string (ownText (h.node i))] ∧
    ((h.node i).ntype ≠ .xmlDecl → CallGives h (S "fn:data") [[.node i]] [.string (ownText (h.node i))]) := by
  obtain ⟨h1, h2⟩ := node_text h i
  have e1 : stringValue h i = ownText (h.node i) := by
    rw [stringValue, stringValueF, ownText]
    cases hx : (h.node i).ntype <;> simp_all
  refine ⟨e1 ▸ h1, fun hx => ?_⟩
  have e2 : typedValue h i = ownText (h.node i) := by
    rw [typedValue, typedValueF, ownText]
    cases hx : (h.node i).ntype <;> simp_all
  exact e2 ▸ h2

/-- **C71**: `fn:string` of nothing is empty and of several items, maps, arrays and functions an error; `fn:data` replaces every node by its
text and leaves the other items. -/
theorem C71_sequences (h : Heap) :
    CallGives h (S "fn:string") [[]] [.string []] ∧
    (∀ s, CallGives h (S "fn:string") [[.string s]] [.string s]) ∧
    (∀ s : XSeq, 2 ≤ s.length → CallFails h (S "fn:string") [s] .typeError) ∧
    (∀ m, CallFails h (S "fn:string") [[.map m]] .typeError) ∧ (∀ a, CallFails h (S "fn:string") [[.array a]] .typeError) ∧
    (∀ f, CallFails h (S "fn:string") [[.fn f]] .typeError) ∧
    (∀ s v, CallGives h (S "fn:data") [s] v ↔ List.Forall₂ (fun x y => CallGives h (S "fn:data") [[x]] [y]) s v) ∧
    (∀ x, (∀ i, x ≠ .node i) → CallGives h (S "fn:data") [[x]] [x]) := by
  have one : ∀ x, CallGives h (S "fn:data") [[x]] [x.atomize h] := fun x => calls_of 1 _ (hg := rfl)
  refine ⟨calls_of 1 _ (hg := rfl), fun s => calls_of 1 _ (hg := rfl), fun s hs => ?_, fun _ => fails_of 1 _ (hg := rfl), fun _ => fails_of 1 _ (hg := rfl),
    fun _ => fails_of 1 _ (hg := rfl), fun s v => ?_, fun x hx => ?_⟩
  · match s, hs with
    | a :: b :: s, _ => exact fails_of 1 _ (hg := rfl)
  · rw [gives_iff 1 _]
    show Except.ok (XSeq.atomize h s) = .ok v ↔ _
    constructor
    · intro hv
      cases hv
      rw [XSeq.atomize]
      induction s with
      | nil => exact .nil
      | cons x s ih => exact .cons (one x) ih
    · intro H
      rw [XSeq.atomize]
      congr 1
      induction H with
      | nil => rfl
      | cons hx _ ih =>
        have := (one _).unique hx
        cases this
        rw [List.map_cons, ih]
  · have : x.atomize h = x := by cases x <;> first | rfl | exact absurd rfl (hx _)
    have h1 := one x
    rwa [this] at h1

/-! ## Names -/

/-- **C70**: `fn:name`, `fn:local-name` and `fn:namespace-uri` of a node are what the DOM says (C26, C27); of nothing the empty string; of
anything else an error. -/
theorem C70_names (h : Heap) :
    (∀ i, CallGives h (S "fn:name") [[.node i]] [.string (h.node i).name] ∧
      CallGives h (S "fn:local-name") [[.node i]] [.string (localName (h.node i).name)] ∧
      CallGives h (S "fn:namespace-uri") [[.node i]] [.string (h.namespaceUri i)]) ∧
    (∀ f ∈ [S "fn:name", S "fn:local-name", S "fn:namespace-uri"], CallGives h f [[]] [.string []] ∧
      ∀ s, s ≠ [] → (∀ i, s ≠ [.node i]) → CallFails h f [s] .dynamicError) := by
  refine ⟨fun i => ⟨calls_of 1 _ (hg := rfl), calls_of 1 _ (hg := rfl), calls_of 1 _ (hg := rfl)⟩, fun f hf => ?_⟩
  have err : ∀ (g : NodeId → Str) (s : XSeq), s ≠ [] → (∀ i, s ≠ [.node i]) → fnNodeString g s = .error .dynamicError := by
    intro g s hs hn
    match s, hs, hn with
    | [.node i], _, hn => exact absurd rfl (hn i)
    | x :: y :: s, _, _ => cases x <;> rfl
    | [.string _], _, _ => rfl
    | [.integer _], _, _ => rfl
    | [.decimal _], _, _ => rfl
    | [.double _], _, _ => rfl
    | [.boolean _], _, _ => rfl
    | [.map _], _, _ => rfl
    | [.array _], _, _ => rfl
    | [.fn _], _, _ => rfl
  simp only [List.mem_cons, List.not_mem_nil, or_false] at hf
  rcases hf with rfl | rfl | rfl
  all_goals exact ⟨calls_of 1 _ (hg := rfl), fun s hs hn => fails_of 1 _ (hg := err _ s hs hn)⟩

/-- **C70**: `fn:root` of a node of a document (attributes included) is the document root. -/
theorem C70_root (h : Heap) (hw : HeapWF h) (r : NodeId) (F : Forest NodeId) (hd : DocTree h r F) :
    (∀ i ∈ docIds h (.cons r F .nil), CallGives h (S "fn:root") [[.node i]] [.node r]) ∧
    CallGives h (S "fn:root") [[]] [] ∧
    (∀ s, s ≠ [] → (∀ i, s ≠ [.node i]) → CallFails h (S "fn:root") [s] .dynamicError) := by
  refine ⟨fun i hi => calls_of 1 _ (hg := ?_), calls_of 1 _ (hg := rfl), fun s hs hn => fails_of 1 _ (hg := ?_)⟩
  · show Except.ok [XItem.node (h.root i)] = _
    rw [root_eq hd hw hi]
  · match s, hs, hn with
    | [.node i], _, hn => exact absurd rfl (hn i)
    | x :: y :: s, _, _ => cases x <;> rfl
    | [.string _], _, _ => rfl
    | [.integer _], _, _ => rfl
    | [.decimal _], _, _ => rfl
    | [.double _], _, _ => rfl
    | [.boolean _], _, _ => rfl
    | [.map _], _, _ => rfl
    | [.array _], _, _ => rfl
    | [.fn _], _, _ => rfl

/-- **C70**: without an argument the functions take the context item. -/
theorem C70_context (h : Heap) (c : XSeq) (env : Env) (f : Str)
    (hf : f ∈ [S "fn:name", S "fn:local-name", S "fn:namespace-uri", S "fn:root", S "fn:string", S "fn:data", S "fn:number", S "fn:string-length",
      S "fn:normalize-space", S "fn:nilled"]) :
    (∀ v, Value h c (callOf f []) env v ↔ CallGives h f [c] v) ∧ (∀ e, Fails h c (callOf f []) env e ↔ CallFails h f [c] e) := by
  have run : ∀ {g : CtxFn}, findCtxFn f 0 = some g → evaluate h c (callOf f []) env = applyCtxFn h (call h) g [] c env := by
    intro g hg
    rw [evaluate_eq]
    show (do let args ← listE (callArg (evaluate h) c) (argChain []).chain
             evaluateFunction h (call h) f args c : E XSeq) env = _
    rw [E.bind_run, args_run (vs := []) .nil]
    show (match findCtxFn f 0 with
      | some f => applyCtxFn h (call h) f [] c
      | none => _) env = _
    rw [hg]
  have fin : ∀ {g : CtxFn} {p : PureFn}, findCtxFn f 0 = some g → findCtxFn f 1 = none → findPureFn f 1 = some p →
      (applyCtxFn h (call h) g [] c = liftE (p h [c])) →
      (∀ v, Value h c (callOf f []) env v ↔ CallGives h f [c] v) ∧ (∀ e, Fails h c (callOf f []) env e ↔ CallFails h f [c] e) := by
    intro g p hg hc hp ha
    constructor
    · intro v
      rw [gives_iff 1 p rfl hc hp, Value, run hg, ha]
      cases p h [c] with
      | ok w => simp [liftE]
      | error e => simp [liftE]
    · intro e
      rw [fails_iff 1 p rfl hc hp, Fails, run hg, ha]
      cases p h [c] with
      | ok w => simp [liftE]
      | error e => simp [liftE]
  simp only [List.mem_cons, List.not_mem_nil, or_false] at hf
  rcases hf with rfl | rfl | rfl | rfl | rfl | rfl | rfl | rfl | rfl | rfl
  all_goals exact fin rfl (by decide +kernel) rfl rfl

/-! ## fn:lang -/

theorem ancestorF_path {h : Heap} (hw : HeapWF h) {r : NodeId} (hr : (h.node r).parent = none) (l : List NodeId) :
    ∀ i fuel, PathTo h r (i :: l) → i < fuel → ancestorF h fuel i = l.reverse := by
  induction l with
  | nil =>
    intro i fuel hp hf
    obtain ⟨f, rfl⟩ : ∃ f, fuel = f + 1 := ⟨fuel - 1, by omega⟩
    simp only [PathTo] at hp
    subst hp
    simp [ancestorF, hr]
  | cons j l ih =>
    intro i fuel hp hf
    obtain ⟨f, rfl⟩ : ∃ f, fuel = f + 1 := ⟨fuel - 1, by omega⟩
    obtain ⟨hp, hl⟩ := hp
    have hlt := hw.parent_lt i j hp
    simp only [ancestorF, hp]
    rw [ih j f hl (by omega), List.reverse_cons]

theorem langOf_some {h : Heap} {v : Str} {l : List NodeId} (h1 : ∀ j ∈ l, ∀ w, h.attributeValue j (S "xml:lang") = some w → w = v)
    (h2 : ∃ j ∈ l, h.attributeValue j (S "xml:lang") = some v) : langOf h l = toLowercase v := by
  induction l with
  | nil => obtain ⟨j, hj, _⟩ := h2; simp at hj
  | cons a l ih =>
    rw [langOf]
    cases ha : h.attributeValue a (S "xml:lang") with
    | some w => rw [h1 a (by simp) w ha]
    | none =>
      refine ih (fun j hj => h1 j (by simp [hj])) ?_
      obtain ⟨j, hj, e⟩ := h2
      simp only [List.mem_cons] at hj
      rcases hj with rfl | hj
      · rw [ha] at e; cases e
      · exact ⟨j, hj, e⟩

theorem langOf_none {h : Heap} {l : List NodeId} (h1 : ∀ j ∈ l, h.attributeValue j (S "xml:lang") = none) : langOf h l = [] := by
  induction l with
  | nil => rfl
  | cons a l ih => rw [langOf, h1 a (by simp)]; exact ih fun j hj => h1 j (by simp [hj])

theorem splitOnce_dash (s : Str) :
    ('-' ∉ s ∧ splitOnce (S "-") s = none) ∨
    ∃ a b, splitOnce (S "-") s = some (a, b) ∧ s = a ++ '-' :: b ∧ '-' ∉ a := by
  have hS : S "-" = ['-'] := rfl
  rw [hS]
  induction s with
  | nil => left; simp [splitOnce]
  | cons c s ih =>
    by_cases hc : c = '-'
    · right; subst hc; exact ⟨[], s, by simp [splitOnce, stripPrefix], rfl, by simp⟩
    · rcases ih with ⟨h1, h2⟩ | ⟨a, b, h1, h2, h3⟩
      · left
        refine ⟨by simp [Ne.symm hc, h1], ?_⟩
        simp [splitOnce, stripPrefix, Ne.symm hc, h2]
      · right
        refine ⟨c :: a, b, ?_, by simp [h2], by simp [Ne.symm hc, h3]⟩
        simp [splitOnce, stripPrefix, Ne.symm hc, h1]

theorem split_first {a b t w : Str} (ha : '-' ∉ a) (ht : '-' ∉ t) (e : a ++ '-' :: b = t ++ '-' :: w) : a = t := by
  induction a generalizing t with
  | nil =>
    cases t with
    | nil => rfl
    | cons c t => simp at e ht; exact absurd e.1 ht.1
  | cons c a ih =>
    cases t with
    | nil => simp at e ha; exact absurd e.1.symm ha.1
    | cons d t =>
      simp only [List.cons_append, List.cons.injEq, List.mem_cons, not_or] at e ha ht
      rw [e.1, ih ha.2 ht.2 e.2]

/-- `beforeDash s` is `t`, for a `t` without a dash, iff `s` is `t` or starts with `t` and a dash. -/
theorem beforeDash_eq {s t : Str} (ht : '-' ∉ t) : beforeDash s = t ↔ s = t ∨ ∃ w, s = t ++ '-' :: w := by
  rw [beforeDash]
  rcases splitOnce_dash s with ⟨h1, h2⟩ | ⟨a, b, h1, h2, h3⟩
  · rw [h2]
    show s = t ↔ _
    refine ⟨.inl, ?_⟩
    rintro (h | ⟨w, rfl⟩)
    · exact h
    · simp at h1
  · rw [h1]
    show a = t ↔ _
    constructor
    · rintro rfl; exact .inr ⟨b, h2⟩
    · rintro (rfl | ⟨w, hw⟩)
      · rw [h2] at ht; simp at ht
      · rw [h2] at hw
        exact split_first h3 ht hw

/-- **C70**, `fn:lang`: let `i :: l` be the path from the node up to the root and `t` a language without sub-language. If all `xml:lang`
attributes on the path have the same value, the result is whether it is `t` or a sub-language of `t`; without such an attribute it is
false. -/
theorem C70_lang_partial (h : Heap) (hw : HeapWF h) (r : NodeId) (F : Forest NodeId) (hd : DocTree h r F) (i : NodeId) (l : List NodeId)
    (hp : PathTo h r (i :: l)) (t : Str) (ht : '-' ∉ t) (ht' : t ≠ []) :
    (∀ v, (∀ j ∈ i :: l, ∀ w, h.attributeValue j (S "xml:lang") = some w → w = v) →
      (∃ j ∈ i :: l, h.attributeValue j (S "xml:lang") = some v) →
      (LangMatch h v t → CallGives h (S "fn:lang") [[.string t], [.node i]] [.boolean true]) ∧
      (¬ LangMatch h v t → CallGives h (S "fn:lang") [[.string t], [.node i]] [.boolean false])) ∧
    ((∀ j ∈ i :: l, h.attributeValue j (S "xml:lang") = none) → CallGives h (S "fn:lang") [[.string t], [.node i]] [.boolean false]) := by
  have hpath : arrayAncestorOrSelf h i = (i :: l).reverse := by
    rw [arrayAncestorOrSelf, arrayAncestor, ancestorF_path hw hd.linked.1 l i (i + 1) hp (by omega), List.reverse_cons]
  have run : ∀ b, (b = true ↔ beforeDash (langOf h (i :: l).reverse) = t) → CallGives h (S "fn:lang") [[.string t], [.node i]] [.boolean b] := by
    intro b hb
    refine calls_of 2 _ (hg := ?_)
    show Except.ok (xbool (beforeDash (langOf h (arrayAncestorOrSelf h i)) == t)) = .ok [.boolean b]
    rw [hpath, xbool]
    congr 3
    rw [Bool.eq_iff_iff, hb]
    simp
  refine ⟨fun v h1 h2 => ?_, fun hn => ?_⟩
  · have e : langOf h (i :: l).reverse = toLowercase v :=
      langOf_some (fun j hj => h1 j (List.mem_reverse.1 hj)) (by obtain ⟨j, hj, hv⟩ := h2; exact ⟨j, List.mem_reverse.2 hj, hv⟩)
    have hm : LangMatch h v t ↔ beforeDash (langOf h (i :: l).reverse) = t := by
      rw [e, beforeDash_eq ht, LangMatch]
      constructor
      · rintro ⟨u, hu, hm⟩
        rw [gives_iff 1 _] at hu
        have : Except.ok [XItem.string (toLowercase v)] = (.ok [.string u] : Except XErr XSeq) := hu
        cases this
        exact hm
      · intro hm; exact ⟨_, calls_of 1 _ (hg := rfl), hm⟩
    exact ⟨fun H => run true ⟨fun _ => hm.1 H, fun _ => rfl⟩, fun H => run false ⟨nofun, fun x => absurd (hm.2 x) H⟩⟩
  · refine run false ?_
    rw [langOf_none fun j hj => hn j (List.mem_reverse.1 hj)]
    have : beforeDash [] = [] := rfl
    rw [this]
    simp [Ne.symm ht']

/-! ## The code and XPath differ -/

/-- `<a xml:lang="en"><b xml:lang="de-AT">x</b><!--c-->y<?p q?></a>`, as the parser builds it: root 0, `a` 1, `b` 3, texts 5 and 7. -/
def textSample : Heap :=
  let h := Heap.empty.alloc (mkNode .documentRoot none [] [])
  let h := (h.makeChild .element 0 (S "a") [] none).pushAttr 1 (S "xml:lang", S "en")
  let h := (h.makeChild .element 1 (S "b") [] none).pushAttr 3 (S "xml:lang", S "de-AT")
  let h := h.makeChild .text 3 [] (S "x") none
  let h := h.makeChild .comment 1 [] (S "c") none
  let h := h.makeChild .text 1 [] (S "y") none
  h.makeChild .instruction 1 (S "p") (S "q") none

/-- The forest of its nodes. -/
def textForest : Forest NodeId := .cons 1 (.cons 3 (.cons 5 .nil .nil) (.cons 6 .nil (.cons 7 .nil (.cons 8 .nil .nil)))) .nil

theorem textSample_doc : ParsedDoc textSample 0 textForest := by
  refine ⟨⟨?_, by decide, by decide⟩, by rfl, by rfl, ?_⟩
  · simp only [Linked, textForest]
    refine ⟨by rfl, by decide, by rfl, ⟨by rfl, by decide, by rfl, ⟨by rfl, by decide, by rfl, ⟨by rfl, by decide, by rfl, trivial, trivial⟩,
      by rfl, by decide, by rfl, trivial, by rfl, by decide, by rfl, trivial, by rfl, by decide, by rfl, trivial, trivial⟩, trivial⟩, trivial⟩
  · intro i hi
    simp [Forest.toList, textForest] at hi
    rcases hi with rfl | rfl | rfl | rfl | rfl | rfl
    all_goals exact ⟨by decide, by decide, by decide⟩

theorem textSample_wf : HeapWF textSample := by
  have w0 : HeapWF (Heap.empty.alloc (mkNode .documentRoot none [] [])) := (BuildInv.init (fun _ => True) _ .empty).wf
  have w1 := (addLeaf_element (h := Heap.empty.alloc (mkNode .documentRoot none [] [])) (cur := 0) (by decide) (S "a") [(S "xml:lang", S "en")]).heapWF w0 (by decide)
  have w2 := (addLeaf_element (cur := 1) (by decide) (S "b") [(S "xml:lang", S "de-AT")]).heapWF w1 (by decide)
  have w3 := (addLeaf_makeChild (cur := 3) (by decide) .text [] (S "x")).heapWF w2 (by decide)
  have w4 := (addLeaf_makeChild (cur := 1) (by decide) .comment [] (S "c")).heapWF w3 (by decide)
  have w5 := (addLeaf_makeChild (cur := 1) (by decide) .text [] (S "y")).heapWF w4 (by decide)
  exact (addLeaf_makeChild (cur := 1) (by decide) .instruction (S "p") (S "q")).heapWF w5 (by decide)

/-- **C71** is false of the code: comments and instructions count as text; a node is not atomized where a string is expected. -/
theorem C71_violated :
    evalXPath textSample 20 0 (S "string(/a)") = .ok [.string (S "xcyp q")] ∧
    evalXPath textSample 20 0 (S "data(/a)") = .ok [.string (S "xcyp q")] ∧
    evalXPath textSample 20 0 (S "string(/a/processing-instruction())") = .ok [.string (S "p q")] ∧
    evalXPath textSample 20 0 (S "contains(/a/b, 'x')") = .error .typeError ∧
    evalXPath textSample 20 0 (S "contains(string(/a/b), 'x')") = .ok [.boolean true] := by
  refine ⟨?_, ?_, ?_, ?_, ?_⟩ <;> run_query

/-- **C70** is false of the code: the outermost `xml:lang` counts instead of the innermost; the case of the language asked for matters, and
one with a sub-language is never found; nothing as the language gives a string, and the empty language is that of nodes without any. -/
theorem C70_violated :
    evalXPath textSample 20 0 (S "lang('de', /a/b)") = .ok [.boolean false] ∧
    evalXPath textSample 20 0 (S "lang('en', /a/b)") = .ok [.boolean true] ∧
    evalXPath textSample 20 0 (S "lang('EN', /a)") = .ok [.boolean false] ∧
    evalXPath textSample 20 0 (S "lang((), /a)") = .ok [.string []] ∧
    evalXPath editSample 20 0 (S "lang('', /a)") = .ok [.boolean true] := by
  refine ⟨?_, ?_, ?_, ?_, ?_⟩ <;> run_query

/-! ## The hypotheses are met -/

theorem textSample_below (i : NodeId) (hi : i ∈ 0 :: textForest.toList) : Below textSample 0 textForest i (arrayDescendant textSample i) := by
  have hsub : ∀ i ∈ 0 :: textForest.toList, (arrayDescendant textSample i).Sublist (0 :: textForest.toList) := by decide
  refine ⟨hsub i hi, fun j => ?_⟩
  have key := (C30_ancestor_descendant _ textSample_wf _ _ textSample_doc.toDocTree i hi).2 j
  constructor
  · intro hj
    have := (hsub i hi).subset hj
    exact ⟨this, (key this).1 hj⟩
  · rintro ⟨hj, ha⟩; exact (key hj).2 ha

example : Below textSample 0 textForest 3 [5] ∧ Below textSample 0 textForest 1 [3, 5, 6, 7, 8] :=
  ⟨textSample_below 3 (by decide), textSample_below 1 (by decide)⟩

/-- `string(/a/b)` is `x`, by the XPath rule. -/
example : CallGives textSample (S "fn:string") [[.node 3]] [.string (S "x")] :=
  (C71_text_partial _ textSample_wf _ _ textSample_doc 3 (by decide) (by decide) _ (textSample_below 3 (by decide)) (by decide)).1

/-- `a` is in `en` and not in `de`. -/
example : CallGives textSample (S "fn:lang") [[.string (S "en")], [.node 1]] [.boolean true] ∧
    CallGives textSample (S "fn:lang") [[.string (S "d")], [.node 1]] [.boolean false] := by
  have hp : PathTo textSample 0 (1 :: [0]) := ⟨by rfl, by rfl⟩
  have h1 : ∀ j ∈ [1, 0], ∀ w, textSample.attributeValue j (S "xml:lang") = some w → w = S "en" := by
    intro j hj w hv
    simp at hj
    rcases hj with rfl | rfl
    · have : textSample.attributeValue 1 (S "xml:lang") = some (S "en") := by rfl
      rw [this] at hv; cases hv; rfl
    · have : textSample.attributeValue 0 (S "xml:lang") = none := by rfl
      rw [this] at hv; cases hv
  have h2 : ∃ j ∈ [1, 0], textSample.attributeValue j (S "xml:lang") = some (S "en") := ⟨1, by simp, by rfl⟩
  have low : CallGives textSample (S "fn:lower-case") [[.string (S "en")]] [.string (S "en")] := calls_of 1 _ (hg := rfl)
  constructor
  · exact ((C70_lang_partial _ textSample_wf _ _ textSample_doc.toDocTree 1 [0] hp (S "en") (by decide) (by decide)).1 _ h1 h2).1
      ⟨_, low, .inl rfl⟩
  · refine ((C70_lang_partial _ textSample_wf _ _ textSample_doc.toDocTree 1 [0] hp (S "d") (by decide) (by decide)).1 _ h1 h2).2 ?_
    rintro ⟨u, hu, hm⟩
    have := low.unique hu
    cases this
    rcases hm with e | ⟨w, e⟩ <;> simp [S] at e

end Amxml
