import Verif.Props.XFunc
import Verif.Props.Edit
import Verif.Props.XCast
import Verif.Props.XStep
import Verif.Props.XFocus

/-!
# What happens in the cases that C17, C56, C61, C76, C81 and C82 leave out

The code departs from these properties: here is what it does instead, for all arguments.
-/

namespace Amxml
open Spec

/-! ## C17: deleting an attribute that is there more than once -/

/-- **C17**, exactly: after `delete_attribute` the element shows the second value it had for that name, if there was one: of several attributes of
the same name the first is deleted and the others stay. -/
theorem C17_exact (h : Heap) (i : NodeId) (n : Str) :
    (h.deleteAttribute i n).attributeValue i n = (((contentOf h i).attrs.filter fun a => a.1 == n).map fun a => a.2)[1]? := by
  rw [attributeValue_eq, deleteAttribute_attrs]
  generalize (contentOf h i).attrs = l
  induction l with
  | nil => rfl
  | cons a l ih =>
    rw [Spec.removeFirst]
    by_cases e : a.1 = n
    · rw [if_pos e, List.filter_cons_of_pos (by simpa using e), List.map_cons, List.getElem?_cons_succ]
      clear ih
      induction l with
      | nil => rfl
      | cons b l ih =>
        by_cases e2 : b.1 = n
        · rw [List.find?_cons_of_pos (by simpa using e2), List.filter_cons_of_pos (by simpa using e2)]; rfl
        · rw [List.find?_cons_of_neg (by simpa using e2), List.filter_cons_of_neg (by simpa using e2)]; exact ih
    · rw [if_neg e, List.find?_cons_of_neg (by simpa using e), List.filter_cons_of_neg (by simpa using e)]; exact ih

/-! ## C61: `fn:codepoints-to-string` of any integers -/

/-- The UTF-16 code units of a character. -/
def Spec.utf16 (c : Char) : List Nat :=
  if c.toNat < 0x10000 then [c.toNat] else [0xD800 + (c.toNat - 0x10000) / 0x400, 0xDC00 + (c.toNat - 0x10000) % 0x400]

/-- The UTF-16 code units that the code makes of an integer: the integer as an unsigned number of 64 bits; one from 2^16 on is split into two
halves, each cut to 16 bits. -/
def Spec.unitsFor (n : Int) : List Nat :=
  let u := (n % 2 ^ 64).toNat
  if u < 0x10000 then [u] else [((u - 0x10000) / 0x400 + 0xD800) % 0x10000, ((u - 0x10000) % 0x400 + 0xDC00) % 0x10000]

theorem unitsFor_eq (n : Int) : unitsOf (asU64 n) = unitsFor n := by
  unfold unitsOf unitsFor asU64
  simp only
  split <;> split <;> first | omega | rfl

theorem utf16_eq (c : Char) : unitsOf c.toNat = utf16 c := by
  have h1 : c.toNat < 0xD800 ∨ 0xDFFF < c.toNat ∧ c.toNat < 0x110000 := by
    have := c.valid
    simpa [UInt32.isValidChar, Nat.isValidChar] using this
  unfold unitsOf utf16
  split <;> split
  · omega
  · simp only [List.cons.injEq, and_true]; omega
  · rfl
  · omega

theorem ofNat_toNat {n : Nat} (hn : n.isValidChar) : (Char.ofNat n).toNat = n := by
  rw [Char.ofNat, dif_pos hn]
  unfold Char.ofNatAux Char.toNat UInt32.toNat
  rfl

theorem fromUtf16_some : ∀ (us : List Nat) (s : Str), (∀ u ∈ us, u < 0x10000) → (fromUtf16 us = some s ↔ us = s.flatMap utf16)
  | [], s, _ => by
    rw [fromUtf16]
    cases s with
    | nil => simp
    | cons c s =>
      simp only [Option.some.injEq, List.flatMap_cons, reduceCtorEq, false_iff]
      unfold utf16
      split <;> simp
  | u :: r, s, hu => by
    constructor
    · intro hs
      have h0 := hu u (by simp)
      rw [fromUtf16.eq_def] at hs
      simp only at hs
      split at hs
      · cases r with
        | nil => cases hs
        | cons l r' =>
          simp only at hs
          split at hs
          · cases hr : fromUtf16 r' with
            | none => rw [hr] at hs; cases hs
            | some t =>
              rw [hr] at hs
              cases hs
              have ih := (fromUtf16_some r' t fun v hv => hu v (by simp [hv])).1 hr
              rw [List.flatMap_cons, ← ih, utf16, ofNat_toNat (by unfold Nat.isValidChar; omega), if_neg (by omega)]
              simp only [List.cons_append, List.nil_append, List.cons.injEq, and_true]
              omega
          · cases hs
      · split at hs
        · cases hs
        · cases hr : fromUtf16 r with
          | none => rw [hr] at hs; cases hs
          | some t =>
            rw [hr] at hs
            cases hs
            have ih := (fromUtf16_some r t fun v hv => hu v (by simp [hv])).1 hr
            rw [List.flatMap_cons, ← ih, utf16, ofNat_toNat (by unfold Nat.isValidChar; omega), if_pos (by omega)]
            rfl
    · intro e
      rw [e]
      clear e hu
      induction s with
      | nil => rfl
      | cons c s ih =>
        rw [List.flatMap_cons, ← utf16_eq, fromUtf16_char, ih]; rfl

theorem unitsFor_small {ns : List Int} : ∀ u ∈ ns.flatMap unitsFor, u < 0x10000 := by
  intro u hu
  obtain ⟨n, -, hn⟩ := List.mem_flatMap.1 hu
  unfold unitsFor at hn
  simp only at hn
  split at hn
  · simp only [List.mem_singleton] at hn; omega
  · simp only [List.mem_cons, List.not_mem_nil, or_false] at hn; omega

/-- **C61**, exactly: `fn:codepoints-to-string` of integers gives the string `s` if the units made of the integers, put together, are the UTF-16 text
of `s`; if they are the UTF-16 text of no string, it is a dynamic error. So integers that are no code points are errors except where their units, by
themselves or with their neighbours', happen to be well-formed. -/
theorem C61_exact (h : Heap) (ns : List Int) :
    (∀ s, CallGives h (S "fn:codepoints-to-string") [ns.map .integer] [.string s] ↔ ns.flatMap unitsFor = s.flatMap utf16) ∧
    ((∀ s : Str, ns.flatMap unitsFor ≠ s.flatMap utf16) → CallFails h (S "fn:codepoints-to-string") [ns.map .integer] .dynamicError) := by
  have hm : ((ns.map XItem.integer).mapM fun x : XItem => x.rawInteger h) = .ok ns := by
    refine mapM_ok ?_
    induction ns with
    | nil => exact .nil
    | cons c s ih => exact .cons rfl ih
  have e : fnCodepointsToString h (ns.map .integer) = match fromUtf16 (ns.flatMap unitsFor) with
      | some s => .ok [.string s]
      | none => .error .dynamicError := by
    rw [fnCodepointsToString, hm]
    have : (fun n => unitsOf (asU64 n)) = unitsFor := funext unitsFor_eq
    rw [this]; rfl
  constructor
  · intro s
    rw [← fromUtf16_some _ s unitsFor_small]
    constructor
    · intro hg
      cases hf : fromUtf16 (ns.flatMap unitsFor) with
      | some t =>
        rw [hf] at e
        have := CallGives.unique hg (calls_of 1 _ (hg := e))
        cases this; rfl
      | none =>
        rw [hf] at e
        have := fails_of (f := S "fn:codepoints-to-string") (vs := [ns.map .integer]) 1 _ (hg := e)
        exact (hg.not_fails this).elim
    · intro hf
      rw [hf] at e
      exact calls_of 1 _ (hg := e)
  · intro hs
    cases hf : fromUtf16 (ns.flatMap unitsFor) with
    | some t => exact absurd ((fromUtf16_some _ t unitsFor_small).1 hf) (hs t)
    | none =>
      rw [hf] at e
      exact fails_of 1 _ (hg := e)

/-! ## C82: integer literals that do not fit into 64 bits -/

/-- **C82**, exactly: a row of digits as a whole expression evaluates to the integer it writes if that has 64 bits, and to 0 otherwise. -/
theorem C82_exact (d : Str) (h0 : d ≠ []) (hd : IsDigits d) (h : Heap) (n : Nat) (start : NodeId) :
    evalXPath h (n + 1) start d = .ok [.integer (if digitsNumber d < 2 ^ 63 then digitsNumber d else 0)] := by
  split
  · rename_i hl
    exact C82_integer_partial d h0 hd (by unfold isI64 i64Min i64Max; omega) h n start
  · rename_i hl
    have hc : Parser.compileXPath d = .ok (tip .integerLiteral d) := by
      refine compile_number (by decide) (.integer h0 ((allDigits_iff d).2 hd)) ?_ .integer
      cases d with
      | nil => exact absurd rfl h0
      | cons c d => exact not_comment rfl (digit_ne (hd c (by simp)) (by decide))
    rw [evalXPath, hc]
    show Except.ok [XItem.integer (atoi d)] = _
    have ht : IntText d (digitsNumber d) := .plain h0 hd
    have : atoi d = 0 := by
      unfold atoi parseI64
      rw [trim_padded (.self d) (intText_solid ht), parseExp_of ht]
      simp only
      rw [if_neg (by unfold isI64 i64Min i64Max; omega)]
      rfl
    rw [this]

example : evalXPath editSample 20 0 (S "99999999999999999999") = .ok [.integer 0] :=
  (C82_exact (S "99999999999999999999") (by decide) (by unfold IsDigits; decide) editSample 19 0).trans (by
    rw [if_neg (by decide +kernel)])

/-! ## C76: the tests and axes that do not work -/

/-- **C76**, exactly, for the cases left out: a step with the test `document-node()` (with or without an element test in it) selects nothing, from any
node on any axis; a step with the test `*:n` selects nothing unless a node has a name that reads `*:n`; and from an attribute the steps along the
following, preceding, following-sibling and preceding-sibling axes select nothing, whatever the test. -/
theorem C76_exact (h : Heap) (i : NodeId) (t : XNodeType) (ht : t ∈ axes) (hne : t ≠ .axisRoot) (env : Env) :
    (∀ inner : XNode, Value h [.node i] (.node t [] (.node .kindTest [] (.node .documentTest [] inner .nil) .nil) .nil) env []) ∧
    (∀ n : Str, n ≠ S "*" → (∀ j, (h.node j).name ≠ S "*:" ++ n) → Value h [.node i] (.node t (S "*:" ++ n) .nil .nil) env []) ∧
    ((h.node i).ntype = .attribute → t ∈ [.axisFollowing, .axisPreceding, .axisFollowingSibling, .axisPrecedingSibling] →
      ∀ (n : Str) (test : XNode), Value h [.node i] (.node t n test .nil) env []) := by
  have run : ∀ (n : Str) (l : XNode), axisNodes h i (.node t n l .nil) = some [] → Value h [.node i] (.node t n l .nil) env [] := by
    intro n l hl
    unfold Value
    rw [step_run ht, E.bind_run]
    unfold locStep
    rw [hl]; rfl
  have none_ : ∀ (n : Str) (l : XNode), (∀ j, matchNodeTest h j (.node t n l .nil) = false) → axisNodes h i (.node t n l .nil) = some [] := by
    intro n l hm
    have hf : ∀ axis, matchAlongAxis h i (.node t n l .nil) axis = [] := by
      intro axis
      unfold matchAlongAxis
      rw [List.filter_eq_nil_iff]
      intro j _; rw [hm]; simp
    simp only [axes, List.mem_cons, List.not_mem_nil, or_false] at ht
    rcases ht with rfl | rfl | rfl | rfl | rfl | rfl | rfl | rfl | rfl | rfl | rfl | rfl | rfl
    all_goals first
      | exact congrArg some (hf _)
      | exact absurd rfl hne
      | skip
    · show (match (h.node i).parent with | some p => some (if matchNodeTest h p _ then [p] else []) | none => some []) = _
      cases (h.node i).parent with
      | none => rfl
      | some p => simp only [hm]; rfl
    · show some (if matchNodeTest h i _ then [i] else []) = _
      rw [hm]; rfl
  refine ⟨fun inner => run _ _ (none_ _ _ fun j => rfl), fun n hn hj => run _ _ (none_ _ _ fun j => ?_), fun ha hm n test => run _ _ ?_⟩
  · show matchNameTest h j (.node t (S "*:" ++ n) .nil .nil) = false
    rw [matchNameTest]
    have e1 : (XNode.node t (S "*:" ++ n) .nil .nil).name = S "*:" ++ n := rfl
    rw [e1]
    generalize (if (XNode.node t (S "*:" ++ n) .nil .nil).ty = XNodeType.axisAttribute then NodeType.attribute else NodeType.element) = main
    show (if S "*:" ++ n = S "node()" then true else if main ≠ (h.node j).ntype then false else if S "*:" ++ n = (h.node j).name then true else
      if S "*:" ++ n = S "*" then true else match splitOnce (S ":") (S "*:" ++ n) with
        | some (a, b) => b == S "*" && spaceName (h.node j).name == a
        | none => false) = false
    rw [if_neg (show S "*:" ++ n ≠ S "node()" by simp [S])]
    split
    · rfl
    · rw [if_neg (fun e => hj j e.symm), if_neg (show S "*:" ++ n ≠ S "*" by simp [S])]
      have hsplit : splitOnce (S ":") (S "*:" ++ n) = some (S "*", n) := rfl
      rw [hsplit]
      simp only [Bool.and_eq_false_iff]
      exact .inl (by simpa using hn)
  · simp only [List.mem_cons, List.not_mem_nil, or_false] at hm
    rcases hm with rfl | rfl | rfl | rfl
    · show some ((arrayFollowing h i).filter _) = _
      rw [arrayFollowing, if_neg (by simp [ha])]; rfl
    · show some ((arrayPreceding h i).filter _) = _
      rw [arrayPreceding, if_neg (by simp [ha])]; rfl
    · show some ((arrayFollowingSibling h i).filter _) = _
      rw [arrayFollowingSibling, if_neg (by simp [ha])]; rfl
    · show some ((arrayPrecedingSibling h i).filter _) = _
      rw [arrayPrecedingSibling, if_neg (by simp [ha])]; rfl

/-- The parser makes these trees; in the sample no name starts with `*`, and the node 2 is an attribute. -/
example : Parser.compileXPath (S "self::document-node(element(a))") = .ok (.node .axisSelf [] (.node .kindTest [] (.node .documentTest []
      (.node .elementTest (S "a") (.node .kindTestTypeName (S "xs:anyType?") .nil .nil) .nil) .nil) .nil) .nil) ∧
    Parser.compileXPath (S "child::*:n") = .ok (.node .axisChild (S "*:" ++ S "n") .nil .nil) ∧ (editSample.node 2).ntype = .attribute := by
  refine ⟨?_, ?_, ?_⟩ <;> decide +kernel

/-! ## C56: a last step that yields atomic values -/

/-- A path whose last step yields no nodes. -/
theorem slash_atoms {h : Heap} {c : XSeq} {env : Env} (nm : Str) {a x : XNode} (l : List NodeId) (w : NodeId → XSeq) (hx : x.isNil = false)
    (ha : Value h c a env (XSeq.ofNodes l)) (hw : ∀ i ∈ l, Value h [.node i] x env (w i))
    (hno : ∀ i ∈ l, w i ≠ [] → ∃ y ∈ w i, ∀ k, y ≠ .node k) : Value h c (.node .operatorPath nm a x) env (l.flatMap w) := by
  have atoms : ∀ v : XSeq, (v ≠ [] → ∃ y ∈ v, ∀ k, y ≠ .node k) → v = [] ∨ XSeq.isNoAtom v = false := by
    intro v hv
    by_cases e : v = []
    · exact .inl e
    · obtain ⟨y, hy, hk⟩ := hv e
      refine .inr ?_
      rw [XSeq.isNoAtom, List.all_eq_false]
      refine ⟨y, hy, ?_⟩
      cases y with
      | node k => exact absurd rfl (hk k)
      | _ => simp [XItem.asNode]
  unfold Value
  rw [slash_value ha hx, pathOver, if_pos (isNoAtom_ofNodes l), E.bind_run]
  have := pathLoop_value_atoms (f := fun i => evaluate h [i] x) (env := env) (fun y => match y with | .node k => w k | _ => []) (XSeq.ofNodes l) false
    (by intro y hy
        obtain ⟨i, hi, rfl⟩ := List.mem_map.1 hy
        exact hw i hi)
    (by intro y hy
        obtain ⟨i, hi, rfl⟩ := List.mem_map.1 hy
        exact atoms _ (hno i hi))
  rw [this]
  show Except.ok ((XSeq.ofNodes l).flatMap _, env) = _
  rw [XSeq.ofNodes, List.flatMap_map]

/-- **C56**, exactly, for a last step that yields no nodes: `(A/B)/C` gives the values of `C` for the nodes of `A/B`, each node once and in document
order, one after the other; `A/(B/C)`, which is what `A/B/C` means in the code, gives them for the nodes of `B` for the nodes of `A`, in that order and
with the repetitions. -/
theorem C56_exact (h : Heap) (hr : Reach h) (r : NodeId) (F : Forest NodeId) (hd : DocTree h r F)
    (c : XSeq) (n1 n2 n3 n4 : Str) (a b x : XNode) (hb : b.isNil = false) (hx : x.isNil = false) (env : Env) (l : List NodeId)
    (wb : NodeId → List NodeId) (wx : NodeId → XSeq) (ha : Value h c a env (XSeq.ofNodes l))
    (hwb : ∀ i ∈ l, Value h [.node i] b env (XSeq.ofNodes (wb i)))
    (hwx : ∀ i ∈ l, ∀ j ∈ wb i, Value h [.node j] x env (wx j))
    (hno : ∀ j, wx j ≠ [] → ∃ y ∈ wx j, ∀ k, y ≠ .node k)
    (hDb : ∀ i ∈ l, ∀ j ∈ wb i, j ∈ docIds h (.cons r F .nil)) :
    (∃ m : List NodeId, m.Sublist (docIds h (.cons r F .nil)) ∧ (∀ j, j ∈ m ↔ ∃ i ∈ l, j ∈ wb i) ∧
      Value h c (.node .operatorPath n1 (.node .operatorPath n2 a b) x) env (m.flatMap wx)) ∧
    Value h c (.node .operatorPath n3 a (.node .operatorPath n4 b x)) env (l.flatMap fun i => (wb i).flatMap wx) := by
  obtain ⟨m, v1, s1, i1⟩ := C32_path_members h hr r F hd c n2 a b hb env l wb ha hwb hDb
  refine ⟨⟨m, s1, i1, slash_atoms n1 m wx hx v1 ?_ fun j _ => hno j⟩, slash_atoms n3 l _ rfl ha ?_ ?_⟩
  · intro j hj
    obtain ⟨i, hi, hj⟩ := (i1 j).1 hj
    exact hwx i hi j hj
  · intro i hi
    exact slash_atoms n4 (wb i) wx hx (hwb i hi) (hwx i hi) fun j _ => hno j
  · intro i hi hn
    have : ∃ j ∈ wb i, wx j ≠ [] := by
      by_contra hc
      refine hn (List.flatMap_eq_nil_iff.2 fun j hj => ?_)
      by_contra hw
      exact hc ⟨j, hj, hw⟩
    obtain ⟨j, hj, hw⟩ := this
    obtain ⟨y, hy, hk⟩ := hno j hw
    exact ⟨y, List.mem_flatMap.2 ⟨j, hj, hy⟩, hk⟩

/-! ## C81: the position on the right of `!` and `/` -/

/-- **C81**, exactly, for the cases left out: on the right of `!` and of `/` the numbers `position()` and `last()` are the same for all items on the
left: those of the predicate around the whole expression, if there is one, and 0 else. -/
theorem C81_exact (h : Heap) (c : XSeq) (nm : Str) (a : XNode) (env : Env) (v : XSeq) (ha : Value h c a env v) :
    Value h c (.node .operatorMap nm a positionCall) env (v.map fun _ => .integer env.position) ∧
    Value h c (.node .operatorMap nm a lastCall) env (v.map fun _ => .integer env.last) ∧
    ((∃ l : List NodeId, v = l.map .node) →
      Value h c (.node .operatorPath nm a positionCall) env (v.map fun _ => .integer env.position) ∧
      Value h c (.node .operatorPath nm a lastCall) env (v.map fun _ => .integer env.last)) ∧
    (∀ (start : NodeId), evaluate h [.node start] positionCall ⟨0, 0, []⟩ = .ok ([.integer 0], ⟨0, 0, []⟩)) := by
  have p := fun y : XItem => (C35_position_last h [y] env .nil env.position env.last).1
  have q := fun y : XItem => (C35_position_last h [y] env .nil env.position env.last).2
  have flat : ∀ k : Nat, v.flatMap (fun _ => [XItem.integer k]) = v.map fun _ => XItem.integer k := by
    intro k
    clear ha
    induction v with
    | nil => rfl
    | cons x v ih => rw [List.flatMap_cons, ih]; rfl
  refine ⟨?_, ?_, ?_, fun start => ?_⟩
  · have := C75_map h c env nm a positionCall rfl v (fun _ => [.integer env.position]) ha fun y _ => p y
    rwa [flat] at this
  · have := C75_map h c env nm a lastCall rfl v (fun _ => [.integer env.last]) ha fun y _ => q y
    rwa [flat] at this
  · rintro ⟨l, rfl⟩
    have h1 := slash_atoms nm (x := positionCall) l (fun _ => [.integer env.position]) rfl ha (fun i _ => p (.node i))
      (fun i _ _ => ⟨.integer env.position, by simp, by simp⟩)
    have h2 := slash_atoms nm (x := lastCall) l (fun _ => [.integer env.last]) rfl ha (fun i _ => q (.node i))
      (fun i _ _ => ⟨.integer env.last, by simp, by simp⟩)
    have e : ∀ k : Nat, l.flatMap (fun _ => [XItem.integer k]) = (l.map XItem.node).map fun _ => XItem.integer k := by
      intro k; rw [← flat k, List.flatMap_map]
    rw [e] at h1 h2
    exact ⟨h1, h2⟩
  · exact (C35_position_last h [.node start] ⟨0, 0, []⟩ .nil 0 0).1

end Amxml
