import Verif.Model.XSeq
import Verif.Props.Edit
import Verif.Props.XNumeric

/-!
# C47 (maps and arrays), C48 (castable and cast)
-/

namespace Amxml
open Spec

/-- The two items have a string form, and it is the same. -/
def Spec.SameForm (h : Heap) (a b : XItem) : Prop := ∃ s, a.rawString h = .ok s ∧ b.rawString h = .ok s

theorem sameKey_iff (h : Heap) (a b : XItem) : a.sameKey h b = true ↔ SameForm h a b := by
  unfold XItem.sameKey SameForm
  split
  · rename_i s t hs ht
    simp only [beq_iff_eq, hs, ht, Except.ok.injEq]
    constructor
    · rintro rfl; exact ⟨s, rfl, rfl⟩
    · rintro ⟨u, rfl, rfl⟩; rfl
  · rename_i hn
    constructor
    · intro hh; cases hh
    · rintro ⟨s, h1, h2⟩; exact absurd h2 (hn s s h1)

/-- **C47**, maps: lookup finds the value of the first entry whose key has the string form of the wanted key, and fails
exactly when no entry has it, which is when `map:contains` is false. -/
theorem C47_map_get (h : Heap) (m : List (XItem × XSeq)) (k : XItem) :
    (∀ v, mapGet h m k = some v ↔
      ∃ pre e post, m = pre ++ (e, v) :: post ∧ SameForm h e k ∧ ∀ e' ∈ pre, ¬ SameForm h e'.1 k) ∧
    (mapGet h m k = none ↔ ∀ e ∈ m, ¬ SameForm h e.1 k) ∧
    (mapContains h m k = true ↔ ∃ e ∈ m, SameForm h e.1 k) := by
  refine ⟨fun v => ?_, ?_, ?_⟩
  · induction m with
    | nil => simp [mapGet]
    | cons e m ih =>
      by_cases hk : SameForm h e.1 k
      · have hs := (sameKey_iff h e.1 k).2 hk
        simp only [mapGet, List.find?_cons, hs, Option.map_some, Option.some.injEq]
        constructor
        · rintro rfl; exact ⟨[], e.1, m, rfl, hk, by simp⟩
        · rintro ⟨pre, e', post, he, h1, h2⟩
          cases pre with
          | nil => simp at he; rw [he.1]
          | cons p pre =>
            simp at he
            exact absurd hk (he.1 ▸ h2 p (by simp))
      · have hs : e.1.sameKey h k = false := by
          cases hc : e.1.sameKey h k with
          | false => rfl
          | true => exact absurd ((sameKey_iff h e.1 k).1 hc) hk
        have : mapGet h (e :: m) k = mapGet h m k := by simp [mapGet, List.find?_cons, hs]
        rw [this, ih]
        constructor
        · rintro ⟨pre, e', post, rfl, h1, h2⟩
          refine ⟨e :: pre, e', post, rfl, h1, ?_⟩
          intro x hx
          rcases List.mem_cons.1 hx with rfl | hx
          · exact hk
          · exact h2 x hx
        · rintro ⟨pre, e', post, he, h1, h2⟩
          cases pre with
          | nil => simp at he; exact absurd (by rw [he.1]; exact h1) hk
          | cons p pre =>
            simp at he
            exact ⟨pre, e', post, he.2, h1, fun x hx => h2 x (by simp [hx])⟩
  · simp only [mapGet, Option.map_eq_none_iff, List.find?_eq_none]
    exact forall₂_congr fun e _ => by rw [sameKey_iff]
  · simp only [mapContains, List.any_eq_true]
    exact exists_congr fun e => and_congr_right fun _ => sameKey_iff h e.1 k

/-- **C47**, arrays: lookup with the integer `n` gives the `n`-th member, counted from 1, exactly for `1 ≤ n ≤ size`. -/
theorem C47_array_get (h : Heap) (a : List XSeq) (n : Int) :
    (∀ v, arrayGet h a (.integer n) = some v ↔ ∃ pre post, a = pre ++ v :: post ∧ n = pre.length + 1) ∧
    (arrayGet h a (.integer n) = none ↔ n < 1 ∨ (a.length : Int) < n) := by
  have hd : arrayGet h a (.integer n) = if 1 ≤ n ∧ n ≤ a.length then a[(n - 1).toNat]? else none := rfl
  constructor
  · intro v
    rw [hd]
    constructor
    · intro hv
      split at hv
      · rename_i hn
        obtain ⟨hlt, hv⟩ := List.getElem?_eq_some_iff.1 hv
        refine ⟨a.take (n - 1).toNat, a.drop ((n - 1).toNat + 1), ?_, ?_⟩
        · rw [← hv, List.getElem_cons_drop hlt, List.take_append_drop]
        · rw [List.length_take]; omega
      · cases hv
    · rintro ⟨pre, post, rfl, rfl⟩
      rw [if_pos (by simp)]
      have : (((pre.length : Int) + 1) - 1).toNat = pre.length := by omega
      rw [this]; simp
  · rw [hd]
    split
    · rename_i hn
      simp only [List.getElem?_eq_none_iff]
      omega
    · rename_i hn; simp; omega

/-! ## flatten -/

theorem flattenSeq_append (s t : XSeq) : flattenSeq (s ++ t) = flattenSeq s ++ flattenSeq t := by
  induction s with
  | nil => simp [flattenSeq]
  | cons x s ih => simp [flattenSeq, ih]

theorem flattenArray_append (s t : List XSeq) : flattenArray (s ++ t) = flattenArray s ++ flattenArray t := by
  induction s with
  | nil => simp [flattenArray]
  | cons x s ih => simp [flattenArray, ih]

theorem flattenArray_flatten (a : List XSeq) : flattenArray a = flattenSeq a.flatten := by
  induction a with
  | nil => simp [flattenArray, flattenSeq]
  | cons s a ih => simp [flattenArray, flattenSeq_append, ih]

/-- The item is an array. -/
def Spec.IsArray (x : XItem) : Prop := ∃ v, x = .array v

mutual
theorem flattenArray_noArray : ∀ (a : List XSeq), ∀ x ∈ flattenArray a, ¬ IsArray x
  | [], x, hx => by simp [flattenArray] at hx
  | s :: a, x, hx => by
    simp only [flattenArray, List.mem_append] at hx
    rcases hx with hx | hx
    · exact flattenSeq_noArray s x hx
    · exact flattenArray_noArray a x hx
theorem flattenSeq_noArray : ∀ (s : List XItem), ∀ x ∈ flattenSeq s, ¬ IsArray x
  | [], x, hx => by simp [flattenSeq] at hx
  | y :: s, x, hx => by
    simp only [flattenSeq, List.mem_append] at hx
    rcases hx with hx | hx
    · exact flattenItem_noArray y x hx
    · exact flattenSeq_noArray s x hx
theorem flattenItem_noArray : ∀ (y : XItem), ∀ x ∈ flattenItem y, ¬ IsArray x
  | .array v, x, hx => flattenArray_noArray v x (by simpa [flattenItem] using hx)
  | .fn _, x, hx => by simp [flattenItem] at hx; subst hx; rintro ⟨_, h⟩; cases h
  | .map _, x, hx => by simp [flattenItem] at hx; subst hx; rintro ⟨_, h⟩; cases h
  | .node _, x, hx => by simp [flattenItem] at hx; subst hx; rintro ⟨_, h⟩; cases h
  | .string _, x, hx => by simp [flattenItem] at hx; subst hx; rintro ⟨_, h⟩; cases h
  | .integer _, x, hx => by simp [flattenItem] at hx; subst hx; rintro ⟨_, h⟩; cases h
  | .decimal _, x, hx => by simp [flattenItem] at hx; subst hx; rintro ⟨_, h⟩; cases h
  | .double _, x, hx => by simp [flattenItem] at hx; subst hx; rintro ⟨_, h⟩; cases h
  | .boolean _, x, hx => by simp [flattenItem] at hx; subst hx; rintro ⟨_, h⟩; cases h
end

theorem flattenItem_of_noArray {x : XItem} (hx : ¬ IsArray x) : flattenItem x = [x] := by
  cases x <;> first | rfl | exact absurd ⟨_, rfl⟩ hx

/-- **C47**, flatten: an array without nested arrays flattens to the items of its members in order; putting the items of a
nested array in its place, at any position, does not change the result; and no array is left in the result. -/
theorem C47_flatten (a : List XSeq) :
    ((∀ s ∈ a, ∀ x ∈ s, ¬ IsArray x) → flattenArray a = a.flatten) ∧
    (∀ pre post s t v, a = pre ++ (s ++ .array v :: t) :: post →
      flattenArray a = flattenArray (pre ++ (s ++ v.flatten ++ t) :: post)) ∧
    (∀ x ∈ flattenArray a, ¬ IsArray x) := by
  refine ⟨?_, ?_, flattenArray_noArray a⟩
  · intro ha
    rw [flattenArray_flatten]
    have : ∀ x ∈ a.flatten, ¬ IsArray x := by
      intro x hx
      obtain ⟨s, hs, hx⟩ := List.mem_flatten.1 hx
      exact ha s hs x hx
    generalize a.flatten = l at this
    induction l with
    | nil => rfl
    | cons x l ih =>
      simp only [flattenSeq]
      rw [flattenItem_of_noArray (this x (by simp)), ih fun y hy => this y (by simp [hy])]; rfl
  · rintro pre post s t v rfl
    simp [flattenArray_append, flattenArray, flattenSeq_append, flattenSeq, flattenItem, flattenArray_flatten v]

/-- Concrete nested array, for the hypotheses of `C47_flatten`: `[1, [2, [3]], 4]`. -/
example : flattenArray [[.integer 1], [.array [[.integer 2], [.array [[.integer 3]]]]], [.integer 4]] =
    [.integer 1, .integer 2, .integer 3, .integer 4] := rfl

/-- Concrete map with a repeated key: the first entry wins, and `1` and `"1"` are the same key. -/
example : mapGet Heap.empty [(.string (S "a"), []), (.integer 1, [.boolean true]), (.string (S "1"), [])] (.string (S "1")) =
    some [.boolean true] := rfl

/-! ## castable and cast -/

/-- The node `j` is the node `i` or can be reached from it through child lists. -/
inductive Spec.AtOrBelow (h : Heap) (i : NodeId) : NodeId → Prop
  | self : AtOrBelow h i i
  | child {j c : NodeId} : AtOrBelow h i j → c ∈ (h.node j).children → AtOrBelow h i c

theorem stringValueF_eq_typedValueF (h : Heap) (i : NodeId) (hi : ∀ j, AtOrBelow h i j → (h.node j).ntype ≠ .xmlDecl) (n : Nat) :
    ∀ j, AtOrBelow h i j → stringValueF h n j = typedValueF h n j := by
  induction n with
  | zero => intro j _; rfl
  | succ n ih =>
    intro j hj
    have hk : (h.node j).children.flatMap (stringValueF h n) = (h.node j).children.flatMap (typedValueF h n) := by
      rw [List.flatMap_def, List.flatMap_def]
      congr 1
      exact List.map_congr_left fun c hc => ih c (.child hj hc)
    unfold stringValueF typedValueF
    have := hi j hj
    split <;> simp_all

theorem stringValue_eq_typedValue (h : Heap) (i : NodeId) (hi : ∀ j, AtOrBelow h i j → (h.node j).ntype ≠ .xmlDecl) :
    stringValue h i = typedValue h i := stringValueF_eq_typedValueF h i hi _ i .self

/-- The type names that `cast` and `castable` know, with the XPath type they stand for. -/
def Spec.castTypes : List (Str × Str) := [
  (S "string", S "xs:string"), (S "xs:string", S "xs:string"), (S "double", S "xs:double"), (S "xs:double", S "xs:double"),
  (S "decimal", S "xs:decimal"), (S "xs:decimal", S "xs:decimal"), (S "integer", S "xs:integer"), (S "xs:integer", S "xs:integer"),
  (S "boolean", S "xs:boolean"), (S "xs:boolean", S "xs:boolean")]

theorem castErr_ok {e : Except XErr XItem} {x : XItem} (h : XItem.castErr e = .ok x) : e = .ok x := by
  cases e <;> simp_all [XItem.castErr]

theorem map_ok {α β : Type} {f : α → β} {e : Except XErr α} {y : β} (h : e.map f = .ok y) : ∃ x, e = .ok x ∧ f x = y := by
  cases e <;> simp_all [Except.map]

theorem castAs_type {h : Heap} {x r : XItem} {t : Str} (hr : x.castAs h t = .ok r) : (t, r.xsType) ∈ castTypes := by
  have key : ∀ {α : Type} (f : α → XItem) (e : Except XErr α) (ty : Str), (∀ v, (f v).xsType = ty) →
      XItem.castErr (e.map f) = .ok r → r.xsType = ty := by
    intro α f e ty hf he
    obtain ⟨v, _, rfl⟩ := map_ok (castErr_ok he)
    exact hf v
  unfold XItem.castAs at hr
  by_cases h1 : t = S "string" ∨ t = S "xs:string"
  · rw [if_pos h1] at hr
    rw [key _ _ (S "xs:string") (fun _ => rfl) hr]
    rcases h1 with rfl | rfl <;> decide
  rw [if_neg h1] at hr
  by_cases h2 : t = S "double" ∨ t = S "xs:double"
  · rw [if_pos h2] at hr
    rw [key _ _ (S "xs:double") (fun _ => rfl) hr]
    rcases h2 with rfl | rfl <;> decide
  rw [if_neg h2] at hr
  by_cases h3 : t = S "decimal" ∨ t = S "xs:decimal"
  · rw [if_pos h3] at hr
    rw [key _ _ (S "xs:decimal") (fun _ => rfl) hr]
    rcases h3 with rfl | rfl <;> decide
  rw [if_neg h3] at hr
  by_cases h4 : t = S "integer" ∨ t = S "xs:integer"
  · rw [if_pos h4] at hr
    rw [key _ _ (S "xs:integer") (fun _ => rfl) hr]
    rcases h4 with rfl | rfl <;> decide
  rw [if_neg h4] at hr
  by_cases h5 : t = S "boolean" ∨ t = S "xs:boolean"
  · rw [if_pos h5] at hr
    rw [key _ _ (S "xs:boolean") (fun _ => rfl) hr]
    rcases h5 with rfl | rfl <;> decide
  rw [if_neg h5] at hr
  cases hr

/-- A node and its string value are cast alike. -/
theorem castAs_node (h : Heap) (i : NodeId) (t : Str) :
    (XItem.node i).castAs h t = (XItem.string (stringValue h i)).castAs h t := rfl

/-- **C48**, first half: `castable` says whether `cast` succeeds, for every operand other than a node with an XML declaration
at or below it. -/
theorem C48_castable_partial (h : Heap) (s : XSeq) (t : Str)
    (hs : ∀ i, XItem.node i ∈ s → ∀ j, AtOrBelow h i j → (h.node j).ntype ≠ .xmlDecl) :
    XSeq.castableAs h s t = true ↔ ∃ r, XSeq.castAs h s t = .ok r := by
  match s with
  | [] =>
    simp only [XSeq.castableAs, XSeq.castAs]
    split <;> simp_all
  | x :: y :: l => simp [XSeq.castableAs, XSeq.castAs]
  | [x] =>
    have hx : (x.atomize h).castAs h (XSeq.trimQ t) = x.castAs h (XSeq.trimQ t) := by
      cases x with
      | node i =>
        simp only [XItem.atomize]
        rw [castAs_node, stringValue_eq_typedValue h i (hs i (by simp))]
      | _ => rfl
    simp only [XSeq.castableAs, XSeq.castAs, XItem.castableAs, hx]
    split <;> simp_all

/-- **C48**, second half: what a successful cast to `T` or `T?` gives is one item of type `T`, or nothing when the operand is
empty and the type ends in `?`. -/
theorem C48_cast_type (h : Heap) (s : XSeq) (t : Str) (r : XSeq) (hr : XSeq.castAs h s t = .ok r) :
    (s = [] ∧ r = [] ∧ t.getLast? = some '?') ∨
    (∃ x y, s = [x] ∧ r = [y] ∧ (XSeq.trimQ t, y.xsType) ∈ castTypes) := by
  match s with
  | [] =>
    simp only [XSeq.castAs] at hr
    split at hr
    · cases hr; exact .inl ⟨rfl, rfl, ‹_›⟩
    · cases hr
  | x :: y :: l => simp [XSeq.castAs] at hr
  | [x] =>
    simp only [XSeq.castAs] at hr
    split at hr
    · rename_i v hv
      cases hr
      exact .inr ⟨x, v, rfl, rfl, castAs_type hv⟩
    · cases hr

/-- The document `<?xml?><a>true</a>`: root 0, declaration 1, element 2, text 3. -/
def declSample : Heap :=
  let h := Heap.empty.alloc (mkNode .documentRoot none [] [])
  let h := h.makeChild .xmlDecl 0 (S "xml") [] none
  let h := h.makeChild .element 0 (S "a") [] none
  h.makeChild .text 2 [] (S "true") none

/-- Disagreement with C48: the string value of a document root contains its XML declaration but its typed value does not, so
for the document `<?xml?><a>true</a>` `/ castable as xs:boolean` is false although `/ cast as xs:boolean` succeeds. -/
theorem C48_violated : ∃ h r, newDocument Heap.empty (S "<?xml?><a>true</a>") = some (.ok (h, r)) ∧
    XSeq.castableAs h [.node r] (S "xs:boolean") = false ∧
    XSeq.castAs h [.node r] (S "xs:boolean") = .ok [.boolean true] := by
  have key : (match newDocument Heap.empty (S "<?xml?><a>true</a>") with
      | some (.ok (h', r)) => !(XSeq.castableAs h' [.node r] (S "xs:boolean")) &&
          (match XSeq.castAs h' [.node r] (S "xs:boolean") with | .ok [.boolean b] => b | _ => false)
      | _ => false) = true := by decide +kernel
  split at key
  · rename_i h r e
    refine ⟨h, r, e, ?_⟩
    rw [Bool.and_eq_true] at key
    refine ⟨by simpa using key.1, ?_⟩
    have k := key.2
    split at k
    · rename_i b e2; rw [e2, k]
    · cases k
  · cases key

/-- The hypothesis of `C48_castable_partial` is met by the element of that document. -/
example : ∀ i, XItem.node i ∈ [XItem.node 2] → ∀ j, AtOrBelow declSample i j → (declSample.node j).ntype ≠ .xmlDecl := by
  intro i hi j hj
  simp at hi; subst hi
  have : j = 2 ∨ j = 3 := by
    induction hj with
    | self => exact .inl rfl
    | child _ hc ih =>
      rcases ih with rfl | rfl
      · right; have : (declSample.node 2).children = [3] := rfl
        rw [this] at hc; simpa using hc
      · have : (declSample.node 3).children = [] := rfl
        rw [this] at hc; simp at hc
  rcases this with rfl | rfl <;> decide

end Amxml
