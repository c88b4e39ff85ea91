import Verif.Props.XFocus
import Verif.Props.XAgg

/-!
# Maps and arrays as expressions use them (C69)
-/

namespace Amxml
open Spec

/-! ## Specification -/

/-- Keys are the same if they have the same text (`fn:string`). -/
def Spec.SameText (h : Heap) (a b : XItem) : Prop := ∃ s, TextOf h [a] s ∧ TextOf h [b] s

/-- In the map with the entries `m`, the key `k` stands for `v`: the value of the first entry with the same key. -/
def Spec.MapsTo (h : Heap) (m : List (XItem × XSeq)) (k : XItem) (v : XSeq) : Prop :=
  ∃ pre k' post, m = pre ++ (k', v) :: post ∧ SameText h k' k ∧ ∀ e ∈ pre, ¬ SameText h e.1 k

/-- The key is not in the map. -/
def Spec.Absent (h : Heap) (m : List (XItem × XSeq)) (k : XItem) : Prop := ∀ e ∈ m, ¬ SameText h e.1 k

/-- `v` is the `n`-th member of the array, counted from 1. -/
def Spec.Member (a : List XSeq) (n : Int) (v : XSeq) : Prop := ∃ pre post, a = pre ++ v :: post ∧ n = pre.length + 1

/-- The entries of a map constructor as the parser links them. -/
def Spec.entryChain : List (XNode × XNode) → XNode
  | [] => .nil
  | (k, v) :: l => .node .mapConstruct [] (.node .mapEntry [] k v) (entryChain l)

/-- `map { k₁ : v₁, …, kₙ : vₙ }`. -/
def Spec.mapOf (l : List (XNode × XNode)) : XNode := .node .map [] (entryChain l) .nil

/-- The members of an array constructor as the parser links them. -/
def Spec.memberChain : List XNode → XNode
  | [] => .nil
  | v :: l => .node .arrayEntry [] v (memberChain l)

/-- `[ v₁, …, vₙ ]`. -/
def Spec.arrayOf (l : List XNode) : XNode := .node .squareArray [] (memberChain l) .nil

/-- `array { e }`. -/
def Spec.curlyOf (e : XNode) : XNode := .node .curlyArray [] e .nil

/-- `array:flatten`: every array is replaced by the flattened items of its members. -/
inductive Spec.Flat : XSeq → XSeq → Prop
  | nil : Flat [] []
  | item {x s r} : ¬ IsArray x → Flat s r → Flat (x :: s) (x :: r)
  | array {a s u r} : Flat a.flatten u → Flat s r → Flat (.array a :: s) (u ++ r)

/-- `m?(e)`, also `m?name` and `m?1` with a literal as `e`. -/
def Spec.lookup (m e : XNode) : XNode := .node .operatorMap [] m (.node .unaryLookupByExpr [] e .nil)

/-- `m?*`. -/
def Spec.lookupEach (m : XNode) : XNode := .node .operatorMap [] m (.node .unaryLookupByWildcard (S "*") .nil .nil)

theorem flat_append {s r t u : XSeq} (H : Flat s r) (K : Flat t u) : Flat (s ++ t) (r ++ u) := by
  induction H with
  | nil => exact K
  | item hx _ ih => exact .item hx (ih)
  | @array a s v r ha hs _ ih => rw [List.append_assoc]; exact .array ha (ih)

theorem flat_unique {s r r' : XSeq} (H : Flat s r) (K : Flat s r') : r = r' := by
  induction H generalizing r' with
  | nil => cases K; rfl
  | item hx _ ih =>
    cases K with
    | item _ h => rw [ih h]
    | array _ _ => exact absurd ⟨_, rfl⟩ hx
  | array _ _ ih1 ih2 =>
    cases K with
    | item hx _ => exact absurd ⟨_, rfl⟩ hx
    | array h1 h2 => rw [ih1 h1, ih2 h2]

/-! ## Keys -/

theorem sameText_iff {h : Heap} {a b : XItem} : SameText h a b ↔ SameForm h a b := by
  unfold SameText SameForm
  refine exists_congr fun s => ?_
  rw [textOf_iff, textOf_iff]
  rfl

theorem mapsTo_iff {h : Heap} {m : List (XItem × XSeq)} {k : XItem} {v : XSeq} : MapsTo h m k v ↔ mapGet h m k = some v := by
  rw [(C47_map_get h m k).1 v]
  unfold MapsTo
  simp only [sameText_iff]

theorem absent_iff {h : Heap} {m : List (XItem × XSeq)} {k : XItem} : Absent h m k ↔ mapGet h m k = none := by
  rw [(C47_map_get h m k).2.1]
  unfold Absent
  simp only [sameText_iff]

theorem member_iff {h : Heap} {a : List XSeq} {n : Int} {v : XSeq} : Member a n v ↔ arrayGet h a (.integer n) = some v :=
  ((C47_array_get h a n).1 v).symm

/-! ## Constructors -/

theorem entries_run {h : Heap} {c : XSeq} {env : Env} {l : List (XNode × XNode)} {es : List (XItem × XSeq)}
    (H : List.Forall₂ (fun e f => Value h c e.1 env [f.1] ∧ Value h c e.2 env f.2) l es) :
    listE (mapEntryE (evaluate h) c) (entryChain l).chain env = .ok (es, env) := by
  induction H with
  | nil => rfl
  | @cons e f l es hv _ ih =>
    obtain ⟨k, v⟩ := e
    obtain ⟨x, w⟩ := f
    simp only [entryChain, XNode.chain, listE]
    rw [E.bind_run]
    have : mapEntryE (evaluate h) c (.node .mapConstruct [] (.node .mapEntry [] k v) (entryChain l)) env = .ok ((x, w), env) := by
      show (do let k ← evaluate h c k
               let k ← liftE (XSeq.item1 k)
               let v ← evaluate h c v
               pure (k, v) : E (XItem × XSeq)) env = _
      rw [E.bind_run, hv.1]
      show (do let v ← evaluate h c v
               pure (x, v) : E (XItem × XSeq)) env = _
      rw [E.bind_run, hv.2]
      rfl
    rw [this]
    simp only
    rw [E.bind_run, ih]
    rfl

/-- **C69**: `map { k₁ : v₁, … }` is a map with these entries in this order, the value of each key being a single item. -/
theorem C69_map_constructor (h : Heap) (c : XSeq) (env : Env) (l : List (XNode × XNode)) (es : List (XItem × XSeq))
    (H : List.Forall₂ (fun e f => Value h c e.1 env [f.1] ∧ Value h c e.2 env f.2) l es) :
    Value h c (mapOf l) env [.map es] := by
  unfold Value
  rw [evaluate_eq]
  show (do let e ← listE (mapEntryE (evaluate h) c) (entryChain l).chain
           pure [.map e] : E XSeq) env = _
  rw [E.bind_run, entries_run H]
  rfl

/-- **C69**: a key that is not a single item is a type error. -/
theorem C69_map_constructor_error (h : Heap) (c : XSeq) (env : Env) (pre post : List (XNode × XNode)) (es : List (XItem × XSeq)) (k v : XNode)
    (s : XSeq) (H : List.Forall₂ (fun e f => Value h c e.1 env [f.1] ∧ Value h c e.2 env f.2) pre es) (hk : Value h c k env s)
    (hs : s.length ≠ 1) : Fails h c (mapOf (pre ++ (k, v) :: post)) env .typeError := by
  refine ⟨?_, by simp⟩
  rw [evaluate_eq]
  show (do let e ← listE (mapEntryE (evaluate h) c) (entryChain (pre ++ (k, v) :: post)).chain
           pure [.map e] : E XSeq) env = _
  have hrun : listE (mapEntryE (evaluate h) c) (entryChain (pre ++ (k, v) :: post)).chain env = .error .typeError := by
    induction H with
    | nil =>
      simp only [entryChain, List.nil_append, XNode.chain, listE]
      rw [E.bind_run]
      have : mapEntryE (evaluate h) c (.node .mapConstruct [] (.node .mapEntry [] k v) (entryChain post)) env = .error .typeError := by
        show (do let k ← evaluate h c k
                 let k ← liftE (XSeq.item1 k)
                 let v ← evaluate h c v
                 pure (k, v) : E (XItem × XSeq)) env = _
        rw [E.bind_run, hk]
        simp only
        rw [E.bind_run]
        have : XSeq.item1 s = .error .typeError := by
          match s, hs with
          | [], _ => rfl
          | _ :: _ :: _, _ => rfl
          | [_], hs => exact absurd rfl hs
        rw [this]; rfl
      rw [this]
    | @cons e f l es hv _ ih =>
      obtain ⟨k', v'⟩ := e
      obtain ⟨x, w⟩ := f
      simp only [List.cons_append, entryChain, XNode.chain, listE]
      rw [E.bind_run]
      have : mapEntryE (evaluate h) c (.node .mapConstruct [] (.node .mapEntry [] k' v') (entryChain (l ++ (k, v) :: post))) env = .ok ((x, w), env) := by
        show (do let k ← evaluate h c k'
                 let k ← liftE (XSeq.item1 k)
                 let v ← evaluate h c v'
                 pure (k, v) : E (XItem × XSeq)) env = _
        rw [E.bind_run, hv.1]
        show (do let v ← evaluate h c v'
                 pure (x, v) : E (XItem × XSeq)) env = _
        rw [E.bind_run, hv.2]
        rfl
      rw [this]
      simp only
      rw [E.bind_run, ih]
  rw [E.bind_run, hrun]

/-- **C69**: `[ v₁, …, vₙ ]` has the values as members; `array { e }` has one member for each item of `e`. -/
theorem C69_array_constructors (h : Heap) (c : XSeq) (env : Env) :
    (∀ l a, List.Forall₂ (fun x v => Value h c x env v) l a → Value h c (arrayOf l) env [.array a]) ∧
    (∀ e s, Value h c e env s → Value h c (curlyOf e) env [.array (s.map fun x => [x])]) := by
  constructor
  · intro l a H
    unfold Value
    rw [evaluate_eq]
    show (do let e ← listE (arrayEntryE (evaluate h) c) (memberChain l).chain
             pure [.array e] : E XSeq) env = _
    have : listE (arrayEntryE (evaluate h) c) (memberChain l).chain env = .ok (a, env) := by
      induction H with
      | nil => rfl
      | @cons x v l a hv _ ih =>
        simp only [memberChain, XNode.chain, listE]
        rw [E.bind_run]
        have : arrayEntryE (evaluate h) c (.node .arrayEntry [] x (memberChain l)) env = .ok (v, env) := hv
        rw [this]
        simp only
        rw [E.bind_run, ih]
        rfl
    rw [E.bind_run, this]
    rfl
  · intro e s he
    unfold Value
    rw [evaluate_eq]
    show (do let v ← evaluate h c e
             pure [.array (v.map fun i : XItem => [i])] : E XSeq) env = _
    rw [E.bind_run, he]
    rfl

/-! ## Functions -/

/-- **C69**, the functions on maps: the number of entries, their keys in order, whether a key is there, and its value (empty if it is not). -/
theorem C69_map_functions (h : Heap) (m : List (XItem × XSeq)) (k : XItem) :
    CallGives h (S "map:size") [[.map m]] [.integer m.length] ∧
    CallGives h (S "map:keys") [[.map m]] (m.map (·.1)) ∧
    (∀ v, MapsTo h m k v → CallGives h (S "map:get") [[.map m], [k]] v ∧ CallGives h (S "map:contains") [[.map m], [k]] [.boolean true]) ∧
    (Absent h m k → CallGives h (S "map:get") [[.map m], [k]] [] ∧ CallGives h (S "map:contains") [[.map m], [k]] [.boolean false]) ∧
    ((∃ v, MapsTo h m k v) ∨ Absent h m k) := by
  have hg : fnMapGet h [.map m] [k] = .ok ((mapGet h m k).getD []) := rfl
  have hcn : fnMapContains h [.map m] [k] = .ok (xbool (mapContains h m k)) := rfl
  have hci : mapContains h m k = true ↔ ¬ mapGet h m k = none := by
    rw [(C47_map_get h m k).2.2, (C47_map_get h m k).2.1]
    push Not; rfl
  refine ⟨calls_of 1 _ (hg := rfl), calls_of 1 _ (hg := rfl), fun v hv => ?_, fun ha => ?_, ?_⟩
  · rw [mapsTo_iff] at hv
    refine ⟨calls_of 2 _ (hg := ?_), calls_of 2 _ (hg := ?_)⟩
    · show fnMapGet h [.map m] [k] = _
      rw [hg, hv]; rfl
    · show fnMapContains h [.map m] [k] = _
      rw [hcn, hci.2 (by rw [hv]; simp)]; rfl
  · rw [absent_iff] at ha
    refine ⟨calls_of 2 _ (hg := ?_), calls_of 2 _ (hg := ?_)⟩
    · show fnMapGet h [.map m] [k] = _
      rw [hg, ha]; rfl
    · show fnMapContains h [.map m] [k] = _
      have : mapContains h m k = false := by
        cases hb : mapContains h m k with
        | false => rfl
        | true => exact absurd ha (hci.1 hb)
      rw [hcn, this]; rfl
  · simp only [mapsTo_iff, absent_iff]
    cases mapGet h m k with
    | none => exact .inr rfl
    | some v => exact .inl ⟨v, rfl⟩

/-- **C69**, the functions on arrays (partial: see `C69_violated` for positions outside the array). -/
theorem C69_array_functions_partial (h : Heap) (a : List XSeq) (n : Int) :
    CallGives h (S "array:size") [[.array a]] [.integer a.length] ∧
    (∀ v, Member a n v → CallGives h (S "array:get") [[.array a], [.integer n]] v) ∧
    (n < 1 ∨ a.length < n → CallGives h (S "array:get") [[.array a], [.integer n]] []) ∧
    ((∃ v, Member a n v) ∨ n < 1 ∨ a.length < n) := by
  have hg : fnArrayGet h [.array a] [.integer n] = .ok ((arrayGet h a (.integer n)).getD []) := rfl
  refine ⟨calls_of 1 _ (hg := rfl), fun v hv => calls_of 2 _ (hg := ?_), fun ho => calls_of 2 _ (hg := ?_), ?_⟩
  · show fnArrayGet h [.array a] [.integer n] = _
    rw [member_iff (h := h)] at hv
    rw [hg, hv]; rfl
  · show fnArrayGet h [.array a] [.integer n] = _
    rw [hg, (C47_array_get h a n).2.2 ho]; rfl
  · rw [← (C47_array_get h a n).2]
    simp only [member_iff (h := h)]
    cases arrayGet h a (.integer n) with
    | none => exact .inr rfl
    | some v => exact .inl ⟨v, rfl⟩

/-! ## Application -/

theorem apply_run {h : Heap} {c : XSeq} {env : Env} {f : XNode} {as : List XNode} {F : XSeq} {vs : List XSeq} (hf : Value h c f env F)
    (ha : List.Forall₂ (fun a v => Value h c a env v) as vs) :
    evaluate h c (applied f (argChain as)) env = applyTo h (evaluate h) c vs F env := by
  rw [evaluate_eq]
  show (do let v ← evaluate h c f
           let args ← listE (fun a : XNode => evaluate h c a.left) (argChain as).chain
           applyTo h (evaluate h) c args v : E XSeq) env = _
  have : listE (fun a : XNode => evaluate h c a.left) (argChain as).chain env = .ok (vs, env) := by
    induction ha with
    | nil => rfl
    | @cons a v as vs hv _ ih =>
      simp only [argChain, XNode.chain, listE]
      rw [E.bind_run]
      have : evaluate h c (XNode.node .argumentTop [] a (argChain as)).left env = .ok (v, env) := hv
      rw [this]
      simp only
      rw [E.bind_run, ih]
      rfl
  rw [E.bind_run, hf]
  simp only
  rw [E.bind_run, this]

/-- **C69**: a map applied to a key gives its value, an array applied to an integer the member at that position; a position outside the
array is a dynamic error (partial: so is a key that is not in the map, which should give the empty sequence). -/
theorem C69_apply_partial (h : Heap) (c : XSeq) (env : Env) (f e : XNode) :
    (∀ m k, Value h c f env [.map m] → Value h c e env [k] →
      (∀ v, MapsTo h m k v → Value h c (applied f (argChain [e])) env v) ∧
      (Absent h m k → Fails h c (applied f (argChain [e])) env .dynamicError)) ∧
    (∀ a n, Value h c f env [.array a] → Value h c e env [.integer n] →
      (∀ v, Member a n v → Value h c (applied f (argChain [e])) env v) ∧
      (n < 1 ∨ a.length < n → Fails h c (applied f (argChain [e])) env .dynamicError)) := by
  constructor
  · intro m k hf hk
    have run := apply_run hf (.cons hk .nil)
    refine ⟨fun v hv => ?_, fun ha => ?_⟩
    · rw [mapsTo_iff] at hv
      unfold Value
      rw [run]
      show (match mapGet h m k with
        | some v => pure v
        | none => liftE (.error .dynamicError) : E XSeq) env = _
      rw [hv]; rfl
    · rw [absent_iff] at ha
      refine ⟨?_, by simp⟩
      rw [run]
      show (match mapGet h m k with
        | some v => pure v
        | none => liftE (.error .dynamicError) : E XSeq) env = _
      rw [ha]; rfl
  · intro a n hf hk
    have run := apply_run hf (.cons hk .nil)
    refine ⟨fun v hv => ?_, fun ha => ?_⟩
    · rw [member_iff (h := h)] at hv
      unfold Value
      rw [run]
      show (match arrayGet h a (.integer n) with
        | some v => pure v
        | none => liftE (.error .dynamicError) : E XSeq) env = _
      rw [hv]; rfl
    · refine ⟨?_, by simp⟩
      rw [run]
      show (match arrayGet h a (.integer n) with
        | some v => pure v
        | none => liftE (.error .dynamicError) : E XSeq) env = _
      rw [(C47_array_get h a n).2.2 ha]; rfl

mutual
theorem flat_array : ∀ a : List XSeq, Flat a.flatten (flattenArray a)
  | [] => by simpa [flattenArray] using Flat.nil
  | s :: a => by
    have hs := flat_seq s
    have ha := flat_array a
    rw [List.flatten_cons, flattenArray]
    exact flat_append hs ha
theorem flat_seq : ∀ s : XSeq, Flat s (flattenSeq s)
  | [] => by simpa [flattenSeq] using Flat.nil
  | x :: s => by
    have hx := flat_item x
    have hs := flat_seq s
    rw [flattenSeq]
    exact flat_append (s := [x]) hx hs
theorem flat_item : ∀ x : XItem, Flat [x] (flattenItem x)
  | .array v => by
    have := Flat.array (flat_array v) Flat.nil
    simpa [flattenItem] using this
  | .fn _ => .item (by rintro ⟨_, h⟩; cases h) .nil
  | .map _ => .item (by rintro ⟨_, h⟩; cases h) .nil
  | .node _ => .item (by rintro ⟨_, h⟩; cases h) .nil
  | .string _ => .item (by rintro ⟨_, h⟩; cases h) .nil
  | .integer _ => .item (by rintro ⟨_, h⟩; cases h) .nil
  | .decimal _ => .item (by rintro ⟨_, h⟩; cases h) .nil
  | .double _ => .item (by rintro ⟨_, h⟩; cases h) .nil
  | .boolean _ => .item (by rintro ⟨_, h⟩; cases h) .nil
end

/-- **C69**, `array:flatten`. -/
theorem C69_flatten (h : Heap) (s r : XSeq) : CallGives h (S "array:flatten") [s] r ↔ Flat s r := by
  rw [gives_iff 1 _]
  show Except.ok (flattenSeq s) = .ok r ↔ _
  constructor
  · intro hr; cases hr; exact flat_seq s
  · intro H
    exact congrArg _ (flat_unique (flat_seq s) H)

/-! ## Lookup -/

/-- The lookup in one item, as the right side of `!`. -/
theorem unaryLookup_run {h : Heap} {x : XItem} {env : Env} {e : XNode} {ks : XSeq} (hk : Value h [x] e env ks) (r : XNode) (n : Str) :
    evaluate h [x] (.node .unaryLookupByExpr n e r) env = liftE (lookupKeys h ks [x]) env := by
  rw [evaluate_eq]
  show (do let k ← evaluate h [x] e
           liftE (lookupKeys h k [x]) : E XSeq) env = _
  rw [E.bind_run, hk]

theorem forall₂_flatMap {ks : XSeq} {vs : List XSeq} {P : XItem → XSeq → Prop} {g : XItem → XSeq} (H : List.Forall₂ P ks vs)
    (hg : ∀ k v, P k v → g k = v) : ks.flatMap g = vs.flatten := by
  induction H with
  | nil => rfl
  | cons hp _ ih => rw [List.flatMap_cons, List.flatten_cons, ih, hg _ _ hp]

/-- **C69**: `m?(e)`, with several keys or positions, gives their values one after the other (those of keys that are not in the map empty;
the keys are computed with the map as the context item). Anything else than a map or an array is a type error. -/
theorem C69_lookup_partial (h : Heap) (c : XSeq) (env : Env) (f e : XNode) (x : XItem) (ks : XSeq) (hf : Value h c f env [x])
    (hk : Value h [x] e env ks) :
    (∀ m vs, x = .map m → List.Forall₂ (fun k v => MapsTo h m k v ∨ (Absent h m k ∧ v = [])) ks vs →
      Value h c (lookup f e) env vs.flatten) ∧
    (∀ a vs, x = .array a → List.Forall₂ (fun k v => ∃ n, k = .integer n ∧ Member a n v) ks vs → Value h c (lookup f e) env vs.flatten) ∧
    ((∀ m, x ≠ .map m) → (∀ a, x ≠ .array a) → Fails h c (lookup f e) env .typeError) := by
  have nn : (XNode.node .unaryLookupByExpr [] e .nil).isNil = false := rfl
  have one : ∀ v, Value h [x] (.node .unaryLookupByExpr [] e .nil) env v → Value h c (lookup f e) env v := by
    intro v hv
    have := C75_map h c env [] f _ nn [x] (fun _ => v) hf (by intro y hy; simp at hy; subst hy; exact hv)
    simpa [lookup] using this
  refine ⟨?_, ?_, ?_⟩
  · rintro m vs rfl H
    apply one
    unfold Value
    rw [unaryLookup_run hk]
    have : ks.flatMap (fun k : XItem => (mapGet h m k).getD []) = vs.flatten := forall₂_flatMap H (by
      rintro k v (hv | ⟨ha, rfl⟩)
      · rw [mapsTo_iff.1 hv]; rfl
      · rw [absent_iff.1 ha]; rfl)
    show liftE (.ok (ks.flatMap fun k : XItem => (mapGet h m k).getD [])) env = _
    rw [this]; rfl
  · rintro a vs rfl H
    apply one
    unfold Value
    rw [unaryLookup_run hk]
    have : ks.flatMap (fun k : XItem => (arrayGet h a k).getD []) = vs.flatten := forall₂_flatMap H (by
      rintro k v ⟨n, rfl, hv⟩
      rw [(member_iff (h := h)).1 hv]; rfl)
    show liftE (.ok (ks.flatMap fun k : XItem => (arrayGet h a k).getD [])) env = _
    rw [this]; rfl
  · intro hm ha
    have herr : evaluate h [x] (.node .unaryLookupByExpr [] e .nil) env = .error .typeError := by
      rw [unaryLookup_run hk]
      cases x with
      | map m => exact absurd rfl (hm m)
      | array a => exact absurd rfl (ha a)
      | _ => rfl
    refine ⟨?_, by simp⟩
    rw [evaluate_eq]
    show (do let l ← evalOrEmpty (evaluate h) c f
             concatE (fun i => evaluate h [i] (.node .unaryLookupByExpr [] e .nil)) l : E XSeq) env = _
    rw [evalOrEmpty_of (isNil_of_value hf), E.bind_run, hf]
    show (do let v ← evaluate h [x] (.node .unaryLookupByExpr [] e .nil)
             let r ← concatE _ []
             pure (v ++ r) : E XSeq) env = _
    rw [E.bind_run, herr]

/-- **C69**: `m?*` is the values of all entries, in their order, if the keys differ (and have a text); for an array the items of all members. -/
theorem C69_lookup_each_partial (h : Heap) (c : XSeq) (env : Env) (f : XNode) :
    (∀ m : List (XItem × XSeq), Value h c f env [.map m] → (∀ e ∈ m, SameText h e.1 e.1) →
      m.Pairwise (fun e e' => ¬ SameText h e.1 e'.1) → Value h c (lookupEach f) env (m.map (·.2)).flatten) ∧
    (∀ a : List XSeq, Value h c f env [.array a] → Value h c (lookupEach f) env a.flatten) := by
  have nn : (XNode.node .unaryLookupByWildcard (S "*") .nil .nil).isNil = false := rfl
  have one : ∀ x v, Value h c f env [x] → Value h [x] (.node .unaryLookupByWildcard (S "*") .nil .nil) env v →
      Value h c (lookupEach f) env v := by
    intro x v hf hv
    have := C75_map h c env [] f _ nn [x] (fun _ => v) hf (by intro y hy; simp at hy; subst hy; exact hv)
    simpa [lookupEach] using this
  constructor
  · intro m hf hs hd
    apply one _ _ hf
    unfold Value
    rw [evaluate_eq]
    show liftE (lookupAll h m (m.map (·.1))) env = _
    have key : ∀ r pre, m = pre ++ r → lookupAll h m (r.map (·.1)) = .ok (r.map (·.2)).flatten := by
      intro r
      induction r with
      | nil => intro pre _; rfl
      | cons e r ih =>
        intro pre hp
        have hget : mapGet h m e.1 = some e.2 := by
          rw [← mapsTo_iff]
          refine ⟨pre, e.1, r, hp, hs e (by rw [hp]; simp), ?_⟩
          intro e' he' hh
          rw [hp, List.pairwise_append] at hd
          exact hd.2.2 e' he' e (by simp) hh
        rw [List.map_cons, lookupAll, hget]
        show (lookupAll h m (r.map (·.1))).map _ = _
        rw [ih (pre ++ [e]) (by rw [hp]; simp)]
        rfl
    rw [key m [] rfl]; rfl
  · intro a hf
    apply one _ _ hf
    unfold Value
    rw [evaluate_eq]; rfl

/-- **C69** is false of the code: a key may occur twice (`map { 1 : 'a', 1 : 'b' }` has two entries, and `?*` gives the first value twice) and
keys of different types are not told apart; applying a map to a key it does not have is an error, `array:get` outside the array is none;
the keys in `m?(…)` are computed with the map as context. -/
theorem C69_violated :
    evalXPath .empty 20 0 (S "map:size(map{1 : 'a', 1 : 'b'})") = .ok [.integer 2] ∧
    evalXPath .empty 20 0 (S "map{1 : 'a', 1 : 'b'}?*") = .ok [.string (S "a"), .string (S "a")] ∧
    evalXPath .empty 20 0 (S "map:get(map{'1' : 'a'}, 1)") = .ok [.string (S "a")] ∧
    evalXPath .empty 20 0 (S "map{'a' : 1}('b')") = .error .dynamicError ∧
    evalXPath .empty 20 0 (S "array:get([5], 2)") = .ok [] ∧
    evalXPath .empty 20 0 (S "'a' ! map{'a' : 1}?(.)") = .ok [] := by
  refine ⟨?_, ?_, ?_, ?_, ?_, ?_⟩ <;> run_query

/-! ## The hypotheses are met -/

example : evalXPath .empty 20 0 (S "map{'a' : (1, 2), 'b' : 3}?*") = .ok [.integer 1, .integer 2, .integer 3] := by run_query
example : evalXPath .empty 20 0 (S "[(5, 6), 7]?1") = .ok [.integer 5, .integer 6] := by run_query
example : evalXPath .empty 20 0 (S "(map{'a' : 1}('a'), array{8, 9}(2), map{'x' : 4}?x)") = .ok [.integer 1, .integer 9, .integer 4] := by run_query
example : Parser.compileXPath (S "map{'a' : 1, 2 : []}") = .ok (mapOf [(.node .stringLiteral (S "a") .nil .nil, .node .integerLiteral (S "1") .nil .nil),
    (.node .integerLiteral (S "2") .nil .nil, arrayOf [])]) := by run_compile
example : Parser.compileXPath (S "[1, $m('k')]") = .ok (arrayOf [.node .integerLiteral (S "1") .nil .nil,
    applied (.node .varRef (S "m") .nil .nil) (argChain [.node .stringLiteral (S "k") .nil .nil])]) := by run_compile
example : Parser.compileXPath (S "array{$m?k}") = .ok (curlyOf (lookup (.node .varRef (S "m") .nil .nil) (.node .stringLiteral (S "k") .nil .nil))) := by
  run_compile
example : Parser.compileXPath (S "$m?*") = .ok (lookupEach (.node .varRef (S "m") .nil .nil)) := by run_compile
example : Flat [.integer 1, .array [[.array [[.integer 2]], .integer 3], []]] [.integer 1, .integer 2, .integer 3] :=
  flat_seq [.integer 1, .array [[.array [[.integer 2]], .integer 3], []]]
example (h : Heap) : MapsTo h [(.string (S "a"), [.integer 1]), (.string (S "b"), [.integer 2])] (.string (S "b")) [.integer 2] ∧
    Absent h [(.string (S "a"), [.integer 1])] (.string (S "b")) ∧ Member [[.integer 1], [.integer 2]] 2 [.integer 2] := by
  refine ⟨mapsTo_iff.2 (by rfl), absent_iff.2 (by rfl), [[.integer 1]], [], rfl, rfl⟩

end Amxml
