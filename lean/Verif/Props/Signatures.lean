import Verif.Spec.Signatures
import Verif.Props.XTypes
import Verif.Props.XHigher

/-!
# C112: the types of references to library functions
-/

namespace Amxml
open Spec

namespace Signatures

/-- A function type without what `C77_function_partial` leaves out. -/
structure Fine (qs : PTypes) (q : SType) : Prop where
  properP : qs.Proper
  properR : q.Proper
  namedP : qs.Without IsNamedPI
  namedR : q.Without IsNamedPI

theorem library_fine : ∀ e ∈ librarySignatures ++ mistakenSignatures, Fine (PTypes.ofList e.2.1) e.2.2 := by
  have a : ∀ o, (anyItem o).Proper ∧ (anyItem o).Without IsNamedPI := fun o => ⟨trivial, by rintro ⟨_, h⟩; cases h⟩
  have b : ∀ o, (anyNode o).Proper ∧ (anyNode o).Without IsNamedPI := fun o => ⟨⟨trivial, trivial⟩, by rintro ⟨_, h⟩; cases h⟩
  have at' : ∀ n o, ':' ∈ n → n ≠ S "xs:error" → (SType.of (.atomic n) o).Proper ∧ (SType.of (.atomic n) o).Without IsNamedPI :=
    fun n o h1 h2 => ⟨⟨h1, h2⟩, by rintro ⟨_, h⟩; cases h⟩
  have c := fun o => at' (S "xs:anyAtomicType") o (by decide) (by decide)
  have d := fun o => at' (S "xs:string") o (by decide) (by decide)
  have e := fun o => at' (S "xs:boolean") o (by decide) (by decide)
  have f := fun o => at' (S "xs:integer") o (by decide) (by decide)
  have g := fun o => at' (S "xs:double") o (by decide) (by decide)
  have i := fun o => at' (S "xs:numeric") o (by decide) (by decide)
  have j := fun o => at' (S "xs:anyURI") o (by decide) (by decide)
  have k : anyMap.Proper ∧ anyMap.Without IsNamedPI := ⟨⟨by decide, by decide, trivial⟩, (by rintro ⟨_, h⟩; cases h), (a _).2⟩
  have l : anyArray.Proper ∧ anyArray.Without IsNamedPI := ⟨trivial, (by rintro ⟨_, h⟩; cases h), (a _).2⟩
  have m : ∀ r : SType, r.Proper ∧ r.Without IsNamedPI → (SType.of (.function (.cons (anyItem .one) .nil) r) .one).Proper ∧
      (SType.of (.function (.cons (anyItem .one) .nil) r) .one).Without IsNamedPI :=
    fun r hr => ⟨⟨⟨trivial, trivial⟩, hr.1⟩, (by rintro ⟨_, h⟩; cases h), ⟨(a _).2, trivial⟩, hr.2⟩
  have key : ∀ e ∈ librarySignatures ++ mistakenSignatures, ∀ t ∈ e.2.2 :: e.2.1, t.Proper ∧ t.Without IsNamedPI := by
    simp only [librarySignatures, mistakenSignatures, List.cons_append, List.nil_append, List.forall_mem_cons, List.not_mem_nil, false_implies, implies_true,
      a, b, c, d, e, f, g, i, j, k, l, m, and_self]
  have all : ∀ l : List SType, (∀ t ∈ l, t.Proper ∧ t.Without IsNamedPI) → (PTypes.ofList l).Proper ∧ (PTypes.ofList l).Without IsNamedPI := by
    intro l
    induction l with
    | nil => exact fun _ => ⟨trivial, trivial⟩
    | cons t l ih =>
      intro h
      have h1 := h t (by simp)
      have h2 := ih fun u hu => h u (by simp [hu])
      exact ⟨⟨h1.1, h2.1⟩, h1.2, h2.2⟩
  intro e he
  have h1 := key e he e.2.2 (by simp)
  have h2 := all e.2.1 fun t ht => key e he t (by simp [ht])
  exact ⟨h2.1, h1.1, h2.2, h1.2⟩

/-- The lists of syntax trees are the same. -/
def sameTrees : List XNode → List XNode → Bool
  | [], [] => true
  | a :: s, b :: t => a.same b && sameTrees s t
  | _, _ => false

theorem sameTrees_sound : ∀ {s t : List XNode}, sameTrees s t = true → s = t
  | [], [], _ => rfl
  | [], _ :: _, h => by cases h
  | _ :: _, [], h => by cases h
  | a :: s, b :: t, h => by
    simp only [sameTrees, Bool.and_eq_true] at h
    rw [XNode.same_sound h.1, sameTrees_sound h.2]

/-- The signature is this one. -/
def hasSignature (x : XNode) (s : List XNode) : Bool :=
  match functionItemSignature x with
  | .ok (some t) => sameTrees t s
  | _ => false

theorem hasSignature_sound {x : XNode} {s : List XNode} (h : hasSignature x s = true) : functionItemSignature x = .ok (some s) := by
  unfold hasSignature at h
  split at h
  · rename_i t ht; rw [ht, sameTrees_sound h]
  · cases h

/-- The program gives the function the type. -/
def agrees (e : Str × List SType × SType) : Bool :=
  hasSignature (reference e.1 e.2.1.length) (e.2.2.tree :: (PTypes.ofList e.2.1).tree.chain.map XNode.left)

/-- The program gives the function the type, or it is one of the exceptions. -/
def agreesOr (e : Str × List SType × SType) : Bool :=
  mistakenSignatures.any (fun m => m.1 == e.1 && m.2.1.length == e.2.1.length) || (e.1 == S "fn:concat" && e.2.1.length == 3) || agrees e

theorem table0 : ((librarySignatures.drop 0).take 10).all agreesOr = true := by decide +kernel
theorem table1 : ((librarySignatures.drop 10).take 10).all agreesOr = true := by decide +kernel
theorem table2 : ((librarySignatures.drop 20).take 10).all agreesOr = true := by decide +kernel
theorem table3 : ((librarySignatures.drop 30).take 10).all agreesOr = true := by decide +kernel
theorem table4 : ((librarySignatures.drop 40).take 10).all agreesOr = true := by decide +kernel
theorem table5 : ((librarySignatures.drop 50).take 10).all agreesOr = true := by decide +kernel
theorem table6 : ((librarySignatures.drop 60).take 10).all agreesOr = true := by decide +kernel
theorem table7 : ((librarySignatures.drop 70).take 10).all agreesOr = true := by decide +kernel

theorem table : ∀ e ∈ librarySignatures, agreesOr e = true := by
  have hl : librarySignatures = ((librarySignatures.drop 0).take 10) ++ (((librarySignatures.drop 10).take 10) ++ (((librarySignatures.drop 20).take 10) ++
      (((librarySignatures.drop 30).take 10) ++ (((librarySignatures.drop 40).take 10) ++ (((librarySignatures.drop 50).take 10) ++
      (((librarySignatures.drop 60).take 10) ++ ((librarySignatures.drop 70).take 10))))))) := rfl
  intro e he
  rw [hl] at he
  simp only [List.mem_append] at he
  rcases he with he | he | he | he | he | he | he | he
  · exact List.all_eq_true.1 table0 e he
  · exact List.all_eq_true.1 table1 e he
  · exact List.all_eq_true.1 table2 e he
  · exact List.all_eq_true.1 table3 e he
  · exact List.all_eq_true.1 table4 e he
  · exact List.all_eq_true.1 table5 e he
  · exact List.all_eq_true.1 table6 e he
  · exact List.all_eq_true.1 table7 e he

theorem table_mistaken : mistakenSignatures.all agrees = true := by
  decide +kernel

theorem instance_ref (h : Heap) {f : Str} {n : Nat} {qs : PTypes} {q : SType} (ht : functionItemSignature (reference f n) = .ok (some (q.tree :: qs.tree.chain.map XNode.left)))
    (hq : Fine qs q) {ps : PTypes} {r : SType} (hp : Fine ps r)
    (hmix : (ps.Without IsContainer ∧ r.Without IsContainer ∧ qs.Without IsContainer ∧ q.Without IsContainer) ∨
      (ps.Without IsTyped ∧ r.Without IsTyped ∧ qs.Without IsTyped ∧ q.Without IsTyped)) :
    ∃ b : Bool, (b = true ↔ q.Sub r ∧ ps.Sub qs) ∧
      ∀ c env m, Value h c (.node .operatorInstanceOf m (reference f n) (SType.of (.function ps r) .one).tree) env [.boolean b] := by
  refine ⟨sigSubtype subtype 0 (q.tree :: qs.tree.chain.map XNode.left) (r.tree :: ps.tree.chain.map XNode.left), ?_, ?_⟩
  · have ht : Tame q r := ⟨hq.namedR, hp.namedR, hmix.imp (fun h => ⟨h.2.2.2, h.2.1⟩) (fun h => ⟨h.2.2.2, h.2.1⟩)⟩
    rw [sigSubtype, if_pos rfl, Bool.and_eq_true, subtype_iff hq.properR hp.properR ht, params_sub (sub := subtype) qs ps 0 ?_]
    intro p hpm x hx
    have a := params_mem _ _ hpm
    have b := params_mem _ _ hx
    exact subtype_iff (b.2.1 hp.properP) (a.2.1 hq.properP) ⟨b.2.2 _ hp.namedP, a.2.2 _ hq.namedP,
      hmix.imp (fun h => ⟨b.2.2 _ h.1, a.2.2 _ h.2.2.1⟩) (fun h => ⟨b.2.2 _ h.1, a.2.2 _ h.2.2.1⟩)⟩
  · intro c env m
    refine instance_run (s := [.fn (reference f n)]) (by unfold Value; rw [evaluate_eq]; rfl) ?_
    show (match matchTypedFunction h _ (r.tree :: ps.tree.chain.map XNode.left) (.fn (reference f n)) with
      | .ok true => Except.ok true
      | .ok false => .ok false
      | .error e => .error e) = _
    rw [show matchTypedFunction h (matchSequenceTypeF h (SType.of (IType.function ps r) Occ.one).tree.depth) (r.tree :: ps.tree.chain.map XNode.left)
      (.fn (reference f n)) = .ok (sigSubtype subtype 0 (q.tree :: qs.tree.chain.map XNode.left) (r.tree :: ps.tree.chain.map XNode.left)) by
      simp only [matchTypedFunction, ht]]
    cases sigSubtype subtype 0 (q.tree :: qs.tree.chain.map XNode.left) (r.tree :: ps.tree.chain.map XNode.left) <;> rfl

end Signatures

/-- The type `function(P₁, …) as R`, of one function, without tests `processing-instruction(n)`. -/
def Spec.PlainFunction (ps : PTypes) (r : SType) : Prop := ps.Proper ∧ r.Proper ∧ ps.Without IsNamedPI ∧ r.Without IsNamedPI

/-- Neither type has a map or an array type in it, or neither has a typed function in it. -/
def Spec.Unmixed (ps : PTypes) (r : SType) (qs : PTypes) (q : SType) : Prop :=
  (ps.Without IsContainer ∧ r.Without IsContainer ∧ qs.Without IsContainer ∧ q.Without IsContainer) ∨
  (ps.Without IsTyped ∧ r.Without IsTyped ∧ qs.Without IsTyped ∧ q.Without IsTyped)

/-- The reference `f#n` is of the types `function(P₁, …) as R` that `function(Q₁, …) as Q` is a subtype of, and of no others. -/
def Spec.ReferenceHasType (h : Heap) (f : Str) (qs : List SType) (q : SType) : Prop :=
  ∀ ps r, PlainFunction ps r → Unmixed ps r (PTypes.ofList qs) q → ∃ b : Bool, (b = true ↔ q.Sub r ∧ ps.Sub (PTypes.ofList qs)) ∧
    ∀ c env m, Value h c (.node .operatorInstanceOf m (reference f qs.length) (SType.of (.function ps r) .one).tree) env [.boolean b]

open Signatures in
theorem Signatures.of_agrees {h : Heap} {e : Str × List SType × SType} (he : e ∈ librarySignatures ++ mistakenSignatures) (ha : agrees e = true) :
    ReferenceHasType h e.1 e.2.1 e.2.2 := fun _ _ hp hm =>
  instance_ref h (hasSignature_sound ha) (library_fine e he) ⟨hp.1, hp.2.1, hp.2.2.1, hp.2.2.2⟩ hm

open Signatures in
/-- **C112** (partial: see `C112_mistaken`, `C112_violated`): a reference to a function of the library is of the type that the recommendation gives the
function, of the types this is a subtype of, and of no other function type. -/
theorem C112_signatures_partial (h : Heap) {f : Str} {qs : List SType} {q : SType} (he : (f, qs, q) ∈ librarySignatures)
    (hm : ∀ m ∈ mistakenSignatures, ¬ (m.1 = f ∧ m.2.1.length = qs.length)) (hc : ¬ (f = S "fn:concat" ∧ qs.length = 3)) : ReferenceHasType h f qs q := by
  refine of_agrees (e := (f, qs, q)) (List.mem_append_left _ he) ?_
  have := table _ he
  unfold agreesOr at this
  rw [Bool.or_eq_true, Bool.or_eq_true] at this
  rcases this with (h1 | h1) | h1
  · obtain ⟨m, hm1, hm2⟩ := List.any_eq_true.1 h1
    rw [Bool.and_eq_true, beq_iff_eq, beq_iff_eq] at hm2
    exact absurd hm2 (hm m hm1)
  · rw [Bool.and_eq_true, beq_iff_eq, beq_iff_eq] at h1
    exact absurd h1 hc
  · exact h1

open Signatures in
/-- **C112**, the exceptions: what the code takes these functions for. A reference to `fn:concat` with other than two parameters is of no typed
function type. -/
theorem C112_mistaken (h : Heap) : (∀ e ∈ mistakenSignatures, ReferenceHasType h e.1 e.2.1 e.2.2) ∧
    ∀ d : Str, d ≠ S "2" → ∀ ps r c env m,
      Value h c (.node .operatorInstanceOf m (namedRef (S "fn:concat") d) (SType.of (.function ps r) .one).tree) env [.boolean false] := by
  refine ⟨fun e he => of_agrees (List.mem_append_right _ he) (List.all_eq_true.1 table_mistaken e he), fun d hd ps r c env m => ?_⟩
  have hs : functionSignature (S "fn:concat" ++ S "#" ++ d) = [] := by
    unfold functionSignature
    have : funcSignatureTbl.find? (fun e => e.1 == S "fn:concat" ++ S "#" ++ d) = none := by
      rw [List.find?_eq_none]
      intro e he hx
      have key : ∀ e ∈ funcSignatureTbl, e.1.take 10 = S "fn:concat#" → e.1.drop 10 = S "2" := by decide +kernel
      rw [beq_iff_eq] at hx
      have h1 := key e he (by rw [hx]; rfl)
      rw [hx] at h1
      exact hd h1
    rw [this]; rfl
  have ht : functionItemSignature (namedRef (S "fn:concat") d) = .ok none := by
    show (if functionSignature (S "fn:concat" ++ S "#" ++ d) = [] then _ else _) = _
    rw [if_pos hs]
  refine instance_run (s := [.fn (namedRef (S "fn:concat") d)]) (by unfold Value; rw [evaluate_eq]; rfl) ?_
  show (match matchTypedFunction h _ (r.tree :: ps.tree.chain.map XNode.left) (.fn (namedRef (S "fn:concat") d)) with
    | .ok true => Except.ok true
    | .ok false => .ok false
    | .error e => .error e) = _
  simp only [matchTypedFunction, ht]

/-- **C112** is false of the code: `normalize-space#1` is not taken for a function that returns a string, but for one that returns an integer,
`exactly-one#1` may return nothing, `sum#1` too, and `concat#3` has no type. -/
theorem C112_violated :
    evalXPath editSample 20 0 (S "normalize-space#1 instance of function(xs:string?) as xs:string") = .ok [.boolean false] ∧
    evalXPath editSample 20 0 (S "normalize-space#1 instance of function(xs:string?) as xs:integer") = .ok [.boolean true] ∧
    evalXPath editSample 20 0 (S "exactly-one#1 instance of function(item()*) as item()") = .ok [.boolean false] ∧
    evalXPath editSample 20 0 (S "sum#1 instance of function(xs:integer*) as xs:anyAtomicType") = .ok [.boolean false] ∧
    evalXPath editSample 20 0 (S "concat#3 instance of function(xs:string, xs:string, xs:string) as xs:string") = .ok [.boolean false] := by
  refine ⟨?_, ?_, ?_, ?_, ?_⟩ <;> run_query

/-- `contains#2` is of the type `function(xs:string, xs:string) as item()`, and the parser makes the reference and the type. -/
example : (S "fn:contains", [aString .opt, aString .opt], aBoolean .one) ∈ librarySignatures ∧
    PlainFunction (.cons (aString .one) (.cons (aString .one) .nil)) (anyItem .one) ∧
    Unmixed (.cons (aString .one) (.cons (aString .one) .nil)) (anyItem .one) (PTypes.ofList [aString .opt, aString .opt]) (aBoolean .one) ∧
    (aBoolean .one).Sub (anyItem .one) ∧ (PTypes.cons (aString .one) (.cons (aString .one) .nil)).Sub (PTypes.ofList [aString .opt, aString .opt]) ∧
    Parser.compileXPath (S "contains#2 instance of function(xs:string, xs:string) as item()") =
      .ok (.node .operatorInstanceOf [] (reference (S "fn:contains") 2)
        (SType.of (.function (.cons (aString .one) (.cons (aString .one) .nil)) (anyItem .one)) .one).tree) := by
  have hs : (aString .one).Sub (aString .opt) := .of (by intro n h; simp only [Occ.Admits] at *; omega) (.atomic (.refl _))
  refine ⟨by simp [librarySignatures], ⟨⟨⟨by decide, by decide⟩, ⟨by decide, by decide⟩, trivial⟩, trivial, ⟨?_, ?_, trivial⟩, ?_⟩, .inr ⟨⟨?_, ?_, trivial⟩, ?_, ⟨?_, ?_, trivial⟩, ?_⟩,
    .of (fun n h => h) .item, .cons hs (.cons hs .nil), by run_compile⟩
  all_goals first
    | (rintro ⟨_, h⟩; cases h; done)
    | (rintro ⟨_, _, h⟩; cases h)

end Amxml
