import Verif.Spec.Shown
import Verif.Props.XShort
import Verif.Props.XValues
import Verif.Props.Serial
import Verif.Props.Edit

/-!
# C107: the text of a value
-/

namespace Amxml
open Spec
namespace Shows

theorem intStr_toString (n : Int) : F64.intStr n = (toString n).toList := by
  cases n with
  | ofNat m =>
    have : ¬ (Int.ofNat m < 0) := by simp
    unfold F64.intStr F64.natStr
    rw [if_neg this]; rfl
  | negSucc m =>
    have : Int.negSucc m < 0 := Int.negSucc_lt_zero m
    unfold F64.intStr F64.natStr
    rw [if_pos this]
    show _ = (("-" ++ Nat.repr (m + 1)) : String).toList
    rw [String.toList_append]
    rfl

theorem commaList_eq : ∀ l, commaList l = spaced l
  | [] => rfl
  | [s] => by simp [commaList, spaced]
  | s :: t :: l => by
    have := commaList_eq (t :: l)
    simp only [commaList, spaced] at this ⊢
    rw [this]
    simp

theorem inParens_eq (l : List Str) : inParens l = grouped l := by
  unfold inParens grouped
  rw [commaList_eq]
  match l with
  | [] => rfl
  | [t] => simp [spaced]
  | s :: t :: l => simp

theorem zero_unpack {d : F64} (hd : FloatIs d (.real 0)) : ∃ s, d.unpack = .zero s := by
  rcases F64.val_cases hd with ⟨s, hu, -⟩ | ⟨m, e, hm, hc, hu, h0⟩ | ⟨m, e, hm, hc, hu, h0⟩
  · exact ⟨s, hu⟩
  · have := F64.mag_pos (m := m) (e := e) hm
    rw [← h0] at this; exact absurd this (by norm_num)
  · have := F64.mag_pos (m := m) (e := e) hm
    have : F64.mag m e = 0 := by linarith
    linarith

theorem kind_name : ∀ t : XNodeType, t.text = kindName t := by
  intro t; cases t <;> decide

theorem dump_eq (x : XNode) : ∀ (depth : Nat) (p : Char), dumpSub (4 * depth) [p] x = (treeLines depth p x).flatMap fun l => l ++ S "\n" := by
  induction x with
  | nil =>
    intro depth p
    simp [dumpSub, treeLines, S]
  | node t n l r ihl ihr =>
    intro depth p
    rw [dumpSub, treeLines, kind_name]
    have hl := ihl (depth + 1) 'L'
    have hr := ihr (depth + 1) 'R'
    rw [show 4 * (depth + 1) = 4 * depth + 4 by omega] at hl hr
    rw [List.flatMap_cons, List.flatMap_append, show S "L" = ['L'] from rfl, show S "R" = ['R'] from rfl, hl, hr]
    cases l.isNil <;> cases r.isNil <;> simp [S]

theorem displayTree_eq (x : XNode) : displayTree x = (treeLines 0 'T' x).flatMap fun l => l ++ S "\n" := dump_eq x 0 'T'

theorem decimal_text (h : Heap) (d : F64) : ItemText h (.decimal d) (displayDecimal d) := by
  obtain ⟨v, hv⟩ := float_is d
  cases v with
  | real v =>
    by_cases h0 : v = 0
    · subst h0
      obtain ⟨s, hu⟩ := zero_unpack hv
      cases s
      · have : F64.fmt d = S "-0" := by unfold F64.fmt; rw [hu]
        rw [show displayDecimal d = S "-0.0" by unfold displayDecimal; rw [this]; rfl]
        exact .decimal_minus_zero hu
      · have : F64.fmt d = S "0" := by unfold F64.fmt; rw [hu]
        rw [show displayDecimal d = S "0.0" by unfold displayDecimal; rw [this]; rfl]
        exact .decimal_zero hu
    · obtain ⟨t, m, e, h1, h2, h3, h4⟩ := fmt_shortest hv h0
      have : displayDecimal d = sign v ++ if '.' ∈ t then t else t ++ S ".0" := by
        unfold displayDecimal sign
        rw [h4]
        by_cases hn : v < 0
        · by_cases ht : '.' ∈ t <;> simp [hn, ht, S]
        · by_cases ht : '.' ∈ t <;> simp [hn, ht]
      rw [this]
      exact .decimal hv h0 h1 h2 h3
  | nan =>
    have : F64.fmt d = S "NaN" := by unfold F64.fmt; rw [show d.unpack = .notANumber from hv]
    rw [show displayDecimal d = S "NaN.0" by unfold displayDecimal; rw [this]; rfl]
    exact .decimal_nan hv
  | infinity =>
    have : F64.fmt d = S "inf" := by unfold F64.fmt; rw [show d.unpack = .infinity .positive from hv]
    rw [show displayDecimal d = S "inf.0" by unfold displayDecimal; rw [this]; rfl]
    exact .decimal_infinity hv
  | minusInfinity =>
    have : F64.fmt d = S "-inf" := by unfold F64.fmt; rw [show d.unpack = .infinity .negative from hv]
    rw [show displayDecimal d = S "-inf.0" by unfold displayDecimal; rw [this]; rfl]
    exact .decimal_minusInfinity hv

theorem not_nan {d : F64} {v : Number} (hv : FloatIs d v) (h : v ≠ .nan) : F64.isNan d = false := by
  cases e : F64.isNan d with
  | false => rfl
  | true => exact absurd ((nan_iff hv).1 e) h

theorem double_text (h : Heap) (d : F64) : ItemText h (.double d) (displayDouble d) := by
  obtain ⟨v, hv⟩ := float_is d
  cases v with
  | real v =>
    by_cases h0 : v = 0
    · subst h0
      have hn : F64.isNan d = false := F64.not_nan_of_val hv
      obtain ⟨s, hu⟩ := zero_unpack hv
      have hi : d.isInf = false := by
        unfold F64.isInf Float.Model.isInf
        rw [hu]; rfl
      have hz : F64.eq d F64.zero = true := (F64.eq_val hv (by decide +kernel : F64.val F64.zero = some 0)).2 rfl
      cases s
      · have hs : d.signNeg = true := by unfold F64.signNeg; rw [hu]
        rw [show displayDouble d = S "-0e0" by unfold displayDouble; rw [hn, hi, hz, hs]; rfl]
        exact .double_minus_zero hu
      · have hs : d.signNeg = false := by unfold F64.signNeg; rw [hu]
        have he : F64.fmtExp d = S "0e0" := by unfold F64.fmtExp; rw [hu]
        rw [show displayDouble d = S "0e0" by unfold displayDouble; rw [hn, hi, hz, hs, he]; rfl]
        exact .double_zero hu
    · obtain ⟨t, m, e, n, h1, h2, h3, h4⟩ := C105_scientific h d v hv h0
      have : displayDouble d = sign v ++ t ++ S "e" ++ (toString n).toList := by
        rw [← intStr_toString]
        have h4 : displayDouble d = _ := h4
        rw [h4]
        unfold sign
        by_cases hn : v < 0 <;> simp [hn, S]
      rw [this]
      exact .double hv h0 h1 h2 h3
  | nan =>
    have : displayDouble d = S "NaN" := by
      unfold displayDouble; rw [(nan_iff hv).2 rfl, if_pos rfl]
    rw [this]; exact .nan hv
  | infinity =>
    have hn : F64.isNan d = false := not_nan hv (by simp)
    have hu : d.unpack = .infinity .positive := hv
    have hi : d.isInf = true := by unfold F64.isInf Float.Model.isInf; rw [hu]; rfl
    have hs : d.signPos = true := by unfold F64.signPos; rw [hu]
    rw [show displayDouble d = S "+Infinity" by unfold displayDouble; rw [hn, hi, hs]; rfl]
    exact .infinity hv
  | minusInfinity =>
    have hn : F64.isNan d = false := not_nan hv (by simp)
    have hu : d.unpack = .infinity .negative := hv
    have hi : d.isInf = true := by unfold F64.isInf Float.Model.isInf; rw [hu]; rfl
    have hs : d.signPos = false := by unfold F64.signPos; rw [hu]
    rw [show displayDouble d = S "-Infinity" by unfold displayDouble; rw [hn, hi, hs]; rfl]
    exact .minusInfinity hv

mutual

theorem item_text (h : Heap) : ∀ x, ItemText h x (displayItem h x)
  | .node i => by
    rw [displayItem]
    unfold displayNode
    cases ht : (h.node i).ntype
    case documentRoot => exact .root ht
    case element =>
      have := ItemText.element (h := h) (i := i) ht
      simpa [contentOf, attributeText, S, List.flatMap_map] using this
    case text => exact .text ht
    case «attribute» => exact .attribute ht
    all_goals exact .other (by simp [contentOf, ht])
  | .string s => by rw [displayItem]; exact .string
  | .integer n => by rw [displayItem, intStr_toString]; exact .integer
  | .decimal d => by rw [displayItem]; exact decimal_text h d
  | .double d => by rw [displayItem]; exact double_text h d
  | .boolean true => by rw [displayItem]; exact .yes
  | .boolean false => by rw [displayItem]; exact .no
  | .fn x => by rw [displayItem, displayTree_eq]; exact .function
  | .map e => by
    rw [displayItem, commaList_eq]
    obtain ⟨ks, vs, h1, h2, h3⟩ := entries_text h e
    rw [h3]; exact .map h1 h2
  | .array a => by
    rw [displayItem, commaList_eq]
    obtain ⟨vs, h1, h2⟩ := members_text h a
    rw [h2]; exact .array h1

theorem items_text (h : Heap) : ∀ s, List.Forall₂ (ItemText h) s (displayItems h s)
  | [] => by rw [displayItems]; exact .nil
  | x :: s => by rw [displayItems]; exact .cons (item_text h x) (items_text h s)

theorem entries_text (h : Heap) : ∀ e : List (XItem × List XItem), ∃ ks vs, List.Forall₂ (fun p k => ItemText h p.1 k) e ks ∧
    List.Forall₂ (fun p v => List.Forall₂ (ItemText h) p.2 v) e vs ∧
    displayEntries h e = List.zipWith (fun k v => k ++ S " => " ++ grouped v) ks vs
  | [] => ⟨[], [], .nil, .nil, by rw [displayEntries]; rfl⟩
  | (k, v) :: e => by
    obtain ⟨ks, vs, h1, h2, h3⟩ := entries_text h e
    refine ⟨_ :: ks, _ :: vs, .cons (item_text h k) h1, .cons (items_text h v) h2, ?_⟩
    rw [displayEntries, h3, inParens_eq]; rfl

theorem members_text (h : Heap) : ∀ a : List (List XItem), ∃ vs, List.Forall₂ (fun m v => List.Forall₂ (ItemText h) m v) a vs ∧
    displayMembers h a = vs.map grouped
  | [] => ⟨[], .nil, by rw [displayMembers]; rfl⟩
  | m :: a => by
    obtain ⟨vs, h1, h2⟩ := members_text h a
    refine ⟨_ :: vs, .cons (items_text h m) h1, ?_⟩
    rw [displayMembers, h2, inParens_eq]; rfl

end

end Shows

/-- **C107**: `to_string` of every value is the text that is described in Spec/Shown.lean. -/
theorem C107_text (h : Heap) (s : XSeq) : ValueText h s (displaySeq h s) :=
  ⟨_, Shows.items_text h s, Shows.inParens_eq _⟩

/-- Texts that are written as they are. -/
theorem Shows.escape_bare {s : Str} (hs : Bare s) : encodeEntity s = s := by
  rw [← escape_eq, escape]
  induction s with
  | nil => rfl
  | cons c s ih =>
    have hc := hs c (by simp)
    have : escapeChar c = [c] := by
      simp only [List.mem_cons, List.not_mem_nil, or_false, not_or] at hc
      obtain ⟨h1, h2, h3, h4, h5⟩ := hc
      have e : ∀ {x : Char}, ¬ c = x → ¬ x = c := fun h k => h k.symm
      simp [escapeChar, Ent.char, e h1, e h2, e h3, e h4, e h5]
    rw [List.flatMap_cons, this, ih fun x hx => hs x (by simp [hx])]
    rfl

/-- **C107**: an element whose attribute values need no escaping is shown by the start tag that `to_string` of the element writes. -/
theorem C107_start_tag (h : Heap) (i : NodeId) (hi : (h.node i).ntype = .element) (ha : ∀ a ∈ (h.node i).attributes, Bare (h.node a).value)
    (hc : (h.node i).children ≠ []) (n : Nat) (s : Str) (hs : h.toString n i = some s) :
    ∃ inner, h.innerXml n i = some inner ∧ s = displaySeq h [.node i] ++ inner ++ S "</" ++ (h.node i).name ++ S ">" := by
  obtain ⟨inner, h1, h2⟩ := (C28_compositional h i n s hs).2.1 hi hc
  refine ⟨inner, h1, ?_⟩
  rw [h2]
  have : tagHead (h.node i).name (contentOf h i).attrs ++ S ">" = displaySeq h [.node i] := by
    show _ = displayNode h i
    unfold displayNode tagHead contentOf
    rw [hi]
    have e : ∀ l : List NodeId, (∀ a ∈ l, Bare (h.node a).value) →
        (l.map fun a => ((h.node a).name, (h.node a).value)).flatMap (fun a => S " " ++ a.1 ++ S "=\"" ++ encodeEntity a.2 ++ S "\"") =
        l.flatMap fun a => ' ' :: (h.node a).name ++ S "=\"" ++ (h.node a).value ++ S "\"" := by
      intro l hl
      induction l with
      | nil => rfl
      | cons a l ih =>
        rw [List.map_cons, List.flatMap_cons, List.flatMap_cons, ih fun b hb => hl b (by simp [hb])]
        simp only [Shows.escape_bare (hl a (by simp))]
        rfl
    simp only [e _ ha]
    simp [S]
  rw [this]

/-- An element, a string and an array, as a value of three items; the attributes of the element need no escaping. -/
example : ValueText editSample [.node 1, .string (S "u"), .array [[.integer (-7)], []]] (S "(<a x=\"1\" y=\"2\">, \"u\", [-7, ()])") ∧
    (editSample.node 1).ntype = .element ∧ (editSample.node 1).children ≠ [] ∧ ∀ a ∈ (editSample.node 1).attributes, Bare (editSample.node a).value := by
  refine ⟨?_, by decide +kernel, by decide +kernel, ?_⟩
  · have e : displaySeq editSample [.node 1, .string (S "u"), .array [[.integer (-7)], []]] = S "(<a x=\"1\" y=\"2\">, \"u\", [-7, ()])" := by decide +kernel
    rw [← e]; exact C107_text _ _
  · unfold Bare; decide +kernel

/-- The value of `function() { $x + 1 }`, and a decimal that is infinite. -/
example : (Parser.compileXPath (S "function() { $x + 1 }")).toOption.map (fun x => displaySeq editSample [.fn x, .decimal F64.inf]) = some (S ("(T [InlineFunction] (inline function)\n" ++
    "    L [OperatorAdd] +\n        L [VarRef] x\n        R [IntegerLiteral] 1\n    R [ReturnType] \n        L [SequenceType] *\n            L [ItemTest] \n, inf.0)")) := by
  decide +kernel

end Amxml
