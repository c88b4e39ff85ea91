import Verif.Props.XNodeFn
import Verif.Props.XAgg

/-!
# What `fn:lang` (C70) and `fn:max`, `fn:min` (C67) do where they depart from XPath
-/

namespace Amxml
open Spec

/-! ## `fn:lang` -/

/-- The part of the language tag `v` before the first `-`, in lower case, is `t`. -/
def Spec.PrimaryIs (h : Heap) (v t : Str) : Prop :=
  '-' ∉ t ∧ ∃ u, CallGives h (S "fn:lower-case") [[.string v]] [.string u] ∧ (u = t ∨ ∃ w, u = t ++ '-' :: w)

theorem beforeDash_plain (s : Str) : '-' ∉ beforeDash s := by
  rw [beforeDash]
  rcases splitOnce_dash s with ⟨h1, h2⟩ | ⟨a, b, h1, -, h3⟩
  · rw [h2]; exact h1
  · rw [h1]; exact h3

theorem langOf_first (h : Heap) (pre : List NodeId) (j : NodeId) (post : List NodeId) (v : Str)
    (hn : ∀ k ∈ pre, h.attributeValue k (S "xml:lang") = none) (hj : h.attributeValue j (S "xml:lang") = some v) :
    langOf h (pre ++ j :: post) = toLowercase v := by
  induction pre with
  | nil => rw [List.nil_append, langOf, hj]
  | cons k pre ih =>
    rw [List.cons_append, langOf, hn k (by simp)]
    exact ih fun k hk => hn k (by simp [hk])

/-- **C70**, `fn:lang`, exactly: the attribute `xml:lang` that counts is the outermost one on the path `i :: l` from the node to the root (not the innermost one, as XPath
says), and the language asked for is compared with its part before the first `-`. Without an attribute the language is the empty text. -/
theorem C70_lang_exact (h : Heap) (hw : HeapWF h) (r : NodeId) (F : Forest NodeId) (hd : DocTree h r F) (i : NodeId) (l : List NodeId)
    (hp : PathTo h r (i :: l)) (t : Str) :
    (∀ inner j outer v, i :: l = inner ++ j :: outer → h.attributeValue j (S "xml:lang") = some v →
      (∀ k ∈ outer, h.attributeValue k (S "xml:lang") = none) →
      ∃ b, CallGives h (S "fn:lang") [[.string t], [.node i]] [.boolean b] ∧ (b = true ↔ PrimaryIs h v t)) ∧
    ((∀ j ∈ i :: l, h.attributeValue j (S "xml:lang") = none) →
      ∃ b, CallGives h (S "fn:lang") [[.string t], [.node i]] [.boolean b] ∧ (b = true ↔ t = [])) := by
  have hpath : arrayAncestorOrSelf h i = (i :: l).reverse := by
    rw [arrayAncestorOrSelf, arrayAncestor, ancestorF_path hw hd.linked.1 l i (i + 1) hp (by omega), List.reverse_cons]
  have run : ∃ b, CallGives h (S "fn:lang") [[.string t], [.node i]] [.boolean b] ∧ (b = true ↔ beforeDash (langOf h (i :: l).reverse) = t) := by
    refine ⟨beforeDash (langOf h (i :: l).reverse) == t, calls_of 2 _ (hg := ?_), by simp⟩
    show Except.ok (xbool (beforeDash (langOf h (arrayAncestorOrSelf h i)) == t)) = _
    rw [hpath, xbool]
  obtain ⟨b, h1, h2⟩ := run
  refine ⟨fun inner j outer v e hj hn => ⟨b, h1, h2.trans ?_⟩, fun hn => ⟨b, h1, h2.trans ?_⟩⟩
  · have e2 : langOf h (i :: l).reverse = toLowercase v := by
      rw [e, List.reverse_append, List.reverse_cons, List.append_assoc]
      exact langOf_first h _ j _ v (fun k hk => hn k (List.mem_reverse.1 hk)) hj
    rw [e2]
    constructor
    · intro hb
      have ht : '-' ∉ t := hb ▸ beforeDash_plain _
      exact ⟨ht, _, calls_of 1 _ (hg := rfl), (beforeDash_eq ht).1 hb⟩
    · rintro ⟨ht, u, hu, hm⟩
      rw [gives_iff 1 _] at hu
      have : Except.ok [XItem.string (toLowercase v)] = (.ok [.string u] : Except XErr XSeq) := hu
      cases this
      exact (beforeDash_eq ht).2 hm
  · have : langOf h (i :: l).reverse = [] := langOf_none fun j hj => hn j (List.mem_reverse.1 hj)
    rw [this]
    have e : beforeDash [] = [] := rfl
    rw [e]
    exact eq_comm

/-! ## `fn:max` and `fn:min` with NaN -/

/-- The item is a number. -/
def Spec.IsNum (h : Heap) (x : XItem) : Prop := (asDouble (x.atomize h)).isSome

/-- The item is NaN. -/
def Spec.IsNanItem (h : Heap) (x : XItem) : Prop := ∃ d, (x.atomize h = .double d ∨ x.atomize h = .decimal d) ∧ F64.isNan d = true

theorem Spec.IsNanItem.nan {h : Heap} {x : XItem} (hx : IsNanItem h x) : IsNaN (x.atomize h) ∧ ∀ n, x.atomize h ≠ .integer n := by
  obtain ⟨d, e | e, hd⟩ := hx <;> rw [e]
  · exact ⟨⟨d, rfl, hd⟩, nofun⟩
  · exact ⟨⟨d, rfl, hd⟩, nofun⟩

theorem nan_step {h : Heap} {op : Cmp} (hop : op = .lt ∨ op = .gt) {m x : XItem} (hm : IsNum h m) (hx : IsNum h x)
    (hn : IsNanItem h m ∨ IsNanItem h x) : ((valueCmp h op [m] [x]).bind XSeq.ebv) = .ok false := by
  obtain ⟨b, hb, hi⟩ := extreme_step hop (m := m) (x := x) (.inl ⟨hm, hx⟩)
  rw [hb]
  cases b with
  | false => rfl
  | true =>
    exfalso
    refine holds_nan op (by rcases hop with rfl | rfl <;> simp) _ _ (hn.imp (·.nan.1) (·.nan.1)) ?_ (hi.1 rfl)
    rintro a b ⟨e1, e2⟩
    rcases hn with hn | hn
    · exact hn.nan.2 a e1
    · exact hn.nan.2 b e2

open Classical in
theorem extremeLoop_nan {h : Heap} {op : Cmp} (hop : op = .lt ∨ op = .gt) (s : XSeq) : ∀ m, IsNum h m → (∀ x ∈ s, IsNum h x) →
    (IsNanItem h m → extremeLoop (valueCmp h op) m s = .ok m) ∧
    extremeLoop (valueCmp h op) m s = extremeLoop (valueCmp h op) m (s.filter fun x => ¬ IsNanItem h x) := by
  induction s with
  | nil => intro m _ _; exact ⟨fun _ => rfl, rfl⟩
  | cons x s ih =>
    intro m hm hs
    have hx := hs x (by simp)
    have hs' : ∀ x ∈ s, IsNum h x := fun y hy => hs y (by simp [hy])
    constructor
    · intro hn
      rw [extremeLoop, nan_step hop hm hx (.inl hn)]
      exact (ih m hm hs').1 hn
    · by_cases hn : IsNanItem h x
      · rw [extremeLoop, nan_step hop hm hx (.inr hn), List.filter_cons_of_neg (by simpa using hn)]
        exact (ih m hm hs').2
      · rw [List.filter_cons_of_pos (by simpa using hn), extremeLoop, extremeLoop]
        obtain ⟨b, hb, -⟩ := extreme_step hop (m := m) (x := x) (.inl ⟨hm, hx⟩)
        rw [hb]
        cases b with
        | true => exact (ih x hx hs').2
        | false => exact (ih m hm hs').2

open Classical in
/-- **C67**, exactly, with NaN among the numbers: if the first number is NaN, the maximum and the minimum are that NaN; NaNs further back make no difference
(XPath: the result is NaN in both cases). -/
theorem C67_nan_exact (h : Heap) (x : XItem) (s : XSeq) (hs : ∀ y ∈ x :: s, IsNum h y) :
    (IsNanItem h x → CallGives h (S "fn:max") [x :: s] [x] ∧ CallGives h (S "fn:min") [x :: s] [x]) ∧
    (¬ IsNanItem h x → ∀ v, (CallGives h (S "fn:max") [x :: s] v ↔ CallGives h (S "fn:max") [x :: s.filter fun y => ¬ IsNanItem h y] v) ∧
      (CallGives h (S "fn:min") [x :: s] v ↔ CallGives h (S "fn:min") [x :: s.filter fun y => ¬ IsNanItem h y] v)) := by
  have hx := hs x (by simp)
  constructor
  · intro hn
    refine ⟨calls_of 1 _ (hg := ?_), calls_of 1 _ (hg := ?_)⟩
    · show fnMax h (x :: s) = _
      rw [(extreme_fn h x s).1, (extremeLoop_nan (.inl rfl) _ x hx hs).1 hn]; rfl
    · show fnMin h (x :: s) = _
      rw [(extreme_fn h x s).2, (extremeLoop_nan (.inr rfl) _ x hx hs).1 hn]; rfl
  · intro hn v
    have e : (x :: s).filter (fun y => ¬ IsNanItem h y) = x :: s.filter fun y => ¬ IsNanItem h y := List.filter_cons_of_pos (by simpa using hn)
    rw [gives_iff 1 _, gives_iff 1 _, gives_iff 1 _, gives_iff 1 _]
    show (fnMax h (x :: s) = _ ↔ fnMax h (x :: _) = _) ∧ (fnMin h (x :: s) = _ ↔ fnMin h (x :: _) = _)
    rw [(extreme_fn h x s).1, (extreme_fn h x s).2, (extreme_fn h x (s.filter fun y => ¬ IsNanItem h y)).1, (extreme_fn h x (s.filter fun y => ¬ IsNanItem h y)).2,
      (extremeLoop_nan (.inl rfl) _ x hx hs).2, (extremeLoop_nan (.inr rfl) _ x hx hs).2, e]
    exact ⟨Iff.rfl, Iff.rfl⟩

/-- `(1, NaN, 2)`: the hypotheses are met. -/
example (h : Heap) : (∀ y ∈ [.integer 1, .double F64.nan, .integer 2], IsNum h y) ∧ IsNanItem h (.double F64.nan) ∧ ¬ IsNanItem h (.integer 1) := by
  refine ⟨by simp [IsNum, XItem.atomize, asDouble], ⟨F64.nan, .inl rfl, by decide +kernel⟩, ?_⟩
  rintro ⟨d, e | e, -⟩ <;> cases e

/-- The node `b` of `textSample` has two `xml:lang` attributes on its path; the outer one counts. -/
example : PathTo textSample 0 [3, 1, 0] ∧ textSample.attributeValue 1 (S "xml:lang") = some (S "en") ∧ textSample.attributeValue 0 (S "xml:lang") = none := by
  refine ⟨?_, by decide, by decide⟩
  exact ⟨by decide, by decide, rfl⟩

end Amxml
