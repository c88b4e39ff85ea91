import Verif.Props.Serial
import Verif.Props.Edit
import Verif.Spec.Pretty

/-!
# C90: `to_pretty_string` adds white space only
-/

namespace Amxml
open Spec

/-! ## trimming -/

theorem dropWhile_all {p : Char → Bool} {w : Str} (hw : ∀ c ∈ w, p c = true) (s : Str) : (w ++ s).dropWhile p = s.dropWhile p := by
  induction w with
  | nil => rfl
  | cons c w ih => rw [List.cons_append, List.dropWhile_cons, if_pos (hw c (by simp))]; exact ih fun c hc => hw c (by simp [hc])

theorem dropWhile_none {p : Char → Bool} {w : Str} (hw : ∀ c ∈ w, p c = true) : w.dropWhile p = [] := by
  have := dropWhile_all hw []
  simpa using this

theorem dropWhile_back {p : Char → Bool} {w : Str} (hw : ∀ c ∈ w, p c = true) (s : Str) :
    (s ++ w).dropWhile p = if s.dropWhile p = [] then [] else s.dropWhile p ++ w := by
  induction s with
  | nil => simp [dropWhile_none hw]
  | cons c s ih =>
    rw [List.cons_append, List.dropWhile_cons, List.dropWhile_cons]
    by_cases hc : p c = true
    · rw [if_pos hc, if_pos hc, ih]
    · rw [if_neg hc, if_neg hc]; simp

theorem trimmed_front {w : Str} (hw : ∀ c ∈ w, White c = true) (s : Str) : trimmed (w ++ s) = trimmed s := by
  unfold trimmed; rw [dropWhile_all hw]

theorem trimmed_back {w : Str} (hw : ∀ c ∈ w, White c = true) (s : Str) : trimmed (s ++ w) = trimmed s := by
  unfold trimmed
  rw [dropWhile_back hw]
  split
  · rename_i h; rw [h]
  · rw [List.reverse_append, dropWhile_all (by simpa using hw)]

theorem trimmed_white {w : Str} (hw : ∀ c ∈ w, White c = true) : trimmed w = [] := by
  have := trimmed_front hw []
  rw [List.append_nil] at this
  exact this

/-! ## the pretty text as the text of a document -/

/-- A text node. -/
def textContent (s : Str) : Content := ⟨.text, [], s, []⟩

/-- The document that is written by the pretty printer. -/
def decorate (n : Nat) : Forest Content → Forest Content
  | .nil => .nil
  | .cons c k r =>
    .cons (textContent (List.replicate n ' ')) .nil
      (.cons c (if k = .nil then .nil else .cons (textContent (S "\n")) .nil (decorate (n + 4) k ++ .cons (textContent (List.replicate n ' ')) .nil .nil))
        (.cons (textContent (S "\n")) .nil (decorate n r)))

theorem encode_white {w : Str} (hw : ∀ c ∈ w, White c = true) : encodeEntity w = w := by
  rw [encodeEntity_eq]
  induction w with
  | nil => rfl
  | cons c w ih =>
    rw [List.flatMap_cons, ih fun c hc => hw c (by simp [hc])]
    have hc := hw c (by simp)
    have : esc c = [c] := by
      unfold White at hc
      simp only [Bool.or_eq_true, beq_iff_eq] at hc
      rcases hc with ((rfl | rfl) | rfl) | rfl <;> rfl
    rw [this]; rfl

theorem strOf_append (F G : Forest Content) : strOf (F ++ G) = strOf F ++ strOf G := by
  induction F with
  | nil => rfl
  | cons c k r _ ih =>
    show strOf (.cons c k (r ++ G)) = _
    rw [strOf, strOf, ih, ← List.append_assoc]

theorem white_spaces (n : Nat) : ∀ c ∈ List.replicate n ' ', White c = true := by
  intro c hc
  rw [(List.mem_replicate.1 hc).2]; rfl

theorem white_nl : ∀ c ∈ S "\n", White c = true := by decide

theorem strOf_text (w : Str) (k G : Forest Content) : strOf (.cons (textContent w) k G) = encodeEntity w ++ strOf G := by
  rw [strOf]; rfl

/-- Nodes of a type that is written: not attributes or the root. -/
def PlainContents (F : Forest Content) : Prop := ∀ c ∈ F.toList, c.ntype ≠ .documentRoot ∧ c.ntype ≠ .attribute ∧ c.ntype ≠ .directive

theorem toStringF_pretty {h : Heap} (F : Forest NodeId) {p : Option NodeId} (hl : Linked h p F) (hp : PlainContents (F.map (contentOf h))) (fuel n : Nat)
    (hf : F.toList.length ≤ fuel) : toStringF fuel h F.roots n 4 = some (strOf (decorate n (F.map (contentOf h)))) := by
  induction F generalizing p fuel n with
  | nil => cases fuel <;> rfl
  | cons i k r ih1 ih2 =>
    obtain ⟨h1, h2, h3, h4, h5⟩ := hl
    simp only [Forest.toList, List.length_cons, List.length_append] at hf
    obtain ⟨f, rfl⟩ : ∃ f, fuel = f + 1 := ⟨fuel - 1, by omega⟩
    simp only [PlainContents, Forest.map, Forest.toList, List.mem_cons, List.mem_append] at hp
    have i1 := ih1 h4 (fun c hc => hp c (.inr (.inl hc))) f (n + 4) (by omega)
    have i2 := ih2 h5 (fun c hc => hp c (.inr (.inr hc))) f n (by omega)
    have ha : attrsToString h (h.node i).attributes = attrsStr (contentOf h i).attrs := by
      simp [attrsToString, attrsStr, contentOf, List.flatMap_map]
    have hi := hp (contentOf h i) (.inl rfl)
    have ht : (contentOf h i).ntype = (h.node i).ntype := rfl
    have hn : (contentOf h i).name = (h.node i).name := rfl
    have hv : (contentOf h i).value = (h.node i).value := rfl
    simp only [Forest.roots, toStringF, h3, i1, i2, Forest.map, decorate, strOf_text, encode_white (white_spaces n), ha]
    rw [strOf, strOf_text, encode_white white_nl, hn, hv]
    rw [ht] at hi ⊢
    have hk : k.roots.length = 0 ↔ k = .nil := by cases k <;> simp [Forest.roots]
    have hk' : k.map (contentOf h) = .nil ↔ k = .nil := by cases k <;> simp [Forest.map]
    simp only [hk, hk']
    by_cases e : k = .nil
    · cases ht' : (h.node i).ntype <;> simp [e, nlIfPositive, Forest.roots] <;> simp_all
    · cases ht' : (h.node i).ntype <;> simp [e, nlIfPositive, Forest.roots, strOf_text, strOf_append, encode_white white_nl, encode_white (white_spaces n), show strOf .nil = [] from rfl] <;> simp_all

theorem decorate_writable {F : Forest Content} (hF : WritableForest F) (n : Nat) : WritableForest (decorate n F) := by
  have ht : ∀ w : Str, (∀ c ∈ w, c = ' ' ∨ c = '\n') → (textContent w).Writable := by
    intro w hw
    refine ⟨rfl, rfl, ?_, ?_⟩ <;> intro hc <;> rcases hw _ hc with h | h <;> revert h <;> decide
  have hsp : ∀ n, ∀ c ∈ List.replicate n ' ', c = ' ' ∨ c = '\n' := fun n c hc => .inl (List.mem_replicate.1 hc).2
  have happ : ∀ F G, WritableForest F → WritableForest G → WritableForest (F ++ G) := by
    intro F G hF hG
    induction F with
    | nil => exact hG
    | cons c k r _ ih => exact ⟨hF.1, hF.2.1, hF.2.2.1, ih hF.2.2.2⟩
  induction F generalizing n with
  | nil => trivial
  | cons c k r ih1 ih2 =>
    obtain ⟨h1, h2, h3, h4⟩ := hF
    refine ⟨ht _ (hsp n), fun _ => rfl, trivial, h1, fun hc => ?_, ?_, ht _ (by decide), fun _ => rfl, trivial, ih2 h4 n⟩
    · rw [if_pos (h2 hc)]
    · split
      · trivial
      · exact ⟨ht _ (by decide), fun _ => rfl, trivial, happ _ _ (ih1 h3 (n + 4)) ⟨ht _ (hsp n), fun _ => rfl, trivial, trivial⟩⟩

/-! ## reading it back -/

/-- A text in front of a forest, unless it is empty. -/
def frontText (t : Str) (G : Forest Content) : Forest Content := if t = [] then G else .cons (textContent t) .nil G

theorem trim_consText (u : Str) (G : Forest Content) : trimForest (consText u G) = frontText (trimmed u) (trimForest G) := by
  unfold consText frontText
  by_cases hu : u = []
  · subst hu; simp [trimmed]
  · rw [if_neg hu]
    simp only [trimForest, if_true, textContent]

theorem joinTexts_text (u w : Str) (k G : Forest Content) : joinTexts u (.cons (textContent w) k G) = joinTexts (u ++ w) G := by
  rw [joinTexts, if_pos (show (textContent w).ntype = .text from rfl)]; rfl

theorem trim_pretty (F : Forest Content) (hn : NormalForest F) (hw : WritableForest F) : ∀ (n : Nat) (x : Str) (T : Forest Content),
    (T = .nil ∨ ∃ w, (∀ c ∈ w, White c = true) ∧ T = .cons (textContent w) .nil .nil) →
    ((∀ c ∈ x, White c = true) ∨ ∀ d, F.roots.head? = some d → d.ntype ≠ .text) →
    trimForest (joinTexts x (decorate n F ++ T)) = frontText (trimmed x) (trimForest F) := by
  induction F with
  | nil =>
    intro n x T hT _
    show trimForest (joinTexts x T) = _
    rcases hT with rfl | ⟨w, hw, rfl⟩
    · rw [joinTexts, trim_consText]
    · rw [joinTexts_text, joinTexts, trim_consText, trimmed_back hw]
  | cons c k r ih1 ih2 =>
    intro n x T hT hx
    obtain ⟨n1, n2, n3⟩ := hn
    obtain ⟨w1, w2, w3, w4⟩ := hw
    show trimForest (joinTexts x (.cons (textContent _) .nil (.cons c _ (.cons (textContent _) .nil (decorate n r ++ T))))) = _
    rw [joinTexts_text]
    have rest : ∀ y : Str, ((∀ c ∈ y, White c = true) ∨ ∀ d, r.roots.head? = some d → d.ntype ≠ .text) →
        trimForest (joinTexts y (decorate n r ++ T)) = frontText (trimmed y) (trimForest r) := fun y hy => ih2 n3 w4 n y T hT hy
    by_cases hc : c.ntype = .text
    · have hx' : ∀ c ∈ x, White c = true := hx.resolve_right fun h => h c rfl hc
      rw [joinTexts, if_pos hc, joinTexts_text, rest _ (.inr (n1 hc).2), trimmed_back white_nl, List.append_assoc, trimmed_front hx',
        trimmed_front (white_spaces n), trimmed_white hx', trimForest, if_pos hc]
      have hk : k = .nil := w2 (by rw [hc]; decide)
      obtain ⟨e1, e2⟩ : c.name = [] ∧ c.attrs = [] := by
        unfold Content.Writable at w1
        rw [hc] at w1
        exact ⟨w1.1, w1.2.1⟩
      unfold frontText
      rw [if_pos (show ([] : Str) = [] from rfl), hk]
      split
      · rfl
      · cases c
        simp only at hc e1 e2
        subst hc e1 e2
        rfl
    · rw [joinTexts, if_neg hc, trim_consText, trimmed_back (white_spaces n), trimForest, if_neg hc, trimForest, if_neg hc, joinTexts_text]
      have hr := rest (S "\n") (.inl white_nl)
      rw [List.nil_append, hr, trimmed_white white_nl]
      congr 2
      split
      · rename_i e; subst e; simp [joinTexts, consText, trimForest]
      · rw [joinTexts_text, List.nil_append, ih1 n2 w3 (n + 4) (S "\n") _ (.inr ⟨_, white_spaces n, rfl⟩) (.inl white_nl), trimmed_white white_nl]
        rfl

/-- **C90**: `to_pretty_string()` of a document returns a text, and `new_document` of this text returns a document with the same tree of contents, except for white space
at the ends of texts and texts of white space only. -/
theorem C90_pretty_parses (h : Heap) (hw : HeapWF h) (r : NodeId) (F : Forest NodeId) (hd : DocTree h r F)
    (ht : (h.node r).ntype = .documentRoot) (hwr : WritableForest (F.map (contentOf h)))
    (hn : NormalForest (F.map (contentOf h))) :
    ∃ s, (∃ n, ∀ m ≥ n, h.toPrettyString m r = some s) ∧
      ∃ h' r' F', newDocument h s = some (.ok (h', r')) ∧ ParsedDoc h' r' F' ∧
        trimForest (F'.map (contentOf h')) = trimForest (F.map (contentOf h)) := by
  have hp : ∀ G : Forest Content, WritableForest G → PlainContents G := by
    intro G hG
    induction G with
    | nil => intro c hc; cases hc
    | cons c k r ih1 ih2 =>
      intro d hd
      simp only [Forest.toList, List.mem_cons, List.mem_append] at hd
      rcases hd with rfl | hd | hd
      · have := hG.1
        unfold Content.Writable at this
        refine ⟨?_, ?_, ?_⟩ <;> intro e <;> rw [e] at this <;> exact this
      · exact ih1 hG.2.2.1 d hd
      · exact ih2 hG.2.2.2 d hd
  have hs : ∀ m ≥ F.toList.length + 1, h.toPrettyString m r = some (strOf (decorate 0 (F.map (contentOf h)))) := by
    intro m hm
    obtain ⟨m, rfl⟩ : ∃ k, m = k + 1 := ⟨m - 1, by omega⟩
    have h1 := toStringF_pretty F hd.linked.2.2.2.1 (hp _ hwr) m 0 (by omega)
    have hnil : toStringF m h [] 0 4 = some [] := by cases m <;> rfl
    have hr := hd.linked.2.2.1
    simp only [Heap.toPrettyString, toStringF, ht, hr, h1, hnil]
    simp
  refine ⟨_, ⟨_, hs⟩, ?_⟩
  obtain ⟨h', F', e, hp', hc, _⟩ := newDocument_strOf h hw _ (decorate_writable hwr 0)
  refine ⟨h', h.size, F', e, hp', ?_⟩
  rw [hc]
  have := trim_pretty _ hn hwr 0 [] .nil (.inl rfl) (.inl (by simp))
  simpa [frontText, trimmed] using this

theorem Spec.Spaced.refl (s : Str) : Spaced s s := ⟨List.Sublist.refl _, rfl⟩

theorem Spec.Spaced.append {s p t q : Str} (h1 : Spaced s p) (h2 : Spaced t q) : Spaced (s ++ t) (p ++ q) :=
  ⟨h1.1.append h2.1, by rw [List.filter_append, List.filter_append, h1.2, h2.2]⟩

theorem spaced_white {w : Str} (hw : ∀ c ∈ w, White c = true) : Spaced [] w := by
  refine ⟨List.nil_sublist _, ?_⟩
  rw [List.filter_nil, List.filter_eq_nil_iff.2]
  intro c hc; simp [hw c hc]

theorem toStringF_spaced {h : Heap} (n : Nat) : ∀ (l : List NodeId) (i : Nat) (s : Str), toStringF n h l 0 0 = some s →
    ∃ p, toStringF n h l i 4 = some p ∧ Spaced s p := by
  induction n with
  | zero =>
    intro l i s hs
    cases l with
    | nil => exact ⟨s, by simpa [toStringF] using hs, .refl s⟩
    | cons a l => cases hs
  | succ n ih =>
    intro l i s hs
    cases l with
    | nil => exact ⟨s, by simpa [toStringF] using hs, .refl s⟩
    | cons a l =>
      simp only [toStringF] at hs ⊢
      have hsp := spaced_white (white_spaces i)
      have hnl : nlIfPositive 4 = S "\n" := rfl
      have hnl0 : nlIfPositive 0 = [] := rfl
      have hsn := spaced_white white_nl
      have r := fun t => Spec.Spaced.refl t
      split at hs
      · rename_i x y e1 e2
        cases hs
        obtain ⟨q, hq, hyq⟩ := ih l i y e2
        rw [hq]
        have : ∃ p, (match (h.node a).ntype with
            | .documentRoot => toStringF n h (h.node a).children i 4
            | .element =>
              if (h.node a).children.length = 0 then some (List.replicate i ' ' ++ S "<" ++ (h.node a).name ++ attrsToString h (h.node a).attributes ++ S "/>" ++ nlIfPositive 4)
              else (toStringF n h (h.node a).children (i + 4) 4).map fun inner =>
                List.replicate i ' ' ++ S "<" ++ (h.node a).name ++ attrsToString h (h.node a).attributes ++ S ">" ++ nlIfPositive 4 ++ inner ++ List.replicate i ' ' ++ S "</" ++
                  (h.node a).name ++ S ">" ++ nlIfPositive 4
            | .text => some (List.replicate i ' ' ++ encodeEntity (h.node a).value ++ nlIfPositive 4)
            | .comment => some (List.replicate i ' ' ++ S "<!--" ++ (h.node a).value ++ S "-->" ++ nlIfPositive 4)
            | .xmlDecl => some (List.replicate i ' ' ++ S "<?xml " ++ (h.node a).value ++ S "?>" ++ nlIfPositive 4)
            | .instruction => some (List.replicate i ' ' ++ S "<?" ++ (h.node a).name ++ S " " ++ (h.node a).value ++ S "?>" ++ nlIfPositive 4)
            | .attribute => some []
            | .directive => some []) = some p ∧ Spaced x p := by
          revert e1
          rw [hnl, hnl0]
          cases (h.node a).ntype <;> simp only [List.replicate_zero, Nat.add_zero] <;> intro e1
          · exact ih _ i x e1
          · split at e1
            · rename_i hc
              rw [if_pos hc]
              refine ⟨_, rfl, ?_⟩
              cases e1
              exact ((((hsp.append (r _)).append (r _)).append (r _)).append (r _)).append hsn
            · rename_i hc
              rw [if_neg hc]
              rw [Option.map_eq_some_iff] at e1
              obtain ⟨z, hz, rfl⟩ := e1
              obtain ⟨z', hz', hzz⟩ := ih _ (i + 4) z hz
              rw [hz']
              refine ⟨_, rfl, ?_⟩
              exact ((((((((((hsp.append (r _)).append (r _)).append (r _)).append (r _)).append hsn).append hzz).append hsp).append (r _)).append (r _)).append (r _)).append hsn
          · refine ⟨_, rfl, ?_⟩; cases e1; exact (hsp.append (r _)).append hsn
          · refine ⟨_, rfl, ?_⟩; cases e1; exact (((hsp.append (r _)).append (r _)).append (r _)).append hsn
          · refine ⟨_, rfl, ?_⟩; cases e1; exact (((hsp.append (r _)).append (r _)).append (r _)).append hsn
          · refine ⟨_, rfl, ?_⟩; cases e1; exact (((((hsp.append (r _)).append (r _)).append (r _)).append (r _)).append (r _)).append hsn
          · refine ⟨_, rfl, ?_⟩; cases e1; exact r _
          · refine ⟨_, rfl, ?_⟩; cases e1; exact r _
        obtain ⟨p, hp, hxp⟩ := this
        refine ⟨p ++ q, ?_, hxp.append hyq⟩
        split
        · rename_i u v eu ev
          have e3 := eu.symm.trans hp
          cases e3
          cases ev
          rfl
        · rename_i hne
          exact absurd rfl (hne p q hp)
      · cases hs

/-- **C90**: for every node (of any state whatsoever) for which `to_string()` returns a text, `to_pretty_string()` returns that text with white space added. -/
theorem C90_only_white_space (h : Heap) (i : NodeId) (n : Nat) (s : Str) (hs : h.toString n i = some s) :
    ∃ p, h.toPrettyString n i = some p ∧ Spaced s p := toStringF_spaced n [i] 0 s hs

/-- The hypotheses of `C90_pretty_parses` are met by a document with text, a comment and nested elements. -/
example : WritableForest sampleForest ∧ NormalForest sampleForest := ⟨sample_writable.1, sample_writable.2.1⟩

/-- The pretty text of `<a>x</a>`: with white space at the ends of the text, which stays there when the text is parsed. -/
example : trimForest (.cons ⟨.element, S "a", [], []⟩ (.cons ⟨.text, [], S "\n    x\n", []⟩ .nil .nil) .nil) =
    trimForest (.cons ⟨.element, S "a", [], []⟩ (.cons ⟨.text, [], S "x", []⟩ .nil .nil) .nil) := by decide

/-- Pretty printing the sample document `<root><a …>…`: the two texts differ, and only in white space. -/
example : editSample.toString 9 1 ≠ editSample.toPrettyString 9 1 ∧ (editSample.toString 9 1).isSome = true := by decide +kernel

end Amxml
