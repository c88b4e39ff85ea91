import Verif.Lemmas.Forest
import Verif.Lemmas.Sax
import Verif.Spec.Tokens

/-!
# `new_document` on token streams
-/

namespace Amxml
open Spec

/-- The loop of `new_document` on a given list of tokens. -/
def buildTokens : List Token → Heap → NodeId → Except DocErr (Heap × NodeId)
  | [], h, cur => .ok (h, cur)
  | t :: ts, h, cur =>
    match stepToken h cur t with
    | .error e => .error e
    | .ok (h', cur') => buildTokens ts h' cur'

theorem buildTokens_append (ts us : List Token) (h : Heap) (cur : NodeId) :
    buildTokens (ts ++ us) h cur =
      match buildTokens ts h cur with
      | .error e => .error e
      | .ok (h', cur') => buildTokens us h' cur' := by
  induction ts generalizing h cur with
  | nil => rfl
  | cons t ts ih =>
    simp only [List.cons_append, buildTokens]
    split
    · rfl
    · exact ih _ _

theorem Spec.Delivers.append {d d' d'' : Dec} {ts us : List Token} (h1 : Delivers d ts d') (h2 : Delivers d' us d'') :
    Delivers d (ts ++ us) d'' := by
  induction h1 with
  | refl => exact h2
  | step a b _ ih => exact .step a b (ih h2)

theorem Spec.Delivers.one {d d' : Dec} {t : Token} (h : rawToken d = some (.ok t, d')) (ht : t ≠ .eof) :
    Delivers d [t] d' := .step h ht (.refl _)

theorem Spec.Delivers.measure {d d' : Dec} {ts : List Token} (h : Delivers d ts d') :
    ts.length + d'.measure ≤ d.measure := by
  induction h with
  | refl => simp
  | step h1 h2 _ ih =>
    rcases rawToken_measure _ _ h1 with h | ⟨h, _⟩
    · simp at h; simp; omega
    · simp at h; exact absurd h.1 h2

/-- The loop after some delivered tokens. -/
theorem buildLoop_delivers {d d' : Dec} {ts : List Token} (hd : Delivers d ts d') (fuel : Nat) (h : Heap) (cur : NodeId)
    (hf : ts.length ≤ fuel) :
    buildLoop fuel d h cur =
      match buildTokens ts h cur with
      | .error e => some (.error e)
      | .ok (h', cur') => buildLoop (fuel - ts.length) d' h' cur' := by
  induction hd generalizing fuel h cur with
  | refl => simp [buildTokens]
  | @step d d1 d2 tok toks h1 h2 _ ih =>
    cases fuel with
    | zero => simp at hf
    | succ fuel =>
      simp only [buildLoop, h1, buildTokens]
      cases hs : stepToken h cur tok with
      | error e => cases tok <;> simp_all
      | ok r =>
        have := ih fuel r.1 r.2 (by simpa using hf)
        cases tok <;> simp_all

theorem buildLoop_stream {d : Dec} {ts : List Token} (hd : Stream d ts) (fuel : Nat) (h : Heap) (cur : NodeId)
    (hf : d.measure < fuel) : buildLoop fuel d h cur = some ((buildTokens ts h cur).map (·.1)) := by
  obtain ⟨d', hd, d'', he⟩ := hd
  have hm := hd.measure
  rw [buildLoop_delivers hd fuel h cur (by omega)]
  cases buildTokens ts h cur with
  | error e => rfl
  | ok r =>
    obtain ⟨n, hn⟩ : ∃ n, fuel - ts.length = n + 1 := ⟨fuel - ts.length - 1, by omega⟩
    simp [hn, buildLoop, he, Except.map]

/-- A successful run is a stream of tokens. -/
theorem stream_of_buildLoop {fuel : Nat} {d : Dec} {h h' : Heap} {cur : NodeId}
    (hb : buildLoop fuel d h cur = some (.ok h')) :
    ∃ ts cur', Stream d ts ∧ buildTokens ts h cur = .ok (h', cur') := by
  induction fuel generalizing d h cur with
  | zero => simp [buildLoop] at hb
  | succ fuel ih =>
    simp only [buildLoop] at hb
    split at hb
    · simp at hb
    · simp at hb
    · rename_i d' e
      simp at hb; subst hb
      exact ⟨[], cur, ⟨d, .refl _, d', e⟩, rfl⟩
    · rename_i tok d' hne e
      split at hb
      · simp at hb
      · rename_i h1 c1 hs
        obtain ⟨ts, cur', ⟨d2, hd, he⟩, hbt⟩ := ih hb
        exact ⟨tok :: ts, cur', ⟨d2, .step e (by simpa using hne) hd, he⟩, by simp [buildTokens, hs, hbt]⟩

theorem new_measure (xml : Str) : (Dec.new xml).measure < 2 * xml.length + 2 := by
  have := List.length_filter_le (fun x => x != '\r') xml
  simp [Dec.measure, Dec.new] at this ⊢
  omega

/-- More fuel does not change the result of the loop: with the fuel of `newDocument`, `none` is divergence of
`raw_token`. -/
theorem buildLoop_fuel (n m : Nat) (d : Dec) (h : Heap) (cur : NodeId) (hn : d.measure < n) (hm : d.measure < m) :
    buildLoop n d h cur = buildLoop m d h cur := by
  induction n generalizing m d h cur with
  | zero => omega
  | succ n ih =>
    cases m with
    | zero => omega
    | succ m =>
      simp only [buildLoop]
      split
      · rfl
      · rfl
      · rfl
      · rename_i tok d' hne e
        rcases rawToken_measure _ _ e with hlt | ⟨he, _⟩
        · split
          · rfl
          · simp at hlt; exact ih _ _ _ _ (by omega) (by omega)
        · simp at he; exact absurd he.1 (by simpa using hne)

theorem newDocument_stream {xml : Str} {ts : List Token} (hs : Stream (Dec.new xml) ts) (h : Heap) :
    newDocument h xml =
      some ((buildTokens ts (h.alloc (mkNode .documentRoot none [] [])) h.size).map fun r => (r.1, h.size)) := by
  simp only [newDocument, buildLoop_stream hs _ _ _ (new_measure xml)]
  cases buildTokens ts (h.alloc (mkNode .documentRoot none [] [])) h.size <;> rfl

theorem newDocument_ok {h h' : Heap} {xml : Str} {r : NodeId} (hd : newDocument h xml = some (.ok (h', r))) :
    r = h.size ∧ ∃ ts cur, Stream (Dec.new xml) ts ∧
      buildTokens ts (h.alloc (mkNode .documentRoot none [] [])) h.size = .ok (h', cur) := by
  simp only [newDocument, Option.map_eq_some_iff] at hd
  obtain ⟨res, hb, he⟩ := hd
  cases res with
  | error e => simp [Except.map] at he
  | ok h1 =>
    simp [Except.map] at he
    obtain ⟨ts, cur, hs, ht⟩ := stream_of_buildLoop hb
    rw [he.1] at ht
    exact ⟨he.2.symm, ts, cur, hs, ht⟩

/-! ### tag matching -/

/-- Names of the open elements, from `cur` up to the root. -/
inductive OpenPath (h : Heap) : NodeId → List Str → Prop where
  | root {i} : (h.node i).parent = none → (h.node i).name = [] → OpenPath h i []
  | elem {i p st} : (h.node i).parent = some p → OpenPath h p st → OpenPath h i ((h.node i).name :: st)

/-- Allocated nodes keep name, type, value and parent. -/
def Frame (h h' : Heap) : Prop :=
  h.size ≤ h'.size ∧ ∀ i < h.size, (h'.node i).parent = (h.node i).parent ∧ (h'.node i).name = (h.node i).name

theorem Frame.refl (h : Heap) : Frame h h := ⟨Nat.le_refl _, fun _ _ => ⟨rfl, rfl⟩⟩
theorem Frame.trans {a b c : Heap} (h1 : Frame a b) (h2 : Frame b c) : Frame a c :=
  ⟨Nat.le_trans h1.1 h2.1, fun i hi => ⟨(h2.2 i (by have := h1.1; omega)).1.trans (h1.2 i hi).1,
    (h2.2 i (by have := h1.1; omega)).2.trans (h1.2 i hi).2⟩⟩

theorem makeChild_frame (h : Heap) (t : NodeType) (p : NodeId) (n v : Str) (hint : Option Nat) :
    Frame h (h.makeChild t p n v hint) := by
  refine ⟨by simp [Heap.makeChild], fun i hi => ?_⟩
  simp only [Heap.makeChild, Heap.modify_node, Heap.alloc_node]
  have : i ≠ h.size := by omega
  by_cases e : i = p
  · subst e; simp [this]
  · simp [e, this]

theorem pushAttr_frame (h : Heap) (p : NodeId) (a : Str × Str) : Frame h (h.pushAttr p a) := by
  refine ⟨by simp [Heap.pushAttr], fun i hi => ?_⟩
  simp only [Heap.pushAttr, Heap.modify_node, Heap.alloc_node]
  have : i ≠ h.size := by omega
  by_cases e : i = p
  · subst e; simp [this]
  · simp [e, this]

theorem pushAttrs_frame (h : Heap) (p : NodeId) (as : List (Str × Str)) :
    Frame h (as.foldl (fun h' a => h'.pushAttr p a) h) := by
  induction as generalizing h with
  | nil => exact .refl _
  | cons a as ih => exact (pushAttr_frame h p a).trans (ih _)

theorem OpenPath.frame {h h' : Heap} {i : NodeId} {st : List Str} (hp : OpenPath h i st) (hf : Frame h h')
    (hb : ∀ i p, i < h.size → (h.node i).parent = some p → p < h.size) (hi : i < h.size) : OpenPath h' i st := by
  induction hp with
  | root a b => exact .root ((hf.2 _ hi).1.trans a) ((hf.2 _ hi).2.trans b)
  | elem a _ ih =>
    rw [← (hf.2 _ hi).2]
    exact .elem ((hf.2 _ hi).1.trans a) (ih (hb _ _ hi a))

/-- What the loop keeps: parents of allocated nodes are allocated, `cur` is allocated, the open path. -/
structure PathInv (h : Heap) (cur : NodeId) (st : List Str) : Prop where
  bound : ∀ i p, i < h.size → (h.node i).parent = some p → p < h.size
  lt : cur < h.size
  path : OpenPath h cur st

theorem PathInv.makeChild {h : Heap} {cur : NodeId} {st : List Str} (hi : PathInv h cur st) (t : NodeType) (n v : Str) :
    PathInv (h.makeChild t cur n v none) cur st ∧ PathInv (h.makeChild t cur n v none) h.size (n :: st) := by
  have hf := makeChild_frame h t cur n v none
  have hb : ∀ i p, i < (h.makeChild t cur n v none).size →
      ((h.makeChild t cur n v none).node i).parent = some p → p < (h.makeChild t cur n v none).size := by
    intro i p hi' hp
    simp only [Heap.makeChild, Heap.modify_size, Heap.alloc_size] at hi' ⊢
    by_cases e : i < h.size
    · rw [(hf.2 i e).1] at hp
      have := hi.bound i p e hp; omega
    · have : i = h.size := by omega
      subst this
      simp only [Heap.makeChild, Heap.modify_node, Heap.alloc_node] at hp
      have hc : h.size ≠ cur := by have := hi.lt; omega
      simp [hc, mkNode] at hp
      have := hi.lt; omega
  have hp : OpenPath (h.makeChild t cur n v none) cur st := hi.path.frame hf hi.bound hi.lt
  refine ⟨⟨hb, Nat.lt_of_lt_of_le hi.lt hf.1, hp⟩, ⟨hb, by simp [Heap.makeChild], ?_⟩⟩
  have hc : h.size ≠ cur := by have := hi.lt; omega
  have h1 : ((h.makeChild t cur n v none).node h.size).name = n := by
    simp [Heap.makeChild, hc, mkNode]
  have := OpenPath.elem (h := h.makeChild t cur n v none) (i := h.size) (p := cur)
    (by simp [Heap.makeChild, hc, mkNode]) hp
  rwa [h1] at this

theorem PathInv.pushAttrs {h : Heap} {cur : NodeId} {st : List Str} (hi : PathInv h cur st) (as : List (Str × Str)) :
    PathInv (as.foldl (fun h' a => h'.pushAttr cur a) h) cur st := by
  induction as generalizing h with
  | nil => exact hi
  | cons a as ih =>
    apply ih
    have hf := pushAttr_frame h cur a
    refine ⟨?_, Nat.lt_of_lt_of_le hi.lt hf.1, hi.path.frame hf hi.bound hi.lt⟩
    intro i p hi' hp
    simp only [Heap.pushAttr, Heap.modify_size, Heap.alloc_size] at hi' ⊢
    by_cases e : i < h.size
    · rw [(hf.2 i e).1] at hp
      have := hi.bound i p e hp; omega
    · have : i = h.size := by omega
      subst this
      simp only [Heap.pushAttr, Heap.modify_node, Heap.alloc_node] at hp
      have hc : h.size ≠ cur := by have := hi.lt; omega
      simp [hc, mkNode] at hp
      have := hi.lt; omega

/-- Building succeeds exactly on matching tags; otherwise it is a name mismatch. -/
theorem buildTokens_tags (ts : List Token) {h : Heap} {cur : NodeId} {st : List Str} (hi : PathInv h cur st)
    (hne : Token.eof ∉ ts) :
    (TagsMatch st ts → ∃ r, buildTokens ts h cur = .ok r) ∧
    (¬ TagsMatch st ts → ∃ a b, buildTokens ts h cur = .error (.nameMismatch a b)) := by
  induction ts generalizing h cur st with
  | nil => exact ⟨fun _ => ⟨_, rfl⟩, fun h => absurd .nil h⟩
  | cons t ts ih =>
    simp only [List.mem_cons, not_or] at hne
    have ih := fun {h cur st} hi => ih (h := h) (cur := cur) (st := st) hi hne.2
    cases t with
    | eof => exact absurd rfl hne.1
    | startElement n as =>
      simp only [buildTokens, stepToken]
      have := ih ((hi.makeChild .element n []).2.pushAttrs as)
      exact ⟨fun h => by cases h with | start h => exact this.1 h, fun h => this.2 fun h' => h (.start h')⟩
    | charData s =>
      simp only [buildTokens, stepToken]
      have := ih (hi.makeChild .text [] s).1
      exact ⟨fun h => by cases h with | text h => exact this.1 h, fun h => this.2 fun h' => h (.text h')⟩
    | comment s =>
      simp only [buildTokens, stepToken]
      have := ih (hi.makeChild .comment [] s).1
      exact ⟨fun h => by cases h with | comment h => exact this.1 h, fun h => this.2 fun h' => h (.comment h')⟩
    | directive s =>
      simp only [buildTokens, stepToken]
      have := ih hi
      exact ⟨fun h => by cases h with | directive h => exact this.1 h, fun h => this.2 fun h' => h (.directive h')⟩
    | procInst t s =>
      simp only [buildTokens, stepToken]
      split
      · rename_i heq; split at heq <;> simp at heq
      · rename_i h1 c1 heq
        split at heq
        · simp at heq; obtain ⟨rfl, rfl⟩ := heq
          have := ih (hi.makeChild .xmlDecl (S "xml") s).1
          exact ⟨fun h => by cases h with | pi h => exact this.1 h, fun h => this.2 fun h' => h (.pi h')⟩
        · simp at heq; obtain ⟨rfl, rfl⟩ := heq
          have := ih (hi.makeChild .instruction t s).1
          exact ⟨fun h => by cases h with | pi h => exact this.1 h, fun h => this.2 fun h' => h (.pi h')⟩
    | endElement n =>
      simp only [buildTokens, stepToken]
      obtain ⟨hb, hc, hp⟩ := hi
      cases hp with
      | root h1 h2 =>
        simp only [h1, h2, Option.getD_none]
        by_cases e : n = []
        · subst e
          have := ih ⟨hb, hc, .root h1 h2⟩
          simp only [ne_eq, not_true_eq_false, if_false]
          exact ⟨fun h => by cases h with | stray h => exact this.1 h, fun h => this.2 fun h' => h (.stray h')⟩
        · simp only [ne_eq, Ne.symm e, not_false_eq_true, if_true]
          refine ⟨fun h => ?_, fun _ => ⟨_, _, rfl⟩⟩
          cases h; exact absurd rfl e
      | elem h1 h2 =>
        simp only [h1, Option.getD_some]
        by_cases e : (h.node cur).name = n
        · subst e
          have := ih ⟨hb, hb _ _ hc h1, h2⟩
          simp only [ne_eq, not_true_eq_false, if_false]
          exact ⟨fun h => by cases h with | close h => exact this.1 h, fun h => this.2 fun h' => h (.close h')⟩
        · simp only [ne_eq, e, not_false_eq_true, if_true]
          refine ⟨fun h => ?_, fun _ => ⟨_, _, rfl⟩⟩
          cases h; exact absurd rfl e

theorem Spec.Delivers.not_eof {d d' : Dec} {ts : List Token} (h : Delivers d ts d') : Token.eof ∉ ts := by
  induction h with
  | refl => simp
  | step _ h _ ih => simp [ih, Ne.symm h]

end Amxml
