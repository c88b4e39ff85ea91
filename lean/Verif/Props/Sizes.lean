import Verif.Props.Markup

/-!
# C114: a document is no larger than its text
-/

namespace Amxml
open Spec

namespace Sizes

/-! ## References are not shorter than what they stand for -/

theorem decodeStep_length {pat : Str} (hp : pat ≠ []) {radix : Nat} {s t : Str} (h : decodeStep pat radix s = some t) : t.length ≤ s.length := by
  unfold decodeStep at h
  split at h
  · cases h
  · rename_i head v1 e1
    split at h
    · cases h
    · rename_i entity tail e2
      cases h
      rw [splitOnce_eq e1]
      simp only
      rw [splitOnce_eq e2]
      have : pat.length ≠ 0 := by simpa using hp
      simp [S]
      omega

theorem decodeLoop_length {pat : Str} (hp : pat ≠ []) {radix : Nat} : ∀ (n : Nat) (s : Str), (decodeLoop pat radix n s).length ≤ s.length
  | 0, _ => Nat.le_refl _
  | n + 1, s => by
    rw [decodeLoop]
    split
    · exact Nat.le_refl _
    · rename_i t ht
      exact Nat.le_trans (decodeLoop_length hp n t) (decodeStep_length hp ht)

theorem stripPrefix_length : ∀ {pat s r : Str}, stripPrefix pat s = some r → pat.length ≤ s.length := by
  intro pat
  induction pat with
  | nil => intro s r _; simp
  | cons p pat ih =>
    intro s r h
    cases s with
    | nil => simp [stripPrefix] at h
    | cons c s =>
      rw [stripPrefix] at h
      split at h
      · have := ih h
        simp only [List.length_cons]
        omega
      · cases h

theorem replaceAux_length {pat rep : Str} (hp : pat ≠ []) (hr : rep.length ≤ pat.length) : ∀ (s : Str) (k : Nat), k ≤ s.length → (replaceAux pat rep k s).length ≤ s.length - k
  | [], _, _ => by simp [replaceAux]
  | c :: s, k + 1, hk => by
    rw [replaceAux]
    have := replaceAux_length hp hr s k (by simpa using hk)
    simp only [List.length_cons]
    omega
  | c :: s, 0, _ => by
    rw [replaceAux]
    have hpl : pat.length ≠ 0 := by simpa using hp
    split
    · rename_i r e
      have h1 := stripPrefix_length e
      simp only [List.length_cons] at h1
      have := replaceAux_length hp hr s (pat.length - 1) (by omega)
      simp only [List.length_append, List.length_cons]
      omega
    · have := replaceAux_length hp hr s 0 (by omega)
      simp only [List.length_cons]
      omega

theorem replaceAll_length {pat rep : Str} (hp : pat ≠ []) (hr : rep.length ≤ pat.length) (s : Str) : (replaceAll pat rep s).length ≤ s.length :=
  replaceAux_length hp hr s 0 (by omega)

theorem fold_length : ∀ (l : List (Str × Str)) (_ : ∀ e ∈ l, e.1 ≠ [] ∧ e.2.length ≤ e.1.length) (s : Str),
    (l.foldl (fun acc spec => replaceAll spec.1 spec.2 acc) s).length ≤ s.length
  | [], _, _ => Nat.le_refl _
  | e :: l, h, s => by
    rw [List.foldl_cons]
    exact Nat.le_trans (fold_length l (fun x hx => h x (by simp [hx])) _) (replaceAll_length (h e (by simp)).1 (h e (by simp)).2 s)

theorem decode_length (s : Str) : (decodeEntity s).length ≤ s.length := by
  unfold decodeEntity
  refine Nat.le_trans (fold_length _ (by decide) _) (Nat.le_trans (decodeLoop_length (by decide) _ _) (decodeLoop_length (by decide) _ _))

theorem encode_length (s : Str) : (encodeEntity s).length ≤ 6 * s.length := by
  rw [encodeEntity_eq]
  induction s with
  | nil => simp
  | cons c s ih =>
    have : (esc c).length ≤ 6 := by
      unfold esc
      repeat' split
      all_goals simp [S]
    simp only [List.flatMap_cons, List.length_append, List.length_cons]
    omega

/-! ## What tokens cost -/

/-- The cost of the node a token stands for. -/
def tokenCost (cost : Content → Nat) : Token → Nat
  | .startElement n as => cost ⟨.element, n, [], as⟩
  | t => match leafOf t with | some c => cost c | none => 0

def costOf (cost : Content → Nat) (G : Forest Content) : Nat := (G.toList.map cost).sum
def tokensCost (cost : Content → Nat) (ts : List Token) : Nat := (ts.map (tokenCost cost)).sum

variable {cost : Content → Nat}

theorem leaf_cost {t : Token} {c : Content} (h : leafOf t = some c) : tokenCost cost t = cost c := by
  cases t <;> simp_all [tokenCost, leafOf]

theorem trees_cost {ts : List Token} {G : Forest Content} (h : Trees ts G) : costOf cost G ≤ tokensCost cost ts := by
  unfold costOf tokensCost
  induction h with
  | nil => simp [Forest.toList]
  | leaf h1 _ ih => simp [Forest.toList, leaf_cost h1]; exact ih
  | directive _ ih => simp; omega
  | element _ _ i1 i2 =>
    simp only [Forest.toList, List.map_cons, List.map_append, List.sum_cons, List.sum_append, List.cons_append] at *
    simp only [tokenCost]
    omega

theorem open_cost {ts : List Token} {G : Forest Content} (h : OpenTrees ts G) : costOf cost G ≤ tokensCost cost ts := by
  induction h with
  | closed h => exact trees_cost h
  | opened h1 _ ih =>
    have := trees_cost (cost := cost) h1
    unfold costOf tokensCost at *
    simp only [Forest.toList_append, Forest.toList, List.map_cons, List.map_append, List.sum_cons, List.sum_append, List.map_nil, List.sum_nil] at *
    simp only [tokenCost]
    omega

theorem text_cost {ts : List Token} {G : Forest Content} (h : TextTrees ts G) : costOf cost G ≤ tokensCost cost ts := by
  induction h with
  | all h => exact open_cost h
  | stray h1 _ ih =>
    have := trees_cost (cost := cost) h1
    unfold costOf tokensCost at *
    simp only [Forest.toList_append, List.map_cons, List.map_append, List.sum_cons, List.sum_append] at *
    omega

theorem written_cost {k : Nat} (hc : ∀ w ts t, Construct w ts t → tokensCost cost ts ≤ k * w.length) {s r : Str} {ts : List Token} (h : Written s ts r) :
    tokensCost cost ts ≤ k * s.length := by
  induction h with
  | refl => simp [tokensCost]
  | more h1 _ ih =>
    have := hc _ _ _ h1
    unfold tokensCost at *
    simp only [List.map_append, List.sum_append, List.length_append, Nat.mul_add]
    omega

/-- The costs of the attributes of a tag. -/
theorem inTag_cost {k : Nat} {f : Str × Str → Nat} (hf : ∀ n v, f (n, decodeEntity v) ≤ k * (n.length + v.length + 3)) {b : Str} {as : List (Str × Str)}
    (h : InTag b as) : (as.map f).sum ≤ k * b.length := by
  induction h with
  | nil => simp
  | space _ _ ih | junk _ _ _ _ _ ih => simp only [List.length_cons, Nat.mul_add]; omega
  | last _ _ _ _ _ =>
    rename_i n w w' q v _ _ _ _ _
    have := hf n v
    refine Nat.le_trans (by simpa using this) (Nat.mul_le_mul_left k ?_)
    simp
    omega
  | attr _ _ _ _ _ _ _ _ ih =>
    rename_i n w w' q v c r as _ _ _ _ _ _ _ _
    have := hf n v
    have h2 : k * (n.length + v.length + 3) + k * r.length ≤ k * (n ++ w ++ '=' :: w' ++ q :: v ++ q :: c :: r).length := by
      rw [← Nat.mul_add]
      refine Nat.mul_le_mul_left k ?_
      simp
      omega
    simp only [List.map_cons, List.sum_cons]
    omega

/-- The number of nodes: one, and the attributes. -/
def nodesOf (c : Content) : Nat := 1 + c.attrs.length

theorem nodes_construct {w : Str} {ts : List Token} {t : Str} (h : Construct w ts t) : tokensCost nodesOf ts ≤ 1 * w.length := by
  have att : ∀ {b as}, InTag b as → as.length ≤ b.length := by
    intro b as h
    have := inTag_cost (k := 1) (f := fun _ => 1) (by intro n v; omega) h
    have e : ∀ l : List (Str × Str), (l.map fun _ => 1).sum = l.length := by
      intro l
      induction l with
      | nil => rfl
      | cons a l ih => simp [ih]; omega
    rw [e] at this
    omega
  cases h with
  | startTag _ hb _ =>
    have := att hb
    simp [tokensCost, tokenCost, nodesOf, S]
    omega
  | emptyTag _ hb _ _ =>
    have := att hb
    split <;> simp [tokensCost, tokenCost, nodesOf, leafOf, S] <;> omega
  | text h1 _ _ =>
    rw [← List.length_pos_iff] at h1
    simp [tokensCost, tokenCost, leafOf, nodesOf]
    omega
  | pi => simp only [tokensCost, tokenCost, leafOf, List.map_cons, List.map_nil, List.sum_cons, List.sum_nil]; split <;> simp [nodesOf, S]
  | _ => simp [tokensCost, tokenCost, leafOf, nodesOf, S]

/-- The number of characters: of the name, of the value, of the names and values of the attributes. -/
def charsOf (c : Content) : Nat := c.name.length + c.value.length + (c.attrs.map fun a => a.1.length + a.2.length).sum

theorem chars_construct {w : Str} {ts : List Token} {t : Str} (h : Construct w ts t) : tokensCost charsOf ts ≤ 1 * w.length := by
  have att : ∀ {b as}, InTag b as → (as.map fun a : Str × Str => a.1.length + a.2.length).sum ≤ b.length := by
    intro b as h
    have := inTag_cost (k := 1) (f := fun a => a.1.length + a.2.length) (by intro n v; have := decode_length v; simp only; omega) h
    simpa using this
  cases h with
  | startTag _ hb _ =>
    have := att hb
    simp [tokensCost, tokenCost, charsOf, S]
    omega
  | emptyTag _ hb _ _ =>
    have := att hb
    split <;> simp [tokensCost, tokenCost, charsOf, leafOf, S] <;> omega
  | text h1 _ _ =>
    have := decode_length w
    simp [tokensCost, tokenCost, leafOf, charsOf]
    omega
  | pi =>
    simp only [tokensCost, tokenCost, leafOf, List.map_cons, List.map_nil, List.sum_cons, List.sum_nil]
    split
    · rename_i e
      subst e
      simp [charsOf, S]
      omega
    · simp [charsOf, S]
      omega
  | _ => simp [tokensCost, tokenCost, leafOf, charsOf, S] <;> omega

/-- The length of what is written for a node, without what is below it. -/
def writtenOf (c : Content) : Nat :=
  match c.ntype with
  | .element => 2 * c.name.length + 5 + (c.attrs.map fun a => a.1.length + 6 * a.2.length + 4).sum
  | .text => 6 * c.value.length
  | .comment => 7 + c.value.length
  | .xmlDecl => 8 + c.value.length
  | .instruction => 5 + c.name.length + c.value.length
  | _ => 0

theorem attrsStr_length (as : List (Str × Str)) : (attrsStr as).length ≤ (as.map fun a => a.1.length + 6 * a.2.length + 4).sum := by
  unfold attrsStr
  induction as with
  | nil => simp
  | cons a as ih =>
    have := encode_length a.2
    simp only [List.flatMap_cons, List.length_append, List.map_cons, List.sum_cons]
    simp [S] at ih ⊢
    omega

theorem strOf_length (G : Forest Content) : (strOf G).length ≤ costOf writtenOf G := by
  unfold costOf
  induction G with
  | nil => simp [strOf]
  | cons c k r i1 i2 =>
    have h1 := attrsStr_length c.attrs
    have h2 := encode_length c.value
    simp only [strOf, Forest.toList, List.map_cons, List.map_append, List.sum_cons, List.sum_append, List.length_append]
    suffices hs : ∀ n, n ≤ writtenOf c + (k.toList.map writtenOf).sum → n + (strOf r).length ≤
        writtenOf c + ((k.toList.map writtenOf).sum + (r.toList.map writtenOf).sum) by
      refine hs _ ?_
      revert i1
      generalize (k.toList.map writtenOf).sum = kk
      intro i1
      unfold writtenOf
      cases c.ntype <;> dsimp only
      case element => split <;> simp [S] <;> omega
      case documentRoot => omega
      case text => omega
      all_goals simp [S]
      all_goals omega
    intro n hn
    omega

theorem written_construct {w : Str} {ts : List Token} {t : Str} (h : Construct w ts t) : tokensCost writtenOf ts ≤ 6 * w.length := by
  have att : ∀ {b as}, InTag b as → (as.map fun a : Str × Str => a.1.length + 6 * a.2.length + 4).sum ≤ 6 * b.length := by
    intro b as h
    exact inTag_cost (k := 6) (f := fun a => a.1.length + 6 * a.2.length + 4) (by intro n v; have := decode_length v; simp only; omega) h
  cases h with
  | startTag _ hb _ =>
    have := att hb
    simp [tokensCost, tokenCost, writtenOf, S]
    omega
  | emptyTag _ hb _ _ =>
    have := att hb
    split <;> simp [tokensCost, tokenCost, writtenOf, leafOf, S] <;> omega
  | text h1 _ _ =>
    have := decode_length w
    simp [tokensCost, tokenCost, leafOf, writtenOf]
    omega
  | pi =>
    simp only [tokensCost, tokenCost, leafOf, List.map_cons, List.map_nil, List.sum_cons, List.sum_nil]
    split
    · simp [writtenOf, S]
      omega
    · simp [writtenOf, S]
      omega
  | _ => simp [tokensCost, tokenCost, leafOf, writtenOf, S] <;> omega

theorem noCR_length (s : Str) : (noCR s).length ≤ s.length := by
  unfold noCR
  exact List.length_filter_le _ _

theorem docIds_nodes (h : Heap) (F : Forest NodeId) : (docIds h F).length = costOf nodesOf (F.map (contentOf h)) := by
  unfold costOf
  induction F with
  | nil => rfl
  | cons i k r i1 i2 =>
    simp only [docIds, Forest.map, Forest.toList, List.length_cons, List.length_append, List.map_cons, List.map_append, List.sum_cons, List.sum_append, i1, i2]
    simp [nodesOf, contentOf]
    omega

theorem docIds_chars (h : Heap) (F : Forest NodeId) :
    ((docIds h F).map fun i => (h.node i).name.length + (h.node i).value.length).sum = costOf charsOf (F.map (contentOf h)) := by
  unfold costOf
  induction F with
  | nil => rfl
  | cons i k r i1 i2 =>
    simp only [docIds, Forest.map, Forest.toList, List.map_cons, List.map_append, List.sum_cons, List.sum_append]
    rw [i1, i2]
    simp [charsOf, contentOf, Function.comp_def]
    omega

theorem pushAttrs_size (as : List (Str × Str)) (i : NodeId) : ∀ h : Heap, (as.foldl (fun h' a => h'.pushAttr i a) h).size = h.size + as.length := by
  induction as with
  | nil => intro h; rfl
  | cons a as ih =>
    intro h
    rw [List.foldl_cons, ih]
    simp [Heap.pushAttr]
    omega

theorem step_size {h h' : Heap} {cur cur' : NodeId} {t : Token} (hs : stepToken h cur t = .ok (h', cur')) : h'.size = h.size + tokenCost nodesOf t := by
  cases t <;> simp only [stepToken] at hs
  case startElement n as =>
    cases hs
    rw [pushAttrs_size]
    simp [Heap.makeChild, tokenCost, nodesOf]
    omega
  case procInst n c =>
    split at hs <;> rename_i e <;> cases hs <;> simp [Heap.makeChild, tokenCost, nodesOf, leafOf, e]
  case endElement n =>
    split at hs
    · cases hs
    · cases hs
      simp [tokenCost, leafOf]
  all_goals
    cases hs
    simp [Heap.makeChild, tokenCost, nodesOf, leafOf]

theorem build_size : ∀ {ts : List Token} {h h' : Heap} {cur cur' : NodeId}, buildTokens ts h cur = .ok (h', cur') → h'.size = h.size + tokensCost nodesOf ts
  | [], h, h', cur, cur', hb => by
    rw [buildTokens] at hb
    cases hb
    rfl
  | t :: ts, h, h', cur, cur', hb => by
    rw [buildTokens] at hb
    split at hb
    · cases hb
    · rename_i h1 c1 e
      have h2 := step_size e
      have h3 := build_size hb
      unfold tokensCost at *
      simp only [List.map_cons, List.sum_cons]
      omega

end Sizes

/-- **C114**: the document read from a text has no more nodes (attributes counted) than the text has characters, and its names and values together no more
characters than the text. -/
theorem C114_no_larger (h : Heap) (hw : HeapWF h) (xml : Str) (h0 : '\x00' ∉ xml) (h' : Heap) (r : NodeId) (hd : newDocument h xml = some (.ok (h', r))) :
    ∃ F, ParsedDoc h' r F ∧ (docIds h' F).length ≤ xml.length ∧
      ((docIds h' F).map fun i => (h'.node i).name.length + (h'.node i).value.length).sum ≤ xml.length := by
  obtain ⟨ts, G, F, h1, h2, h3, h4⟩ := C96_tree h hw xml h0 h' r hd
  have hl := Sizes.noCR_length xml
  refine ⟨F, h3, ?_, ?_⟩
  · rw [Sizes.docIds_nodes, h4]
    have a := Sizes.text_cost (cost := Sizes.nodesOf) h2
    have b := Sizes.written_cost (cost := Sizes.nodesOf) (fun _ _ _ => Sizes.nodes_construct) h1
    omega
  · rw [Sizes.docIds_chars, h4]
    have a := Sizes.text_cost (cost := Sizes.charsOf) h2
    have b := Sizes.written_cost (cost := Sizes.charsOf) (fun _ _ _ => Sizes.chars_construct) h1
    omega

/-- **C114**: reading a text creates no more nodes than it has characters, and the root. -/
theorem C114_created (h : Heap) (hw : HeapWF h) (xml : Str) (h0 : '\x00' ∉ xml) (h' : Heap) (r : NodeId) (hd : newDocument h xml = some (.ok (h', r))) :
    h'.size ≤ h.size + 1 + xml.length := by
  obtain ⟨ts, h1, -⟩ := (C95_accepts h hw xml h0).1 ⟨h', r, hd⟩
  rw [newDocument_stream ((C95_tokens xml h0 ts).2 h1)] at hd
  cases e : buildTokens ts (h.alloc (mkNode .documentRoot none [] [])) h.size with
  | error _ => rw [e] at hd; cases hd
  | ok b =>
    rw [e] at hd
    cases hd
    have h2 := Sizes.build_size e
    have h3 := Sizes.written_cost (cost := Sizes.nodesOf) (fun _ _ _ => Sizes.nodes_construct) h1
    have h4 := Sizes.noCR_length xml
    rw [Heap.alloc_size] at h2
    omega

/-- **C114**: written again, the document has at most six times as many characters as the text. -/
theorem C114_written (h : Heap) (hw : HeapWF h) (xml : Str) (h0 : '\x00' ∉ xml) (h' : Heap) (r : NodeId) (hd : newDocument h xml = some (.ok (h', r)))
    (fuel : Nat) (s : Str) (hs : h'.toString fuel r = some s) : s.length ≤ 6 * xml.length := by
  obtain ⟨ts, G, F, h1, h2, h3, h4⟩ := C96_tree h hw xml h0 h' r hd
  have hl := Sizes.noCR_length xml
  rw [toString_eq h3.toDocTree h3.root_type hs, h4]
  have a := Sizes.strOf_length G
  have b := Sizes.text_cost (cost := Sizes.writtenOf) h2
  have c := Sizes.written_cost (cost := Sizes.writtenOf) (fun _ _ _ => Sizes.written_construct) h1
  omega

/-- Six is the best factor: quotes. -/
example : (do let (h, r) ← (newDocument .empty (S "\"\"\"\"\"\"\"\"")).bind Except.toOption; h.toString 9 r) =
    some (S "&quot;&quot;&quot;&quot;&quot;&quot;&quot;&quot;") := by decide +kernel

/-- **C114**: what references are replaced by is never longer than they are. -/
theorem C114_references (s : Str) : (decodeEntity s).length ≤ s.length := Sizes.decode_length s

end Amxml
