import Verif.Spec.Program
import Verif.Props.Pretty
import Verif.Props.Markup
import Mathlib.Data.List.Perm.Subperm

/-!
# Properties C120 and C121: errors, and the command line program
-/

namespace Amxml
open Spec

/-! ## C120 -/

/-- **C120**: the description of an error is the prefix of its kind, a space and the text. -/
theorem C120_description (k : ErrKind) (t : Str) : (xmlerror k t).descri = (kindPrefix k).toList ++ ' ' :: t := by
  cases k <;> rfl

/-- No prefix begins another one. -/
theorem prefix_free (k l : ErrKind) : k ≠ l → ∀ t u : Str, (kindPrefix k).toList ++ ' ' :: t ≠ (kindPrefix l).toList ++ ' ' :: u := by
  cases k <;> cases l <;> intro hn t u <;> first | exact absurd rfl hn | simp [kindPrefix]

/-- **C120**: the description tells the kind of the error and its text: two errors with the same description are the same. -/
theorem C120_tells (k l : ErrKind) (t u : Str) (h : (xmlerror k t).descri = (xmlerror l u).descri) : k = l ∧ t = u := by
  rw [C120_description, C120_description] at h
  by_cases e : k = l
  · subst e
    exact ⟨rfl, (List.cons.inj (List.append_cancel_left h)).2⟩
  · exact absurd h (prefix_free k l e t u)

/-- **C120**: the kind in the error is the kind asked for. -/
theorem C120_kind (k : ErrKind) (t : Str) : (xmlerror k t).errorType = k := rfl

/-- **C120** for `new_document`: its errors are of kind `XmlSyntaxError`, and say so. -/
theorem C120_document (h : Heap) (xml : Str) (e : DocErr) (_ : newDocument h xml = some (.error e)) :
    e.toXml.errorType = .xmlSyntaxError ∧ ∃ t, e.toXml.descri = S "Syntax Error in XML: " ++ t := by
  cases e with
  | nameMismatch a b => exact ⟨rfl, _, C120_description .xmlSyntaxError _⟩
  | syntaxErr e => exact ⟨rfl, _, C120_description .xmlSyntaxError _⟩

/-- The hypothesis is met, and this is a whole description. -/
example : ((newDocument Heap.empty (S "<a x=y></a>")).map fun r => match r with | .error e => e.toXml.descri | .ok _ => []) =
    some (S "Syntax Error in XML: XML syntax error: Syntax Error in XML: attr_value: no Quote") := by
  decide +kernel

/-! ## C121 -/

theorem toList_docIds (h : Heap) (F : Forest NodeId) : F.toList.Sublist (docIds h F) := by
  induction F with
  | nil => exact List.Sublist.refl _
  | cons i k r ih1 ih2 =>
    rw [docIds, Forest.toList]
    exact ((ih1.append ih2).trans (List.sublist_append_right _ _)).cons_cons _

theorem docTree_size {h : Heap} {r : NodeId} {F : Forest NodeId} (hd : DocTree h r F) : F.toList.length + 1 ≤ h.size := by
  have hs := toList_docIds h (.cons r F .nil)
  have hn := hs.nodup hd.nodup
  have hb : ∀ i ∈ (Forest.cons r F .nil).toList, i < h.size := fun i hi => hd.bound i (hs.subset hi)
  have := (List.subperm_of_subset (l₂ := List.range h.size) hn fun i hi => List.mem_range.2 (hb i hi)).length_le
  simpa [Forest.toList] using this

theorem typed_plain {h : Heap} {r : NodeId} {F : Forest NodeId} (hd : ParsedDoc h r F) : PlainContents (F.map (contentOf h)) := by
  intro c hc
  rw [Forest.toList_map] at hc
  obtain ⟨i, hi, rfl⟩ := List.mem_map.1 hc
  exact (hd.typed i hi).type

/-- The pretty text of a parsed document. -/
theorem pretty_parsed {h : Heap} {r : NodeId} {F : Forest NodeId} (hd : ParsedDoc h r F) :
    ∀ m ≥ F.toList.length + 1, h.toPrettyString m r = some (strOf (decorate 0 (F.map (contentOf h)))) := by
  intro m hm
  obtain ⟨m, rfl⟩ : ∃ k, m = k + 1 := ⟨m - 1, by omega⟩
  have h1 := toStringF_pretty F hd.linked.2.2.2.1 (typed_plain hd) m 0 (by omega)
  have hnil : toStringF m h [] 0 4 = some [] := by cases m <;> rfl
  have hr := hd.linked.2.2.1
  simp only [Heap.toPrettyString, toStringF, hd.root_type, hr, h1, hnil]
  simp

/-- A line feed after a decorated forest. -/
theorem decorate_line {F : Forest Content} (hF : WritableForest F) : WritableForest (decorate 0 F ++ .cons (textContent (S "\n")) .nil .nil) := by
  have happ : ∀ F G, WritableForest F → WritableForest G → WritableForest (F ++ G) := by
    intro F G hF hG
    induction F with
    | nil => exact hG
    | cons c k r _ ih => exact ⟨hF.1, hF.2.1, hF.2.2.1, ih hF.2.2.2⟩
  exact happ _ _ (decorate_writable hF 0) ⟨⟨rfl, rfl, by decide, by decide⟩, fun _ => rfl, trivial, trivial⟩

section
variable (files : Str → Except Str Str) (debug : AppErr → Str)

/-- **C121**: without the name of a file the program says how it is used, prints nothing, and ends with status 1. -/
theorem C121_usage (program : Str) : mainProgram files debug [program] = some (.exited 1 [] (S "Usage: " ++ program ++ S " filename\n")) := rfl

/-- **C121**: if the file cannot be read the program says so on stderr, prints nothing, and ends with status 1. -/
theorem C121_unreadable (program f : Str) (more : List Str) (e : Str) (hf : files f = .error e) :
    mainProgram files debug (program :: f :: more) = some (.exited 1 [] (S "Application error: " ++ debug (.io e) ++ S "\n")) := by
  simp [mainProgram, prettyPrint, hf]

/-- **C121**: if the file is no XML the program says so on stderr, prints nothing, and ends with status 1. -/
theorem C121_rejected (program f xml : Str) (more : List Str) (e : DocErr) (hf : files f = .ok xml) (hd : newDocument Heap.empty xml = some (.error e)) :
    mainProgram files debug (program :: f :: more) = some (.exited 1 [] (S "Application error: " ++ debug (.xml e.toXml) ++ S "\n")) := by
  simp [mainProgram, prettyPrint, hf, hd]

/-- **C121**: if the file is XML the program prints its pretty text and a line feed, nothing on stderr, and ends with status 0. -/
theorem C121_prints (program f xml : Str) (more : List Str) (h : Heap) (r : NodeId) (hf : files f = .ok xml)
    (hd : newDocument Heap.empty xml = some (.ok (h, r))) :
    ∃ p, PrettyText h r p ∧ mainProgram files debug (program :: f :: more) = some (.exited 0 (p ++ S "\n") []) := by
  obtain ⟨F, hp, -⟩ := C08_well_linked Heap.empty .empty xml h r hd
  have hs := pretty_parsed hp
  have h1 := hs (h.size + 1) (by have := docTree_size hp.toDocTree; omega)
  exact ⟨_, ⟨_, hs⟩, by simp [mainProgram, prettyPrint, hf, hd, h1]⟩

/-- **C121**: the program hangs exactly where the file has a start tag that is cut off (C05, C95), and nothing before it is wrong. -/
theorem C121_hangs (args : List Str) : mainProgram files debug args = none ↔
    ∃ program f more xml, args = program :: f :: more ∧ files f = .ok xml ∧ newDocument Heap.empty xml = none := by
  match args with
  | [] => simp [mainProgram]
  | [p] => simp [mainProgram]
  | p :: f :: more =>
    cases hf : files f with
    | error e => rw [C121_unreadable _ _ _ _ _ e hf]; simp [hf]
    | ok xml =>
      cases hd : newDocument Heap.empty xml with
      | none => simp only [mainProgram, prettyPrint, hf, hd, true_iff]; exact ⟨_, _, _, _, rfl, hf, hd⟩
      | some d =>
        cases d with
        | error e => rw [C121_rejected _ _ _ _ _ _ e hf hd]; simp [hf, hd]
        | ok d =>
          obtain ⟨q, -, e⟩ := C121_prints files debug p f xml more d.1 d.2 hf hd
          rw [e]; simp [hf, hd]

/-- **C121**: the status of the program and the two streams. The status is 0 if and only if the file is there and is (what the parser takes for) XML; then
nothing is written to stderr. Otherwise it is 1, nothing is written to stdout, and something is written to stderr. -/
theorem C121_status (program : Str) (args : List Str) (st : Nat) (out err : Str) (hr : mainProgram files debug (program :: args) = some (.exited st out err)) :
    (st = 0 ↔ ∃ f more xml h r, args = f :: more ∧ files f = .ok xml ∧ newDocument Heap.empty xml = some (.ok (h, r))) ∧
      (st = 0 → out ≠ [] ∧ err = []) ∧ (st ≠ 0 → st = 1 ∧ out = [] ∧ err ≠ []) := by
  match args with
  | [] => cases hr; simp [S]
  | f :: more =>
    cases hf : files f with
    | error e => rw [C121_unreadable _ _ _ _ _ e hf] at hr; cases hr; simp [hf, S]
    | ok xml =>
      cases hd : newDocument Heap.empty xml with
      | none => simp [mainProgram, prettyPrint, hf, hd] at hr
      | some d =>
        cases d with
        | error e => rw [C121_rejected _ _ _ _ _ _ e hf hd] at hr; cases hr; simp [hf, hd, S]
        | ok d =>
          obtain ⟨q, -, e⟩ := C121_prints files debug program f xml more d.1 d.2 hf hd
          rw [e] at hr; cases hr
          refine ⟨⟨fun _ => ⟨f, more, xml, d.1, d.2, rfl, hf, hd⟩, fun _ => rfl⟩, by simp [S], by simp⟩

/-- **C121**: for a file without U+0000, status 0 means that the text is written in the grammar of C95 and its tags match. -/
theorem C121_accepts (program f xml : Str) (more : List Str) (hf : files f = .ok xml) (h0 : '\x00' ∉ xml) :
    (∃ out, mainProgram files debug (program :: f :: more) = some (.exited 0 out [])) ↔ ∃ ts, Written (noCR xml) ts [] ∧ TagsMatch [] ts := by
  rw [← C95_accepts Heap.empty .empty xml h0]
  constructor
  · rintro ⟨out, e⟩
    obtain ⟨f', more', xml', h, r, ea, ef, ed⟩ := (C121_status files debug _ _ _ _ _ e).1.1 rfl
    cases ea
    rw [hf] at ef; cases ef
    exact ⟨h, r, ed⟩
  · rintro ⟨h, r, hd⟩
    obtain ⟨p, -, e⟩ := C121_prints files debug program f xml more h r hf hd
    exact ⟨_, e⟩

/-- **C121**: what the program prints is XML again, with the same tree up to white space: a second run, on a file with what the first one printed, ends with status 0. -/
theorem C121_again (program f xml : Str) (more : List Str) (hf : files f = .ok xml) (h0 : '\x00' ∉ xml) (h : Heap) (r : NodeId)
    (hd : newDocument Heap.empty xml = some (.ok (h, r))) (hc : ∀ F, ParsedDoc h r F → ∀ i ∈ F.toList, Readable (contentOf h i)) :
    ∃ out, mainProgram files debug (program :: f :: more) = some (.exited 0 out []) ∧
      (∃ h' r' F F', newDocument Heap.empty out = some (.ok (h', r')) ∧ ParsedDoc h r F ∧ ParsedDoc h' r' F' ∧
        (NormalForest (F.map (contentOf h)) → trimForest (F'.map (contentOf h')) = trimForest (F.map (contentOf h)))) ∧
      ∀ files' program' f' more', files' f' = .ok out → ∃ out', mainProgram files' debug (program' :: f' :: more') = some (.exited 0 out' []) := by
  obtain ⟨F, hp, hcs, hw1⟩ := newDocument_contents .empty h0 hd
  have hwr := writable_of_parsed hp hcs (hc F hp)
  have hs := pretty_parsed hp
  obtain ⟨p, ⟨n, hn⟩, e⟩ := C121_prints files debug program f xml more h r hf hd
  have ep : p = strOf (decorate 0 (F.map (contentOf h))) := by
    have h1 := hn (n + F.toList.length + 1) (by omega)
    rw [hs _ (by omega)] at h1
    exact (Option.some.inj h1).symm
  have eo : p ++ S "\n" = strOf (decorate 0 (F.map (contentOf h)) ++ .cons (textContent (S "\n")) .nil .nil) := by
    rw [ep, strOf_append]; rfl
  obtain ⟨h', F', e', hp', hc', -⟩ := newDocument_strOf Heap.empty .empty (decorate 0 (F.map (contentOf h)) ++ .cons (textContent (S "\n")) .nil .nil) (decorate_line hwr)
  rw [← eo] at e'
  refine ⟨_, e, ⟨h', _, F, F', e', hp, hp', fun hno => ?_⟩, fun files' program' f' more' hf' => ?_⟩
  · rw [hc']
    have := trim_pretty _ hno hwr 0 [] (.cons (textContent (S "\n")) .nil .nil) (.inr ⟨_, white_nl, rfl⟩) (.inl (by simp))
    simpa [frontText, trimmed] using this
  · obtain ⟨q, -, e''⟩ := C121_prints files' debug program' f' _ more' _ _ hf' e'
    exact ⟨_, e''⟩

end

/-- A file system with one file. -/
def oneFile (name text : Str) : Str → Except Str Str := fun n => if n = name then .ok text else .error (S "NotFound")

/-- What runs print. -/
example : mainProgram (oneFile (S "f") (S "<a>x<b/></a>")) (fun _ => []) [S "amxml", S "f"] = some (.exited 0 (S "<a>\n    x\n    <b/>\n</a>\n\n") []) := by
  decide +kernel

example : mainProgram (oneFile (S "f") (S "<a>")) (fun _ => S "NotFound") [S "amxml", S "g", S "f"] = some (.exited 1 [] (S "Application error: NotFound\n")) := by
  decide +kernel

example : mainProgram (oneFile (S "f") (S "<a></b>")) (fun e => match e with | .io e => e | .xml e => e.descri) [S "amxml", S "f"] =
    some (.exited 1 [] (S "Application error: Syntax Error in XML: Element name mismatch: a and b\n")) := by
  decide +kernel

example : mainProgram (oneFile (S "f") (S "<a")) (fun _ => []) [S "amxml", S "f"] = none := by
  decide +kernel

/-- The hypotheses of `C121_again` are met (see also `C11`): `NormalForest` of the sample document. -/
example : WritableForest sampleForest ∧ NormalForest sampleForest := ⟨sample_writable.1, sample_writable.2.1⟩

end Amxml
