import Verif.Lemmas.LexAccepts
import Verif.Props.XGrammar
import Verif.Lemmas.Decide
import Verif.Model.Eval

/-!
# C58, C73: texts that are not expressions, calls of functions that do not exist
-/

namespace Amxml
open Spec Amxml.Parser

/-! ## The strict readings are the grammar -/

theorem isNil_ne {x : XNode} (h : x.isNil = false) : x ≠ .nil := by rintro rfl; cases h

theorem Spec.TypeD.reads {c : TCat} {ts : List Tok} {x : XNode} {bad : List TType} (h : TypeD c ts x bad) : TypeA False c ts x := by
  induction h with
  | kind h => exact .kind h
  | anyItem => exact .anyItem
  | anyFunction => exact .anyFunction
  | function0 _ ih => exact .function0 (.inl rfl) ih
  | function _ _ ih1 ih2 => exact .function ih1 (.inl rfl) ih2
  | anyMap => exact .anyMap
  | map h _ ih => exact .map h ih
  | anyArray => exact .anyArray
  | array _ ih => exact .array ih
  | atomic h => exact .atomic h
  | paren _ ih => exact .paren ih
  | empty => exact .empty
  | one h ih => exact .one ih (isNil_ne (TypeD.ne_nil h))
  | occurs h h1 _ ih => exact .occurs ih (isNil_ne (TypeD.ne_nil h)) h1
  | last _ ih => exact .last ih
  | more _ _ ih1 ih2 => exact .more ih1 ih2

theorem Spec.AsD.reads {ts : List Tok} {x : XNode} (h : AsD ts x) : AsA False ts x := by
  cases h with
  | none => exact .none
  | as h => exact .as h.reads

theorem Spec.ParamsD.reads {ts : List Tok} {x : XNode} (h : ParamsD ts x) : ParamsA False ts x ∧ x ≠ .nil := by
  induction h with
  | last h1 h2 => exact ⟨.last h1 h2.reads, by simp⟩
  | more h1 h2 _ ih => exact ⟨.more h1 h2.reads ih.1, by simp⟩

theorem Spec.TypeOpD.reads {l : Nat} {k : TType} {t : XNodeType} {ts : List Tok} {x : XNode} {bad : List TType} (h : TypeOpD l k t ts x bad) :
    TypeOpA False l k t ts x := by
  cases h with
  | instanceOf h => exact .instanceOf h.reads (isNil_ne (TypeD.ne_nil h))
  | treatAs h => exact .treatAs h.reads (isNil_ne (TypeD.ne_nil h))
  | castableAs h => exact .castableAs h
  | castAs h => exact .castAs h

theorem sep_of {c : Clause} {k : Tok} (h : c.sep k) : c.Sep False k := by
  cases c
  · exact .inl h
  · exact h
  · exact .inl h
  · exact .inl h

/-- A phrase of the grammar has a strict reading. -/
theorem Spec.Derives.reads {c : Cat} {ts : List Tok} {x : XNode} {bad : List TType} (h : Derives c ts x bad) : Reads False c ts x := by
  induction h with
  | tighter h0 h1 _ ih => exact .tighter h0 h1 ih
  | left h0 h1 _ _ _ ih1 ih2 => exact .left h0 h1 ih1 ih2
  | nonassoc h0 h1 _ _ _ ih1 ih2 => exact .nonassoc h0 h1 ih1 ih2
  | typeOp _ _ h ih => exact .typeOp ih h.reads
  | arrow _ h _ ih1 ih2 => exact .arrow ih1 h ih2
  | arrowVar _ h _ ih1 ih2 => exact .arrowVar ih1 h ih2
  | minus _ ih => exact .minus ih
  | plus _ ih => exact .plus ih
  | clause _ ih => exact .clause ih
  | bindLast h h1 _ _ _ ih1 ih2 => exact .bindLast h (sep_of h1) ih1 (.inl rfl) ih2
  | bindMore h h1 _ _ ih1 ih2 => exact .bindMore h (sep_of h1) ih1 ih2
  | cond d1 d2 _ d3 ih1 ih2 ih3 =>
    exact .cond ih1 (isNil_ne (derives_ne_nil d1 trivial)) (.inl rfl) ih2 (isNil_ne (derives_ne_nil d2 trivial)) (.inl rfl) ih3
      (isNil_ne (derives_ne_nil d3 trivial))
  | root => exact .root
  | rooted _ ih => exact .rooted ih
  | rootedAll _ ih => exact .rootedAll ih
  | relative _ ih => exact .relative ih
  | oneStep _ ih => exact .oneStep ih
  | steps d _ ih1 ih2 => exact .steps ih1 (isNil_ne (derives_ne_nil d trivial)) ih2
  | slashLast _ ih => exact .slashLast ih
  | slashMore _ _ ih1 ih2 => exact .slashMore ih1 ih2
  | dslashLast _ ih => exact .dslashLast ih
  | dslashMore _ _ ih1 ih2 => exact .dslashMore ih1 ih2
  | axis h h1 _ ih => exact .axis h h1 ih
  | atStep h _ ih => exact .atStep h ih
  | child h h1 _ ih => exact .child h (.inr h1) ih
  | parent => exact .parent
  | noPreds => exact .noPreds
  | preds d _ ih1 ih2 => exact .preds ih1 (isNil_ne (derives_ne_nil d trivial)) ih2
  | expression _ ih => exact .expression ih
  | primary _ ih => exact .primary ih
  | filter _ _ ih1 ih2 => exact .filter ih1 ih2
  | apply _ _ ih1 ih2 => exact .apply ih1 ih2
  | find _ _ ih1 ih2 => exact .find ih1 ih2
  | string => exact .string
  | integer => exact .integer
  | decimal => exact .decimal
  | double => exact .double
  | varRef h => exact .varRef h
  | paren _ ih => exact .paren ih
  | context => exact .context
  | call h _ h1 ih => exact .call h ih h1
  | reference h => exact .reference h
  | function0 h _ ih => exact .function0 h.reads ih
  | function h h1 _ ih => exact .function h.reads.1 h.reads.2 h1.reads ih
  | map _ ih => exact .map ih
  | curlyArray _ ih => exact .curlyArray ih
  | squareArray _ ih => exact .squareArray ih
  | lookup _ ih => exact .lookup ih
  | lookupName => exact .lookupName
  | lookupInteger => exact .lookupInteger
  | lookupAll => exact .lookupAll
  | lookupExpr _ ih => exact .lookupExpr ih
  | absent => exact .absent
  | present _ ih => exact .present ih
  | empty => exact .empty
  | elems d ih => exact .elems ih (isNil_ne (derives_ne_nil d trivial))
  | lastElem _ ih => exact .lastElem ih
  | moreElems _ _ ih1 ih2 => exact .moreElems ih1 ih2
  | argument d ih => exact .argument ih (isNil_ne (derives_ne_nil d trivial))
  | placeholder => exact .placeholder
  | member _ ih => exact .member ih
  | entry d _ d2 ih1 ih2 => exact .entry ih1 (isNil_ne (derives_ne_nil d trivial)) ih2 (isNil_ne (derives_ne_nil d2 trivial))

theorem Spec.Text.reads {us : List Tok} {s : Str} (h : Text us s) : TextA False us s := by
  induction h with
  | nil h => exact .nil h
  | cons h1 h2 _ _ ih => exact .cons h1 (.lexeme h2) ih

theorem Spec.Spells.reads {prev : TType} {ts us : List Tok} (h : Spells prev ts us) : SpellsA ts us := by
  induction h with
  | nil => exact .nil
  | same h _ ih => exact .same h ih
  | operator h _ _ ih => exact .operator h ih
  | pair h _ ih => exact .pair h ih
  | marked h h1 _ ih => exact .marked h h1 ih
  | name _ _ _ _ ih => exact .name ih

/-! ## C58 -/

/-- **C58**: a text that is compiled can be read as an expression: its terminals (`TextA`) write tokens (`SpellsA`) that the productions of the grammar, with the
nine liberties listed in Verif/Spec/Accepts.lean, derive with the tree that is evaluated. Every other text is rejected. Missing: the
liberties (`C58_violated`); the grammar has none of them. -/
theorem C58_only_expressions_partial (s : Str) (x : XNode) (h0 : '\x00' ∉ s) (h : compileXPath s = .ok x) :
    ∃ us ts, TextA True us s ∧ SpellsA ts us ∧ Reads True (.level 1) ts x := by
  unfold compileXPath at h
  cases hl : Lexer.new s with
  | error e => rw [hl] at h; cases h
  | ok l =>
    rw [hl] at h
    simp only at h
    rw [new_eq] at hl
    cases ht : Lexer.toks s with
    | error e => rw [ht] at hl; cases hl
    | ok us =>
      rw [ht] at hl
      simp only [Except.bind] at hl
      split at hl
      · cases hl
      · cases hl
        have e : body (Lexer.eofTok :: Lexer.rewriteNameAndSymbol (Lexer.eliminateNops (Lexer.rewritePairWords (Lexer.rewriteOperatorType .eof us))) ++ [Lexer.eofTok]) =
            Lexer.passes .eof us := by simp [body, Lexer.passes]
        rw [e] at h
        have h1 := Lexer.toks_only h0 ht
        have h2 := Lexer.passes_only .eof us fun k hk => (toks_types ht k hk).2
        exact ⟨us, _, h1, h2, reads_of_main (Lexer.sane_spells h2 (Lexer.Spec.TextA.lexemes h1)) h⟩

/-! ## Brackets -/

/-- Brackets opened in `ts` are closed in `ts`, and no others. -/
def Bal (ts : List Tok) : Prop := ∀ st rest, closes st (ts ++ rest) = closes st rest

/-- A token that is no bracket. -/
def Plain (t : TType) : Prop := closer t = none ∧ t ∉ closing

instance (t : TType) : Decidable (Plain t) := by unfold Plain; infer_instance

/-- The kind of a token decides. -/
macro "kind" : tactic => `(tactic| (dsimp only; decide))

theorem closes_plain {k : Tok} (h : Plain k.ty) (st : List TType) (ts : List Tok) : closes st (k :: ts) = closes st ts := by
  rw [closes.eq_def]
  simp only [h.1, if_neg h.2]

theorem bal_nil : Bal [] := fun _ _ => rfl

theorem bal_append {a b : List Tok} (ha : Bal a) (hb : Bal b) : Bal (a ++ b) := by
  intro st rest
  rw [List.append_assoc, ha, hb]

theorem bal_plain {k : Tok} {ts : List Tok} (hk : Plain k.ty) (ht : Bal ts) : Bal (k :: ts) := by
  intro st rest
  rw [List.cons_append, closes_plain hk, ht]

theorem bal_wrap {o c : Tok} {ts us : List Tok} (h : closer o.ty = some c.ty) (ht : Bal ts) (hu : Bal us) : Bal (o :: (ts ++ c :: us)) := by
  intro st rest
  rw [List.cons_append, closes.eq_def]
  simp only [h, List.append_assoc]
  rw [ht, List.cons_append, closes.eq_def]
  have : closer c.ty = none ∧ c.ty ∈ closing := by
    revert h
    generalize o.ty = t
    generalize c.ty = t'
    cases t <;> simp [closer] <;> rintro rfl <;> decide
  simp only [this.1, if_pos this.2, beq_self_eq_true, Bool.true_and]
  exact hu st rest

theorem bal_wrap0 {o c : Tok} {us : List Tok} (h : closer o.ty = some c.ty) (hu : Bal us) : Bal (o :: c :: us) := bal_wrap (ts := []) h bal_nil hu

theorem bal_wrap1 {o k c : Tok} {us : List Tok} (h : closer o.ty = some c.ty) (hk : Plain k.ty) (hu : Bal us) : Bal (o :: k :: c :: us) :=
  bal_wrap (ts := [k]) h (bal_plain hk bal_nil) hu

theorem NameD.bal {pre : Str} {ts : List Tok} {n : Str} {bad : List TType} (h : NameD pre ts n bad) : Bal ts := by
  cases h with
  | ncname => exact bal_plain (by kind) bal_nil
  | prefixed => exact bal_plain (by kind) (bal_plain (by kind) (bal_plain (by kind) bal_nil))
  | uri => exact bal_plain (by kind) (bal_plain (by kind) bal_nil)

theorem WildcardD.bal {ts : List Tok} {n : Str} (h : WildcardD ts n) : Bal ts := by
  cases h with
  | star => exact bal_plain (by kind) bal_nil
  | anyLocal => exact bal_plain (by kind) (bal_plain (by kind) bal_nil)
  | anyPrefix => exact bal_plain (by kind) (bal_plain (by kind) bal_nil)
  | anyLocalUri => exact bal_plain (by kind) (bal_plain (by kind) bal_nil)

/-- Splits a list into its parts. -/
macro "bal" : tactic => `(tactic| (
  try simp only [List.cons_append, List.append_assoc, List.nil_append]
  repeat' first
    | assumption
    | exact bal_nil
    | exact NameD.bal ‹_›
    | exact WildcardD.bal ‹_›
    | refine bal_append ?_ ?_
    | refine bal_plain (by kind) ?_
    | refine bal_wrap0 (by kind) ?_
    | refine bal_wrap1 (by kind) (by kind) ?_
    | refine bal_wrap (by kind) ?_ ?_))

theorem ElementArgsD.bal {ts : List Tok} {n t : Str} (h : ElementArgsD ts n t) : Bal ts := by
  cases h with
  | none => bal
  | name h => bal
  | star => bal
  | nameType h1 h2 => exact bal_append (NameD.bal h1) (bal_plain (by kind) (NameD.bal h2))
  | starType h1 => bal
  | nameNillable h1 h2 => rw [List.append_assoc]; exact bal_append (NameD.bal h1) (bal_plain (by kind) (bal_append (NameD.bal h2) (by bal)))
  | starNillable h1 => bal

theorem AttributeArgsD.bal {ts : List Tok} {n t : Str} (h : AttributeArgsD ts n t) : Bal ts := by
  cases h with
  | none => bal
  | name h => bal
  | star => bal
  | nameType h1 h2 => exact bal_append (NameD.bal h1) (bal_plain (by kind) (NameD.bal h2))
  | starType h1 => bal

theorem KindTestD.bal {ts : List Tok} {x : XNode} (h : KindTestD ts x) : Bal ts := by
  cases h with
  | simple h =>
    refine bal_plain ?_ (by bal)
    have : ∀ e ∈ simpleTests, Plain e.1 := by decide
    exact this _ h
  | element h => have := ElementArgsD.bal h; bal
  | attr h => have := AttributeArgsD.bal h; bal
  | schemaElement h => bal
  | schemaAttribute h => bal
  | pi => bal
  | piName h =>
    refine bal_plain (by kind) (bal_wrap1 (by kind) ?_ bal_nil)
    simp at h
    rcases h with rfl | rfl <;> kind
  | document => bal
  | @documentElement s l s' l' ts n t r' r h =>
    have inner : Bal (⟨.elementTest, s'⟩ :: ⟨.leftParen, l'⟩ :: (ts ++ [⟨.rightParen, r'⟩])) := by have := ElementArgsD.bal h; bal
    have outer := bal_wrap (o := ⟨.leftParen, l⟩) (c := ⟨.rightParen, r⟩) (us := []) (by kind) inner bal_nil
    refine bal_plain (by kind) ?_
    simpa using outer
  | @documentSchemaElement s l s' l' ts n bad r' r h =>
    have inner : Bal (⟨.schemaElementTest, s'⟩ :: ⟨.leftParen, l'⟩ :: (ts ++ [⟨.rightParen, r'⟩])) := by have := NameD.bal h; bal
    have outer := bal_wrap (o := ⟨.leftParen, l⟩) (c := ⟨.rightParen, r⟩) (us := []) (by kind) inner bal_nil
    refine bal_plain (by kind) ?_
    simpa using outer

theorem NodeTestD.bal {ts : List Tok} {n : Str} {x : XNode} {bad : List TType} (h : NodeTestD ts n x bad) : Bal ts := by
  cases h with
  | name h => exact NameD.bal h
  | wildcard h => exact WildcardD.bal h
  | kind h => exact KindTestD.bal h

theorem SingleTypeD.bal {ts : List Tok} {x : XNode} {bad : List TType} (h : SingleTypeD ts x bad) : Bal ts := by
  cases h with
  | plain h => exact NameD.bal h
  | optional h => exact bal_append (NameD.bal h) (bal_plain (by kind) bal_nil)

theorem Spec.Word.plain {lax : Prop} {w : Str} {k : Tok} (h : Word lax w k) : Plain k.ty := by
  rcases h with rfl | ⟨-, h | rfl⟩
  · kind
  · rw [h]; decide
  · kind

theorem TypeA.bal {lax : Prop} {c : TCat} {ts : List Tok} {x : XNode} (h : TypeA lax c ts x) : Bal ts := by
  induction h with
  | missing => bal
  | missingSeq => bal
  | kind h => exact KindTestD.bal h
  | anyItem => bal
  | anyFunction => bal
  | function0 hw _ ih => exact bal_plain (by kind) (bal_wrap0 (by kind) (bal_plain hw.plain ih))
  | function _ hw _ ih1 ih2 => exact bal_plain (by kind) (bal_wrap (by kind) ih1 (bal_plain hw.plain ih2))
  | anyMap => bal
  | @map s l ks k bad c ts x r h _ ih =>
    have inner := bal_append (NameD.bal h) (bal_plain (k := ⟨.comma, c⟩) (by kind) ih)
    have outer := bal_wrap (o := ⟨.leftParen, l⟩) (c := ⟨.rightParen, r⟩) (us := []) (by kind) inner bal_nil
    exact bal_plain (by kind) (by simpa using outer)
  | anyArray => bal
  | array _ ih => bal
  | atomic h => exact NameD.bal h
  | paren _ ih => bal
  | empty => bal
  | one _ _ ih => exact ih
  | @occurs ts x k _ _ h ih =>
    refine bal_append ih (bal_plain ?_ bal_nil)
    have : ∀ t ∈ occurrence, Plain t := by decide
    exact this _ h
  | last _ ih => exact ih
  | more _ _ ih1 ih2 => bal

theorem AsA.bal {lax : Prop} {ts : List Tok} {x : XNode} (h : AsA lax ts x) : Bal ts := by
  cases h with
  | none => bal
  | as h => exact bal_plain (by kind) (TypeA.bal h)

theorem ParamsA.bal {lax : Prop} {ts : List Tok} {x : XNode} (h : ParamsA lax ts x) : Bal ts := by
  induction h with
  | last h1 h2 => have := AsA.bal h2; have := NameD.bal h1; bal
  | more h1 h2 _ ih => have := AsA.bal h2; have := NameD.bal h1; bal
  | missing => bal
  | missingMore _ _ ih => bal

theorem TypeOpA.bal {lax : Prop} {l : Nat} {k : TType} {t : XNodeType} {ts : List Tok} {x : XNode} (h : TypeOpA lax l k t ts x) : Plain k ∧ Bal ts := by
  cases h with
  | instanceOf h => exact ⟨by decide, TypeA.bal h⟩
  | treatAs h => exact ⟨by decide, TypeA.bal h⟩
  | castableAs h => exact ⟨by decide, SingleTypeD.bal h⟩
  | castAs h => exact ⟨by decide, SingleTypeD.bal h⟩

theorem binary_plain {l : Nat} {k : TType} {t : XNodeType} (h : (l, k, t) ∈ binary) : Plain k := by
  have : ∀ e ∈ binary, Plain e.2.1 := by decide
  exact this _ h

theorem sep_plain {lax : Prop} {c : Clause} {k : Tok} (h : c.Sep lax k) : Plain k.ty := by
  cases c
  · exact Spec.Word.plain h
  · rw [show k.ty = .bind from h]; decide
  · exact Spec.Word.plain h
  · exact Spec.Word.plain h

theorem Reads.bal {lax : Prop} {c : Cat} {ts : List Tok} {x : XNode} (h : Reads lax c ts x) : Bal ts := by
  induction h with
  | tighter _ _ _ ih => exact ih
  | left h _ _ _ ih1 ih2 => exact bal_append ih1 (bal_plain (binary_plain h) ih2)
  | nonassoc h _ _ _ ih1 ih2 => exact bal_append ih1 (bal_plain (binary_plain h) ih2)
  | typeOp _ h ih => exact bal_append ih (bal_plain (TypeOpA.bal h).1 (TypeOpA.bal h).2)
  | arrow _ h _ ih1 ih2 => have := NameD.bal h; bal
  | arrowVar _ h _ ih1 ih2 => have := NameD.bal h; bal
  | minus _ ih => bal
  | plus _ ih => bal
  | @clause c _ _ _ _ ih => exact bal_plain (by cases c <;> (unfold Clause.token; kind)) ih
  | bindLast h1 h2 _ h3 _ ih1 ih2 =>
    have := NameD.bal h1
    simp only [List.cons_append, List.append_assoc]
    exact bal_plain (by kind) (bal_append this (bal_plain (sep_plain h2) (bal_append ih1 (bal_plain h3.plain ih2))))
  | bindMore h1 h2 _ _ ih1 ih2 =>
    have := NameD.bal h1
    simp only [List.cons_append, List.append_assoc]
    exact bal_plain (by kind) (bal_append this (bal_plain (sep_plain h2) (bal_append ih1 (bal_plain (by kind) ih2))))
  | bindMissing _ h _ ih => exact bal_plain h.plain ih
  | cond _ _ h1 _ _ h2 _ _ ih1 ih2 ih3 =>
    simp only [List.cons_append, List.append_assoc]
    exact bal_plain (by kind) (bal_wrap (by kind) ih1 (bal_plain h1.plain (bal_append ih2 (bal_plain h2.plain ih3))))
  | root => bal
  | rooted _ ih => bal
  | rootedAll _ ih => bal
  | relative _ ih => exact ih
  | oneStep _ ih => exact ih
  | steps _ _ _ ih1 ih2 => bal
  | slashLast _ ih => bal
  | slashMore _ _ ih1 ih2 => bal
  | dslashLast _ ih => bal
  | dslashMore _ _ ih1 ih2 => bal
  | missing => bal
  | missingTest => bal
  | missingName => bal
  | axis _ h _ ih => have := NodeTestD.bal h; bal
  | atStep h _ ih => have := NodeTestD.bal h; bal
  | child h _ _ ih => exact bal_append (NodeTestD.bal h) ih
  | parent => bal
  | noPreds => bal
  | preds _ _ _ ih1 ih2 => bal
  | missingPred _ _ ih => bal
  | expression _ ih => exact ih
  | primary _ ih => exact ih
  | filter _ _ ih1 ih2 => bal
  | apply _ _ ih1 ih2 => bal
  | find _ _ ih1 ih2 => bal
  | string => bal
  | integer => bal
  | decimal => bal
  | double => bal
  | varRef h => have := NameD.bal h; bal
  | paren _ ih => bal
  | context => bal
  | call h _ _ ih => have := NameD.bal h; bal
  | reference h => have := NameD.bal h; bal
  | function0 h _ ih =>
    have := AsA.bal h
    simp only [List.cons_append, List.append_assoc]
    exact bal_plain (by kind) (bal_wrap0 (by kind) (bal_append this (bal_wrap (by kind) ih bal_nil)))
  | function h1 _ h2 _ ih =>
    have := ParamsA.bal h1
    have := AsA.bal h2
    bal
  | map _ ih => bal
  | curlyArray _ ih => bal
  | squareArray _ ih => bal
  | lookup _ ih => exact ih
  | lookupName => bal
  | lookupInteger => bal
  | lookupAll => bal
  | lookupExpr _ ih => bal
  | absent => bal
  | present _ ih => exact ih
  | empty => bal
  | nothing _ _ ih => exact ih
  | elems _ _ ih => exact ih
  | lastElem _ ih => exact ih
  | moreElems _ _ ih1 ih2 => bal
  | argument _ _ ih => exact ih
  | placeholder => bal
  | missingPlaceholder _ _ ih => bal
  | missingArgument _ _ ih => exact ih
  | member _ ih => exact ih
  | entry _ _ _ _ ih1 ih2 => bal
  | missingEntry _ _ ih => exact ih

theorem closes_spells {ts us : List Tok} (h : SpellsA ts us) (st : List TType) : closes st us = closes st ts := by
  induction h generalizing st with
  | nil => rfl
  | @same k ts us _ _ ih =>
    rw [closes.eq_def, closes.eq_def st (k :: ts)]
    simp only [ih]
  | operator h _ ih =>
    have : ∀ e ∈ wordOperators, Plain e.2 := by decide
    rw [closes_plain (by kind), closes_plain (by exact this _ h), ih]
  | pair h _ ih =>
    have : ∀ e ∈ wordPairs, Plain e.2.2 := by decide
    rw [closes_plain (by kind), closes_plain (by kind), closes_plain (by exact this _ h), ih]
  | marked h _ _ ih =>
    have : ∀ e ∈ markedWords, Plain e.2.2 := by decide
    rw [closes_plain (by kind), closes_plain (by exact this _ h), ih]
  | name _ ih => rw [closes_plain (by kind), closes_plain (by kind), ih]

/-- C58, a consequence: in a text that is compiled, every opening bracket is closed, in the right order. -/
theorem C58_balanced (s : Str) (x : XNode) (h0 : '\x00' ∉ s) (h : compileXPath s = .ok x) : ∃ us, TextA True us s ∧ us ≠ [] ∧ BracketsClosed us := by
  obtain ⟨us, ts, h1, h2, h3⟩ := C58_only_expressions_partial s x h0 h
  refine ⟨us, h1, ?_, ?_⟩
  · rintro rfl
    cases h1 with
    | nil hb =>
      rw [show compileXPath s = .error .panic by unfold compileXPath; rw [(C52_panics s h0).2 hb]] at h
      cases h
  · unfold BracketsClosed
    rw [closes_spells h2]
    have := Reads.bal h3 [] []
    rw [List.append_nil] at this
    rw [this]
    rfl

/-! ## C73 -/

/-- **C73**, the table: a call is accepted exactly for the functions of the library, with the numbers of arguments they have. -/
theorem C73_functions (f : Str) (n : Nat) : checkFunctionSpec f n = true ↔ Known f n := by
  have t1 : ∀ e ∈ funcContextTbl, ∃ g ∈ functions, g.1 = e.2.1 ∧ e.1 ∈ g.2 := by decide +kernel
  have t2 : ∀ e ∈ funcTbl, e.1 = none ∧ e.2.1 = S "fn:concat" ∨ ∃ g ∈ functions, g.1 = e.2.1 ∧ e.1 ∈ g.2.map some := by decide +kernel
  have t3 : ∀ g ∈ functions, ∀ m ∈ g.2, (∃ e ∈ funcContextTbl, e.1 = m ∧ e.2.1 = g.1) ∨ ∃ e ∈ funcTbl, e.1 = some m ∧ e.2.1 = g.1 := by decide +kernel
  have t4 : ∃ e ∈ funcTbl, e.1 = none ∧ e.2.1 = S "fn:concat" := by decide +kernel
  have c1 : (findCtxFn f n).isSome = true ↔ ∃ e ∈ funcContextTbl, e.1 = n ∧ e.2.1 = f := by
    unfold findCtxFn
    rw [Option.isSome_map, List.find?_isSome]
    simp only [Bool.and_eq_true, beq_iff_eq]
  have c2 : (findPureFn f n).isSome = true ↔ ∃ e ∈ funcTbl, (e.1 = some n ∨ e.1 = none) ∧ e.2.1 = f := by
    unfold findPureFn
    rw [Option.isSome_map, List.find?_isSome]
    simp only [Bool.and_eq_true, Bool.or_eq_true, beq_iff_eq]
  unfold checkFunctionSpec Known
  rw [Bool.or_eq_true, c1, c2]
  constructor
  · rintro (⟨e, he, rfl, rfl⟩ | ⟨e, he, h, rfl⟩)
    · obtain ⟨g, hg, h1, h2⟩ := t1 e he
      exact .inr ⟨g, hg, h1, h2⟩
    · rcases t2 e he with ⟨-, h2⟩ | ⟨g, hg, h1, h2⟩
      · exact .inl h2
      · rcases h with h | h
        · rw [h] at h2
          exact .inr ⟨g, hg, h1, by simpa using h2⟩
        · rw [h] at h2; simp at h2
  · rintro (rfl | ⟨g, hg, rfl, hn⟩)
    · obtain ⟨e, he, h1, h2⟩ := t4
      exact .inr ⟨e, he, .inr h1, h2⟩
    · rcases t3 g hg n hn with ⟨e, he, h1, h2⟩ | ⟨e, he, h1, h2⟩
      · exact .inl ⟨e, he, h1, h2⟩
      · exact .inr ⟨e, he, .inl h1, h2⟩

/-- A node that is no call. -/
def NoCall (t : XNodeType) : Prop := t ≠ .functionCall ∧ t ≠ .partialFunctionCall

instance (t : XNodeType) : Decidable (NoCall t) := by unfold NoCall; infer_instance

theorem calls_node {t : XNodeType} {n : Str} {l r : XNode} (ht : NoCall t) (hl : CallsKnown l) (hr : CallsKnown r) : CallsKnown (.node t n l r) :=
  ⟨fun h => absurd h (by rintro (h | h); exact ht.1 h; exact ht.2 h), hl, hr⟩

theorem calls_nil : CallsKnown .nil := trivial

/-- Splits a tree into its parts. -/
macro "calls" : tactic => `(tactic| (
  repeat' first
    | assumption
    | exact calls_nil
    | refine calls_node (by decide) ?_ ?_))

theorem calls_kindTest {ts : List Tok} {x : XNode} (h : KindTestD ts x) : CallsKnown x := by
  cases h with
  | simple h =>
    have : ∀ e ∈ simpleTests, NoCall e.2 := by decide
    exact calls_node (this _ h) calls_nil calls_nil
  | element => calls
  | attr => calls
  | schemaElement => calls
  | schemaAttribute => calls
  | pi => calls
  | piName => calls
  | document => calls
  | documentElement => calls
  | documentSchemaElement => calls

theorem calls_type {lax : Prop} {c : TCat} {ts : List Tok} {x : XNode} (h : TypeA lax c ts x) : CallsKnown x := by
  induction h with
  | kind h => have := calls_kindTest h; calls
  | one _ _ ih => calls
  | occurs _ _ _ ih => calls
  | _ => calls

theorem calls_as {lax : Prop} {ts : List Tok} {x : XNode} (h : AsA lax ts x) : CallsKnown x := by
  cases h with
  | none => calls
  | as h => exact calls_type h

theorem calls_params {lax : Prop} {ts : List Tok} {x : XNode} (h : ParamsA lax ts x) : CallsKnown x := by
  induction h with
  | last _ h => have := calls_as h; calls
  | more _ h _ ih => have := calls_as h; calls
  | missing => calls
  | missingMore => calls

theorem calls_typeOp {lax : Prop} {l : Nat} {k : TType} {t : XNodeType} {ts : List Tok} {x : XNode} (h : TypeOpA lax l k t ts x) : NoCall t ∧ CallsKnown x := by
  cases h with
  | instanceOf h => exact ⟨by decide, calls_type h⟩
  | treatAs h => exact ⟨by decide, calls_type h⟩
  | castableAs h => cases h <;> exact ⟨by decide, by calls⟩
  | castAs h => cases h <;> exact ⟨by decide, by calls⟩

theorem calls_nodeTest {ts : List Tok} {n : Str} {x : XNode} {bad : List TType} (h : NodeTestD ts n x bad) : CallsKnown x := by
  cases h with
  | name => calls
  | wildcard => calls
  | kind h => have := calls_kindTest h; calls

theorem binary_noCall {l : Nat} {k : TType} {t : XNodeType} (h : (l, k, t) ∈ binary) : NoCall t := by
  have : ∀ e ∈ binary, NoCall e.2.2 := by decide
  exact this _ h

theorem axis_noCall {w : Str} {a : XNodeType} {rev : Bool} (h : (w, a, rev) ∈ axisNames) : NoCall a := by
  have : ∀ e ∈ axisNames, NoCall e.2.1 := by decide
  exact this _ h

theorem clause_noCall (c : Clause) : NoCall c.bind := by cases c <;> decide

theorem calls_clause {c : Clause} {x : XNode} (h : CallsKnown x) : CallsKnown (c.tree x) := by
  cases c <;> (unfold Clause.tree; dsimp only; calls)

theorem elem_noCall {lax : Prop} {c : Cat} {ts : List Tok} {x : XNode} (h : Reads lax c ts x) {k : ListKind} (hc : c = .elem k) : NoCall x.ty := by
  induction h with
  | argument => exact (by decide : NoCall .argumentTop)
  | placeholder => exact (by decide : NoCall .argumentPlaceholder)
  | missingPlaceholder => exact (by decide : NoCall .argumentPlaceholder)
  | missingArgument => exact (by decide : NoCall .nil)
  | member => exact (by decide : NoCall .arrayEntry)
  | entry => exact (by decide : NoCall .mapConstruct)
  | missingEntry => exact (by decide : NoCall .mapConstruct)
  | _ => cases hc

theorem calls_followedBy {x y : XNode} (ht : NoCall x.ty) (hx : CallsKnown x) (hy : CallsKnown y) : CallsKnown (followedBy x y) := by
  cases x with
  | nil => exact calls_nil
  | node t n l r => exact calls_node ht hx.2.1 hy

theorem calls_reads {lax : Prop} {c : Cat} {ts : List Tok} {x : XNode} (h : Reads lax c ts x) (ha : ∀ k ∈ ts, k.ty ≠ .arrow) : CallsKnown x := by
  induction h with
  | tighter _ _ _ ih => exact ih ha
  | left h _ _ _ ih1 ih2 => exact calls_node (binary_noCall h) (ih1 fun k hk => ha k (by simp [hk])) (ih2 fun k hk => ha k (by simp [hk]))
  | nonassoc h _ _ _ ih1 ih2 => exact calls_node (binary_noCall h) (ih1 fun k hk => ha k (by simp [hk])) (ih2 fun k hk => ha k (by simp [hk]))
  | typeOp _ h ih => exact calls_node (calls_typeOp h).1 (ih fun k hk => ha k (by simp [hk])) (calls_typeOp h).2
  | @arrow a x k fs f bad' l args r z => exact absurd rfl (ha ⟨.arrow, k⟩ (by simp))
  | @arrowVar a x k d vs v bad' l args r z => exact absurd rfl (ha ⟨.arrow, k⟩ (by simp))
  | clause _ ih => exact calls_clause (ih fun k hk => ha k (by simp [hk]))
  | bindLast _ _ _ _ _ ih1 ih2 => exact calls_node (clause_noCall _) (ih1 fun k hk => ha k (by simp [hk])) (ih2 fun k hk => ha k (by simp [hk]))
  | bindMore _ _ _ _ ih1 ih2 => exact calls_node (clause_noCall _) (ih1 fun k hk => ha k (by simp [hk])) (ih2 fun k hk => ha k (by simp [hk]))
  | bindMissing _ _ _ ih => exact ih fun k hk => ha k (by simp [hk])
  | cond _ _ _ _ _ _ _ _ ih1 ih2 ih3 =>
    have h1 := ih1 fun k hk => ha k (by simp [hk])
    have h2 := ih2 fun k hk => ha k (by simp [hk])
    have h3 := ih3 fun k hk => ha k (by simp [hk])
    calls
  | axis h h1 _ ih => exact calls_node (axis_noCall h) (calls_nodeTest h1) (ih fun k hk => ha k (by simp [hk]))
  | atStep h1 _ ih => exact calls_node (by decide) (calls_nodeTest h1) (ih fun k hk => ha k (by simp [hk]))
  | child h1 _ _ ih => exact calls_node (by decide) (calls_nodeTest h1) (ih fun k hk => ha k (by simp [hk]))
  | @preds rev _ _ _ _ _ _ _ _ _ ih1 ih2 =>
    exact calls_node (by cases rev <;> decide) (ih1 fun k hk => ha k (by simp [hk])) (ih2 fun k hk => ha k (by simp [hk]))
  | call _ _ h ih => exact ⟨fun _ => (C73_functions _ _).1 h, calls_nil, ih fun k hk => ha k (by simp [hk])⟩
  | function0 h _ ih =>
    have h1 := calls_as h
    have h2 := ih fun k hk => ha k (by simp [hk])
    calls
  | function h _ h' _ ih =>
    have h1 := calls_as h'
    have h2 := ih fun k hk => ha k (by simp [hk])
    have h3 := calls_params h
    calls
  | moreElems h _ ih1 ih2 => exact calls_followedBy (elem_noCall h rfl) (ih1 fun k hk => ha k (by simp [hk])) (ih2 fun k hk => ha k (by simp [hk]))
  | steps _ _ _ ih1 ih2 | slashMore _ _ ih1 ih2 | dslashMore _ _ ih1 ih2 | filter _ _ ih1 ih2 | apply _ _ ih1 ih2 | find _ _ ih1 ih2
  | entry _ _ _ _ ih1 ih2 =>
    have h1 := ih1 fun k hk => ha k (by simp [hk])
    have h2 := ih2 fun k hk => ha k (by simp [hk])
    calls
  | root | missing | missingTest | missingName | parent | noPreds | string | integer | decimal | double | varRef | context | reference
  | lookupName | lookupInteger | lookupAll | absent | empty | placeholder | missingPlaceholder | missingArgument | missingEntry | nothing
  | missingPred => calls
  | minus _ ih | plus _ ih | rooted _ ih | rootedAll _ ih | relative _ ih | oneStep _ ih | slashLast _ ih | dslashLast _ ih | expression _ ih
  | primary _ ih | paren _ ih | map _ ih | curlyArray _ ih | squareArray _ ih | lookup _ ih | lookupExpr _ ih | present _ ih | elems _ _ ih
  | lastElem _ ih | argument _ _ ih | member _ ih =>
    have h1 := ih fun k hk => ha k (by simp [hk])
    calls

theorem arrow_spells {ts us : List Tok} (h : SpellsA ts us) (hu : ∀ k ∈ us, k.ty ≠ .arrow) : ∀ k ∈ ts, k.ty ≠ .arrow := by
  induction h with
  | nil => simp
  | @same k ts us _ _ ih =>
    intro j hj
    rcases List.mem_cons.1 hj with rfl | hj
    · exact hu _ (by simp)
    · exact ih (fun k hk => hu k (by simp [hk])) j hj
  | operator h _ ih =>
    have : ∀ e ∈ wordOperators, e.2 ≠ .arrow := by decide
    intro j hj
    rcases List.mem_cons.1 hj with rfl | hj
    · exact this _ h
    · exact ih (fun k hk => hu k (by simp [hk])) j hj
  | pair h _ ih =>
    have : ∀ e ∈ wordPairs, e.2.2 ≠ .arrow := by decide
    intro j hj
    rcases List.mem_cons.1 hj with rfl | hj
    · exact this _ h
    · exact ih (fun k hk => hu k (by simp [hk])) j hj
  | marked h _ _ ih =>
    have : ∀ e ∈ markedWords, e.2.2 ≠ .arrow := by decide
    intro j hj
    rcases List.mem_cons.1 hj with rfl | hj
    · exact this _ h
    · exact ih (fun k hk => hu k (by simp [hk])) j hj
  | name _ ih =>
    intro j hj
    rcases List.mem_cons.1 hj with rfl | hj
    · simp
    · exact ih (fun k hk => hu k (by simp [hk])) j hj

theorem arrow_lexeme {w : Str} {t : Tok} (h : LexemeA True w t) (ht : t.ty = .arrow) : w = S "=>" := by
  cases h with
  | lexeme h =>
    cases h with
    | symbol h =>
      have : ∀ e ∈ symbols, e.2 = .arrow → e.1 = S "=>" := by decide
      exact this _ h ht
    | _ => cases ht
  | _ => cases ht

theorem arrow_text {us : List Tok} {s : Str} (h : TextA True us s) (hs : ¬ S "=>" <:+: s) : ∀ k ∈ us, k.ty ≠ .arrow := by
  induction h with
  | nil => simp
  | @cons b w t r ts _ hw _ ih =>
    intro j hj
    rcases List.mem_cons.1 hj with rfl | hj
    · intro ht
      rw [arrow_lexeme hw ht] at hs
      exact hs ⟨b, r, by simp⟩
    · refine ih (fun hc => hs ?_) j hj
      obtain ⟨p, q, e⟩ := hc
      exact ⟨b ++ w ++ p, q, by rw [← e]; simp⟩

/-- **C73**: in an expression that compiles and has no `=>` in its text, every function call is one of a function that exists, with a number of arguments it can
be called with. A call of any other function is thus rejected before anything is evaluated. Missing: calls with `=>` and named
function references, which are not checked (`C73_violated`). -/
theorem C73_calls_checked_partial (s : Str) (x : XNode) (h0 : '\x00' ∉ s) (ha : ¬ S "=>" <:+: s) (h : compileXPath s = .ok x) : CallsKnown x := by
  obtain ⟨us, ts, h1, h2, h3⟩ := C58_only_expressions_partial s x h0 h
  exact calls_reads h3 (arrow_spells h2 (arrow_text h1 ha))

/-! ## Examples and counterexamples -/

/-- C58 is violated by each of the liberties: an operand, a test, the value of a predicate, an argument can be missing, other words and string literals stand for the
words of the grammar, and numbers have two exponents. The code then panics, or evaluates something else than what is written. -/
theorem C58_violated :
    compileXPath (S "1 +") = .ok (.node .operatorAdd (S "+") (tip .integerLiteral (S "1")) .nil) ∧
    evalXPath .empty 20 0 (S "1 +") = .error .panic ∧
    compileXPath (S "@") = .ok .nil ∧ evalXPath .empty 20 0 (S "@") = .error .panic ∧
    compileXPath (S "a[]") = .ok (tip .axisChild (S "a")) ∧
    compileXPath (S "concat('a',,'b')") = .ok (.node .functionCall (S "fn:concat") .nil (.node .argumentTop [] (tip .stringLiteral (S "a")) .nil)) ∧
    evalXPath .empty 20 0 (S "concat('a',,'b')") = .ok [.string (S "a")] ∧
    compileXPath (S "for $x 'in' 1 foo 2") =
      .ok (.node .forExpr (S "for") .nil (.node .forVarBind (S "x") (tip .integerLiteral (S "1")) (tip .integerLiteral (S "2")))) ∧
    compileXPath (S "1.5e3e4") = .ok (tip .doubleLiteral (S "1.5e3e4")) := by
  refine ⟨by run_compile, by run_query, by run_compile, by run_query, by run_compile, by run_compile, by run_query, by run_compile, by run_compile⟩

/-- Texts without a reading are rejected. -/
example : compileXPath (S "a[1") = .error .syntaxError ∧ compileXPath (S "(1]") = .error .syntaxError ∧ compileXPath (S "1 2") = .error .syntaxError := by
  decide +kernel

/-- The hypotheses of `C58_only_expressions_partial` and `C58_balanced` are met. -/
example : ∃ us, TextA True us (S "(1, [2])") ∧ us ≠ [] ∧ BracketsClosed us :=
  C58_balanced _ (.node .parenthesizedExpr [] (.node .operatorConcatenate (S ",") (tip .integerLiteral (S "1"))
    (.node .squareArray [] (.node .arrayEntry [] (tip .integerLiteral (S "2")) .nil) .nil)) .nil) (by decide) (by run_compile)

example : BracketsClosed [⟨.leftParen, S "("⟩, ⟨.leftBracket, S "["⟩, ⟨.rightBracket, S "]"⟩, ⟨.rightParen, S ")"⟩] ∧
    ¬ BracketsClosed [⟨.leftParen, S "("⟩, ⟨.leftBracket, S "["⟩, ⟨.rightParen, S ")"⟩, ⟨.rightBracket, S "]"⟩] ∧
    ¬ BracketsClosed [⟨.leftParen, S "("⟩] ∧ ¬ BracketsClosed [⟨.rightParen, S ")"⟩] := by unfold BracketsClosed; decide

/-- C73 is violated for the arrow operator and for references: the functions do not exist, and that is found out when they are called; and `concat` takes fewer
than two arguments. -/
theorem C73_violated :
    compileXPath (S "1 => foo()") = .ok (.node .functionCall (S "fn:foo") .nil (.node .argumentTop [] (tip .integerLiteral (S "1")) .nil)) ∧
    evalXPath .empty 20 0 (S "1 => foo()") = .error .cantOccur ∧
    compileXPath (S "foo#1") = .ok (tip .namedFunctionRef (S "fn:foo#1")) ∧
    compileXPath (S "concat()") = .ok (.node .functionCall (S "fn:concat") .nil .nil) := by
  refine ⟨by run_compile, by run_query, by run_compile, by run_compile⟩

/-- Calls are checked wherever they stand. -/
example : compileXPath (S "foo(1)") = .error .syntaxError ∧ compileXPath (S "abs(1, 2)") = .error .syntaxError ∧
    compileXPath (S "a[contains('x')]") = .error .syntaxError ∧ compileXPath (S "math:pi()") = .error .syntaxError := by decide +kernel

/-- The hypotheses of `C73_calls_checked_partial` are met. -/
example : CallsKnown (.node .functionCall (S "fn:abs") .nil (.node .argumentTop [] (tip .integerLiteral (S "1")) .nil)) :=
  C73_calls_checked_partial (S "abs(1)") _ (by decide) (by decide) (by run_compile)

example : Known (S "fn:substring") 3 ∧ ¬ Known (S "fn:substring") 1 ∧ ¬ Known (S "fn:foo") 1 := by
  simp only [← C73_functions]
  decide +kernel

end Amxml
