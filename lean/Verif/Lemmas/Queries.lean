import Verif.Spec.Queries
import Verif.Lemmas.Paths

/-!
# Every query is compiled to its tree

The terminals of a query, how they are read as tokens, and the derivation of its tree.
-/

namespace Amxml
open Spec

/-- The tokens of a condition beside `and` or `or`. -/
def parenToks (simple : Bool) (ts : List Tok) : List Tok := if simple then ts else sym .leftParen "(" :: (ts ++ [sym .rightParen ")"])

/-- The tree of a condition beside `and` or `or`. -/
def parenTree (simple : Bool) (x : XNode) : XNode := if simple then x else .node .parenthesizedExpr [] x .nil

/-- The tokens of the call of a function with one argument. -/
def callToks (f : String) (ts : List Tok) : List Tok := ⟨.name, S f⟩ :: sym .leftParen "(" :: (ts ++ [sym .rightParen ")"])

namespace Spec
mutual

def QCond.toks : QCond → List Tok
  | .has q => callToks "boolean" q.toks
  | .eq q v => q.toks ++ sym .generalEQ "=" :: [⟨.stringLiteral, v⟩]
  | .ne q v => q.toks ++ sym .generalNE "!=" :: [⟨.stringLiteral, v⟩]
  | .same p q => p.toks ++ sym .generalEQ "=" :: q.toks
  | .count q n => callToks "count" q.toks ++ sym .generalEQ "=" :: [⟨.integerLiteral, F64.natStr n⟩]
  | .both a b => parenToks a.simple a.toks ++ sym .andT "and" :: parenToks b.simple b.toks
  | .either a b => parenToks a.simple a.toks ++ sym .orT "or" :: parenToks b.simple b.toks
  | .no a => callToks "not" a.toks

def QPreds.toks : QPreds → List Tok
  | .nil => []
  | .nth n ps => sym .leftBracket "[" :: ⟨.integerLiteral, F64.natStr n⟩ :: sym .rightBracket "]" :: ps.toks
  | .last ps => sym .leftBracket "[" :: ⟨.name, S "last"⟩ :: sym .leftParen "(" :: sym .rightParen ")" :: sym .rightBracket "]" :: ps.toks
  | .cond c ps => sym .leftBracket "[" :: (c.toks ++ sym .rightBracket "]" :: ps.toks)

def QStep.toks : QStep → List Tok
  | .step c ps => c.toks ++ ps.toks
  | .parent => [sym .dotDot ".."]
  | .self => [sym .dot "."]

def QRel.toks : QRel → List Tok
  | .one s => s.toks
  | .more s d q => s.toks ++ slashTok d :: q.toks

def QPath.toks : QPath → List Tok
  | .root => [sym .slash "/"]
  | .rel q => q.toks
  | .abs d q => slashTok d :: q.toks

def Query.toks : Query → List Tok
  | .one p => p.toks
  | .also q p => q.toks ++ sym .union "|" :: p.toks

end

mutual

def QCond.tree : QCond → XNode
  | .has q => callOf (S "fn:boolean") [q.tree]
  | .eq q v => .node .operatorGeneralEQ (S "=") q.tree (tip .stringLiteral v)
  | .ne q v => .node .operatorGeneralNE (S "!=") q.tree (tip .stringLiteral v)
  | .same p q => .node .operatorGeneralEQ (S "=") p.tree q.tree
  | .count q n => .node .operatorGeneralEQ (S "=") (callOf (S "fn:count") [q.tree]) (tip .integerLiteral (F64.natStr n))
  | .both a b => .node .operatorAnd (S "and") (parenTree a.simple a.tree) (parenTree b.simple b.tree)
  | .either a b => .node .operatorOr (S "or") (parenTree a.simple a.tree) (parenTree b.simple b.tree)
  | .no a => callOf (S "fn:not") [a.tree]

def QPreds.trees : QPreds → List XNode
  | .nil => []
  | .nth n ps => tip .integerLiteral (F64.natStr n) :: ps.trees
  | .last ps => .node .functionCall (S "fn:last") .nil .nil :: ps.trees
  | .cond c ps => c.tree :: ps.trees

def QStep.tree : QStep → XNode
  | .step c ps => c.tree (predChain c.axis.2 ps.trees)
  | .parent => tip .axisParent (S "node()")
  | .self => tip .contextItem (S ".")

/-- The tree for `/q` and `//q` after a step. -/
def QRel.tail : QRel → Bool → XNode
  | .one s, d => if d then .node .operatorPath pathSlash1 dslash (.node .operatorPath pathSlash2 s.tree .nil) else .node .operatorPath pathSlash s.tree .nil
  | .more s d' q, d => if d then .node .operatorPath pathSlash1 dslash (.node .operatorPath pathSlash2 s.tree (q.tail d'))
    else .node .operatorPath pathSlash s.tree (q.tail d')

def QRel.tree : QRel → XNode
  | .one s => s.tree
  | .more s d q => .node .operatorPath pathTop s.tree (q.tail d)

def QPath.tree : QPath → XNode
  | .root => .node .operatorPath (S "parse_path_expr Slash") (tip .axisRoot (S "node()")) .nil
  | .rel q => q.tree
  | .abs true q => .node .operatorPath (S "parse_path_expr SlashSlash 1") (tip .axisRoot (S "/"))
      (.node .operatorPath (S "parse_path_expr SlashSlash 2") dslash q.tree)
  | .abs false q => .node .operatorPath (S "parse_path_expr Slash") (tip .axisRoot (S "node()")) q.tree

def Query.tree : Query → XNode
  | .one p => p.tree
  | .also q p => .node .operatorUnion (S "|") q.tree p.tree

end
end Spec

/-! ## Reading -/

namespace Spec

theorem QCond.text_has (q : Query) : (QCond.has q).text = S "boolean(" ++ q.text ++ S ")" := rfl
theorem QCond.text_eq (q : Query) (v : Str) : (QCond.eq q v).text = q.text ++ '=' :: quoted '\'' v := rfl
theorem QCond.text_ne (q : Query) (v : Str) : (QCond.ne q v).text = q.text ++ S "!=" ++ quoted '\'' v := rfl
theorem QCond.text_same (p q : Query) : (QCond.same p q).text = p.text ++ '=' :: q.text := rfl
theorem QCond.text_count (q : Query) (n : Nat) : (QCond.count q n).text = S "count(" ++ q.text ++ S ")=" ++ F64.natStr n := rfl
theorem QCond.text_both (a b : QCond) : (QCond.both a b).text = beside a.simple a.text ++ S " and " ++ beside b.simple b.text := rfl
theorem QCond.text_either (a b : QCond) : (QCond.either a b).text = beside a.simple a.text ++ S " or " ++ beside b.simple b.text := rfl
theorem QCond.text_no (a : QCond) : (QCond.no a).text = S "not(" ++ a.text ++ S ")" := rfl
theorem QPreds.text_nth (n : Nat) (ps : QPreds) : (QPreds.nth n ps).text = '[' :: F64.natStr n ++ S "]" ++ ps.text := rfl
theorem QPreds.text_last (ps : QPreds) : (QPreds.last ps).text = S "[last()]" ++ ps.text := rfl
theorem QPreds.text_cond (c : QCond) (ps : QPreds) : (QPreds.cond c ps).text = '[' :: c.text ++ S "]" ++ ps.text := rfl
theorem QStep.text_step (c : Core) (ps : QPreds) : (QStep.step c ps).text = c.text ++ ps.text := rfl
theorem QRel.text_more (s : QStep) (d : Bool) (q : QRel) : (QRel.more s d q).text = s.text ++ slashes d ++ q.text := rfl
theorem QPath.text_abs (d : Bool) (q : QRel) : (QPath.abs d q).text = slashes d ++ q.text := rfl
theorem Query.text_also (q : Query) (p : QPath) : (Query.also q p).text = q.text ++ '|' :: p.text := rfl

end Spec

/-- How queries and conditions begin. -/
def Begins (s : Str) : Prop := ∃ d, s.head? = some d ∧ (StepChar d ∨ d = '/' ∨ d = '(')

theorem Begins.append {s : Str} (h : Begins s) (r : Str) : Begins (s ++ r) := by
  obtain ⟨d, h1, h2⟩ := h
  cases s with
  | nil => cases h1
  | cons a s => exact ⟨d, h1, h2⟩

theorem begins_apart {s : Str} (h : Begins s) {w : Str} (hw : w ∈ [S "(", S "=", S "|", S "["]) : ∀ d ∈ s.head?, Apart w d := by
  intro d hd
  obtain ⟨c, h1, h2⟩ := h
  rw [h1] at hd; cases hd
  have : ∀ w ∈ [S "(", S "=", S "|", S "["], ∀ c ∈ ['*', '@', '.', '/', '('], Apart w c := by decide
  rcases h2 with (h2 | h2) | rfl | rfl
  · exact apart_name h2
  · exact this w hw _ ((by decide : ∀ c ∈ ['*', '@', '.'], c ∈ ['*', '@', '.', '/', '(']) _ h2)
  · exact this w hw _ (by decide)
  · exact this w hw _ (by decide)

theorem qstep_begins {s : QStep} (hs : s.Ok) (r : Str) : ∃ d, (s.text ++ r).head? = some d ∧ StepChar d := by
  cases s with
  | step c ps =>
    obtain ⟨d, h1, h2⟩ := core_start (c := c) hs.1 (ps.text ++ r)
    exact ⟨d, by rw [← h1, QStep.text_step]; simp, h2⟩
  | parent => exact ⟨_, rfl, .inr (by decide)⟩
  | self => exact ⟨_, rfl, .inr (by decide)⟩

theorem qrel_begins {q : QRel} (hq : q.Ok) (r : Str) : ∃ d, (q.text ++ r).head? = some d ∧ StepChar d := by
  cases q with
  | one s => exact qstep_begins (s := s) hq r
  | more s d q =>
    obtain ⟨c, h1, h2⟩ := qstep_begins (s := s) hq.1 (slashes d ++ q.text ++ r)
    exact ⟨c, by rw [← h1, QRel.text_more]; simp, h2⟩

theorem qpath_begins {p : QPath} (hp : p.Ok) : Begins p.text := by
  cases p with
  | root => exact ⟨_, rfl, .inr (.inl rfl)⟩
  | rel q =>
    obtain ⟨d, h1, h2⟩ := qrel_begins (q := q) hp []
    rw [List.append_nil] at h1
    exact ⟨d, h1, .inl h2⟩
  | abs d q => cases d <;> exact ⟨_, rfl, .inr (.inl rfl)⟩

theorem query_begins : ∀ {q : Query}, q.Ok → Begins q.text
  | .one p, hq => qpath_begins (p := p) hq
  | .also q _, hq => (query_begins (q := q) hq.1).append _

theorem beside_begins {b : Bool} {s : Str} (h : Begins s) : Begins (beside b s) := by
  cases b with
  | true => exact h
  | false => exact ⟨_, rfl, .inr (.inr rfl)⟩

theorem begins_word {s : Str} {d : Char} (hs : s.head? = some d) (hd : NameStartC d) : Begins s := ⟨d, hs, .inl (.inl hd)⟩

theorem qcond_begins : ∀ {c : QCond}, c.Ok → Begins c.text
  | .has q, _ => begins_word (d := 'b') rfl (by decide)
  | .eq q v, hc => (query_begins (q := q) hc.1).append _
  | .ne q v, hc => by
    show Begins ((q.text ++ S "!=") ++ quoted '\'' v)
    exact ((query_begins (q := q) hc.1).append _).append _
  | .same p q, hc => (query_begins (q := p) hc.1).append _
  | .count q n, _ => begins_word (d := 'c') rfl (by decide)
  | .both a b, hc => by
    show Begins ((beside a.simple a.text ++ S " and ") ++ beside b.simple b.text)
    exact ((beside_begins (qcond_begins (c := a) hc.1)).append _).append _
  | .either a b, hc => by
    show Begins ((beside a.simple a.text ++ S " or ") ++ beside b.simple b.text)
    exact ((beside_begins (qcond_begins (c := a) hc.1)).append _).append _
  | .no a, _ => begins_word (d := 'n') rfl (by decide)

/-- What follows a condition. -/
structure CondEnd (ts : List Tok) (r : Str) : Prop where
  text : ∀ c ∈ r.head?, c ∈ [']', ')', ' ']
  reads : ∀ prev ∈ [TType.stringLiteral, .integerLiteral, .rightParen], Reads prev ts r

theorem CondEnd.nil : CondEnd [] [] := ⟨by simp, fun prev _ => .nil prev⟩

theorem paren_after {ts : List Tok} {r : Str} (h : Reads .rightParen ts r) : After (sym .rightParen ")" :: ts) (S ")" ++ r) :=
  ⟨by intro c hc; cases hc; decide, by intro k hk; cases hk; exact .inl (by decide),
    fun _ => Reads.symbol (w := S ")") (by decide) (fun d _ => apart_lone (by decide)) h⟩

theorem paren_end {ts : List Tok} {r : Str} (h : Reads .rightParen ts r) : CondEnd (sym .rightParen ")" :: ts) (S ")" ++ r) :=
  ⟨by intro c hc; cases hc; decide, fun prev _ => (paren_after h).reads prev⟩

theorem bracket_end {ts : List Tok} {r : Str} (h : After ts r) : CondEnd (sym .rightBracket "]" :: ts) (S "]" ++ r) :=
  ⟨by intro c hc; cases hc; decide, fun prev _ => (close_reads h).reads prev⟩

/-- A word operator between conditions. -/
theorem word_end {w : String} {t : TType} (hw : (S w, t) ∈ [(S "and", TType.andT), (S "or", TType.orT)]) {ts : List Tok} {r : Str} (h : Reads t ts r) :
    CondEnd (sym t w :: ts) (' ' :: (S w ++ (' ' :: r))) := by
  have hop : (S w, t) ∈ wordOperators ∧ IsNCName (S w) := by
    have : ∀ e ∈ [(S "and", TType.andT), (S "or", TType.orT)], e ∈ wordOperators ∧ IsNCName e.1 := by decide
    exact this _ hw
  refine ⟨by intro c hc; cases hc; decide, fun prev hp => ?_⟩
  have he : prev ∈ operandEnd := by
    have : ∀ t ∈ [TType.stringLiteral, .integerLiteral, .rightParen], t ∈ operandEnd := by decide
    exact this _ hp
  obtain ⟨us, h1, h2⟩ := h
  have hr : ∀ c ∈ (' ' :: r).head?, ¬ NameC c ∧ c ≠ '{' := by
    intro c hc
    have : c = ' ' := by simpa using hc.symm
    rw [this]; decide
  obtain ⟨h3, h4⟩ := word_ends hop.2 hr
  exact ⟨_, text_space (.cons (b := []) .nil h3 h4 (text_space h1)), .operator hop.1 he h2⟩

/-- `f(…)`. -/
theorem call_reads {f : String} (hf : IsNCName (S f)) (hm : S f ∉ markedWords.map (·.1)) {prev : TType} (hp : prev ∈ operandStart) {ts us : List Tok}
    {s r : Str} (hs : Begins s) (h : Reads .leftParen (ts ++ sym .rightParen ")" :: us) (s ++ (S ")" ++ r))) :
    Reads prev (callToks f ts ++ us) (S f ++ (S "(" ++ (s ++ (S ")" ++ r)))) := by
  have h2 := Reads.symbol (prev := .innerName) (w := S "(") (t := .leftParen) (by decide) (begins_apart (hs.append _) (by decide)) h
  have h3 := Reads.name (prev := prev) hf (wordEnd_paren _) hp (by
    intro k hk; cases hk
    exact ⟨.inl (by decide), fun t ht => hm (List.mem_map.2 ⟨_, ht, rfl⟩)⟩) h2
  have e : callToks f ts ++ us = ⟨.name, S f⟩ :: sym .leftParen "(" :: (ts ++ sym .rightParen ")" :: us) := by simp [callToks]
  rw [e]
  exact h3

theorem Reads.digits {prev : TType} {n : Nat} {ts : List Tok} {r : Str} (hr : Closes r) (h : Reads .integerLiteral ts r) :
    Reads prev (⟨.integerLiteral, F64.natStr n⟩ :: ts) (F64.natStr n ++ r) := by
  obtain ⟨d1, d2, d3⟩ := natStr_digits n
  have hn : Numeral (F64.natStr n) n 0 := by
    have := Numeral.fixed (Fixed.int d2 d1)
    rwa [d3] at this
  have hw : Lexeme (F64.natStr n) ⟨.integerLiteral, F64.natStr n⟩ := .integer d2 ((allDigits_iff _).2 d1)
  obtain ⟨us, h1, h2⟩ := h
  revert hn hw
  generalize F64.natStr n = w
  intro hn hw
  exact ⟨_, .cons (b := []) .nil hw (ends_number hn (t := .integerLiteral) (by decide) hr) h1, .same (show TType.integerLiteral ≠ TType.innerName by decide) h2⟩

/-- `op q` after a query. -/
theorem op_after {w : String} {t : TType} (hw : (S w, t) ∈ [(S "=", TType.generalEQ), (S "!=", .generalNE), (S "|", .union)]) {ts : List Tok} {r : Str}
    (hr : ∀ d ∈ r.head?, Apart (S w) d) (h : Reads t ts r) : After (sym t w :: ts) (S w ++ r) := by
  have h1 : (S w, t) ∈ symbols := by
    have : ∀ e ∈ [(S "=", TType.generalEQ), (S "!=", .generalNE), (S "|", .union)], e ∈ symbols := by decide
    exact this _ hw
  refine ⟨?_, ?_, fun prev => Reads.symbol h1 hr h⟩
  · intro c hc
    have : ∀ e ∈ [(S "=", TType.generalEQ), (S "!=", .generalNE), (S "|", .union)], ∃ a b, e.1 = a :: b ∧ a ∈ ['/', '[', ']', '=', ')', '|', '!'] := by
      intro e he
      simp only [List.mem_cons, List.not_mem_nil, or_false] at he
      rcases he with rfl | rfl | rfl
      · exact ⟨_, _, rfl, by decide⟩
      · exact ⟨_, _, rfl, by decide⟩
      · exact ⟨_, _, rfl, by decide⟩
    obtain ⟨a, b, e, ha⟩ := this _ hw
    have e : S w = a :: b := e
    rw [e] at hc
    cases hc; exact ha
  · intro k hk
    cases hk
    have : ∀ e ∈ [(S "=", TType.generalEQ), (S "!=", .generalNE), (S "|", .union)],
        e.2 ∈ [TType.slash, .slashSlash, .leftBracket, .rightBracket, .generalEQ, .generalNE, .rightParen] ∨ e = (S "|", .union) := by decide
    rcases this _ hw with h | h
    · exact .inl h
    · obtain ⟨h1, h2⟩ := Prod.mk.inj h
      right
      show (⟨t, S w⟩ : Tok) = _
      rw [h1, h2]

/-- What follows a whole path. -/
structure PathEnd (ts : List Tok) (r : Str) : Prop extends After ts r where
  slash : ∀ c ∈ r.head?, c ≠ '/'

theorem paren_path {ts : List Tok} {r : Str} (h : Reads .rightParen ts r) : PathEnd (sym .rightParen ")" :: ts) (S ")" ++ r) :=
  ⟨paren_after h, by intro c hc; cases hc; decide⟩

theorem op_path {w : String} {t : TType} (hw : (S w, t) ∈ [(S "=", TType.generalEQ), (S "!=", .generalNE), (S "|", .union)]) {ts : List Tok} {r : Str}
    (hr : ∀ d ∈ r.head?, Apart (S w) d) (h : Reads t ts r) : PathEnd (sym t w :: ts) (S w ++ r) := by
  refine ⟨op_after hw hr h, ?_⟩
  intro c hc
  have : ∀ e ∈ [(S "=", TType.generalEQ), (S "!=", .generalNE), (S "|", .union)], e.1 ≠ [] ∧ e.1.head? ≠ some '/' := by decide
  obtain ⟨h1, h2⟩ := this _ hw
  have h1 : S w ≠ [] := h1
  have h2 : (S w).head? ≠ some '/' := h2
  cases e : S w with
  | nil => exact absurd e h1
  | cons a b =>
    rw [e] at hc h2
    cases hc
    rintro rfl
    exact h2 rfl

theorem open_after {ts : List Tok} {r : Str} (h : Reads .leftBracket ts r) : After (sym .leftBracket "[" :: ts) (S "[" ++ r) :=
  ⟨by intro c hc; cases hc; decide, by intro k hk; cases hk; exact .inl (by decide),
    fun _ => Reads.symbol (w := S "[") (by decide) (fun d _ => apart_lone (by decide)) h⟩

theorem apart_quote (w : Str) (hw : w ∈ [S "=", S "!="]) (s : Str) (r : Str) : ∀ d ∈ (quoted '\'' s ++ r).head?, Apart w d := by
  intro d hd
  have : d = '\'' := by simpa [quoted] using hd.symm
  rw [this]
  have : ∀ w ∈ [S "=", S "!="], Apart w '\'' := by decide
  exact this w hw

theorem end_quote {ts : List Tok} {r : Str} (h : CondEnd ts r) : r.head? ≠ some '\'' := by
  intro e
  have := h.text _ e
  revert this; decide

mutual

theorem qcond_reads : ∀ {c : QCond}, c.Ok → ∀ {prev : TType}, prev ∈ operandStart → ∀ {ts : List Tok} {r : Str}, CondEnd ts r →
    (c.simple = true ∨ (PathEnd ts r ∧ Closes r)) → Reads prev (c.toks ++ ts) (c.text ++ r)
  | .has q, hc, prev, hp, ts, r, he, _ => by
    have h1 := query_reads (q := q) hc (prev := .leftParen) (by decide) (paren_path (he.reads .rightParen (by decide)))
    have h2 := call_reads (f := "boolean") (by decide) (by decide) hp (query_begins (q := q) hc) h1
    have e : (QCond.has q).text ++ r = S "boolean" ++ (S "(" ++ (q.text ++ (S ")" ++ r))) := by
      rw [QCond.text_has, List.append_assoc, List.append_assoc]; rfl
    rw [e]
    exact h2
  | .eq q v, hc, prev, hp, ts, r, he, _ => by
    have h1 : Reads .generalEQ (⟨.stringLiteral, v⟩ :: ts) (quoted '\'' v ++ r) := Reads.string hc.2 (end_quote he) (he.reads _ (by decide))
    have h2 := query_reads (q := q) hc.1 hp (op_path (w := "=") (by decide) (apart_quote _ (by decide) v r) h1)
    rw [QCond.toks, QCond.text_eq]
    simpa [sym, S] using h2
  | .ne q v, hc, prev, hp, ts, r, he, _ => by
    have h1 : Reads .generalNE (⟨.stringLiteral, v⟩ :: ts) (quoted '\'' v ++ r) := Reads.string hc.2 (end_quote he) (he.reads _ (by decide))
    have h2 := query_reads (q := q) hc.1 hp (op_path (w := "!=") (by decide) (apart_quote _ (by decide) v r) h1)
    rw [QCond.toks, QCond.text_ne]
    simpa [sym, S] using h2
  | .same p q, hc, prev, hp, ts, r, he, hs => by
    rcases hs with hs | ⟨hs, -⟩
    · cases hs
    have h1 := query_reads (q := q) hc.2 (prev := .generalEQ) (by decide) hs
    have h2 := query_reads (q := p) hc.1 hp (op_path (w := "=") (by decide) (begins_apart ((query_begins (q := q) hc.2).append _) (by decide)) h1)
    rw [QCond.toks, QCond.text_same]
    simpa [sym, S] using h2
  | .count q n, hc, prev, hp, ts, r, he, hs => by
    rcases hs with hs | ⟨-, hs⟩
    · cases hs
    have h0 : Reads .generalEQ (⟨.integerLiteral, F64.natStr n⟩ :: ts) (F64.natStr n ++ r) := Reads.digits hs (he.reads _ (by decide))
    obtain ⟨d1, d2, -⟩ := natStr_digits n
    rw [QCond.toks, QCond.text_count]
    revert h0 d1 d2
    generalize F64.natStr n = w
    intro h0 d1 d2
    have ha : ∀ d ∈ (w ++ r).head?, Apart (S "=") d := by
      intro d hd
      cases w with
      | nil => exact absurd rfl d2
      | cons a w =>
        cases hd
        have h1 := d1 d (by simp)
        refine ⟨?_, fun e => absurd e (by decide), fun e => absurd e (by decide)⟩
        have : ∀ y ∈ symbols, ∀ c ∈ y.1, ¬ ('0' ≤ c ∧ c ≤ '9') := by decide
        intro y hy hpre
        exact this y hy d (hpre.subset (by simp)) h1
    have h1 := query_reads (q := q) hc.1 (prev := .leftParen) (by decide) (paren_path ((op_path (w := "=") (by decide) ha h0).reads .rightParen))
    have h2 := call_reads (f := "count") (by decide) (by decide) hp (query_begins (q := q) hc.1) h1
    have e : (S "count(" ++ q.text ++ S ")=" ++ w) ++ r = S "count" ++ (S "(" ++ (q.text ++ (S ")" ++ (S "=" ++ (w ++ r))))) := by
      rw [List.append_assoc, List.append_assoc, List.append_assoc]; rfl
    rw [e]
    simpa using h2
  | .both a b, hc, prev, hp, ts, r, he, _ => by
    have h1 := arg_reads (c := b) hc.2 (prev := .andT) (by decide) he
    have h2 := arg_reads (c := a) hc.1 hp (word_end (w := "and") (t := .andT) (by decide) h1)
    rw [QCond.toks, QCond.text_both]
    simpa [sym, S] using h2
  | .either a b, hc, prev, hp, ts, r, he, _ => by
    have h1 := arg_reads (c := b) hc.2 (prev := .orT) (by decide) he
    have h2 := arg_reads (c := a) hc.1 hp (word_end (w := "or") (t := .orT) (by decide) h1)
    rw [QCond.toks, QCond.text_either]
    simpa [sym, S] using h2
  | .no a, hc, prev, hp, ts, r, he, _ => by
    have h0 := he.reads .rightParen (by decide)
    have h1 := qcond_reads (c := a) hc (prev := .leftParen) (by decide) (paren_end h0) (.inr ⟨paren_path h0, by intro c hc; cases hc; exact .inr (.inl rfl)⟩)
    have h2 := call_reads (f := "not") (by decide) (by decide) hp (qcond_begins (c := a) hc) h1
    have e : (QCond.no a).text ++ r = S "not" ++ (S "(" ++ (a.text ++ (S ")" ++ r))) := by
      rw [QCond.text_no, List.append_assoc, List.append_assoc]; rfl
    rw [e]
    exact h2

theorem arg_reads : ∀ {c : QCond}, c.Ok → ∀ {prev : TType}, prev ∈ operandStart → ∀ {ts : List Tok} {r : Str}, CondEnd ts r →
    Reads prev (parenToks c.simple c.toks ++ ts) (beside c.simple c.text ++ r) := by
  intro c hc prev hp ts r he
  cases hs : c.simple with
  | true => exact qcond_reads hc hp he (.inl hs)
  | false =>
    have h0 := he.reads .rightParen (by decide)
    have h1 := qcond_reads (c := c) hc (prev := .leftParen) (by decide) (paren_end h0) (.inr ⟨paren_path h0, by intro c hc; cases hc; exact .inr (.inl rfl)⟩)
    have h2 := Reads.symbol (prev := prev) (w := S "(") (t := .leftParen) (by decide) (begins_apart ((qcond_begins hc).append _) (by decide)) h1
    simpa [parenToks, beside, sym, S] using h2

theorem qpreds_reads : ∀ {ps : QPreds}, ps.Ok → ∀ {ts : List Tok} {r : Str}, After ts r → After (ps.toks ++ ts) (ps.text ++ r)
  | .nil, _, ts, r, ha => ha
  | .nth n ps, hp, ts, r, ha => by
    have h0 := qpreds_reads (ps := ps) hp.2 ha
    have h1 : Reads .leftBracket (⟨.integerLiteral, F64.natStr n⟩ :: sym .rightBracket "]" :: (ps.toks ++ ts)) (F64.natStr n ++ (S "]" ++ (ps.text ++ r))) :=
      Reads.digits (by intro c hc; cases hc; exact .inr (.inr rfl)) ((close_reads h0).reads _)
    rw [QPreds.toks, QPreds.text_nth]
    revert h1
    generalize F64.natStr n = w
    intro h1
    have h2 : After (sym .leftBracket "[" :: ⟨.integerLiteral, w⟩ :: sym .rightBracket "]" :: (ps.toks ++ ts)) (S "[" ++ (w ++ (S "]" ++ (ps.text ++ r)))) := open_after h1
    simpa [S] using h2
  | .last ps, hp, ts, r, ha => by
    have h0 := qpreds_reads (ps := ps) hp ha
    have h1 : Reads .leftParen (sym .rightParen ")" :: sym .rightBracket "]" :: (ps.toks ++ ts)) (S ")" ++ (S "]" ++ (ps.text ++ r))) :=
      Reads.symbol (w := S ")") (by decide) (fun d _ => apart_lone (by decide)) ((close_reads h0).reads _)
    have h2 : Reads .innerName (sym .leftParen "(" :: sym .rightParen ")" :: sym .rightBracket "]" :: (ps.toks ++ ts)) (S "(" ++ (S ")" ++ (S "]" ++ (ps.text ++ r)))) :=
      Reads.symbol (w := S "(") (by decide) (by intro d hd; cases hd; decide) h1
    have h3 := Reads.name (prev := .leftBracket) (n := S "last") (by decide) (wordEnd_paren _) (by decide) (by
      intro k hk; cases hk
      have : S "last" ∉ markedWords.map (·.1) := by decide
      exact ⟨.inl (by decide), fun t ht => this (List.mem_map.2 ⟨_, ht, rfl⟩)⟩) h2
    have h4 := open_after h3
    rw [QPreds.toks, QPreds.text_last]
    simpa [S] using h4
  | .cond c ps, hp, ts, r, ha => by
    have h0 := qpreds_reads (ps := ps) hp.2 ha
    have h1 := qcond_reads (c := c) hp.1 (prev := .leftBracket) (by decide) (bracket_end h0) (.inr ⟨⟨close_reads h0, by intro c hc; cases hc; decide⟩, by intro c hc; cases hc; exact .inr (.inr rfl)⟩)
    have h4 := open_after h1
    rw [QPreds.toks, QPreds.text_cond]
    simpa [S] using h4

theorem qstep_reads : ∀ {s : QStep}, s.Ok → ∀ {prev : TType}, prev ∈ operandStart → ∀ {ts : List Tok} {r : Str}, After ts r →
    Reads prev (s.toks ++ ts) (s.text ++ r)
  | .step c ps, hs, prev, hp, ts, r, ha => by
    have := core_reads (c := c) hs.1 hp (qpreds_reads (ps := ps) hs.2 ha)
    rw [QStep.toks, QStep.text_step]
    simpa using this
  | .parent, _, prev, hp, ts, r, ha => seg_reads (s := .parent) trivial hp ha
  | .self, _, prev, hp, ts, r, ha => seg_reads (s := .self) trivial hp ha

theorem qrel_reads : ∀ {q : QRel}, q.Ok → ∀ {prev : TType}, prev ∈ operandStart → ∀ {ts : List Tok} {r : Str}, After ts r →
    Reads prev (q.toks ++ ts) (q.text ++ r)
  | .one s, hq, prev, hp, ts, r, ha => qstep_reads (s := s) hq hp ha
  | .more s d q, hq, prev, hp, ts, r, ha => by
    have h1 : ∀ prev ∈ operandStart, Reads prev (q.toks ++ ts) (q.text ++ r) := fun prev hp => qrel_reads (q := q) hq.2 hp ha
    have := qstep_reads (s := s) hq.1 hp (slash_reads (d := d) (qrel_begins (q := q) hq.2 r) h1)
    rw [QRel.toks, QRel.text_more]
    simpa using this

theorem qpath_reads : ∀ {p : QPath}, p.Ok → ∀ {prev : TType}, prev ∈ operandStart → ∀ {ts : List Tok} {r : Str}, PathEnd ts r →
    Reads prev (p.toks ++ ts) (p.text ++ r)
  | .root, _, prev, _, ts, r, ha => by
    refine Reads.symbol (w := S "/") (by decide) ?_ (ha.reads _)
    intro d hd
    have : ∀ d ∈ ['/', '[', ']', '=', ')', '|', '!'], d ≠ '/' → Apart (S "/") d := by decide
    exact this d (ha.text d hd) (ha.slash d hd)
  | .rel q, hq, prev, hp, ts, r, ha => qrel_reads (q := q) hq hp ha.toAfter
  | .abs d q, hq, prev, hp, ts, r, ha => by
    have h1 : ∀ prev ∈ operandStart, Reads prev (q.toks ++ ts) (q.text ++ r) := fun prev hp => qrel_reads (q := q) hq hp ha.toAfter
    have := (slash_reads (d := d) (qrel_begins (q := q) hq r) h1).reads prev
    rw [QPath.toks, QPath.text_abs]
    simpa using this

theorem query_reads : ∀ {q : Query}, q.Ok → ∀ {prev : TType}, prev ∈ operandStart → ∀ {ts : List Tok} {r : Str}, PathEnd ts r →
    Reads prev (q.toks ++ ts) (q.text ++ r)
  | .one p, hq, prev, hp, ts, r, ha => qpath_reads (p := p) hq hp ha
  | .also q p, hq, prev, hp, ts, r, ha => by
    have h1 := qpath_reads (p := p) hq.2 (prev := .union) (by decide) ha
    have h2 := query_reads (q := q) hq.1 hp (op_path (w := "|") (by decide) (begins_apart ((qpath_begins (p := p) hq.2).append _) (by decide)) h1)
    rw [Query.toks, Query.text_also]
    simpa [sym, S] using h2

end

/-! ## Deriving -/

/-- The phrase may be followed by the operators on paths. -/
def Open (bad : List TType) : Prop := ∀ t ∈ pathOps, t ∉ bad

theorem call_derives {f : String} {ts : List Tok} {x : XNode} {bad : List TType} (hf : S f ≠ []) (hc : Callable (S "fn" ++ S ":" ++ S f) 1)
    (h : Derives (.level 2) ts x bad) : Derives .primary (callToks f ts) (callOf (S "fn" ++ S ":" ++ S f) [x]) [] := by
  have h1 := Derives.call (l := S "(") (r := S ")") (NameD.ncname (pre := S "fn") hf) (.elems (.lastElem (.argument h))) (by
    rw [if_neg (by decide)]
    exact hc)
  rw [if_neg (by
    rintro ⟨y, hy, e⟩
    have : y = .node .argumentTop [] x .nil := by simpa [XNode.chain] using hy
    rw [this] at e
    cases e), if_neg (by decide)] at h1
  exact h1

theorem compare_derives {k : Tok} {t : XNodeType} (hk : (5, k.ty, t) ∈ binary) {a b : List Tok} {x y : XNode} {bad bad' : List TType}
    (ha : Derives (.level 6) a x bad) (hb : k.ty ∉ bad) (h : Derives (.level 6) b y bad') : Derives (.level 5) (a ++ k :: b) (.node t k.name x y) bad' :=
  .nonassoc hk (by decide) ha hb h

mutual

theorem qcond_derives : ∀ {c : QCond}, c.Ok → ∃ bad, Derives (.level 3) c.toks c.tree bad ∧ (c.simple = true → Derives (.level 5) c.toks c.tree [])
  | .has q, hc => by
    obtain ⟨bad, h, -⟩ := query_derives (q := q) hc
    have := call_derives (f := "boolean") (by decide) (by unfold Callable; decide) (.loosen 2 h (by omega) (by omega) (by omega))
    exact ⟨_, .prim 3 this, fun _ => .prim 5 this⟩
  | .eq q v, hc => by
    obtain ⟨bad, h, ho⟩ := query_derives (q := q) hc.1
    have := compare_derives (k := sym .generalEQ "=") (t := .operatorGeneralEQ) (by decide) (.loosen 6 h (by omega) (by omega) (by omega)) (ho _ (by decide))
      (.prim 6 (.string (s := v)))
    exact ⟨_, .loosen 3 this (by omega) (by omega) (by omega), fun _ => this⟩
  | .ne q v, hc => by
    obtain ⟨bad, h, ho⟩ := query_derives (q := q) hc.1
    have := compare_derives (k := sym .generalNE "!=") (t := .operatorGeneralNE) (by decide) (.loosen 6 h (by omega) (by omega) (by omega)) (ho _ (by decide))
      (.prim 6 (.string (s := v)))
    exact ⟨_, .loosen 3 this (by omega) (by omega) (by omega), fun _ => this⟩
  | .same p q, hc => by
    obtain ⟨bad, h, ho⟩ := query_derives (q := p) hc.1
    obtain ⟨bad', h', -⟩ := query_derives (q := q) hc.2
    have := compare_derives (k := sym .generalEQ "=") (t := .operatorGeneralEQ) (by decide) (.loosen 6 h (by omega) (by omega) (by omega)) (ho _ (by decide))
      (.loosen 6 h' (by omega) (by omega) (by omega))
    exact ⟨_, .loosen 3 this (by omega) (by omega) (by omega), by rintro ⟨⟩⟩
  | .count q n, hc => by
    obtain ⟨bad, h, -⟩ := query_derives (q := q) hc.1
    have h1 := call_derives (f := "count") (by decide) (by unfold Callable; decide) (.loosen 2 h (by omega) (by omega) (by omega))
    have := compare_derives (k := sym .generalEQ "=") (t := .operatorGeneralEQ) (by decide) (.prim 6 h1) (by decide)
      (.prim 6 (.integer (s := F64.natStr n)))
    exact ⟨_, .loosen 3 this (by omega) (by omega) (by omega), by rintro ⟨⟩⟩
  | .both a b, hc => by
    have ha := arg_derives (c := a) hc.1
    have hb := arg_derives (c := b) hc.2
    have := Derives.left (l := 4) (k := sym .andT "and") (t := .operatorAnd) (by decide) (by decide) (.loosen 4 ha (by omega) (by omega) (by omega)) (by decide) hb
    exact ⟨_, .loosen 3 this (by omega) (by omega) (by omega), by rintro ⟨⟩⟩
  | .either a b, hc => by
    have ha := arg_derives (c := a) hc.1
    have hb := arg_derives (c := b) hc.2
    have := Derives.left (l := 3) (k := sym .orT "or") (t := .operatorOr) (by decide) (by decide) (.loosen 3 ha (by omega) (by omega) (by omega)) (by decide)
      (.loosen 4 hb (by omega) (by omega) (by omega))
    exact ⟨_, this, by rintro ⟨⟩⟩
  | .no a, hc => by
    obtain ⟨bad, h, -⟩ := qcond_derives (c := a) hc
    have := call_derives (f := "not") (by decide) (by unfold Callable; decide) (.loosen 2 h (by omega) (by omega) (by omega))
    exact ⟨_, .prim 3 this, fun _ => .prim 5 this⟩

theorem arg_derives : ∀ {c : QCond}, c.Ok → Derives (.level 5) (parenToks c.simple c.toks) (parenTree c.simple c.tree) [] := by
  intro c hc
  obtain ⟨bad, h1, h2⟩ := qcond_derives hc
  cases hs : c.simple with
  | true => exact h2 hs
  | false =>
    exact .prim 5 (.paren (l := S "(") (r := S ")") (.present (.loosen 1 h1 (by omega) (by omega) (by omega))))

theorem qpreds_derive : ∀ {ps : QPreds}, ps.Ok → ∀ rev, Derives (.preds rev) ps.toks (predChain rev ps.trees) []
  | .nil, _, rev => .noPreds
  | .nth n ps, hp, rev => .preds (l := S "[") (r := S "]") (.prim 1 (.integer (s := F64.natStr n))) (qpreds_derive (ps := ps) hp.2 rev)
  | .last ps, hp, rev => by
    have h1 := Derives.call (fs := [⟨.name, S "last"⟩]) (f := S "fn:last") (l := S "(") (a := []) (x := .nil) (r := S ")")
      (NameD.ncname (pre := S "fn") (n := S "last") (by decide)) .empty (by unfold Callable; decide)
    exact .preds (l := S "[") (r := S "]") (.prim 1 h1) (qpreds_derive (ps := ps) hp rev)
  | .cond c ps, hp, rev => by
    obtain ⟨bad, h1, -⟩ := qcond_derives (c := c) hp.1
    exact .preds (l := S "[") (r := S "]") (.loosen 1 h1 (by omega) (by omega) (by omega)) (qpreds_derive (ps := ps) hp.2 rev)

theorem qstep_derives : ∀ {s : QStep}, s.Ok → ∃ bad, Derives .step s.toks s.tree bad ∧ Open bad
  | .step c ps, hs => core_derives (c := c) hs.1 (qpreds_derive (ps := ps) hs.2 c.axis.2)
  | .parent, _ => ⟨_, .parent, by intro t _; simp⟩
  | .self, _ => ⟨_, .expression (.primary .context), by intro t _; simp⟩

theorem qtail_derives : ∀ {q : QRel}, q.Ok → ∀ d, ∃ bad, Derives .more (slashTok d :: q.toks) (q.tail d) bad ∧ Open bad
  | .one s, hq, d => by
    obtain ⟨bad, h, ho⟩ := qstep_derives (s := s) hq
    cases d with
    | true => exact ⟨_, .dslashLast h, ho⟩
    | false => exact ⟨_, .slashLast h, ho⟩
  | .more s d' q, hq, d => by
    obtain ⟨bad, h, -⟩ := qstep_derives (s := s) hq.1
    obtain ⟨bad', h', ho⟩ := qtail_derives (q := q) hq.2 d'
    cases d with
    | true => exact ⟨_, .dslashMore h h', ho⟩
    | false => exact ⟨_, .slashMore h h', ho⟩

theorem qrel_derives : ∀ {q : QRel}, q.Ok → ∃ bad, Derives .rel q.toks q.tree bad ∧ Open bad
  | .one s, hq => by
    obtain ⟨bad, h, ho⟩ := qstep_derives (s := s) hq
    exact ⟨_, .oneStep h, ho⟩
  | .more s d q, hq => by
    obtain ⟨bad, h, -⟩ := qstep_derives (s := s) hq.1
    obtain ⟨bad', h', ho⟩ := qtail_derives (q := q) hq.2 d
    exact ⟨_, .steps h h', ho⟩

theorem qpath_derives : ∀ {p : QPath}, p.Ok → ∃ bad, Derives (.level 19) p.toks p.tree bad ∧ Open bad
  | .root, _ => ⟨_, .root, by unfold Open; decide⟩
  | .rel q, hp => by
    obtain ⟨bad, h, ho⟩ := qrel_derives (q := q) hp
    exact ⟨_, .relative h, ho⟩
  | .abs d q, hp => by
    obtain ⟨bad, h, ho⟩ := qrel_derives (q := q) hp
    cases d with
    | true => exact ⟨_, .rootedAll h, ho⟩
    | false => exact ⟨_, .rooted h, ho⟩

theorem query_derives : ∀ {q : Query}, q.Ok → ∃ bad, Derives (.level 10) q.toks q.tree bad ∧ Open bad
  | .one p, hq => by
    obtain ⟨bad, h, ho⟩ := qpath_derives (p := p) hq
    exact ⟨_, .loosen 10 h (by omega) (by omega) (by omega), ho⟩
  | .also q p, hq => by
    obtain ⟨bad, h, ho⟩ := query_derives (q := q) hq.1
    obtain ⟨bad', h', ho'⟩ := qpath_derives (p := p) hq.2
    exact ⟨_, .left (l := 10) (k := sym .union "|") (t := .operatorUnion) (by decide) (by decide) h (ho _ (by decide))
      (.loosen 11 h' (by omega) (by omega) (by omega)), ho'⟩

end

theorem compiles_of {ts : List Tok} {x : XNode} {s : Str} {l : Nat} {bad : List TType} (h1 : 1 ≤ l) (h2 : l ≤ 19) (h : Reads .eof ts s)
    (hd : Derives (.level l) ts x bad) : Parser.compileXPath s = .ok x := by
  obtain ⟨us, h3, h4⟩ := h
  exact C55_text_partial s us ts x bad h3 h4 (.loosen 1 hd (by omega) (by omega) (by omega))

theorem query_compiles (q : Query) (hq : q.Ok) : Parser.compileXPath q.text = .ok q.tree := by
  obtain ⟨bad, h, -⟩ := query_derives hq
  have h1 := query_reads hq (prev := .eof) (by decide) (ts := []) (r := []) ⟨.nil, by simp⟩
  rw [List.append_nil, List.append_nil] at h1
  exact compiles_of (by omega) (by omega) h1 h

theorem qcond_compiles (c : QCond) (hc : c.Ok) : Parser.compileXPath c.text = .ok c.tree := by
  obtain ⟨bad, h, -⟩ := qcond_derives hc
  have h1 := qcond_reads hc (prev := .eof) (by decide) (ts := []) (r := []) .nil (.inr ⟨⟨.nil, by simp⟩, by intro c hc; cases hc⟩)
  rw [List.append_nil, List.append_nil] at h1
  exact compiles_of (by omega) (by omega) h1 h

/-- `count(q)`. -/
theorem count_compiles (q : Query) (hq : q.Ok) : Parser.compileXPath (S "count(" ++ q.text ++ S ")") = .ok (callOf (S "fn:count") [q.tree]) := by
  obtain ⟨bad, h, -⟩ := query_derives hq
  have h1 := query_reads (q := q) hq (prev := .leftParen) (by decide) (paren_path (.nil _))
  have h2 := call_reads (f := "count") (by decide) (by decide) (prev := .eof) (by decide) (query_begins (q := q) hq) h1
  have e : S "count(" ++ q.text ++ S ")" = S "count" ++ (S "(" ++ (q.text ++ (S ")" ++ []))) := by
    rw [List.append_assoc]; rfl
  rw [e]
  rw [List.append_nil] at h2
  exact compiles_of (l := 19) (by omega) (by omega) h2 (.prim 19 (call_derives (f := "count") (by decide) (by unfold Callable; decide)
    (.loosen 2 h (by omega) (by omega) (by omega))))

end Amxml
