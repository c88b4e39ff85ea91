import Verif.Lemmas.Grammar
import Mathlib.Tactic.IntervalCases

/-!
# The parser reads the phrases of the grammar: expressions
-/

namespace Amxml
namespace Parser
open Spec

/-! ## The loops without bounds -/

theorem looping_fix {ι α : Type} {f : Nat → ι → P α} {Φ : (ι → P α) → ι → P α} (hf : ∀ n i, f (n + 1) i = Φ (f n) i)
    (hΦ : ∀ n (p p' : ι → P α), (∀ i, R n (p i) (p' i)) → ∀ i, R (n + 1) (Φ p i) (Φ p' i)) (i : ι) (ts : List Tok) :
    looping (fun n => f n i) ts = Φ (fun i => looping fun n => f n i) i ts := by
  have hR : ∀ k m, k ≤ m → ∀ i, R k (f k i) (f m i) := by
    intro k
    induction k with
    | zero => intro m _ i; exact R.zero _ _
    | succ k ih =>
      intro m hm i
      cases m with
      | zero => omega
      | succ m => rw [hf, hf]; exact hΦ k _ _ (ih m (by omega)) i
  have h1 : ∀ n i, R n (f n i) (looping fun n => f n i) := by
    intro n i ts hts
    obtain ⟨-, h2, h3⟩ := hR n n (by omega) i ts hts
    exact ⟨(looping_eq (f := fun n => f n i) (fun k m h => hR k m h i) n ts hts).symm, h2, h3⟩
  show f (ts.length + 1) i ts = _
  rw [hf]
  exact (hΦ ts.length _ _ (h1 ts.length) i ts (by omega)).1

theorem binLoop_eq {p : P XNode} (hp : ∀ n, R n p p) {tbl : TType → Option XNodeType} (ht : tbl .eof = none) (once : Bool) (x : XNode)
    (ts : List Tok) : looping (fun n => binOpLoop p tbl once n x) ts = caseTok tbl (pure x) (fun k t => p >>= fun y =>
      if once then pure (.node t k.name x y) else looping fun n => binOpLoop p tbl once n (.node t k.name x y)) ts :=
  looping_fix (f := binOpLoop p tbl once) (Φ := fun q x => caseTok tbl (pure x) (fun k t => p >>= fun y =>
      if once then pure (.node t k.name x y) else q (.node t k.name x y))) (fun n i => binOpLoop_eq p tbl once n i)
    (fun n q q' hq i => R.caseTok ht (R.pure _ _) (fun k' b => R.bind (hp n) fun y => R.ite (R.pure _ _) (hq _))) x ts

theorem arrowLoop_eq (ts : List Tok) (x : XNode) : looping (fun n => arrowLoop exprSingle n x) ts =
    ifTok .arrow (eqname (S "fn") >>= fun f => if f = [] then varref >>= fun v => if v.isNil then fail .syntaxError
        else argumentList exprSingle >>= fun args =>
          looping fun n => arrowLoop exprSingle n (.node .applyArgument [] v (.node .argumentListTop [] (.node .argumentTop [] x args) .nil))
      else argumentList exprSingle >>= fun args => looping fun n => arrowLoop exprSingle n (.node .functionCall f .nil (.node .argumentTop [] x args)))
    (pure x) ts := by
  refine looping_fix (f := arrowLoop exprSingle) (Φ := fun q x => ifTok .arrow (eqname (S "fn") >>= fun f => if f = [] then
        varref >>= fun v => if v.isNil then fail .syntaxError
        else argumentList exprSingle >>= fun args => q (.node .applyArgument [] v (.node .argumentListTop [] (.node .argumentTop [] x args) .nil))
      else argumentList exprSingle >>= fun args => q (.node .functionCall f .nil (.node .argumentTop [] x args)))
    (pure x)) (fun n i => ?_) (fun n q q' hq i => ?_) x ts
  · rw [arrowLoop]
  · have ha := (R.argumentList (R.exprSingle n)).mono (show n ≤ n + 1 by omega)
    refine R.ifTok (R.bind (R.eqname _ _) fun f => R.ite ?_ (R.bind ha fun _ => hq _)) (R.pure _ _)
    exact R.bind (R.varref _) fun v => R.ite (R.fail _ fine_syntax) (R.bind ha fun _ => hq _)

theorem postfixLoop_eq (ts : List Tok) (x : XNode) : looping (fun n => postfixLoop exprSingle n x) ts =
    (postfixOp exprSingle >>= fun y => if y.isNil then pure x
      else looping fun n => postfixLoop exprSingle n (.node (applyType y.ty) [] x y)) ts := by
  refine looping_fix (f := postfixLoop exprSingle) (Φ := fun q x => postfixOp exprSingle >>= fun y => if y.isNil then pure x
      else q (.node (applyType y.ty) [] x y)) (fun n i => ?_) (fun n q q' hq i => ?_) x ts
  · rw [postfixLoop]
  · exact RC.bind (RC.postfixOp (R.exprSingle n)) (fun _ => R.pure _ _) (fun _ => hq _)

theorem pathLoop_eq (ts : List Tok) : looping (relativePathLoop exprSingle) ts =
    caseTok slashOps (pure .nil) (fun _ b => stepExpr exprSingle >>= fun x => looping (relativePathLoop exprSingle) >>= fun r =>
        if b then pure (.node .operatorPath pathSlash1 dslash (.node .operatorPath pathSlash2 x r))
        else pure (.node .operatorPath pathSlash x r)) ts := by
  refine looping_fix (ι := Unit) (f := fun n _ => relativePathLoop exprSingle n) (Φ := fun q _ => caseTok slashOps (pure .nil)
    (fun _ b => stepExpr exprSingle >>= fun x => q () >>= fun r =>
        if b then pure (.node .operatorPath pathSlash1 dslash (.node .operatorPath pathSlash2 x r))
        else pure (.node .operatorPath pathSlash x r))) (fun n i => ?_) (fun n q q' hq i => ?_) () ts
  · rw [relativePathLoop_eq]; rfl
  · have hs := (R.stepExpr (R.exprSingle n)).mono (show n ≤ n + 1 by omega)
    exact R.caseTok rfl (R.pure _ _) (fun _ b => R.bind hs fun _ => R.bind (hq _) fun _ => R.ite (R.pure _ _) (R.pure _ _))

theorem predLoop_eq (rev : Bool) (ts : List Tok) : looping (predicateList exprSingle rev) ts =
    (predicate exprSingle >>= fun x => if x.isNil then pure .nil
      else looping (predicateList exprSingle rev) >>= fun r => pure (.node (if rev then .predicateRevTop else .predicateTop) (S "Predicate") x r)) ts := by
  refine looping_fix (ι := Unit) (f := fun n _ => predicateList exprSingle rev n) (Φ := fun q _ => predicate exprSingle >>= fun x =>
    if x.isNil then pure .nil
      else q () >>= fun r => pure (.node (if rev then .predicateRevTop else .predicateTop) (S "Predicate") x r)) (fun n i => ?_)
      (fun n q q' hq i => ?_) () ts
  · rw [predicateList]
  · exact RC.bind (RC.predicate (R.exprSingle n)) (fun _ => R.pure _ _) (fun _ => R.bind (hq _) fun _ => R.pure _ _)

theorem bindLoop_eq (t : XNodeType) {sep : P Unit} (hs : ∀ n, R n sep sep) (ts : List Tok) : looping (bindings exprSingle t sep) ts =
    (binding exprSingle t sep >>= fun b => if b.isNil then pure []
      else ifTok .comma (looping (bindings exprSingle t sep) >>= fun l => pure (b :: l)) (pure [b])) ts := by
  refine looping_fix (ι := Unit) (f := fun n _ => bindings exprSingle t sep n) (Φ := fun q _ => binding exprSingle t sep >>= fun b =>
    if b.isNil then pure [] else ifTok .comma (q () >>= fun l => pure (b :: l)) (pure [b])) (fun n i => ?_) (fun n q q' hq i => ?_) () ts
  · rw [bindings]
  · exact R.bind (R.binding (R.exprSingle _) t (hs _)) fun _ => R.ite (R.pure _ _) (R.ifTok (R.bind (hq _) fun _ => R.pure _ _) (R.pure _ _))

/-! ## The levels -/

/-- The parser of a level. -/
def levelP : Nat → P XNode
  | 1 => expr exprSingle | 2 => exprSingle | 3 => orExpr exprSingle | 4 => andExpr exprSingle | 5 => comparisonExpr exprSingle
  | 6 => concatExpr exprSingle | 7 => rangeExpr exprSingle | 8 => additiveExpr exprSingle | 9 => multiplicativeExpr exprSingle
  | 10 => unionExpr exprSingle | 11 => intersectExpr exprSingle | 12 => instanceofExpr exprSingle | 13 => treatExpr exprSingle
  | 14 => castableExpr exprSingle | 15 => castExpr exprSingle | 16 => arrowExpr exprSingle | 17 => unaryExpr exprSingle
  | 18 => valueExpr exprSingle | 19 => pathExpr exprSingle | _ => fail .syntaxError

/-- The operators of a level. -/
def opsOf : Nat → TType → Option XNodeType
  | 1 => commaOps | 3 => orOps | 4 => andOps | 5 => comparisonOps | 6 => concatOps | 7 => rangeOps | 8 => additiveOps
  | 9 => multiplicativeOps | 10 => unionOps | 11 => intersectOps | 18 => mapOps | _ => fun _ => none

/-- The level a token continues an expression at. -/
def binds : TType → Nat
  | .comma => 1 | .orT => 3 | .andT => 4
  | .valueEQ | .valueNE | .valueLT | .valueGT | .valueLE | .valueGE | .generalEQ | .generalNE | .generalLT | .generalGT | .generalLE
  | .generalGE | .isSameNode | .nodeBefore | .nodeAfter => 5
  | .operatorConcat => 6 | .to => 7 | .plus | .minus => 8 | .asterisk | .div | .iDiv | .mod => 9 | .union => 10
  | .intersect | .except => 11 | .instanceOf => 12 | .treatAs => 13 | .castableAs => 14 | .castAs => 15 | .arrow => 16
  | .operatorMap => 18 | .slash | .slashSlash => 19 | .leftBracket | .leftParen | .question => 20
  | _ => 0

/-- The next token does not continue an expression of the level. -/
def Stop (l : Nat) (rest : List Tok) : Prop := ∀ k ∈ rest.head?, binds k.ty < l

theorem Stop.mono {l m : Nat} {rest : List Tok} (h : Stop l rest) (hm : l ≤ m) : Stop m rest :=
  fun k hk => Nat.lt_of_lt_of_le (h k hk) hm

theorem stop_cons {l : Nat} {k : Tok} {rest : List Tok} : Stop l (k :: rest) ↔ binds k.ty < l := by simp [Stop]

theorem Stop.ne {l : Nat} {rest : List Tok} (h : Stop l rest) {t : TType} (ht : l ≤ binds t) : ∀ k ∈ rest.head?, k.ty ≠ t := by
  intro k hk he
  have := h k hk
  rw [he] at this
  omega

theorem binary_opsOf {l : Nat} {t : TType} {x : XNodeType} (h : (l, t, x) ∈ binary) : opsOf l t = some x := by
  have : ∀ e ∈ binary, opsOf e.1 e.2.1 = some e.2.2 := by decide
  exact this _ h

theorem binary_binds {l : Nat} {t : TType} {x : XNodeType} (h : (l, t, x) ∈ binary) : binds t = l := by
  have : ∀ e ∈ binary, binds e.2.1 = e.1 := by decide
  exact this _ h

theorem opsOf_binds {l : Nat} {t : TType} {x : XNodeType} (h : opsOf l t = some x) : binds t = l := by
  unfold opsOf at h
  split at h
  all_goals first
    | (cases t <;> first | rfl | (exfalso; revert h; simp [commaOps, orOps, andOps, comparisonOps, concatOps, rangeOps, additiveOps, multiplicativeOps, unionOps, intersectOps, mapOps]; done))
    | simp at h

theorem opsOf_eof (l : Nat) : opsOf l .eof = none := by
  unfold opsOf
  split <;> rfl

theorem levelP_left {l : Nat} (h : l ∈ leftAssoc) : levelP l = binOp (levelP (l + 1)) (opsOf l) false := by
  simp only [leftAssoc, List.mem_cons, List.mem_nil_iff, or_false] at h
  rcases h with rfl | rfl | rfl | rfl | rfl | rfl | rfl | rfl | rfl <;> rfl

theorem levelP_once {l : Nat} (h : l = 5 ∨ l = 7) : levelP l = binOp (levelP (l + 1)) (opsOf l) true := by
  rcases h with rfl | rfl <;> rfl

theorem levelP_R (l n : Nat) : R n (levelP l) (levelP l) := by
  have he := R.exprSingle n
  have h19 := (R.pathExpr he).mono (show n ≤ n + 1 by omega)
  have h18 := (R.valueExpr he).mono (show n ≤ n + 1 by omega)
  have h17 := (R.unaryExpr he).mono (show n ≤ n + 1 by omega)
  have h16 := (R.arrowExpr he).mono (show n ≤ n + 1 by omega)
  have h15 := R.typeOp h16 (R.singleType n) .castAs .operatorCastAs
  have h14 := R.typeOp h15 (R.singleType n) .castableAs .operatorCastableAs
  have h13 := R.typeOp h14 (R.sequenceType n) .treatAs .operatorTreatAs
  have h12 := R.typeOp h13 (R.sequenceType n) .instanceOf .operatorInstanceOf
  have h11 := R.binOp h12 (tbl := intersectOps) rfl false
  have h10 := R.binOp h11 (tbl := unionOps) rfl false
  have h9 := R.binOp h10 (tbl := multiplicativeOps) rfl false
  have h8 := R.binOp h9 (tbl := additiveOps) rfl false
  have h7 := R.binOp h8 (tbl := rangeOps) rfl true
  have h6 := R.binOp h7 (tbl := concatOps) rfl false
  have h5 := R.binOp h6 (tbl := comparisonOps) rfl true
  have h4 := R.binOp h5 (tbl := andOps) rfl false
  have h3 := R.binOp h4 (tbl := orOps) rfl false
  unfold levelP
  split
  all_goals first | assumption | exact R.expr he | exact R.fail _ fine_syntax

/-- The loop of a level, with what has been read so far. -/
def loopB (l : Nat) (once : Bool) (x : XNode) : P XNode := looping fun n => binOpLoop (levelP (l + 1)) (opsOf l) once n x

theorem loopB_stop {l : Nat} {once : Bool} {x : XNode} {rest : List Tok} (h : Stop l rest) : loopB l once x rest = .ok (x, rest) := by
  unfold loopB
  rw [binLoop_eq (levelP_R _) (opsOf_eof l)]
  unfold caseTok
  have : opsOf l (rest.head?.getD Lexer.eofTok).ty = none := by
    cases rest with
    | nil => exact opsOf_eof l
    | cons k r =>
      cases hk : opsOf l k.ty with
      | none => exact hk
      | some x => have h1 := opsOf_binds hk; have h2 := stop_cons.1 h; omega
  simp only [this]
  rfl

theorem loopB_op {l : Nat} {once : Bool} {x y : XNode} {k : Tok} {t : XNodeType} {b rest : List Tok} (hk : (l, k.ty, t) ∈ binary)
    (hy : levelP (l + 1) (b ++ rest) = .ok (y, rest)) :
    loopB l once x (k :: (b ++ rest)) = if once then .ok (.node t k.name x y, rest) else loopB l once (.node t k.name x y) rest := by
  unfold loopB
  rw [binLoop_eq (levelP_R _) (opsOf_eof l)]
  unfold caseTok
  simp only [List.head?_cons, Option.getD_some, binary_opsOf hk, List.tail_cons]
  rw [bind_ok hy]
  cases once <;> rfl

/-- The loop over the arrows. -/
def loopA (x : XNode) : P XNode := looping fun n => arrowLoop exprSingle n x

theorem loopA_stop {x : XNode} {rest : List Tok} (h : Stop 16 rest) : loopA x rest = .ok (x, rest) := by
  unfold loopA
  rw [arrowLoop_eq, ifTok_miss (h.ne (by decide))]
  rfl

/-! ## What a phrase starts with, and what may not follow it -/

/-- The kinds of tokens that may be forbidden after a phrase. -/
def allBad : List TType := stepStart ++ [.colon, .sharp, .colonAsterisk, .plus]

/-- The kinds of tokens that may be forbidden after a phrase of a category. -/
def badOf : Cat → List TType
  | .primary | .postfix => [.colon]
  | .lookup | .preds _ | .option | .list _ => []
  | .step | .rel | .more => [.sharp, .colonAsterisk, .colon]
  | _ => allBad

theorem NodeTestD.bad_sub {ts : List Tok} {n : Str} {x : XNode} {bad : List TType} (h : NodeTestD ts n x bad) :
    bad ⊆ [TType.sharp, .colonAsterisk, .colon] := by
  cases h with
  | name h => exact List.cons_subset.2 ⟨by simp, List.cons_subset.2 ⟨by simp, List.Subset.trans (NameD.bad_sub h) (by simp)⟩⟩
  | _ => simp

theorem badOf_all (c : Cat) : badOf c ⊆ allBad := by
  intro t
  cases c <;> simp [badOf, allBad] <;> tauto

theorem typeOp_bad {l : Nat} {t : TType} {x : XNodeType} {ts : List Tok} {y : XNode} {bad : List TType} (h : TypeOpD l t x ts y bad) :
    bad ⊆ allBad := by
  cases h with
  | instanceOf h => exact List.Subset.trans (TypeD.bad_sub h) (by decide)
  | treatAs h => exact List.Subset.trans (TypeD.bad_sub h) (by decide)
  | castableAs h => exact List.Subset.trans (SingleTypeD.bad_sub h) (by decide)
  | castAs h => exact List.Subset.trans (SingleTypeD.bad_sub h) (by decide)

theorem typeOp_ne {l : Nat} {t : TType} {x : XNodeType} {ts : List Tok} {y : XNode} {bad : List TType} (h : TypeOpD l t x ts y bad) :
    x ≠ .nil := by
  cases h <;> simp

theorem derives_bad {c : Cat} {ts : List Tok} {x : XNode} {bad : List TType} (h : Derives c ts x bad) : bad ⊆ badOf c := by
  induction h with
  | typeOp h1 h2 h3 => exact typeOp_bad h3
  | root => exact List.subset_append_left _ _
  | axis _ h => split; exact NodeTestD.bad_sub h; simp
  | atStep h => split; exact NodeTestD.bad_sub h; simp
  | child h => split; exact NodeTestD.bad_sub h; simp
  | varRef h => exact NameD.bad_sub h
  | expression _ ih => exact List.Subset.trans ih (by decide)
  | relative _ ih | rooted _ ih | rootedAll _ ih => exact List.Subset.trans ih (badOf_all _)
  | placeholder => decide
  | _ => first | assumption | simp

/-- The kinds of tokens a primary expression starts with. -/
def primaryStart : List TType := [.stringLiteral, .integerLiteral, .decimalLiteral, .doubleLiteral, .dollar, .leftParen, .dot, .name,
  .bracedURILiteral, .function, .map, .array, .leftBracket, .question]

/-- The kinds of tokens a phrase starts with. -/
def startOf : Cat → List TType
  | .level 19 | .level 18 => stepStart ++ [.slash, .slashSlash]
  | .level 2 | .level 1 => stepStart ++ [.slash, .slashSlash, .plus, .minus, .forT, .letT, .someT, .every, .ifT]
  | .level _ => stepStart ++ [.slash, .slashSlash, .plus, .minus]
  | .rel | .step => stepStart
  | .more => [.slash, .slashSlash]
  | .primary | .postfix => primaryStart
  | .lookup => [.question]
  | .clause _ => [.dollar]
  | .elem _ | .elems _ => stepStart ++ [.slash, .slashSlash, .plus, .minus, .forT, .letT, .someT, .every, .ifT]
  | _ => []

theorem startOf_succ {l : Nat} (h0 : 1 ≤ l) (hl : l < 19) : startOf (.level (l + 1)) ⊆ startOf (.level l) := by
  have : ∀ l < 19, 1 ≤ l → startOf (.level (l + 1)) ⊆ startOf (.level l) := by decide
  exact this l hl h0

theorem binary_lt {l : Nat} {t : TType} {x : XNodeType} (h : (l, t, x) ∈ binary) : 1 ≤ l ∧ l < 19 := by
  have : ∀ e ∈ binary, 1 ≤ e.1 ∧ e.1 < 19 := by decide
  exact this _ h

theorem typeOp_lt {l : Nat} {t : TType} {x : XNodeType} {ts : List Tok} {y : XNode} {bad : List TType} (h : TypeOpD l t x ts y bad) :
    12 ≤ l ∧ l ≤ 15 := by
  cases h <;> omega

theorem NodeTestD.first {ts : List Tok} {n : Str} {x : XNode} {bad : List TType} (h : NodeTestD ts n x bad) :
    ∃ k r, ts = k :: r ∧ k.ty ∈ stepStart := by
  cases h with
  | name h => obtain ⟨k, r, rfl, hk⟩ := NameD.first h; exact ⟨k, r, rfl, by rcases hk with hk | hk <;> simp [hk, stepStart]⟩
  | wildcard h => cases h <;> exact ⟨_, _, rfl, by simp [stepStart]⟩
  | kind h =>
    obtain ⟨k, r, rfl, hk⟩ := KindTestD.first h
    exact ⟨k, r, rfl, (show kindStart ⊆ stepStart by decide) hk⟩

/-- The categories whose phrases are not empty. -/
def solid : Cat → Prop
  | .preds _ | .list _ | .option => False
  | _ => True

theorem derives_first {c : Cat} {ts : List Tok} {x : XNode} {bad : List TType} (h : Derives c ts x bad) (hc : solid c) :
    ∃ k r, ts = k :: r ∧ k.ty ∈ startOf c := by
  induction h with
  | tighter h0 hl _ ih => obtain ⟨k, r, rfl, hk⟩ := ih trivial; exact ⟨k, r, rfl, startOf_succ h0 hl hk⟩
  | left _ _ _ _ _ ih => obtain ⟨k, r, rfl, hk⟩ := ih trivial; exact ⟨k, _, rfl, hk⟩
  | nonassoc hb _ _ _ _ ih =>
    obtain ⟨k, r, rfl, hk⟩ := ih trivial
    exact ⟨k, _, rfl, startOf_succ (binary_lt hb).1 (binary_lt hb).2 hk⟩
  | typeOp _ _ ht ih =>
    obtain ⟨k, r, rfl, hk⟩ := ih trivial
    have := typeOp_lt ht
    exact ⟨k, _, rfl, startOf_succ (by omega) (by omega) hk⟩
  | arrow _ _ _ ih => obtain ⟨k, r, rfl, hk⟩ := ih trivial; exact ⟨k, _, rfl, hk⟩
  | arrowVar _ _ _ ih => obtain ⟨k, r, rfl, hk⟩ := ih trivial; exact ⟨k, _, rfl, hk⟩
  | @clause c _ _ _ _ _ _ => exact ⟨_, _, rfl, by cases c <;> simp [startOf, Clause.token]⟩
  | relative _ ih => obtain ⟨k, r, rfl, hk⟩ := ih trivial; exact ⟨k, r, rfl, List.mem_append_left _ hk⟩
  | oneStep _ ih => obtain ⟨k, r, rfl, hk⟩ := ih trivial; exact ⟨k, r, rfl, hk⟩
  | steps _ _ ih => obtain ⟨k, r, rfl, hk⟩ := ih trivial; exact ⟨k, _, rfl, hk⟩
  | axis _ h => exact ⟨_, _, rfl, by simp [startOf, stepStart]⟩
  | child h => obtain ⟨k, r, rfl, hk⟩ := NodeTestD.first h; exact ⟨k, _, rfl, hk⟩
  | expression _ ih => obtain ⟨k, r, rfl, hk⟩ := ih trivial; exact ⟨k, r, rfl, (show primaryStart ⊆ stepStart by decide) hk⟩
  | primary _ ih => obtain ⟨k, r, rfl, hk⟩ := ih trivial; exact ⟨k, r, rfl, hk⟩
  | filter _ _ ih => obtain ⟨k, r, rfl, hk⟩ := ih trivial; exact ⟨k, _, rfl, hk⟩
  | apply _ _ ih => obtain ⟨k, r, rfl, hk⟩ := ih trivial; exact ⟨k, _, rfl, hk⟩
  | find _ _ ih => obtain ⟨k, r, rfl, hk⟩ := ih trivial; exact ⟨k, _, rfl, hk⟩
  | call h =>
    obtain ⟨k, r, rfl, hk⟩ := NameD.first h
    exact ⟨k, _, rfl, by rcases hk with hk | hk <;> simp [hk, startOf, primaryStart]⟩
  | reference h =>
    obtain ⟨k, r, rfl, hk⟩ := NameD.first h
    exact ⟨k, _, rfl, by rcases hk with hk | hk <;> simp [hk, startOf, primaryStart]⟩
  | lookup _ ih =>
    obtain ⟨k, r, rfl, hk⟩ := ih trivial
    exact ⟨k, r, rfl, by simp [startOf] at hk; simp [hk, startOf, primaryStart]⟩
  | lastElem _ ih => obtain ⟨k, r, rfl, hk⟩ := ih trivial; exact ⟨k, r, rfl, hk⟩
  | moreElems _ _ ih => obtain ⟨k, r, rfl, hk⟩ := ih trivial; exact ⟨k, _, rfl, hk⟩
  | argument _ ih => obtain ⟨k, r, rfl, hk⟩ := ih trivial; exact ⟨k, r, rfl, hk⟩
  | member _ ih => obtain ⟨k, r, rfl, hk⟩ := ih trivial; exact ⟨k, r, rfl, hk⟩
  | entry _ _ _ ih => obtain ⟨k, r, rfl, hk⟩ := ih trivial; exact ⟨k, _, rfl, hk⟩
  | noPreds => exact absurd hc id
  | preds => exact absurd hc id
  | absent => exact absurd hc id
  | present => exact absurd hc id
  | empty => exact absurd hc id
  | elems => exact absurd hc id
  | _ => exact ⟨_, _, rfl, by simp [startOf, stepStart, primaryStart]⟩

theorem derives_ne_nil {c : Cat} {ts : List Tok} {x : XNode} {bad : List TType} (h : Derives c ts x bad) (hc : solid c) : x.isNil = false := by
  induction h with
  | left hb | nonassoc hb =>
    have : ∀ e ∈ binary, e.2.2 ≠ .nil := by decide
    have := this _ hb
    simpa [XNode.isNil, XNode.ty] using this
  | typeOp _ _ ht => simpa [XNode.isNil, XNode.ty] using typeOp_ne ht
  | @clause c _ _ _ _ _ _ => cases c <;> rfl
  | @bindLast c => cases c <;> rfl
  | @bindMore c => cases c <;> rfl
  | axis hm =>
    have : ∀ e ∈ axisNames, e.2.1 ≠ .nil := by decide
    have := this _ hm
    simpa [XNode.isNil, XNode.ty] using this
  | call => show ((ite _ XNodeType.partialFunctionCall XNodeType.functionCall) == .nil) = false; split <;> rfl
  | @moreElems _ _ x _ _ _ _ _ _ _ ih =>
    have := ih trivial
    cases x with
    | nil => cases this
    | node t n l r => exact this
  | _ => first | rfl | (rename_i ih; exact ih trivial) | exact absurd hc id

/-! ## Alternatives that fail without reading -/

theorem primary_none {ts : List Tok} (h : ∀ k ∈ ts.head?, k.ty ∉ primaryStart) : primary exprSingle ts = .ok (.nil, ts) := by
  cases ts with
  | nil => rfl
  | cons k r =>
    have := h k (by simp)
    obtain ⟨t, s⟩ := k
    cases t <;> first | rfl | exact absurd (by simp [primaryStart]) this

theorem nodeTest_none {ts : List Tok} (h : ∀ k ∈ ts.head?, k.ty ∉ stepStart) (a : XNodeType) : nodeTest exprSingle a ts = .ok (.nil, ts) := by
  cases ts with
  | nil => rfl
  | cons k r =>
    have := h k (by simp)
    obtain ⟨t, s⟩ := k
    cases t <;> first | rfl | exact absurd (by simp [stepStart]) this

theorem postfix_none {ts : List Tok} (h : primary exprSingle ts = .ok (.nil, ts)) : postfixExpr exprSingle ts = .ok (.nil, ts) := by
  unfold postfixExpr; rw [bind_ok h]; rfl

theorem step_none {ts : List Tok} (h : ∀ k ∈ ts.head?, k.ty ∉ stepStart) : stepExpr exprSingle ts = .ok (.nil, ts) := by
  unfold stepExpr
  rw [orIfNil_nil (postfix_none (primary_none fun k hk hm => h k hk ((show primaryStart ⊆ stepStart by decide) hm)))]
  cases ts with
  | nil => rfl
  | cons k r =>
    have hn := nodeTest_none h .axisChild
    have := h k (by simp)
    obtain ⟨t, s⟩ := k
    cases t <;> first | exact hn | exact absurd (by simp [stepStart]) this

theorem rel_none {ts : List Tok} (h : stepExpr exprSingle ts = .ok (.nil, ts)) : relativePath exprSingle ts = .ok (.nil, ts) := by
  unfold relativePath; rw [bind_ok h]; rfl

/-- Tokens that neither start nor continue an expression, unless a question mark starts a lookup. -/
def closers : List TType := [.rightParen, .rightBracket, .rightCurly]

theorem levels_none {t : TType} {s : Str} {rest : List Tok} (ht : t ∈ .question :: closers)
    (h : stepExpr exprSingle (⟨t, s⟩ :: rest) = .ok (.nil, ⟨t, s⟩ :: rest)) (l : Nat) (hl : 1 ≤ l ∧ l ≤ 19) :
    levelP l (⟨t, s⟩ :: rest) = .ok (.nil, ⟨t, s⟩ :: rest) := by
  have hops : ∀ l, opsOf l t = none := by
    intro l
    cases hk : opsOf l t with
    | none => rfl
    | some x =>
      have := opsOf_binds hk
      simp only [closers, List.mem_cons, List.mem_nil_iff, or_false] at ht
      rcases ht with rfl | rfl | rfl | rfl
      · simp [binds] at this; subst this; simp [opsOf] at hk
      all_goals (simp [binds] at this; subst this; simp [opsOf] at hk)
  have hbin : ∀ l once, levelP (l + 1) (⟨t, s⟩ :: rest) = .ok (.nil, ⟨t, s⟩ :: rest) →
      binOp (levelP (l + 1)) (opsOf l) once (⟨t, s⟩ :: rest) = .ok (.nil, ⟨t, s⟩ :: rest) := by
    intro l once hs
    unfold binOp
    rw [bind_ok hs, binLoop_eq (levelP_R _) (opsOf_eof l)]
    unfold caseTok
    simp only [List.head?_cons, Option.getD_some, hops l]
    rfl
  have hif : ∀ {α : Type} {t' : TType} {p q : P α}, t' ∉ .question :: closers → ifTok t' p q (⟨t, s⟩ :: rest) = q (⟨t, s⟩ :: rest) := by
    intro α t' p q ht'
    apply ifTok_miss
    intro k hk he
    simp at hk
    subst hk
    exact ht' (he ▸ ht)
  have htype : ∀ {sub type : P XNode} {t' : TType} {x : XNodeType}, t' ∉ .question :: closers →
      sub (⟨t, s⟩ :: rest) = .ok (.nil, ⟨t, s⟩ :: rest) → typeOp sub t' x type (⟨t, s⟩ :: rest) = .ok (.nil, ⟨t, s⟩ :: rest) := by
    intro sub type t' x ht' hs
    unfold typeOp
    rw [bind_ok hs, hif ht']; rfl
  have hr := rel_none h
  have h19 : levelP 19 (⟨t, s⟩ :: rest) = .ok (.nil, ⟨t, s⟩ :: rest) := by
    show pathExpr exprSingle (⟨t, s⟩ :: rest) = _
    unfold pathExpr
    rw [peek_bind]
    simp only [closers, List.mem_cons, List.mem_nil_iff, or_false] at ht
    rcases ht with rfl | rfl | rfl | rfl <;> exact hr
  have h18 := hbin 18 false h19
  have h17 : levelP 17 (⟨t, s⟩ :: rest) = .ok (.nil, ⟨t, s⟩ :: rest) := by
    show unaryExpr exprSingle _ = _
    unfold unaryExpr
    rw [hif (by decide), hif (by decide)]
    exact h18
  have h16 : levelP 16 (⟨t, s⟩ :: rest) = .ok (.nil, ⟨t, s⟩ :: rest) := by
    show arrowExpr exprSingle _ = _
    unfold arrowExpr
    rw [bind_ok (show unaryExpr exprSingle _ = _ from h17), arrowLoop_eq, hif (by decide)]; rfl
  have h15 : levelP 15 (⟨t, s⟩ :: rest) = .ok (.nil, ⟨t, s⟩ :: rest) := htype (by decide) h16
  have h14 : levelP 14 (⟨t, s⟩ :: rest) = .ok (.nil, ⟨t, s⟩ :: rest) := htype (by decide) h15
  have h13 : levelP 13 (⟨t, s⟩ :: rest) = .ok (.nil, ⟨t, s⟩ :: rest) := htype (by decide) h14
  have h12 : levelP 12 (⟨t, s⟩ :: rest) = .ok (.nil, ⟨t, s⟩ :: rest) := htype (by decide) h13
  have h11 := hbin 11 false h12
  have h10 := hbin 10 false h11
  have h9 := hbin 9 false h10
  have h8 := hbin 8 false h9
  have h7 := hbin 7 true h8
  have h6 := hbin 6 false h7
  have h5 := hbin 5 true h6
  have h4 := hbin 4 false h5
  have h3 := hbin 3 false h4
  have h2 : levelP 2 (⟨t, s⟩ :: rest) = .ok (.nil, ⟨t, s⟩ :: rest) := by
    show exprSingle _ = _
    rw [exprSingle_eq]
    unfold exprSingleStep
    rw [hif (by decide), hif (by decide), hif (by decide), hif (by decide), orIfNil_nil]
    · exact h3
    · unfold ifExpr; rw [hif (by decide)]; rfl
  have h1 := hbin 1 false h2
  obtain ⟨ha, hb⟩ := hl
  interval_cases l <;> assumption

theorem closer_none {t : TType} (ht : t ∈ closers) (s : Str) (rest : List Tok) (l : Nat) (hl : 1 ≤ l ∧ l ≤ 19) :
    levelP l (⟨t, s⟩ :: rest) = .ok (.nil, ⟨t, s⟩ :: rest) := by
  refine levels_none (List.mem_cons_of_mem _ ht) (step_none ?_) l hl
  intro k hk
  simp at hk
  subst hk
  simp only [closers, List.mem_cons, List.mem_nil_iff, or_false] at ht
  rcases ht with rfl | rfl | rfl <;> simp [stepStart]

theorem closer_follow {c : Cat} {ts : List Tok} {x : XNode} {bad : List TType} (h : Derives c ts x bad) {t : TType} (ht : t ∈ .comma :: closers) (s : Str)
    (rest : List Tok) : Follow bad (⟨t, s⟩ :: rest) := by
  rw [follow_cons]
  intro hm
  have := badOf_all c (derives_bad h hm)
  simp only [closers, List.mem_cons, List.mem_nil_iff, or_false] at ht
  revert this
  rcases ht with rfl | rfl | rfl | rfl <;> simp [allBad, stepStart]

theorem closer_stop {t : TType} (ht : t ∈ closers) (s : Str) (rest : List Tok) {l : Nat} (hl : 1 ≤ l) : Stop l (⟨t, s⟩ :: rest) := by
  rw [stop_cons]
  simp only [closers, List.mem_cons, List.mem_nil_iff, or_false] at ht
  rcases ht with rfl | rfl | rfl <;> exact hl

/-! ## Steps -/

theorem NameD.anyPrefix {pre pre' : Str} {ts : List Tok} {n : Str} {bad : List TType} (h : NameD pre ts n bad) : ∃ n', NameD pre' ts n' bad := by
  cases h with
  | ncname h => exact ⟨_, .ncname h⟩
  | prefixed => exact ⟨_, .prefixed⟩
  | uri h => exact ⟨_, .uri h⟩

/-- A name that is not followed by a parenthesis or a hash is no primary expression. -/
theorem primary_name {ts : List Tok} {n : Str} {bad : List TType} (h : NameD [] ts n bad) {rest : List Tok} (hf : Follow (.sharp :: bad) rest)
    (hp : ∀ k ∈ rest.head?, k.ty ≠ .leftParen) : primary exprSingle (ts ++ rest) = .ok (.nil, ts ++ rest) := by
  obtain ⟨f, hfn⟩ := NameD.anyPrefix (pre' := S "fn") h
  have hrun := eqname_run hfn (hf.mono (by simp) : Follow bad rest)
  have hne := NameD.ne_nil hfn
  obtain ⟨k, r, rfl, hk⟩ := NameD.first h
  have hcall : functionCall exprSingle (k :: r ++ rest) = .ok (.nil, k :: r ++ rest) := by
    unfold functionCall
    rw [hrun]
    simp only [hne, if_false]
    cases rest with
    | nil => rfl
    | cons q qr =>
      have := hp q (by simp)
      obtain ⟨t, s⟩ := q
      cases t <;> first | rfl | simp at this
  have href : namedFunctionRef (k :: r ++ rest) = .ok (.nil, k :: r ++ rest) := by
    unfold namedFunctionRef
    rw [hrun]
    simp only [hne, if_false]
    cases rest with
    | nil => rfl
    | cons q qr =>
      have := follow_cons.1 hf
      obtain ⟨t, s⟩ := q
      cases t <;> first | rfl | simp at this
  obtain ⟨t, s⟩ := k
  unfold primary
  rcases hk with hk | hk
  · simp only at hk
    subst hk
    rw [orIfNil_nil rfl, orIfNil_nil rfl, orIfNil_nil rfl, orIfNil_nil rfl, orIfNil_nil hcall]
    rw [orIfNil_nil (by rw [orIfNil_nil href]; rfl), orIfNil_nil rfl, orIfNil_nil rfl]
    rfl
  · simp only at hk
    subst hk
    rw [orIfNil_nil rfl, orIfNil_nil rfl, orIfNil_nil rfl, orIfNil_nil rfl, orIfNil_nil hcall]
    rw [orIfNil_nil (by rw [orIfNil_nil href]; rfl), orIfNil_nil rfl, orIfNil_nil rfl]
    rfl

theorem NodeTestD.primary {ts : List Tok} {n : Str} {x : XNode} {bad : List TType} (h : NodeTestD ts n x bad) {rest : List Tok} (hf : Follow bad rest)
    (hp : ∀ k ∈ rest.head?, k.ty ≠ .leftParen) : Parser.primary exprSingle (ts ++ rest) = .ok (.nil, ts ++ rest) := by
  cases h with
  | name h => exact primary_name h (hf.mono (by simp)) hp
  | wildcard h =>
    cases h with
    | star => rfl
    | @anyLocal p hp =>
      show Parser.primary exprSingle (⟨.name, p⟩ :: ⟨.colonAsterisk, S ":*"⟩ :: rest) = .ok (.nil, ⟨.name, p⟩ :: ⟨.colonAsterisk, S ":*"⟩ :: rest)
      have hq : eqname (S "fn") (⟨.name, p⟩ :: ⟨.colonAsterisk, S ":*"⟩ :: rest) = .ok (S "fn" ++ S ":" ++ p, ⟨.colonAsterisk, S ":*"⟩ :: rest) := rfl
      have hcall : functionCall exprSingle (⟨.name, p⟩ :: ⟨.colonAsterisk, S ":*"⟩ :: rest) =
          .ok (.nil, ⟨.name, p⟩ :: ⟨.colonAsterisk, S ":*"⟩ :: rest) := by
        unfold functionCall; rw [hq]; rfl
      have href : namedFunctionRef (⟨.name, p⟩ :: ⟨.colonAsterisk, S ":*"⟩ :: rest) =
          .ok (.nil, ⟨.name, p⟩ :: ⟨.colonAsterisk, S ":*"⟩ :: rest) := by
        unfold namedFunctionRef; rw [hq]; rfl
      unfold Parser.primary
      rw [orIfNil_nil rfl, orIfNil_nil rfl, orIfNil_nil rfl, orIfNil_nil rfl, orIfNil_nil hcall]
      rw [orIfNil_nil (by rw [orIfNil_nil href]; rfl), orIfNil_nil rfl, orIfNil_nil rfl]
      rfl
    | anyPrefix => rfl
    | anyLocalUri => rfl
  | kind h =>
    obtain ⟨k, r, rfl, hk⟩ := KindTestD.first h
    apply primary_none
    intro q hq
    simp at hq
    subst hq
    intro hm
    have : ∀ t ∈ kindStart, t ∉ primaryStart := by decide
    exact this _ hk hm

theorem nodeTest_run {ts : List Tok} {n : Str} {x : XNode} {bad : List TType} (h : NodeTestD ts n x bad) {us : List Tok} (hf : Follow bad us)
    (a : XNodeType) : nodeTest exprSingle a (ts ++ us) =
      (looping (predicateList exprSingle (isReverseAxis a)) >>= fun ps => pure (.node a n x ps)) us := by
  unfold nodeTest
  cases h with
  | name h =>
    have hw : wildcard (ts ++ us) = .ok ([], ts ++ us) := by
      cases h with
      | ncname hn =>
        show wildcard (⟨.name, _⟩ :: us) = _
        cases us with
        | nil => rfl
        | cons k r =>
          have := follow_cons.1 hf
          obtain ⟨t, s⟩ := k
          cases t <;> first | rfl | simp at this
      | prefixed => rfl
      | uri => rfl
    rw [bind_ok hw]
    have hq : nodeTestName [] (ts ++ us) = .ok (n, us) := by
      unfold nodeTestName
      rw [if_pos rfl]
      exact eqname_run h (hf.mono (by simp))
    rw [bind_ok hq, if_neg (NameD.ne_nil h)]
  | wildcard h =>
    rw [bind_ok (wildcard_run h us)]
    have hq : nodeTestName n us = .ok (n, us) := by
      unfold nodeTestName
      rw [if_neg (WildcardD.ne_nil h)]; rfl
    rw [bind_ok hq, if_neg (WildcardD.ne_nil h)]
  | kind h =>
    have hh := kindTest_run h us
    obtain ⟨k, r, rfl, hk⟩ := KindTestD.first h
    obtain ⟨t, s⟩ := k
    have hw : wildcard (⟨t, s⟩ :: r ++ us) = .ok ([], ⟨t, s⟩ :: r ++ us) := by
      cases t <;> first | rfl | exact absurd hk (by simp [kindStart])
    have hq : nodeTestName [] (⟨t, s⟩ :: r ++ us) = .ok ([], ⟨t, s⟩ :: r ++ us) := by
      cases t <;> first | rfl | exact absurd hk (by simp [kindStart])
    rw [bind_ok hw, bind_ok hq, if_pos rfl, bind_ok hh]
    rfl

theorem axisNames_of {w : Str} {a : XNodeType} {rev : Bool} (h : (w, a, rev) ∈ axisNames) : axisOf w = .ok a ∧ isReverseAxis a = rev := by
  have : ∀ e ∈ axisNames, (axisTbl.find? fun e' => e'.1 == e.1) = some (e.1, e.2.1) ∧ e.2.1 ≠ .axisNamespace ∧ isReverseAxis e.2.1 = e.2.2 := by
    decide
  obtain ⟨h1, h2, h3⟩ := this _ h
  refine ⟨?_, h3⟩
  unfold axisOf
  rw [h1]
  simp [h2]

end Parser
end Amxml
