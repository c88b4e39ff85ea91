import Verif.Lemmas.GrammarExpr

/-!
# The parser reads the phrases of the grammar: the induction
-/

namespace Amxml
namespace Parser
open Spec

/-- The parser of what stands between a variable and its expression. -/
def sepP : Clause → P Unit
  | .letC => expect .bind
  | _ => expectName (S "in")

theorem sepP_R (c : Clause) (n : Nat) : R n (sepP c) (sepP c) := by
  cases c <;> first | exact R.expectName _ _ | exact R.expect _ _

theorem sepP_run {α : Type} {c : Clause} {k : Tok} (h : c.sep k) {f : Unit → P α} {r : List Tok} : (sepP c >>= f) (k :: r) = f () r := by
  obtain ⟨t, s⟩ := k
  cases c with
  | letC => simp [Clause.sep] at h; subst h; exact expect_bind_run
  | _ => simp [Clause.sep] at h; obtain ⟨rfl, rfl⟩ := h; exact expectName_bind_run

/-- The bindings and the body. -/
def clauseP (c : Clause) : P XNode := do
  let bs ← looping (bindings exprSingle c.bind (sepP c))
  expectName c.keyword
  let x ← exprSingle
  pure (linkChain bs x)

/-- The parser of an element of a list. -/
def elemP : ListKind → P XNode
  | .argument => argument exprSingle
  | .entry => mapEntry exprSingle
  | .member => exprSingle

theorem elemP_R (k : ListKind) (n : Nat) : R n (elemP k) (elemP k) := by
  cases k
  · exact R.argument (R.exprSingle n)
  · exact R.mapEntry (R.exprSingle n)
  · exact R.exprSingle n

/-- The node around an element of a list. -/
def wrap : ListKind → XNode → XNode
  | .argument, y => y
  | .entry, y => .node .mapConstruct [] y .nil
  | .member, y => .node .arrayEntry [] y .nil

/-- The parser of a list. -/
def listP : ListKind → P XNode
  | .argument => argumentListSub exprSingle
  | .entry => mapEntries exprSingle
  | .member => exprInArray exprSingle

theorem listP_eq (k : ListKind) : listP k = elemP k >>= fun x => if x.isNil then pure .nil
    else looping (commaList (elemP k)) >>= fun l => pure (linkChain ((x :: l).map (wrap k)) .nil) := by
  cases k
  · have : ∀ l : List XNode, l.map (wrap .argument) = l := by intro l; induction l <;> simp_all [wrap]
    simp only [this]
    rfl
  · rfl
  · rfl

/-- What the parser of a category reads. -/
def Runs : Cat → List Tok → XNode → List TType → Prop
  | .level l, ts, x, bad => 1 ≤ l ∧ l ≤ 19 ∧ (∀ rest, Follow bad rest → Stop l rest → levelP l (ts ++ rest) = .ok (x, rest)) ∧
      (l ∈ leftAssoc → ∀ rest, Follow bad rest → Stop (l + 1) rest → levelP l (ts ++ rest) = loopB l false x rest) ∧
      (l = 16 → ∀ rest, Follow bad rest → Stop 17 rest → levelP 16 (ts ++ rest) = loopA x rest)
  | .clause c, ts, x, bad => ∀ rest, Follow bad rest → Stop 2 rest → clauseP c (ts ++ rest) = .ok (x, rest)
  | .rel, ts, x, bad => ∀ rest, Follow bad rest → Stop 19 rest → relativePath exprSingle (ts ++ rest) = .ok (x, rest)
  | .more, ts, x, bad => ∀ rest, Follow bad rest → Stop 19 rest → looping (relativePathLoop exprSingle) (ts ++ rest) = .ok (x, rest)
  | .step, ts, x, bad => ∀ rest, Follow bad rest → Stop 20 rest → stepExpr exprSingle (ts ++ rest) = .ok (x, rest)
  | .postfix, ts, x, bad => ∀ rest, Follow bad rest → postfixExpr exprSingle (ts ++ rest) = looping (fun n => postfixLoop exprSingle n x) rest
  | .primary, ts, x, bad => ∀ rest, Follow bad rest → primary exprSingle (ts ++ rest) = .ok (x, rest)
  | .lookup, ts, x, _ => (x.ty = .unaryLookupByExpr ∨ x.ty = .unaryLookupByWildcard) ∧ ∀ rest, unaryLookup exprSingle (ts ++ rest) = .ok (x, rest)
  | .preds rev, ts, x, _ => ∀ rest, Stop 20 rest → looping (predicateList exprSingle rev) (ts ++ rest) = .ok (x, rest)
  | .elem k, ts, x, bad => ∀ rest, Follow bad rest → Stop 2 rest → ∃ y, elemP k (ts ++ rest) = .ok (y, rest) ∧ y.isNil = false ∧ x = wrap k y ∧
      ∀ r, followedBy x r = setRight x r
  | .elems k, ts, x, bad => ∀ rest, Follow (.comma :: bad) rest → Stop 2 rest → ∃ y us l, elemP k (ts ++ rest) = .ok (y, us) ∧
      looping (commaList (elemP k)) us = .ok (l, rest) ∧ y.isNil = false ∧ x = linkChain ((y :: l).map (wrap k)) .nil
  | .list k, ts, x, _ => ∀ t ∈ closers, ∀ s rest, listP k (ts ++ ⟨t, s⟩ :: rest) = .ok (x, ⟨t, s⟩ :: rest)
  | .option, ts, x, _ => ∀ t ∈ closers, ∀ s rest, expr exprSingle (ts ++ ⟨t, s⟩ :: rest) = .ok (x, ⟨t, s⟩ :: rest)

theorem wrap_ne_nil {k : ListKind} {y : XNode} (h : y.isNil = false) : (wrap k y).isNil = false := by
  cases k
  · exact h
  · rfl
  · rfl

theorem argumentList_run {l r : Str} {a rest : List Tok} {x : XNode} (h : Runs (.list .argument) a x []) :
    argumentList exprSingle (⟨.leftParen, l⟩ :: (a ++ ⟨.rightParen, r⟩ :: rest)) = .ok (x, rest) := by
  unfold argumentList
  rw [expect_bind_run, bind_ok (show argumentListSub exprSingle _ = _ from h .rightParen (by decide) r rest), expect_bind_run]
  rfl

/-- The level of a binary operator and the one below it. -/
theorem sub_of_bin {l : Nat} {once : Bool} (hl : levelP l = binOp (levelP (l + 1)) (opsOf l) once) {ts rest : List Tok} {x : XNode}
    (h : levelP (l + 1) (ts ++ rest) = .ok (x, rest)) : levelP l (ts ++ rest) = loopB l once x rest := by
  rw [hl]
  unfold binOp
  rw [bind_ok h]
  rfl

theorem typeOp_pass {l : Nat} {sub type : P XNode} {t : TType} {x : XNodeType} (hl : binds t = l) {ts rest : List Tok} {y : XNode}
    (h : sub (ts ++ rest) = .ok (y, rest)) (hs : Stop l rest) : typeOp sub t x type (ts ++ rest) = .ok (y, rest) := by
  unfold typeOp
  rw [bind_ok h, ifTok_miss (hs.ne (by omega))]
  rfl

/-- From a level to the one above it. -/
theorem tighter_runs {l : Nat} {ts : List Tok} {x : XNode} {bad : List TType} (h0 : 1 ≤ l) (hl : l < 19) (h : Derives (.level (l + 1)) ts x bad)
    (ih : Runs (.level (l + 1)) ts x bad) : Runs (.level l) ts x bad := by
  obtain ⟨-, -, ih, -, -⟩ := ih
  have hleft : ∀ {l' : Nat}, l' ∈ leftAssoc → l' = l → ∀ rest, Follow bad rest → Stop (l' + 1) rest → levelP l' (ts ++ rest) = loopB l' false x rest := by
    intro l' hl' e rest hf hs
    subst e
    exact sub_of_bin (levelP_left hl') (ih rest hf hs)
  have h16 : l = 16 → ∀ rest, Follow bad rest → Stop 17 rest → levelP 16 (ts ++ rest) = loopA x rest := by
    rintro rfl rest hf hs
    show arrowExpr exprSingle _ = _
    unfold arrowExpr
    rw [bind_ok (show unaryExpr exprSingle _ = _ from ih rest hf hs)]
    rfl
  obtain ⟨k, r, hts, hk⟩ := derives_first h trivial
  have hmiss : ∀ t, t ∉ startOf (.level (l + 1)) → ∀ rest, ∀ q ∈ (ts ++ rest).head?, q.ty ≠ t := by
    intro t ht rest q hq
    rw [hts] at hq
    simp at hq
    subst hq
    exact fun he => ht (he ▸ hk)
  refine ⟨h0, by omega, ?_, fun hl' => hleft hl' rfl, h16⟩
  intro rest hf hs
  have hsub := ih rest hf (hs.mono (by omega))
  by_cases hla : l ∈ leftAssoc
  · rw [hleft hla rfl rest hf (hs.mono (by omega)), loopB_stop hs]
  have hcases : l = 2 ∨ l = 5 ∨ l = 7 ∨ l = 12 ∨ l = 13 ∨ l = 14 ∨ l = 15 ∨ l = 16 ∨ l = 17 := by
    simp [leftAssoc] at hla
    omega
  rcases hcases with rfl | rfl | rfl | rfl | rfl | rfl | rfl | rfl | rfl
  · show exprSingle (ts ++ rest) = _
    rw [exprSingle_eq]
    unfold exprSingleStep
    rw [ifTok_miss (hmiss _ (by decide) rest), ifTok_miss (hmiss _ (by decide) rest), ifTok_miss (hmiss _ (by decide) rest),
      ifTok_miss (hmiss _ (by decide) rest), orIfNil_nil]
    · exact hsub
    · unfold ifExpr; rw [ifTok_miss (hmiss _ (by decide) rest)]; rfl
  · rw [sub_of_bin (levelP_once (.inl rfl)) hsub, loopB_stop hs]
  · rw [sub_of_bin (levelP_once (.inr rfl)) hsub, loopB_stop hs]
  · exact typeOp_pass rfl hsub hs
  · exact typeOp_pass rfl hsub hs
  · exact typeOp_pass rfl hsub hs
  · exact typeOp_pass rfl hsub hs
  · rw [h16 rfl rest hf (hs.mono (by omega)), loopA_stop hs]
  · show unaryExpr exprSingle _ = _
    unfold unaryExpr
    rw [ifTok_miss (hmiss _ (by decide) rest), ifTok_miss (hmiss _ (by decide) rest)]
    exact hsub

theorem typeOp_run {l : Nat} {t : TType} {x : XNodeType} {b : List Tok} {y : XNode} {bad : List TType} (h : TypeOpD l t x b y bad) {a rest : List Tok} {s : Str}
    {z : XNode} (ha : levelP (l + 1) (a ++ (⟨t, s⟩ :: (b ++ rest))) = .ok (z, ⟨t, s⟩ :: (b ++ rest))) (hf : Follow bad rest) :
    levelP l (a ++ (⟨t, s⟩ :: (b ++ rest))) = .ok (.node x [] z y, rest) := by
  have key : ∀ {sub type : P XNode}, sub (a ++ (⟨t, s⟩ :: (b ++ rest))) = .ok (z, ⟨t, s⟩ :: (b ++ rest)) → type (b ++ rest) = .ok (y, rest) →
      y.isNil = false → typeOp sub t x type (a ++ (⟨t, s⟩ :: (b ++ rest))) = .ok (.node x [] z y, rest) := by
    intro sub type h1 h2 h3
    unfold typeOp
    rw [bind_ok h1, ifTok_hit, bind_ok h2]
    simp only [h3, Bool.false_eq_true, if_false]
    rfl
  have hnil : ∀ {b y bad}, SingleTypeD b y bad → y.isNil = false := by intro b y bad h; cases h <;> rfl
  cases h with
  | instanceOf h => exact key ha (sequenceType_run h hf) (TypeD.ne_nil h)
  | treatAs h => exact key ha (sequenceType_run h hf) (TypeD.ne_nil h)
  | castableAs h => exact key ha (singleType_run h hf) (hnil h)
  | castAs h => exact key ha (singleType_run h hf) (hnil h)

theorem typeOp_binds {l : Nat} {t : TType} {x : XNodeType} {b : List Tok} {y : XNode} {bad : List TType} (h : TypeOpD l t x b y bad) : binds t = l := by
  cases h <;> rfl

theorem notLeft {l : Nat} {t : TType} {x : XNodeType} (hb : (l, t, x) ∈ binary) (hl : l ∉ leftAssoc) : l = 5 ∨ l = 7 := by
  have : ∀ e ∈ binary, e.1 ∉ leftAssoc → e.1 = 5 ∨ e.1 = 7 := by decide
  exact this _ hb hl

theorem stepNone_of_postfix {ts : List Tok} (h : primary exprSingle ts = .ok (.nil, ts)) : stepExpr exprSingle ts = axisStep exprSingle ts := by
  unfold stepExpr
  rw [orIfNil_nil (postfix_none h)]

theorem follow_preds {bad : List TType} (hb : bad ⊆ [TType.sharp, .colonAsterisk, .colon]) {rev : Bool} {ps : List Tok} {p : XNode} (h : Derives (.preds rev) ps p [])
    {rest : List Tok} (hf : Follow (if ps = [] then bad else []) rest) (hs : Stop 20 rest) :
    Follow bad (ps ++ rest) ∧ ∀ k ∈ (ps ++ rest).head?, k.ty ≠ .leftParen := by
  cases h with
  | noPreds => exact ⟨by simpa using hf, hs.ne (by decide)⟩
  | preds =>
    constructor
    · rw [List.cons_append, List.cons_append, follow_cons]
      intro hm
      exact absurd (hb hm) (by simp)
    · simp

theorem postfix_stop {x : XNode} {rest : List Tok} (h : Stop 20 rest) : looping (fun n => postfixLoop exprSingle n x) rest = .ok (x, rest) := by
  rw [postfixLoop_eq]
  have : postfixOp exprSingle rest = .ok (.nil, rest) := by
    cases rest with
    | nil => rfl
    | cons k r =>
      rw [postfixOp_run]
      have := stop_cons.1 h
      rw [if_neg (fun he => by rw [he] at this; simp [binds] at this), if_neg (fun he => by rw [he] at this; simp [binds] at this),
        if_neg (fun he => by rw [he] at this; simp [binds] at this)]
  rw [bind_ok this]
  rfl

/-- The parser reads the phrases of the grammar. -/
theorem derives_runs {c : Cat} {ts : List Tok} {x : XNode} {bad : List TType} (h : Derives c ts x bad) : Runs c ts x bad := by
  induction h with
  | tighter h0 hl h ih => exact tighter_runs h0 hl h ih
  | @left l a x bad k t b y bad' hk hl ha hkb hb iha ihb =>
    have hlt := binary_lt hk
    have hcont : ∀ rest, Follow bad' rest → Stop (l + 1) rest → levelP l (a ++ k :: b ++ rest) = loopB l false (.node t k.name x y) rest := by
      intro rest hf hs
      rw [List.append_assoc, List.cons_append, iha.2.2.2.1 hl _ (follow_cons.2 hkb) (stop_cons.2 (by rw [binary_binds hk]; omega)),
        loopB_op hk (ihb.2.2.1 rest hf hs)]
      rfl
    refine ⟨by omega, by omega, ?_, fun _ => hcont, ?_⟩
    · intro rest hf hs
      rw [hcont rest hf (hs.mono (by omega)), loopB_stop hs]
    · rintro rfl
      exact absurd hl (by decide)
  | @nonassoc l a x bad k t b y bad' hk hl ha hkb hb iha ihb =>
    have hlt := binary_lt hk
    refine ⟨by omega, by omega, ?_, fun h => absurd h hl, ?_⟩
    · intro rest hf hs
      rw [List.append_assoc, List.cons_append, sub_of_bin (levelP_once (notLeft hk hl)) (iha.2.2.1 _ (follow_cons.2 hkb)
        (stop_cons.2 (by rw [binary_binds hk]; omega))), loopB_op hk (ihb.2.2.1 rest hf (hs.mono (by omega)))]
      rfl
    · rintro rfl
      exact absurd (notLeft hk hl) (by decide)
  | @typeOp l a x bad k t b y bad' ha hkb ht iha =>
    have hlt := typeOp_lt ht
    refine ⟨by omega, by omega, ?_, fun h => ?_, fun h => by omega⟩
    · intro rest hf hs
      obtain ⟨kt, ks⟩ := k
      rw [List.append_assoc, List.cons_append]
      refine typeOp_run ht (iha.2.2.1 _ (follow_cons.2 hkb) (stop_cons.2 ?_)) hf
      rw [show binds kt = l from typeOp_binds ht]
      omega
    · exfalso
      simp [leftAssoc] at h
      omega
  | @arrow a x bad k fs f bad' l args r z ha hn hargs iha ihargs =>
    have hcont : ∀ rest, Follow [] rest → Stop 17 rest →
        levelP 16 (a ++ ⟨.arrow, k⟩ :: fs ++ ⟨.leftParen, l⟩ :: args ++ [⟨.rightParen, r⟩] ++ rest) =
        loopA (.node .functionCall f .nil (.node .argumentTop [] x z)) rest := by
      intro rest _ _
      have e : a ++ ⟨.arrow, k⟩ :: fs ++ ⟨.leftParen, l⟩ :: args ++ [⟨.rightParen, r⟩] ++ rest =
          a ++ ⟨.arrow, k⟩ :: (fs ++ ⟨.leftParen, l⟩ :: (args ++ ⟨.rightParen, r⟩ :: rest)) := by simp
      rw [e, iha.2.2.2.2 rfl _ ?_ (stop_cons.2 (show binds TType.arrow < 17 by decide))]
      · unfold loopA
        rw [arrowLoop_eq, ifTok_hit, bind_ok (eqname_run hn ?_), if_neg (NameD.ne_nil hn), bind_ok (argumentList_run ihargs)]
        rw [follow_cons]
        exact fun hm => absurd (NameD.bad_sub hn hm) (by simp)
      · rw [follow_cons]
        intro hm
        have := badOf_all _ (derives_bad ha hm)
        revert this
        simp [allBad, stepStart]
    refine ⟨by omega, by omega, ?_, fun h => absurd h (by decide), fun _ => hcont⟩
    intro rest hf hs
    rw [hcont rest hf (hs.mono (by omega)), loopA_stop hs]
  | @arrowVar a x bad k d vs v bad' l args r z ha hn hargs iha ihargs =>
    have hcont : ∀ rest, Follow [] rest → Stop 17 rest →
        levelP 16 (a ++ ⟨.arrow, k⟩ :: ⟨.dollar, d⟩ :: vs ++ ⟨.leftParen, l⟩ :: args ++ [⟨.rightParen, r⟩] ++ rest) =
        loopA (.node .applyArgument [] (tip .varRef v) (.node .argumentListTop [] (.node .argumentTop [] x z) .nil)) rest := by
      intro rest _ _
      have e : a ++ ⟨.arrow, k⟩ :: ⟨.dollar, d⟩ :: vs ++ ⟨.leftParen, l⟩ :: args ++ [⟨.rightParen, r⟩] ++ rest =
          a ++ ⟨.arrow, k⟩ :: (⟨.dollar, d⟩ :: (vs ++ ⟨.leftParen, l⟩ :: (args ++ ⟨.rightParen, r⟩ :: rest))) := by simp
      rw [e, iha.2.2.2.2 rfl _ ?_ (stop_cons.2 (show binds TType.arrow < 17 by decide))]
      · unfold loopA
        have hv : varref (⟨.dollar, d⟩ :: (vs ++ ⟨.leftParen, l⟩ :: (args ++ ⟨.rightParen, r⟩ :: rest))) =
            .ok (tip .varRef v, ⟨.leftParen, l⟩ :: (args ++ ⟨.rightParen, r⟩ :: rest)) := by
          unfold varref
          rw [ifTok_hit, bind_ok (eqnameRequired_run hn ?_)]
          · rfl
          · rw [follow_cons]
            exact fun hm => absurd (NameD.bad_sub hn hm) (by simp)
        have he : eqname (S "fn") (⟨.dollar, d⟩ :: (vs ++ ⟨.leftParen, l⟩ :: (args ++ ⟨.rightParen, r⟩ :: rest))) =
            .ok ([], ⟨.dollar, d⟩ :: (vs ++ ⟨.leftParen, l⟩ :: (args ++ ⟨.rightParen, r⟩ :: rest))) := rfl
        rw [arrowLoop_eq, ifTok_hit, bind_ok he, if_pos rfl, bind_ok hv]
        simp only [show (tip .varRef v).isNil = false from rfl, Bool.false_eq_true, if_false]
        rw [bind_ok (argumentList_run ihargs)]
      · rw [follow_cons]
        intro hm
        have := badOf_all _ (derives_bad ha hm)
        revert this
        simp [allBad, stepStart]
    refine ⟨by omega, by omega, ?_, fun h => absurd h (by decide), fun _ => hcont⟩
    intro rest hf hs
    rw [hcont rest hf (hs.mono (by omega)), loopA_stop hs]
  | @minus s a x bad h ih =>
    refine ⟨by omega, by omega, ?_, fun h => absurd h (by decide), fun h => by omega⟩
    intro rest hf hs
    show unaryExpr exprSingle (⟨.minus, s⟩ :: (a ++ rest)) = _
    unfold unaryExpr
    rw [ifTok_hit, bind_ok (show valueExpr exprSingle _ = _ from ih.2.2.1 rest hf (hs.mono (by omega)))]
    rfl
  | @plus s a x bad h ih =>
    refine ⟨by omega, by omega, ?_, fun h => absurd h (by decide), fun h => by omega⟩
    intro rest hf hs
    show unaryExpr exprSingle (⟨.plus, s⟩ :: (a ++ rest)) = _
    unfold unaryExpr
    rw [ifTok_miss (by simp), ifTok_hit, bind_ok (show valueExpr exprSingle _ = _ from ih.2.2.1 rest hf (hs.mono (by omega)))]
    rfl
  | @clause c k ts x bad h ih =>
    refine ⟨by omega, by omega, ?_, fun h => absurd h (by decide), fun h => by omega⟩
    intro rest hf hs
    show exprSingle (⟨c.token, k⟩ :: (ts ++ rest)) = _
    have hc := ih rest hf hs
    unfold clauseP at hc
    rw [bind_run] at hc
    rw [exprSingle_eq]
    have key : ∀ top name, (bindingExpr exprSingle top c.bind name (sepP c) c.keyword) (ts ++ rest) = .ok (.node top name .nil x, rest) := by
      intro top name
      unfold bindingExpr
      rw [bind_run]
      cases h1 : looping (bindings exprSingle c.bind (sepP c)) (ts ++ rest) with
      | error e => rw [h1] at hc; cases hc
      | ok q =>
        obtain ⟨bs, r⟩ := q
        rw [h1] at hc
        simp only at hc ⊢
        rw [bind_run] at hc ⊢
        cases h2 : expectName c.keyword r with
        | error e => rw [h2] at hc; cases hc
        | ok q =>
          obtain ⟨u, r'⟩ := q
          rw [h2] at hc
          simp only at hc ⊢
          rw [bind_run] at hc ⊢
          cases h3 : exprSingle r' with
          | error e => rw [h3] at hc; cases hc
          | ok q =>
            obtain ⟨y, r''⟩ := q
            rw [h3] at hc
            simp only [pure_run] at hc ⊢
            simp at hc
            rw [hc.1, hc.2]
    unfold exprSingleStep
    cases c
    · exact key _ _
    · exact key _ _
    · exact key _ _
    · exact key _ _
  | @bindLast c d vs v bad k a x bad' b y bad'' hn hk ha hna hb iha ihb =>
    intro rest hf hs
    have e : ⟨.dollar, d⟩ :: vs ++ k :: a ++ ⟨.name, c.keyword⟩ :: b ++ rest = ⟨.dollar, d⟩ :: (vs ++ k :: (a ++ ⟨.name, c.keyword⟩ :: (b ++ rest))) := by simp
    have hbind : binding exprSingle c.bind (sepP c) (⟨.dollar, d⟩ :: (vs ++ k :: (a ++ ⟨.name, c.keyword⟩ :: (b ++ rest)))) =
        .ok (.node c.bind v x .nil, ⟨.name, c.keyword⟩ :: (b ++ rest)) := by
      unfold binding
      rw [ifTok_hit, bind_ok (eqnameRequired_run hn ?_), sepP_run hk, bind_ok (show exprSingle _ = _ from
        iha.2.2.1 _ (follow_cons.2 hna) (stop_cons.2 (show binds TType.name < 2 by decide)))]
      · rfl
      · rw [follow_cons]
        intro hm
        have := NameD.bad_sub hn hm
        simp at this
        cases c <;> simp [Clause.sep] at hk <;> simp_all
    have hl : looping (bindings exprSingle c.bind (sepP c)) (⟨.dollar, d⟩ :: (vs ++ k :: (a ++ ⟨.name, c.keyword⟩ :: (b ++ rest)))) =
        .ok ([.node c.bind v x .nil], ⟨.name, c.keyword⟩ :: (b ++ rest)) := by
      rw [bindLoop_eq _ (sepP_R c), bind_ok hbind]
      have : (XNode.node c.bind v x .nil).isNil = false := by cases c <;> rfl
      simp only [this, Bool.false_eq_true, if_false]
      rw [ifTok_miss (by simp)]
      rfl
    rw [e]
    unfold clauseP
    rw [bind_ok hl, expectName_bind_run, bind_ok (show exprSingle _ = _ from ihb.2.2.1 rest hf hs)]
    cases c <;> rfl
  | @bindMore c d vs v bad k a x bad' s b y bad'' hn hk ha hb iha ihb =>
    intro rest hf hs
    have e : ⟨.dollar, d⟩ :: vs ++ k :: a ++ ⟨.comma, s⟩ :: b ++ rest = ⟨.dollar, d⟩ :: (vs ++ k :: (a ++ ⟨.comma, s⟩ :: (b ++ rest))) := by simp
    have hbind : binding exprSingle c.bind (sepP c) (⟨.dollar, d⟩ :: (vs ++ k :: (a ++ ⟨.comma, s⟩ :: (b ++ rest)))) =
        .ok (.node c.bind v x .nil, ⟨.comma, s⟩ :: (b ++ rest)) := by
      unfold binding
      rw [ifTok_hit, bind_ok (eqnameRequired_run hn ?_), sepP_run hk, bind_ok (show exprSingle _ = _ from
        iha.2.2.1 _ (closer_follow ha (by simp) s _) (stop_cons.2 (show binds TType.comma < 2 by decide)))]
      · rfl
      · rw [follow_cons]
        intro hm
        have := NameD.bad_sub hn hm
        simp at this
        cases c <;> simp [Clause.sep] at hk <;> simp_all
    have hc := ihb rest hf hs
    unfold clauseP at hc ⊢
    rw [bind_run] at hc
    rw [e, bind_run, bindLoop_eq _ (sepP_R c), bind_ok hbind]
    have hnn : (XNode.node c.bind v x .nil).isNil = false := by cases c <;> rfl
    simp only [hnn, Bool.false_eq_true, if_false]
    rw [ifTok_hit, bind_run]
    cases h1 : looping (bindings exprSingle c.bind (sepP c)) (b ++ rest) with
    | error e => rw [h1] at hc; cases hc
    | ok q =>
      obtain ⟨bs, r⟩ := q
      rw [h1] at hc
      simp only [pure_run] at hc ⊢
      rw [bind_run] at hc ⊢
      cases h2 : expectName c.keyword r with
      | error e => rw [h2] at hc; cases hc
      | ok q =>
        obtain ⟨u, r'⟩ := q
        rw [h2] at hc
        simp only at hc ⊢
        rw [bind_run] at hc ⊢
        cases h3 : exprSingle r' with
        | error e => rw [h3] at hc; cases hc
        | ok q =>
          obtain ⟨z, r''⟩ := q
          rw [h3] at hc
          simp only [pure_run] at hc ⊢
          simp at hc
          rw [linkChain, hnn, hc.1, hc.2]
          rfl
  | @cond s l a x bad r b y bad' c z bad'' ha hb hbn hc iha ihb ihc =>
    refine ⟨by omega, by omega, ?_, fun h => absurd h (by decide), fun h => by omega⟩
    intro rest hf hs
    have e : ⟨.ifT, s⟩ :: ⟨.leftParen, l⟩ :: a ++ ⟨.rightParen, r⟩ :: ⟨.name, S "then"⟩ :: b ++ ⟨.name, S "else"⟩ :: c ++ rest =
        ⟨.ifT, s⟩ :: (⟨.leftParen, l⟩ :: (a ++ ⟨.rightParen, r⟩ :: (⟨.name, S "then"⟩ :: (b ++ ⟨.name, S "else"⟩ :: (c ++ rest))))) := by simp
    show exprSingle _ = _
    rw [e, exprSingle_eq]
    unfold exprSingleStep
    rw [ifTok_miss (by simp), ifTok_miss (by simp), ifTok_miss (by simp), ifTok_miss (by simp)]
    refine orIfNil_ok ?_ rfl
    unfold ifExpr
    rw [ifTok_hit, expect_bind_run, bind_ok (show expr exprSingle _ = _ from
      iha.2.2.1 _ (closer_follow ha (by decide) r _) (closer_stop (by decide) r _ (by omega)))]
    simp only [derives_ne_nil ha trivial, Bool.false_eq_true, if_false]
    rw [expect_bind_run, expectName_bind_run, bind_ok (show exprSingle _ = _ from ihb.2.2.1 _ (follow_cons.2 hbn) (stop_cons.2 (by decide)))]
    simp only [derives_ne_nil hb trivial, Bool.false_eq_true, if_false]
    rw [expectName_bind_run, bind_ok (show exprSingle _ = _ from ihc.2.2.1 _ hf hs)]
    simp only [derives_ne_nil hc trivial, Bool.false_eq_true, if_false]
    rfl
  | @root s =>
    refine ⟨by omega, by omega, ?_, fun h => absurd h (by decide), fun h => by omega⟩
    intro rest hf hs
    show pathExpr exprSingle (⟨.slash, s⟩ :: rest) = _
    unfold pathExpr
    rw [peek_bind]
    show (advance >>= _) _ = _
    rw [advance_bind]
    show (relativePath exprSingle >>= _) rest = _
    rw [bind_ok (rel_none (step_none hf))]
    rfl
  | @rooted s ts x bad h ih =>
    refine ⟨by omega, by omega, ?_, fun h => absurd h (by decide), fun h => by omega⟩
    intro rest hf hs
    show pathExpr exprSingle (⟨.slash, s⟩ :: (ts ++ rest)) = _
    unfold pathExpr
    rw [peek_bind]
    show (advance >>= _) _ = _
    rw [advance_bind]
    show (relativePath exprSingle >>= _) (ts ++ rest) = _
    rw [bind_ok (ih rest hf hs)]
    rfl
  | @rootedAll s ts x bad h ih =>
    refine ⟨by omega, by omega, ?_, fun h => absurd h (by decide), fun h => by omega⟩
    intro rest hf hs
    show pathExpr exprSingle (⟨.slashSlash, s⟩ :: (ts ++ rest)) = _
    unfold pathExpr
    rw [peek_bind]
    show (advance >>= _) _ = _
    rw [advance_bind]
    show (relativePath exprSingle >>= _) (ts ++ rest) = _
    rw [bind_ok (ih rest hf hs)]
    rfl
  | @relative ts x bad h ih =>
    refine ⟨by omega, by omega, ?_, fun h => absurd h (by decide), fun h => by omega⟩
    intro rest hf hs
    have hr := ih rest hf hs
    obtain ⟨k, r, rfl, hk⟩ := derives_first h trivial
    obtain ⟨t, s⟩ := k
    show pathExpr exprSingle (⟨t, s⟩ :: (r ++ rest)) = _
    unfold pathExpr
    rw [peek_bind]
    cases t <;> first | exact hr | exact absurd hk (by simp [startOf, stepStart])
  | @oneStep ts x bad h ih =>
    intro rest hf hs
    unfold relativePath
    rw [bind_ok (ih rest hf (hs.mono (by omega)))]
    simp only [derives_ne_nil h trivial, Bool.false_eq_true, if_false]
    have : looping (relativePathLoop exprSingle) rest = .ok (.nil, rest) := by
      rw [pathLoop_eq]
      unfold caseTok
      have hn : slashOps (rest.head?.getD Lexer.eofTok).ty = none := by
        cases rest with
        | nil => rfl
        | cons k r =>
          have := stop_cons.1 hs
          obtain ⟨t, s⟩ := k
          cases t <;> first | rfl | simp [binds] at this
      simp only [hn]
      rfl
    rw [bind_ok this]
    rfl
  | @steps a x bad b y bad' ha hb iha ihb =>
    intro rest hf hs
    unfold relativePath
    obtain ⟨k, r, rfl, hk⟩ := derives_first hb trivial
    have hstep : stepExpr exprSingle (a ++ (k :: r) ++ rest) = .ok (x, (k :: r) ++ rest) := by
      rw [List.append_assoc]
      apply iha
      · rw [List.cons_append, follow_cons]
        intro hm
        have := derives_bad ha hm
        simp [badOf] at this
        simp [startOf] at hk
        rcases hk with hk | hk <;> rw [hk] at this <;> simp at this
      · rw [List.cons_append, stop_cons]
        simp [startOf] at hk
        rcases hk with hk | hk <;> rw [hk] <;> decide
    rw [bind_ok hstep]
    simp only [derives_ne_nil ha trivial, Bool.false_eq_true, if_false]
    rw [bind_ok (ihb rest hf hs)]
    simp only [derives_ne_nil hb trivial, Bool.false_eq_true, if_false]
    rfl
  | @slashLast s a x bad h ih =>
    intro rest hf hs
    rw [List.cons_append, pathLoop_eq]
    show (stepExpr exprSingle >>= _) (a ++ rest) = _
    rw [bind_ok (ih rest hf (hs.mono (by omega)))]
    have : looping (relativePathLoop exprSingle) rest = .ok (.nil, rest) := by
      rw [pathLoop_eq]
      unfold caseTok
      have hn : slashOps (rest.head?.getD Lexer.eofTok).ty = none := by
        cases rest with
        | nil => rfl
        | cons k r =>
          have := stop_cons.1 hs
          obtain ⟨t, s⟩ := k
          cases t <;> first | rfl | simp [binds] at this
      simp only [hn]
      rfl
    rw [bind_ok this]
    rfl
  | @dslashLast s a x bad h ih =>
    intro rest hf hs
    rw [List.cons_append, pathLoop_eq]
    show (stepExpr exprSingle >>= _) (a ++ rest) = _
    rw [bind_ok (ih rest hf (hs.mono (by omega)))]
    have : looping (relativePathLoop exprSingle) rest = .ok (.nil, rest) := by
      rw [pathLoop_eq]
      unfold caseTok
      have hn : slashOps (rest.head?.getD Lexer.eofTok).ty = none := by
        cases rest with
        | nil => rfl
        | cons k r =>
          have := stop_cons.1 hs
          obtain ⟨t, s⟩ := k
          cases t <;> first | rfl | simp [binds] at this
      simp only [hn]
      rfl
    rw [bind_ok this]
    rfl
  | @slashMore s a x bad b y bad' ha hb iha ihb =>
    intro rest hf hs
    obtain ⟨k, r, rfl, hk⟩ := derives_first hb trivial
    have hstep : stepExpr exprSingle (a ++ (k :: r) ++ rest) = .ok (x, (k :: r) ++ rest) := by
      rw [List.append_assoc]
      apply iha
      · rw [List.cons_append, follow_cons]
        intro hm
        have := derives_bad ha hm
        simp [badOf] at this
        simp [startOf] at hk
        rcases hk with hk | hk <;> rw [hk] at this <;> simp at this
      · rw [List.cons_append, stop_cons]
        simp [startOf] at hk
        rcases hk with hk | hk <;> rw [hk] <;> decide
    rw [List.cons_append, List.cons_append, pathLoop_eq]
    show (stepExpr exprSingle >>= _) (a ++ (k :: r) ++ rest) = _
    rw [bind_ok hstep, bind_ok (ihb rest hf hs)]
    rfl
  | @dslashMore s a x bad b y bad' ha hb iha ihb =>
    intro rest hf hs
    obtain ⟨k, r, rfl, hk⟩ := derives_first hb trivial
    have hstep : stepExpr exprSingle (a ++ (k :: r) ++ rest) = .ok (x, (k :: r) ++ rest) := by
      rw [List.append_assoc]
      apply iha
      · rw [List.cons_append, follow_cons]
        intro hm
        have := derives_bad ha hm
        simp [badOf] at this
        simp [startOf] at hk
        rcases hk with hk | hk <;> rw [hk] at this <;> simp at this
      · rw [List.cons_append, stop_cons]
        simp [startOf] at hk
        rcases hk with hk | hk <;> rw [hk] <;> decide
    rw [List.cons_append, List.cons_append, pathLoop_eq]
    show (stepExpr exprSingle >>= _) (a ++ (k :: r) ++ rest) = _
    rw [bind_ok hstep, bind_ok (ihb rest hf hs)]
    rfl
  | @axis w a rev s ts n x bad ps p hw ht hps ih =>
    intro rest hf hs
    obtain ⟨hf1, hf2⟩ := follow_preds (NodeTestD.bad_sub ht) hps hf hs
    have e : ⟨.axisName, w⟩ :: ⟨.colonColon, s⟩ :: ts ++ ps ++ rest = ⟨.axisName, w⟩ :: (⟨.colonColon, s⟩ :: (ts ++ (ps ++ rest))) := by simp
    rw [e, stepNone_of_postfix (primary_none (by simp [primaryStart]))]
    unfold axisStep
    rw [peek_bind]
    show (advance >>= _) _ = _
    rw [advance_bind]
    show (expect .colonColon >>= _) (⟨.colonColon, s⟩ :: (ts ++ (ps ++ rest))) = _
    rw [expect_bind_run]
    simp only [List.head?_cons, Option.getD_some, (axisNames_of hw).1]
    rw [nodeTest_run ht hf1, (axisNames_of hw).2, bind_ok (ih rest hs)]
    rfl
  | @atStep s ts n x bad ps p ht hps ih =>
    intro rest hf hs
    obtain ⟨hf1, hf2⟩ := follow_preds (NodeTestD.bad_sub ht) hps hf hs
    have e : ⟨.at, s⟩ :: ts ++ ps ++ rest = ⟨.at, s⟩ :: (ts ++ (ps ++ rest)) := by simp
    rw [e, stepNone_of_postfix (primary_none (by simp [primaryStart]))]
    unfold axisStep
    rw [peek_bind]
    show (advance >>= _) _ = _
    rw [advance_bind]
    show nodeTest exprSingle .axisAttribute (ts ++ (ps ++ rest)) = _
    rw [nodeTest_run ht hf1]
    show (looping (predicateList exprSingle false) >>= _) _ = _
    rw [bind_ok (ih rest hs)]
    rfl
  | @child ts n x bad ps p ht hna hps ih =>
    intro rest hf hs
    obtain ⟨hf1, hf2⟩ := follow_preds (NodeTestD.bad_sub ht) hps hf hs
    rw [List.append_assoc, stepNone_of_postfix (NodeTestD.primary ht hf1 hf2)]
    have hrun : nodeTest exprSingle .axisChild (ts ++ (ps ++ rest)) = .ok (.node .axisChild n x p, rest) := by
      rw [nodeTest_run ht hf1]
      show (looping (predicateList exprSingle false) >>= _) _ = _
      rw [bind_ok (ih rest hs)]
      rfl
    have hfirst : ∃ k r, ts = k :: r ∧ k.ty ≠ .axisName ∧ k.ty ≠ .at ∧ k.ty ≠ .dotDot := by
      cases ht with
      | name h => obtain ⟨k, r, rfl, hk⟩ := NameD.first h; exact ⟨k, r, rfl, by rcases hk with hk | hk <;> simp [hk]⟩
      | wildcard h => cases h <;> exact ⟨_, _, rfl, by simp⟩
      | kind h =>
        obtain ⟨k, r, rfl, hk⟩ := KindTestD.first h
        have : ∀ t ∈ kindStart, t ≠ .axisName ∧ t ≠ .at ∧ t ≠ .dotDot := by decide
        exact ⟨k, r, rfl, this _ hk⟩
    obtain ⟨k, r, rfl, hk1, hk2, hk3⟩ := hfirst
    obtain ⟨t, s⟩ := k
    unfold axisStep
    rw [peek_bind]
    cases t <;> first | exact hrun | exact absurd rfl hk1 | exact absurd rfl hk2 | exact absurd rfl hk3 | simp at hk1 | simp at hk2 | simp at hk3
  | @parent s =>
    intro rest hf hs
    show stepExpr exprSingle (⟨.dotDot, s⟩ :: rest) = _
    rw [stepNone_of_postfix (primary_none (by simp [primaryStart]))]
    rfl
  | @noPreds rev =>
    intro rest hs
    rw [List.nil_append, predLoop_eq]
    have : predicate exprSingle rest = .ok (.nil, rest) := by
      unfold predicate
      rw [ifTok_miss (hs.ne (by decide))]; rfl
    rw [bind_ok this]
    rfl
  | @preds rev l a x bad r b y ha hb iha ihb =>
    intro rest hs
    have e : ⟨.leftBracket, l⟩ :: a ++ ⟨.rightBracket, r⟩ :: b ++ rest = ⟨.leftBracket, l⟩ :: (a ++ ⟨.rightBracket, r⟩ :: (b ++ rest)) := by simp
    have hp : predicate exprSingle (⟨.leftBracket, l⟩ :: (a ++ ⟨.rightBracket, r⟩ :: (b ++ rest))) = .ok (x, b ++ rest) := by
      unfold predicate
      rw [ifTok_hit, bind_ok (show expr exprSingle _ = _ from
        iha.2.2.1 _ (closer_follow ha (by decide) r _) (closer_stop (by decide) r _ (by omega))), expect_bind_run]
      rfl
    rw [e, predLoop_eq, bind_ok hp]
    simp only [derives_ne_nil ha trivial, Bool.false_eq_true, if_false]
    rw [bind_ok (ihb rest hs)]
    rfl
  | @expression ts x bad h ih =>
    intro rest hf hs
    unfold stepExpr
    exact orIfNil_ok ((ih rest hf).trans (postfix_stop hs)) (derives_ne_nil h trivial)
  | @primary ts x bad h ih =>
    intro rest hf
    unfold postfixExpr
    rw [bind_ok (ih rest hf)]
    simp only [derives_ne_nil h trivial, Bool.false_eq_true, if_false]
  | @filter a x bad l b y bad' r ha hb iha ihb =>
    intro rest _
    have e : a ++ ⟨.leftBracket, l⟩ :: b ++ [⟨.rightBracket, r⟩] ++ rest = a ++ ⟨.leftBracket, l⟩ :: (b ++ ⟨.rightBracket, r⟩ :: rest) := by simp
    have hp : predicate exprSingle (⟨.leftBracket, l⟩ :: (b ++ ⟨.rightBracket, r⟩ :: rest)) = .ok (y, rest) := by
      unfold predicate
      rw [ifTok_hit, bind_ok (show expr exprSingle _ = _ from
        ihb.2.2.1 _ (closer_follow hb (by decide) r _) (closer_stop (by decide) r _ (by omega))), expect_bind_run]
      rfl
    have ho : postfixOp exprSingle (⟨.leftBracket, l⟩ :: (b ++ ⟨.rightBracket, r⟩ :: rest)) = .ok (.node .predicateTop [] y .nil, rest) := by
      rw [postfixOp_run, if_pos rfl, bind_ok hp]; rfl
    rw [e, iha _ ?_, postfixLoop_eq, bind_ok ho]
    · rfl
    · rw [follow_cons]
      exact fun hm => absurd (derives_bad ha hm) (by simp [badOf])
  | @apply a x bad l b y r ha hb iha ihb =>
    intro rest _
    have e : a ++ ⟨.leftParen, l⟩ :: b ++ [⟨.rightParen, r⟩] ++ rest = a ++ ⟨.leftParen, l⟩ :: (b ++ ⟨.rightParen, r⟩ :: rest) := by simp
    have ho : postfixOp exprSingle (⟨.leftParen, l⟩ :: (b ++ ⟨.rightParen, r⟩ :: rest)) = .ok (.node .argumentListTop [] y .nil, rest) := by
      rw [postfixOp_run, if_neg (by simp), if_pos rfl, bind_ok (argumentList_run ihb)]; rfl
    rw [e, iha _ ?_, postfixLoop_eq, bind_ok ho]
    · rfl
    · rw [follow_cons]
      exact fun hm => absurd (derives_bad ha hm) (by simp [badOf])
  | @find a x bad b y ha hb iha ihb =>
    intro rest _
    have hrun := ihb.2 rest
    obtain ⟨k, r, rfl, hk⟩ := derives_first hb trivial
    simp [startOf] at hk
    have ho : postfixOp exprSingle (k :: r ++ rest) = .ok (y, rest) := by
      rw [List.cons_append] at hrun ⊢
      rw [postfixOp_run, if_neg (by simp [hk]), if_neg (by simp [hk]), if_pos hk]; exact hrun
    rw [List.append_assoc, iha _ ?_, postfixLoop_eq, bind_ok ho]
    · simp only [derives_ne_nil hb trivial, Bool.false_eq_true, if_false]
      rcases ihb.1 with hy | hy <;> rw [hy] <;> rfl
    · rw [List.cons_append, follow_cons, hk]
      exact fun hm => absurd (derives_bad ha hm) (by simp [badOf])
  | string => intro rest _; rfl
  | integer => intro rest _; rfl
  | decimal => intro rest _; rfl
  | double => intro rest _; rfl
  | @varRef d vs v bad hn =>
    intro rest hf
    unfold Parser.primary
    rw [List.cons_append, orIfNil_nil rfl]
    refine orIfNil_ok ?_ rfl
    unfold varref
    rw [ifTok_hit, bind_ok (eqnameRequired_run hn hf)]
    rfl
  | @paren l a x r h ih =>
    intro rest _
    have e : ⟨.leftParen, l⟩ :: a ++ [⟨.rightParen, r⟩] ++ rest = ⟨.leftParen, l⟩ :: (a ++ ⟨.rightParen, r⟩ :: rest) := by simp
    unfold Parser.primary
    rw [e, orIfNil_nil rfl, orIfNil_nil rfl]
    refine orIfNil_ok ?_ rfl
    unfold parenthesized
    rw [ifTok_hit, bind_ok (ih .rightParen (by decide) r rest), expect_bind_run]
    rfl
  | context => intro rest _; rfl
  | @call fs f bad l a x r hn ha hc iha =>
    intro rest _
    have e : fs ++ ⟨.leftParen, l⟩ :: a ++ [⟨.rightParen, r⟩] ++ rest = fs ++ ⟨.leftParen, l⟩ :: (a ++ ⟨.rightParen, r⟩ :: rest) := by simp
    have hrun := eqname_run hn (rest := ⟨.leftParen, l⟩ :: (a ++ ⟨.rightParen, r⟩ :: rest)) (by
      rw [follow_cons]; exact fun hm => absurd (NameD.bad_sub hn hm) (by simp))
    have hcall : functionCall exprSingle (fs ++ ⟨.leftParen, l⟩ :: (a ++ ⟨.rightParen, r⟩ :: rest)) =
        .ok (.node (if ∃ y ∈ x.chain, y.ty = .argumentPlaceholder then .partialFunctionCall else .functionCall) f .nil x, rest) := by
      unfold functionCall
      rw [hrun]
      simp only [NameD.ne_nil hn, if_false]
      rw [bind_ok (argumentList_run iha)]
      have hcf : functionCallOf f x = .ok (.node (if ∃ y ∈ x.chain, y.ty = .argumentPlaceholder then .partialFunctionCall else .functionCall) f .nil x) := by
        unfold functionCallOf
        rw [if_pos (show checkFunctionSpec f x.chain.length = true from hc)]
        by_cases hp : ∃ y ∈ x.chain, y.ty = .argumentPlaceholder
        · rw [if_pos hp, if_pos (by simpa [List.any_eq_true] using hp)]
        · rw [if_neg hp, if_neg (by simpa [List.any_eq_true] using hp)]
      rw [hcf]
      rfl
    rw [e]
    obtain ⟨k, q, rfl, hk⟩ := NameD.first hn
    obtain ⟨t, s⟩ := k
    unfold Parser.primary
    have hnn : (XNode.node (if ∃ y ∈ x.chain, y.ty = .argumentPlaceholder then .partialFunctionCall else .functionCall) f .nil x).isNil = false := by
      show ((ite _ XNodeType.partialFunctionCall XNodeType.functionCall) == .nil) = false; split <;> rfl
    rcases hk with hk | hk
    · simp only at hk
      subst hk
      rw [orIfNil_nil rfl, orIfNil_nil rfl, orIfNil_nil rfl, orIfNil_nil rfl]
      exact orIfNil_ok hcall hnn
    · simp only at hk
      subst hk
      rw [orIfNil_nil rfl, orIfNil_nil rfl, orIfNil_nil rfl, orIfNil_nil rfl]
      exact orIfNil_ok hcall hnn
  | @reference fs f bad s n hn =>
    intro rest _
    have hrun := eqname_run hn (rest := [⟨.sharp, s⟩, ⟨.integerLiteral, n⟩] ++ rest) (by
      rw [List.cons_append, follow_cons]; exact fun hm => absurd (NameD.bad_sub hn hm) (by simp))
    have hcall : functionCall exprSingle (fs ++ ([⟨.sharp, s⟩, ⟨.integerLiteral, n⟩] ++ rest)) =
        .ok (.nil, fs ++ ([⟨.sharp, s⟩, ⟨.integerLiteral, n⟩] ++ rest)) := by
      unfold functionCall
      rw [hrun]
      simp only [NameD.ne_nil hn, if_false]
      rfl
    have href : namedFunctionRef (fs ++ ([⟨.sharp, s⟩, ⟨.integerLiteral, n⟩] ++ rest)) = .ok (tip .namedFunctionRef (f ++ S "#" ++ n), rest) := by
      unfold namedFunctionRef
      rw [hrun]
      simp only [NameD.ne_nil hn, if_false]
      rfl
    rw [List.append_assoc]
    obtain ⟨k, q, rfl, hk⟩ := NameD.first hn
    obtain ⟨t, s⟩ := k
    unfold Parser.primary
    rcases hk with hk | hk
    · simp only at hk
      subst hk
      rw [orIfNil_nil rfl, orIfNil_nil rfl, orIfNil_nil rfl, orIfNil_nil rfl, orIfNil_nil hcall]
      exact orIfNil_ok (orIfNil_ok href rfl) rfl
    · simp only at hk
      subst hk
      rw [orIfNil_nil rfl, orIfNil_nil rfl, orIfNil_nil rfl, orIfNil_nil rfl, orIfNil_nil hcall]
      exact orIfNil_ok (orIfNil_ok href rfl) rfl
  | @function0 s l r ts t c b y d ht hb ih =>
    intro rest _
    have e : ⟨.function, s⟩ :: ⟨.leftParen, l⟩ :: ⟨.rightParen, r⟩ :: ts ++ ⟨.leftCurly, c⟩ :: b ++ [⟨.rightCurly, d⟩] ++ rest =
        ⟨.function, s⟩ :: (⟨.leftParen, l⟩ :: (⟨.rightParen, r⟩ :: (ts ++ ⟨.leftCurly, c⟩ :: (b ++ ⟨.rightCurly, d⟩ :: rest)))) := by simp
    have hin : inlineFunction exprSingle (⟨.function, s⟩ :: (⟨.leftParen, l⟩ :: (⟨.rightParen, r⟩ :: (ts ++ ⟨.leftCurly, c⟩ :: (b ++ ⟨.rightCurly, d⟩ :: rest))))) =
        .ok (.node .inlineFunction (S "(inline function)") y (.node .returnType [] t .nil), rest) := by
      unfold inlineFunction
      rw [ifTok_hit, expect_bind_run]
      have hp : paramList (⟨.rightParen, r⟩ :: (ts ++ ⟨.leftCurly, c⟩ :: (b ++ ⟨.rightCurly, d⟩ :: rest))) =
          .ok (.nil, ⟨.rightParen, r⟩ :: (ts ++ ⟨.leftCurly, c⟩ :: (b ++ ⟨.rightCurly, d⟩ :: rest))) := rfl
      have hbody : functionBody exprSingle (⟨.leftCurly, c⟩ :: (b ++ ⟨.rightCurly, d⟩ :: rest)) = .ok (y, rest) := by
        unfold functionBody
        rw [expect_bind_run, bind_ok (ih .rightCurly (by decide) d rest), expect_bind_run]; rfl
      rw [bind_ok hp, expect_bind_run, bind_ok (asType_run ht (by decide) (by simp) c _), bind_ok hbody]
      rfl
    unfold Parser.primary
    rw [e, orIfNil_nil rfl, orIfNil_nil rfl, orIfNil_nil rfl, orIfNil_nil rfl, orIfNil_nil rfl]
    refine orIfNil_ok ?_ rfl
    rw [orIfNil_nil rfl]
    exact hin
  | @function s l ps p r ts t c b y d hps ht hb ih =>
    intro rest _
    have e : ⟨.function, s⟩ :: ⟨.leftParen, l⟩ :: ps ++ ⟨.rightParen, r⟩ :: ts ++ ⟨.leftCurly, c⟩ :: b ++ [⟨.rightCurly, d⟩] ++ rest =
        ⟨.function, s⟩ :: (⟨.leftParen, l⟩ :: (ps ++ ⟨.rightParen, r⟩ :: (ts ++ ⟨.leftCurly, c⟩ :: (b ++ ⟨.rightCurly, d⟩ :: rest)))) := by simp
    have hin : inlineFunction exprSingle (⟨.function, s⟩ :: (⟨.leftParen, l⟩ :: (ps ++ ⟨.rightParen, r⟩ :: (ts ++ ⟨.leftCurly, c⟩ :: (b ++ ⟨.rightCurly, d⟩ :: rest))))) =
        .ok (.node .inlineFunction (S "(inline function)") y (.node .returnType [] t p), rest) := by
      unfold inlineFunction
      rw [ifTok_hit, expect_bind_run]
      have hbody : functionBody exprSingle (⟨.leftCurly, c⟩ :: (b ++ ⟨.rightCurly, d⟩ :: rest)) = .ok (y, rest) := by
        unfold functionBody
        rw [expect_bind_run, bind_ok (ih .rightCurly (by decide) d rest), expect_bind_run]; rfl
      rw [bind_ok (paramList_run hps r _), expect_bind_run, bind_ok (asType_run ht (by decide) (by simp) c _), bind_ok hbody]
      rfl
    unfold Parser.primary
    rw [e, orIfNil_nil rfl, orIfNil_nil rfl, orIfNil_nil rfl, orIfNil_nil rfl, orIfNil_nil rfl]
    refine orIfNil_ok ?_ rfl
    rw [orIfNil_nil rfl]
    exact hin
  | @map s c a x d h ih =>
    intro rest _
    have e : ⟨.map, s⟩ :: ⟨.leftCurly, c⟩ :: a ++ [⟨.rightCurly, d⟩] ++ rest = ⟨.map, s⟩ :: (⟨.leftCurly, c⟩ :: (a ++ ⟨.rightCurly, d⟩ :: rest)) := by simp
    unfold Parser.primary
    rw [e, orIfNil_nil rfl, orIfNil_nil rfl, orIfNil_nil rfl, orIfNil_nil rfl, orIfNil_nil rfl, orIfNil_nil rfl]
    refine orIfNil_ok ?_ rfl
    unfold mapConstructor
    rw [ifTok_hit, expect_bind_run, bind_ok (show mapEntries exprSingle _ = _ from ih .rightCurly (by decide) d rest), expect_bind_run]
    rfl
  | @curlyArray s c a x d h ih =>
    intro rest _
    have e : ⟨.array, s⟩ :: ⟨.leftCurly, c⟩ :: a ++ [⟨.rightCurly, d⟩] ++ rest = ⟨.array, s⟩ :: (⟨.leftCurly, c⟩ :: (a ++ ⟨.rightCurly, d⟩ :: rest)) := by simp
    unfold Parser.primary
    rw [e, orIfNil_nil rfl, orIfNil_nil rfl, orIfNil_nil rfl, orIfNil_nil rfl, orIfNil_nil rfl, orIfNil_nil rfl, orIfNil_nil rfl]
    refine orIfNil_ok (orIfNil_ok ?_ rfl) rfl
    unfold Parser.curlyArray
    rw [ifTok_hit, expect_bind_run, bind_ok (ih .rightCurly (by decide) d rest), expect_bind_run]
    rfl
  | @squareArray l a x r h ih =>
    intro rest _
    have e : ⟨.leftBracket, l⟩ :: a ++ [⟨.rightBracket, r⟩] ++ rest = ⟨.leftBracket, l⟩ :: (a ++ ⟨.rightBracket, r⟩ :: rest) := by simp
    unfold Parser.primary
    rw [e, orIfNil_nil rfl, orIfNil_nil rfl, orIfNil_nil rfl, orIfNil_nil rfl, orIfNil_nil rfl, orIfNil_nil rfl, orIfNil_nil rfl]
    refine orIfNil_ok ?_ rfl
    rw [orIfNil_nil rfl]
    unfold Parser.squareArray
    rw [ifTok_hit, bind_ok (show exprInArray exprSingle _ = _ from ih .rightBracket (by decide) r rest), expect_bind_run]
    rfl
  | @lookup ts x h ih =>
    intro rest _
    have hrun := ih.2 rest
    obtain ⟨k, r, rfl, hk⟩ := derives_first h trivial
    obtain ⟨t, s⟩ := k
    simp [startOf] at hk
    subst hk
    unfold Parser.primary
    rw [orIfNil_nil rfl, orIfNil_nil rfl, orIfNil_nil rfl, orIfNil_nil rfl, orIfNil_nil rfl, orIfNil_nil rfl, orIfNil_nil rfl, orIfNil_nil rfl]
    exact hrun
  | lookupName => exact ⟨.inl rfl, fun rest => rfl⟩
  | lookupInteger => exact ⟨.inl rfl, fun rest => rfl⟩
  | lookupAll => exact ⟨.inr rfl, fun rest => rfl⟩
  | @lookupExpr q l a x r h ih =>
    refine ⟨.inl rfl, fun rest => ?_⟩
    have e : ⟨.question, q⟩ :: ⟨.leftParen, l⟩ :: a ++ [⟨.rightParen, r⟩] ++ rest = ⟨.question, q⟩ :: (⟨.leftParen, l⟩ :: (a ++ ⟨.rightParen, r⟩ :: rest)) := by simp
    rw [e]
    show (parenthesized exprSingle >>= _) (⟨.leftParen, l⟩ :: (a ++ ⟨.rightParen, r⟩ :: rest)) = _
    have hp : parenthesized exprSingle (⟨.leftParen, l⟩ :: (a ++ ⟨.rightParen, r⟩ :: rest)) = .ok (.node .parenthesizedExpr [] x .nil, rest) := by
      unfold parenthesized
      rw [ifTok_hit, bind_ok (ih .rightParen (by decide) r rest), expect_bind_run]; rfl
    rw [bind_ok hp]
    rfl
  | absent =>
    intro t ht s rest
    exact closer_none ht s rest 1 (by omega)
  | @present ts x bad h ih =>
    intro t ht s rest
    exact ih.2.2.1 _ (closer_follow h (List.mem_cons_of_mem _ ht) s rest) (closer_stop ht s rest (by omega))
  | @empty k =>
    intro t ht s rest
    have hes : exprSingle (⟨t, s⟩ :: rest) = .ok (.nil, ⟨t, s⟩ :: rest) := closer_none ht s rest 2 (by omega)
    have : elemP k (⟨t, s⟩ :: rest) = .ok (.nil, ⟨t, s⟩ :: rest) := by
      cases k
      · show argument exprSingle _ = _
        unfold Parser.argument
        rw [bind_ok hes]
        rw [if_pos (show XNode.nil.isNil = true from rfl)]
        rw [ifTok_miss]
        · rfl
        · intro q hq he
          simp at hq
          subst hq
          simp only at he
          subst he
          exact absurd ht (by decide)
      · show mapEntry exprSingle _ = _
        unfold Parser.mapEntry
        rw [bind_ok hes]; rfl
      · exact hes
    rw [List.nil_append, listP_eq, bind_ok this]
    rfl
  | @elems k ts x bad h ih =>
    intro t ht s rest
    have hf : Follow (.comma :: bad) (⟨t, s⟩ :: rest) := by
      have h1 := closer_follow h (List.mem_cons_of_mem _ ht) s rest
      rw [follow_cons] at h1 ⊢
      simp only [List.mem_cons, not_or]
      refine ⟨?_, h1⟩
      rintro rfl
      exact absurd ht (by decide)
    obtain ⟨y, us, l, h1, h2, h3, h4⟩ := ih _ hf (closer_stop ht s rest (by omega))
    rw [listP_eq, bind_ok h1]
    simp only [h3, Bool.false_eq_true, if_false]
    rw [bind_ok h2, h4]
    rfl
  | @lastElem k ts x bad h ih =>
    intro rest hf hs
    obtain ⟨y, h1, h2, h3, h4⟩ := ih rest (hf.mono (by simp)) hs
    refine ⟨y, rest, [], h1, commaList_none (elemP_R k) ?_, h2, ?_⟩
    · intro q hq he
      have := hf q hq
      rw [he] at this
      simp at this
    · have hx : setRight x .nil = x := by cases h <;> rfl
      rw [List.map_cons, List.map_nil, linkChain, wrap_ne_nil h2, ← h3]
      exact hx.symm
  | @moreElems k ts x bad c us y bad' h h' ih ih' =>
    intro rest hf hs
    obtain ⟨y', vs, l, h1, h2, h3, h4⟩ := ih' rest hf hs
    obtain ⟨w, g1, g2, g3, g4⟩ := ih (⟨.comma, c⟩ :: (us ++ rest)) (closer_follow h (by simp) c _) (stop_cons.2 (show binds TType.comma < 2 by decide))
    refine ⟨w, ⟨.comma, c⟩ :: (us ++ rest), y' :: l, ?_, commaList_cons (elemP_R k) h1 h2, g2, ?_⟩
    · rw [List.append_assoc]; exact g1
    · rw [g4, h4, List.map_cons (a := w), linkChain.eq_2, wrap_ne_nil g2, ← g3]
      rfl
  | @argument ts x bad h ih =>
    intro rest hf hs
    refine ⟨.node .argumentTop [] x .nil, ?_, rfl, rfl, fun r => rfl⟩
    show argument exprSingle _ = _
    unfold Parser.argument
    rw [bind_ok (show exprSingle _ = _ from ih.2.2.1 rest hf hs)]
    simp only [derives_ne_nil h trivial, Bool.false_eq_true, if_false]
    rfl
  | @placeholder q =>
    intro rest hf hs
    refine ⟨tip .argumentPlaceholder (S "?"), ?_, rfl, rfl, fun r => rfl⟩
    have hl : unaryLookup exprSingle (⟨.question, q⟩ :: rest) = .ok (.nil, ⟨.question, q⟩ :: rest) := by
      cases rest with
      | nil => rfl
      | cons k r =>
        have := follow_cons.1 hf
        obtain ⟨t, s⟩ := k
        cases t <;> first | rfl | simp at this
    have hp : Parser.primary exprSingle (⟨.question, q⟩ :: rest) = .ok (.nil, ⟨.question, q⟩ :: rest) := by
      unfold Parser.primary
      rw [orIfNil_nil rfl, orIfNil_nil rfl, orIfNil_nil rfl, orIfNil_nil rfl, orIfNil_nil rfl, orIfNil_nil rfl, orIfNil_nil rfl, orIfNil_nil rfl]
      exact hl
    have hstep : stepExpr exprSingle (⟨.question, q⟩ :: rest) = .ok (.nil, ⟨.question, q⟩ :: rest) := by
      rw [stepNone_of_postfix hp]; rfl
    have hes : exprSingle (⟨.question, q⟩ :: rest) = .ok (.nil, ⟨.question, q⟩ :: rest) := levels_none (by simp) hstep 2 (by omega)
    show argument exprSingle (⟨.question, q⟩ :: rest) = _
    unfold Parser.argument
    rw [bind_ok hes]
    rfl
  | @member ts x bad h ih =>
    intro rest hf hs
    exact ⟨x, ih.2.2.1 rest hf hs, derives_ne_nil h trivial, rfl, fun r => rfl⟩
  | @entry a x bad c b y bad' ha hc hb iha ihb =>
    intro rest hf hs
    refine ⟨.node .mapEntry [] x y, ?_, rfl, rfl, fun r => rfl⟩
    show mapEntry exprSingle _ = _
    unfold Parser.mapEntry
    rw [List.append_assoc, List.cons_append, bind_ok (show exprSingle _ = _ from iha.2.2.1 _ (follow_cons.2 hc) (stop_cons.2 (show binds TType.colon < 2 by decide)))]
    simp only [derives_ne_nil ha trivial, Bool.false_eq_true, if_false]
    rw [expect_bind_run, bind_ok (show exprSingle _ = _ from ihb.2.2.1 rest hf hs)]
    simp only [derives_ne_nil hb trivial, Bool.false_eq_true, if_false]
    rfl

/-- An expression is compiled to its tree. -/
theorem main_of_derives {ts : List Tok} {x : XNode} {bad : List TType} (h : Derives (.level 1) ts x bad) : main ts = .ok x := by
  have := (derives_runs h).2.2.1 [] (Follow.nil _) (by intro k hk; simp at hk)
  unfold main
  rw [List.append_nil] at this
  rw [show expr exprSingle ts = _ from this]

end Parser
end Amxml
