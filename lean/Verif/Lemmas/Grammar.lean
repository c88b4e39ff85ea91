import Verif.Lemmas.Parser
import Verif.Spec.Grammar
import Mathlib.Tactic.Tauto

/-!
# The parser reads the phrases of the grammar
-/

namespace Amxml
namespace Parser
open Spec

/-- No token of the kinds `bad` comes next. -/
def Follow (bad : List TType) (rest : List Tok) : Prop := ∀ k ∈ rest.head?, k.ty ∉ bad

theorem Follow.nil (bad : List TType) : Follow bad [] := by intro k h; simp at h
theorem Follow.empty (rest : List Tok) : Follow [] rest := by intro k _; simp
theorem follow_cons {bad : List TType} {k : Tok} {rest : List Tok} : Follow bad (k :: rest) ↔ k.ty ∉ bad := by
  simp [Follow]

theorem Follow.mono {a b : List TType} {rest : List Tok} (h : Follow b rest) (hs : a ⊆ b) : Follow a rest :=
  fun k hk hm => h k hk (hs hm)

/-! ## Names -/

theorem NameD.ne_nil {pre : Str} {ts : List Tok} {n : Str} {bad : List TType} (h : NameD pre ts n bad) : n ≠ [] := by
  cases h with
  | ncname hn => split <;> simp_all
  | prefixed => simp
  | uri hu => simp [hu]

/-- The kinds of tokens that may not follow a name. -/
theorem NameD.bad_sub {pre : Str} {ts : List Tok} {n : Str} {bad : List TType} (h : NameD pre ts n bad) : bad ⊆ [TType.colon] := by
  cases h <;> simp

theorem eqname_run {pre : Str} {ts : List Tok} {n : Str} {bad : List TType} (h : NameD pre ts n bad) {rest : List Tok}
    (hf : Follow bad rest) : eqname pre (ts ++ rest) = .ok (n, rest) := by
  cases h with
  | @ncname n hn =>
    have hq : qname pre (⟨.name, n⟩ :: rest) = .ok (if pre = [] then n else pre ++ S ":" ++ n, rest) := by
      unfold qname
      cases rest with
      | nil => rfl
      | cons k r =>
        obtain ⟨t, s⟩ := k
        have := follow_cons.1 hf
        cases t <;> first | rfl | simp at this
    show eqname pre (⟨.name, n⟩ :: rest) = _
    unfold eqname
    rw [bind_run, hq]
    simp only
    rw [if_neg]
    · rfl
    · split <;> simp_all
  | @prefixed p n =>
    show eqname pre (⟨.name, p⟩ :: ⟨.colon, S ":"⟩ :: ⟨.name, n⟩ :: rest) = _
    unfold eqname
    rw [bind_run]
    show (if p ++ S ":" ++ n = [] then uriName else pure (p ++ S ":" ++ n)) rest = _
    rw [if_neg (by simp)]
    rfl
  | @uri u n hu => rfl

theorem eqnameRequired_run {pre : Str} {ts : List Tok} {n : Str} {bad : List TType} (h : NameD pre ts n bad) {rest : List Tok}
    (hf : Follow bad rest) : eqnameRequired pre (ts ++ rest) = .ok (n, rest) := by
  unfold eqnameRequired
  rw [bind_run, eqname_run h hf]
  simp only
  rw [if_neg (NameD.ne_nil h)]
  rfl

/-- A name starts with a name or a braced URI literal. -/
theorem NameD.first {pre : Str} {ts : List Tok} {n : Str} {bad : List TType} (h : NameD pre ts n bad) :
    ∃ k r, ts = k :: r ∧ (k.ty = .name ∨ k.ty = .bracedURILiteral) := by
  cases h <;> exact ⟨_, _, rfl, by simp⟩

theorem wildcard_run {ts : List Tok} {n : Str} (h : WildcardD ts n) (rest : List Tok) : wildcard (ts ++ rest) = .ok (n, rest) := by
  cases h <;> rfl

theorem WildcardD.ne_nil {ts : List Tok} {n : Str} (h : WildcardD ts n) : n ≠ [] := by
  cases h <;> simp_all [S]

/-! ## Running the combinators -/

theorem ifTok_hit {α : Type} {t : TType} {p q : P α} {s : Str} {r : List Tok} : ifTok t p q (⟨t, s⟩ :: r) = p r := by
  simp [ifTok]

theorem ifTok_miss {α : Type} {t : TType} {p q : P α} {ts : List Tok} (h : ∀ k ∈ ts.head?, k.ty ≠ t) : ifTok t p q ts = q ts := by
  cases ts with
  | nil => rfl
  | cons k r => simp [ifTok, h k (by simp)]

theorem expect_bind_run {α : Type} {t : TType} {f : Unit → P α} {s : Str} {r : List Tok} : (expect t >>= f) (⟨t, s⟩ :: r) = f () r := by
  rw [bind_run]; simp [expect, ifTok, pure_run]

theorem expectName_bind_run {α : Type} {w : Str} {f : Unit → P α} {r : List Tok} : (expectName w >>= f) (⟨.name, w⟩ :: r) = f () r := by
  rw [bind_run]; simp [expectName]

theorem bind_ok {α β : Type} {p : P α} {f : α → P β} {ts r : List Tok} {a : α} (h : p ts = .ok (a, r)) : (p >>= f) ts = f a r := by
  rw [bind_run, h]

theorem orIfNil_ok {p q : P XNode} {ts r : List Tok} {x : XNode} (h : p ts = .ok (x, r)) (hx : x.isNil = false) :
    orIfNil p q ts = .ok (x, r) := by
  unfold orIfNil; rw [bind_ok h]; simp [hx, pure_run]

theorem orIfNil_nil {p q : P XNode} {ts : List Tok} (h : p ts = .ok (.nil, ts)) : orIfNil p q ts = q ts := by
  unfold orIfNil; rw [bind_ok h]; rfl

/-! ## Kind tests -/

theorem nameOrStar_name {ts : List Tok} {n : Str} {bad : List TType} (h : NameD [] ts n bad) {rest : List Tok} (hf : Follow bad rest) :
    nameOrStar (ts ++ rest) = .ok (n, rest) := by
  unfold nameOrStar
  rw [bind_ok (eqname_run h hf), if_neg (NameD.ne_nil h)]
  rfl

theorem nameOrStar_star (s : Str) (rest : List Tok) : nameOrStar (⟨.asterisk, s⟩ :: rest) = .ok (S "*", rest) := rfl

theorem optQuestion_none {t : Str} {s : Str} {rest : List Tok} : optQuestion t (⟨.rightParen, s⟩ :: rest) = .ok (t, ⟨.rightParen, s⟩ :: rest) := rfl

/-- What `elementTest` has read between the parentheses. -/
theorem elementArgs_run {ts : List Tok} {n t : Str} (h : ElementArgsD ts n t) (r : Str) (rest : List Tok) :
    ∃ n', (n = if n' = [] then S "*" else n') ∧ (nameOrStar >>= fun n => elementTypeName n >>= fun t => pure (n, t))
      (ts ++ ⟨.rightParen, r⟩ :: rest) = .ok ((n', t), ⟨.rightParen, r⟩ :: rest) := by
  have hty : ∀ {us : List Tok} {t : Str} {bad : List TType} (n : Str) (c : Str) (rest : List Tok), n ≠ [] → NameD (S "xs") us t bad →
      Follow bad rest → elementTypeName n (⟨.comma, c⟩ :: (us ++ rest)) = optQuestion t rest := by
    intro us t bad n c rest hn h hf
    unfold elementTypeName
    rw [if_neg hn]
    show ifTok _ _ _ (⟨.comma, c⟩ :: (us ++ rest)) = _
    rw [ifTok_hit, bind_ok (eqnameRequired_run h hf)]
  have hrp : ∀ {pre : Str} {us : List Tok} {t : Str} {bad : List TType}, NameD pre us t bad → Follow bad (⟨.rightParen, r⟩ :: rest) := by
    intro pre us t bad h
    exact (show Follow [TType.colon] _ by simp [Follow]).mono (NameD.bad_sub h)
  have hcm : ∀ {pre : Str} {us : List Tok} {t : Str} {bad : List TType} (c : Str) (rest : List Tok), NameD pre us t bad →
      Follow bad (⟨.comma, c⟩ :: rest) := by
    intro pre us t bad c rest h
    exact (show Follow [TType.colon] _ by simp [Follow]).mono (NameD.bad_sub h)
  have hqu : ∀ {pre : Str} {us : List Tok} {t : Str} {bad : List TType} (c : Str) (rest : List Tok), NameD pre us t bad →
      Follow bad (⟨.question, c⟩ :: rest) := by
    intro pre us t bad c rest h
    exact (show Follow [TType.colon] _ by simp [Follow]).mono (NameD.bad_sub h)
  cases h with
  | none => exact ⟨[], rfl, rfl⟩
  | name h =>
    refine ⟨n, by rw [if_neg (NameD.ne_nil h)], ?_⟩
    rw [bind_ok (nameOrStar_name h (hrp h))]
    have : elementTypeName n (⟨.rightParen, r⟩ :: rest) = .ok (S "xs:anyType?", ⟨.rightParen, r⟩ :: rest) := by
      unfold elementTypeName; rw [if_neg (NameD.ne_nil h)]; rfl
    rw [bind_ok this]; rfl
  | star => exact ⟨S "*", rfl, rfl⟩
  | @nameType ts n bad c us t bad' h h' =>
    refine ⟨n, by rw [if_neg (NameD.ne_nil h)], ?_⟩
    rw [List.append_assoc, List.cons_append, bind_ok (nameOrStar_name h (hcm c _ h)), bind_run]
    rw [hty n c _ (NameD.ne_nil h) h' (hrp h')]
    rfl
  | @starType s c us t bad' h' =>
    refine ⟨S "*", rfl, ?_⟩
    show (nameOrStar >>= _) (⟨.asterisk, s⟩ :: (⟨.comma, c⟩ :: (us ++ ⟨.rightParen, r⟩ :: rest))) = _
    rw [bind_ok (nameOrStar_star s _), bind_run]
    rw [hty (S "*") c _ (by decide) h' (hrp h')]
    rfl
  | @nameNillable ts n bad c us t bad' q h h' =>
    refine ⟨n, by rw [if_neg (NameD.ne_nil h)], ?_⟩
    have e : ts ++ ⟨.comma, c⟩ :: us ++ [⟨.question, q⟩] ++ ⟨.rightParen, r⟩ :: rest =
        ts ++ (⟨.comma, c⟩ :: (us ++ ⟨.question, q⟩ :: ⟨.rightParen, r⟩ :: rest)) := by simp
    rw [e, bind_ok (nameOrStar_name h (hcm c _ h)), bind_run]
    rw [hty n c _ (NameD.ne_nil h) h' (hqu q _ h')]
    rfl
  | @starNillable s c us t bad' q h' =>
    refine ⟨S "*", rfl, ?_⟩
    have e : ⟨.asterisk, s⟩ :: ⟨.comma, c⟩ :: us ++ [⟨.question, q⟩] ++ ⟨.rightParen, r⟩ :: rest =
        ⟨.asterisk, s⟩ :: (⟨.comma, c⟩ :: (us ++ ⟨.question, q⟩ :: ⟨.rightParen, r⟩ :: rest)) := by simp
    rw [e, bind_ok (nameOrStar_star s _), bind_run]
    rw [hty (S "*") c _ (by decide) h' (hqu q _ h')]
    rfl

theorem elementTest_run {ts : List Tok} {n t : Str} (h : ElementArgsD ts n t) (s l r : Str) (rest : List Tok) :
    elementTest (⟨.elementTest, s⟩ :: ⟨.leftParen, l⟩ :: ts ++ ⟨.rightParen, r⟩ :: rest) = .ok (elementTree n t, rest) := by
  obtain ⟨n', hn, hrun⟩ := elementArgs_run h r rest
  unfold elementTest
  show ifTok _ _ _ (⟨.elementTest, s⟩ :: (⟨.leftParen, l⟩ :: (ts ++ ⟨.rightParen, r⟩ :: rest))) = _
  rw [ifTok_hit, expect_bind_run]
  rw [bind_run] at hrun
  rw [bind_run]
  cases h1 : nameOrStar (ts ++ ⟨.rightParen, r⟩ :: rest) with
  | error e => rw [h1] at hrun; cases hrun
  | ok a =>
    obtain ⟨a, ra⟩ := a
    rw [h1] at hrun
    simp only at hrun ⊢
    rw [bind_run] at hrun ⊢
    cases h2 : elementTypeName a ra with
    | error e => rw [h2] at hrun; cases hrun
    | ok b =>
      obtain ⟨b, rb⟩ := b
      rw [h2] at hrun
      simp only at hrun ⊢
      simp [pure_run] at hrun
      obtain ⟨⟨rfl, rfl⟩, rfl⟩ := hrun
      rw [expect_bind_run, hn]
      rfl

/-- What `attributeTest` has read between the parentheses. -/
theorem attributeArgs_run {ts : List Tok} {n t : Str} (h : AttributeArgsD ts n t) (r : Str) (rest : List Tok) :
    ∃ n', (n = if n' = [] then S "*" else n') ∧ ∃ us, nameOrStar (ts ++ ⟨.rightParen, r⟩ :: rest) = .ok (n', us) ∧
      attributeTypeName n' us = .ok (t, ⟨.rightParen, r⟩ :: rest) := by
  have hrp : ∀ {pre : Str} {us : List Tok} {t : Str} {bad : List TType}, NameD pre us t bad → Follow bad (⟨.rightParen, r⟩ :: rest) := by
    intro pre us t bad h
    exact (show Follow [TType.colon] _ by simp [Follow]).mono (NameD.bad_sub h)
  have hcm : ∀ {pre : Str} {us : List Tok} {t : Str} {bad : List TType} (c : Str) (rest : List Tok), NameD pre us t bad →
      Follow bad (⟨.comma, c⟩ :: rest) := by
    intro pre us t bad c rest h
    exact (show Follow [TType.colon] _ by simp [Follow]).mono (NameD.bad_sub h)
  have hty : ∀ {us : List Tok} {t : Str} {bad : List TType} (n : Str) (c : Str), n ≠ [] → NameD (S "xs") us t bad →
      attributeTypeName n (⟨.comma, c⟩ :: us ++ ⟨.rightParen, r⟩ :: rest) = .ok (t, ⟨.rightParen, r⟩ :: rest) := by
    intro us t bad n c hn h
    unfold attributeTypeName
    rw [if_neg hn]
    show ifTok _ _ _ (⟨.comma, c⟩ :: (us ++ ⟨.rightParen, r⟩ :: rest)) = _
    rw [ifTok_hit, eqnameRequired_run h (hrp h)]
  cases h with
  | none => exact ⟨[], rfl, _, rfl, rfl⟩
  | name h =>
    refine ⟨n, by rw [if_neg (NameD.ne_nil h)], _, nameOrStar_name h (hrp h), ?_⟩
    unfold attributeTypeName; rw [if_neg (NameD.ne_nil h)]; rfl
  | star => exact ⟨S "*", rfl, _, rfl, rfl⟩
  | @nameType ts n bad c us t bad' h h' =>
    refine ⟨n, by rw [if_neg (NameD.ne_nil h)], ⟨.comma, c⟩ :: us ++ ⟨.rightParen, r⟩ :: rest, ?_, hty n c (NameD.ne_nil h) h'⟩
    rw [List.append_assoc]
    exact nameOrStar_name h (hcm c (us ++ _) h)
  | @starType s c us t bad' h' =>
    exact ⟨S "*", rfl, _, nameOrStar_star s (⟨.comma, c⟩ :: us ++ ⟨.rightParen, r⟩ :: rest), hty (S "*") c (by decide) h'⟩

theorem attributeTest_run {ts : List Tok} {n t : Str} (h : AttributeArgsD ts n t) (s l r : Str) (rest : List Tok) :
    attributeTest (⟨.attributeTest, s⟩ :: ⟨.leftParen, l⟩ :: ts ++ ⟨.rightParen, r⟩ :: rest) =
      .ok (.node .attributeTest n (tip .kindTestTypeName t) .nil, rest) := by
  obtain ⟨n', hn, us, h1, h2⟩ := attributeArgs_run h r rest
  unfold attributeTest
  show ifTok _ _ _ (⟨.attributeTest, s⟩ :: (⟨.leftParen, l⟩ :: (ts ++ ⟨.rightParen, r⟩ :: rest))) = _
  rw [ifTok_hit, expect_bind_run, bind_ok h1, bind_ok h2, expect_bind_run, hn]
  rfl

theorem subOne_run {ts : List Tok} {n : Str} {bad : List TType} (h : NameD [] ts n bad) (t : TType) (x : XNodeType) (s l r : Str) (rest : List Tok) :
    kindTestSubOne t x (⟨t, s⟩ :: ⟨.leftParen, l⟩ :: ts ++ ⟨.rightParen, r⟩ :: rest) = .ok (tip x n, rest) := by
  unfold kindTestSubOne
  show ifTok _ _ _ (⟨t, s⟩ :: (⟨.leftParen, l⟩ :: (ts ++ ⟨.rightParen, r⟩ :: rest))) = _
  have hf : Follow bad (⟨.rightParen, r⟩ :: rest) := (show Follow [TType.colon] _ by simp [Follow]).mono (NameD.bad_sub h)
  rw [ifTok_hit, expect_bind_run, bind_ok (eqnameRequired_run h hf), expect_bind_run]
  rfl

theorem kindTest_run {ts : List Tok} {x : XNode} (h : KindTestD ts x) (rest : List Tok) :
    kindTest (ts ++ rest) = .ok (.node .kindTest [] x .nil, rest) := by
  have key : ∀ {p : P XNode} {ts x}, p ts = .ok (x, rest) → x.isNil = false →
      (p >>= fun x => if x.isNil then pure XNode.nil else pure (XNode.node .kindTest [] x .nil)) ts = .ok (.node .kindTest [] x .nil, rest) := by
    intro p ts x hp hx
    rw [bind_ok hp]; simp [hx, pure_run]
  unfold kindTest
  cases h with
  | simple hm =>
    simp only [simpleTests, List.mem_cons, List.mem_nil_iff, or_false, Prod.mk.injEq] at hm
    rcases hm with ⟨rfl, rfl⟩ | ⟨rfl, rfl⟩ | ⟨rfl, rfl⟩ | ⟨rfl, rfl⟩ <;> rfl
  | @element s l ts n t r h =>
    apply key _ rfl
    have := elementTest_run h s l r rest
    rw [List.append_assoc]
    rw [orIfNil_nil rfl]
    exact orIfNil_ok this rfl
  | @attr s l ts n t r h =>
    apply key _ rfl
    have := attributeTest_run h s l r rest
    rw [List.append_assoc]
    rw [orIfNil_nil rfl, orIfNil_nil rfl]
    exact orIfNil_ok this rfl
  | @schemaElement s l ts n bad r h =>
    apply key _ rfl
    have := subOne_run h .schemaElementTest .schemaElementTest s l r rest
    rw [List.append_assoc]
    rw [orIfNil_nil rfl, orIfNil_nil rfl, orIfNil_nil rfl]
    exact orIfNil_ok this rfl
  | @schemaAttribute s l ts n bad r h =>
    apply key _ rfl
    have := subOne_run h .schemaAttributeTest .schemaAttributeTest s l r rest
    rw [List.append_assoc]
    rw [orIfNil_nil rfl, orIfNil_nil rfl, orIfNil_nil rfl, orIfNil_nil rfl]
    exact orIfNil_ok this rfl
  | pi => rfl
  | piName hm =>
    simp only [List.mem_cons, List.mem_nil_iff, or_false] at hm
    rcases hm with rfl | rfl <;> rfl
  | document => rfl
  | @documentElement s l s' l' ts n t r' r h =>
    apply key _ rfl
    refine orIfNil_ok ?_ rfl
    unfold documentTest
    have e : ⟨.documentTest, s⟩ :: ⟨.leftParen, l⟩ :: ⟨.elementTest, s'⟩ :: ⟨.leftParen, l'⟩ :: ts ++ [⟨.rightParen, r'⟩, ⟨.rightParen, r⟩] ++ rest =
      ⟨.documentTest, s⟩ :: (⟨.leftParen, l⟩ :: (⟨.elementTest, s'⟩ :: ⟨.leftParen, l'⟩ :: ts ++ ⟨.rightParen, r'⟩ :: (⟨.rightParen, r⟩ :: rest))) := by
      simp
    rw [e, ifTok_hit, expect_bind_run, bind_ok (orIfNil_ok (elementTest_run h s' l' r' _) rfl), expect_bind_run]
    rfl
  | @documentSchemaElement s l s' l' ts n bad r' r h =>
    apply key _ rfl
    refine orIfNil_ok ?_ rfl
    unfold documentTest
    have e : ⟨.documentTest, s⟩ :: ⟨.leftParen, l⟩ :: ⟨.schemaElementTest, s'⟩ :: ⟨.leftParen, l'⟩ :: ts ++ [⟨.rightParen, r'⟩, ⟨.rightParen, r⟩] ++ rest =
      ⟨.documentTest, s⟩ :: (⟨.leftParen, l⟩ :: (⟨.schemaElementTest, s'⟩ :: ⟨.leftParen, l'⟩ :: ts ++ ⟨.rightParen, r'⟩ :: (⟨.rightParen, r⟩ :: rest))) := by
      simp
    rw [e, ifTok_hit, expect_bind_run, bind_run, orIfNil_nil rfl, subOne_run h .schemaElementTest .schemaElementTest s' l' r' _]
    simp only
    rw [expect_bind_run]
    rfl

/-- The kinds of tokens a kind test starts with. -/
def kindStart : List TType := [.documentTest, .elementTest, .attributeTest, .schemaElementTest, .schemaAttributeTest, .piTest,
  .commentTest, .textTest, .namespaceNodeTest, .anyKindTest]

theorem KindTestD.first {ts : List Tok} {x : XNode} (h : KindTestD ts x) : ∃ k r, ts = k :: r ∧ k.ty ∈ kindStart := by
  cases h with
  | simple hm =>
    simp only [simpleTests, List.mem_cons, List.mem_nil_iff, or_false, Prod.mk.injEq] at hm
    rcases hm with ⟨rfl, rfl⟩ | ⟨rfl, rfl⟩ | ⟨rfl, rfl⟩ | ⟨rfl, rfl⟩ <;> exact ⟨_, _, rfl, by simp [kindStart]⟩
  | _ => exact ⟨_, _, rfl, by simp [kindStart]⟩

theorem kindTest_none {ts : List Tok} (h : ∀ k ∈ ts.head?, k.ty ∉ kindStart) : kindTest ts = .ok (.nil, ts) := by
  cases ts with
  | nil => rfl
  | cons k r =>
    have := h k (by simp)
    obtain ⟨t, s⟩ := k
    cases t <;> first | rfl | exact absurd (by simp [kindStart]) this

/-! ## Lists separated by commas -/

theorem commaList_eq {p : P XNode} (hp : ∀ n, R n p p) (ts : List Tok) : looping (commaList p) ts =
    ifTok .comma (p >>= fun x => looping (commaList p) >>= fun l => pure (x :: l)) (pure []) ts := by
  show commaList p (ts.length + 1) ts = _
  rw [commaList]
  cases ts with
  | nil => rfl
  | cons k r =>
    obtain ⟨t, s⟩ := k
    by_cases ht : t = .comma
    · subst ht
      rw [ifTok_hit, ifTok_hit, bind_run, bind_run]
      cases hx : p r with
      | error e => rfl
      | ok a =>
        obtain ⟨x, r1⟩ := a
        have hlen := (hp (r.length + 1) r (by omega)).2.1 x r1 hx
        simp only
        rw [bind_run, bind_run]
        rw [looping_eq (f := commaList p) (fun k m hkm => R.commaList (hp (k + 1)) k m (by omega) hkm) (r.length + 1) r1 (by omega)]
        rfl
    · rw [ifTok_miss (by simpa using ht), ifTok_miss (by simpa using ht)]

theorem commaList_none {p : P XNode} (hp : ∀ n, R n p p) {ts : List Tok} (h : ∀ k ∈ ts.head?, k.ty ≠ .comma) :
    looping (commaList p) ts = .ok ([], ts) := by
  rw [commaList_eq hp, ifTok_miss h]; rfl

theorem commaList_cons {p : P XNode} (hp : ∀ n, R n p p) {c : Str} {ts r r' : List Tok} {x : XNode} {l : List XNode} (hx : p ts = .ok (x, r))
    (hl : looping (commaList p) r = .ok (l, r')) : looping (commaList p) (⟨.comma, c⟩ :: ts) = .ok (x :: l, r') := by
  rw [commaList_eq hp, ifTok_hit, bind_ok hx, bind_ok hl]; rfl

/-! ## Types -/

theorem itemType_eq (ts : List Tok) : itemType ts = itemTypeStep itemType ts := by
  have h1 : ∀ n, R n (itemTypeF n) itemType := by
    intro n ts hts
    obtain ⟨-, h2, h3⟩ := R.itemTypeF n n (by omega) ts hts
    exact ⟨(looping_eq R.itemTypeF n ts hts).symm, h2, h3⟩
  show itemTypeF (ts.length + 1) ts = _
  show itemTypeStep (itemTypeF ts.length) ts = _
  exact ((R.itemTypeStep (h1 ts.length)) ts (by omega)).1

/-- The kinds of tokens a type starts with. -/
def typeStart : List TType := kindStart ++ [.item, .function, .mapTest, .arrayTest, .name, .bracedURILiteral, .leftParen]

/-- The kinds of tokens that may be forbidden after a type. -/
def typeBad : List TType := [.question, .asterisk, .plus, .colon]

theorem TypeD.bad_sub {c : TCat} {ts : List Tok} {x : XNode} {bad : List TType} (h : TypeD c ts x bad) : bad ⊆ typeBad := by
  induction h with
  | atomic h => exact (NameD.bad_sub h).trans (by simp [typeBad])
  | one _ ih => exact List.append_subset.2 ⟨by simp [occurrence, typeBad], ih⟩
  | _ => first | assumption | simp

theorem SingleTypeD.bad_sub {ts : List Tok} {x : XNode} {bad : List TType} (h : SingleTypeD ts x bad) : bad ⊆ typeBad := by
  cases h with
  | plain h => exact List.cons_subset.2 ⟨by simp [typeBad], (NameD.bad_sub h).trans (by simp [typeBad])⟩
  | optional => simp

theorem TypeD.first {c : TCat} {ts : List Tok} {x : XNode} {bad : List TType} (h : TypeD c ts x bad) :
    ∃ k r, ts = k :: r ∧ (k.ty ∈ typeStart ∨ k.ty = .emptySequence ∧ c ≠ .item) := by
  induction h with
  | kind h =>
    obtain ⟨k, r, rfl, hk⟩ := KindTestD.first h
    exact ⟨k, r, rfl, .inl (List.mem_append_left _ hk)⟩
  | atomic h =>
    obtain ⟨k, r, rfl, hk⟩ := NameD.first h
    exact ⟨k, r, rfl, .inl (by rcases hk with hk | hk <;> simp [typeStart, hk])⟩
  | one _ ih => obtain ⟨k, r, rfl, hk⟩ := ih; exact ⟨k, r, rfl, by simp at hk; exact .inl hk⟩
  | occurs _ _ _ ih => obtain ⟨k, r, rfl, hk⟩ := ih; exact ⟨k, _, rfl, by simp at hk ⊢; exact .inl hk⟩
  | last _ ih => obtain ⟨k, r, rfl, hk⟩ := ih; exact ⟨k, r, rfl, by simpa using hk⟩
  | more _ _ ih => obtain ⟨k, r, rfl, hk⟩ := ih; exact ⟨k, _, rfl, by simpa using hk⟩
  | empty => exact ⟨_, _, rfl, .inr ⟨rfl, by simp⟩⟩
  | _ => exact ⟨_, _, rfl, .inl (by simp [typeStart])⟩

theorem TypeD.ne_nil {c : TCat} {ts : List Tok} {x : XNode} {bad : List TType} (h : TypeD c ts x bad) : x.isNil = false := by
  cases h <;> rfl

/-- Alternatives that a token of a given kind cannot start. -/
theorem subNone_none {t : TType} {x : XNodeType} {ts : List Tok} (h : ∀ k ∈ ts.head?, k.ty ≠ t) : kindTestSubNone t x ts = .ok (.nil, ts) := by
  unfold kindTestSubNone; rw [ifTok_miss h]; rfl

theorem typeFollow {bad : List TType} (hb : bad ⊆ typeBad) {t : TType} (ht : t ∉ typeBad) (s : Str) (rest : List Tok) :
    Follow bad (⟨t, s⟩ :: rest) := by
  rw [follow_cons]; exact fun h => ht (hb h)

theorem seqType_R (n : Nat) : R n (sequenceTypeOf itemType) (sequenceTypeOf itemType) := R.sequenceType n

/-- What the parser of a category reads. -/
def TypeRuns : TCat → List Tok → XNode → List TType → Prop
  | .item, ts, x, bad => ∀ rest, Follow bad rest → itemType (ts ++ rest) = .ok (x, rest)
  | .seq, ts, x, bad => ∀ rest, Follow bad rest → sequenceTypeOf itemType (ts ++ rest) = .ok (x, rest)
  | .seqs, ts, x, bad => ∀ rest, Follow (.comma :: bad) rest → ∃ y us l, sequenceTypeOf itemType (ts ++ rest) = .ok (y, us) ∧
      looping (commaList (sequenceTypeOf itemType)) us = .ok (l, rest) ∧ y.isNil = false ∧
      x = linkChain ((y :: l).map fun y => .node .param [] y .nil) .nil

theorem seq_of_item {ts : List Tok} {x : XNode} {k : Tok} {r rest : List Tok} (hts : ts = k :: r) (hk : k.ty ∈ typeStart)
    (hi : itemType (ts ++ rest) = .ok (x, rest)) (hx : x.isNil = false) :
    sequenceTypeOf itemType (ts ++ rest) = if (rest.head?.getD Lexer.eofTok).ty ∈ occurrence then
      .ok (.node .sequenceType (rest.head?.getD Lexer.eofTok).name x .nil, rest.tail) else .ok (.node .sequenceType [] x .nil, rest) := by
  unfold sequenceTypeOf
  have h0 : kindTestSubNone .emptySequence .emptySequenceTest (ts ++ rest) = .ok (.nil, ts ++ rest) := by
    apply subNone_none
    subst hts
    intro k' hk'
    simp at hk'
    subst hk'
    intro he
    rw [he] at hk
    exact absurd hk (by decide)
  rw [bind_ok h0]
  simp only [show XNode.isNil .nil = true from rfl, if_true]
  rw [bind_ok hi]
  simp only [hx, Bool.false_eq_true, if_false]
  rw [peek_bind]
  generalize rest.head?.getD Lexer.eofTok = q
  obtain ⟨t, s⟩ := q
  cases t <;> first | rfl | (simp only [occurrence]; rfl)

theorem TypeD.runs {c : TCat} {ts : List Tok} {x : XNode} {bad : List TType} (h : TypeD c ts x bad) : TypeRuns c ts x bad := by
  induction h with
  | kind h =>
    intro rest _
    rw [itemType_eq]
    exact orIfNil_ok (kindTest_run h rest) rfl
  | anyItem => intro rest _; rw [itemType_eq]; rfl
  | anyFunction => intro rest _; rw [itemType_eq]; rfl
  | @function0 s l r ts x bad h ih =>
    intro rest hf
    rw [itemType_eq]
    unfold itemTypeStep
    show orIfNil _ _ (⟨.function, s⟩ :: (⟨.leftParen, l⟩ :: (⟨.rightParen, r⟩ :: (⟨.name, S "as"⟩ :: (ts ++ rest))))) = _
    rw [orIfNil_nil rfl, orIfNil_nil rfl]
    refine orIfNil_ok ?_ rfl
    unfold functionTest
    rw [ifTok_hit, expect_bind_run, ifTok_miss (by simp)]
    have hp : sequenceTypeList itemType (⟨.rightParen, r⟩ :: (⟨.name, S "as"⟩ :: (ts ++ rest))) =
        .ok (.nil, ⟨.rightParen, r⟩ :: (⟨.name, S "as"⟩ :: (ts ++ rest))) := by
      unfold sequenceTypeList
      have : sequenceTypeOf itemType (⟨.rightParen, r⟩ :: (⟨.name, S "as"⟩ :: (ts ++ rest))) =
        .ok (.nil, ⟨.rightParen, r⟩ :: (⟨.name, S "as"⟩ :: (ts ++ rest))) := by
        unfold sequenceTypeOf
        rw [bind_ok (subNone_none (by simp))]
        have : itemType (⟨.rightParen, r⟩ :: (⟨.name, S "as"⟩ :: (ts ++ rest))) = .ok (.nil, ⟨.rightParen, r⟩ :: (⟨.name, S "as"⟩ :: (ts ++ rest))) := by
          rw [itemType_eq]; rfl
        simp only [show XNode.isNil .nil = true from rfl, if_true]
        rw [bind_ok this]; rfl
      rw [bind_ok this]; rfl
    rw [bind_ok hp, expect_bind_run, expectName_bind_run, bind_ok (ih rest hf)]
    rfl
  | @function s l ps p bad r ts x bad' h h' ih ih' =>
    intro rest hf
    rw [itemType_eq]
    unfold itemTypeStep
    have e : ⟨.function, s⟩ :: ⟨.leftParen, l⟩ :: ps ++ ⟨.rightParen, r⟩ :: ⟨.name, S "as"⟩ :: ts ++ rest =
        ⟨.function, s⟩ :: (⟨.leftParen, l⟩ :: (ps ++ (⟨.rightParen, r⟩ :: (⟨.name, S "as"⟩ :: (ts ++ rest))))) := by simp
    rw [e, orIfNil_nil rfl, orIfNil_nil rfl]
    refine orIfNil_ok ?_ rfl
    unfold functionTest
    obtain ⟨k, pr, rfl, hk⟩ := TypeD.first h
    rw [ifTok_hit, expect_bind_run, ifTok_miss (by
      intro k' hk'
      simp at hk'
      subst hk'
      rcases hk with hk | hk
      · intro he; rw [he] at hk; exact absurd hk (by decide)
      · rw [hk.1]; simp)]
    have hcf : Follow (.comma :: bad) (⟨.rightParen, r⟩ :: (⟨.name, S "as"⟩ :: (ts ++ rest))) := by
      rw [follow_cons]
      simp only [List.mem_cons, not_or]
      exact ⟨by simp, fun hm => absurd (TypeD.bad_sub h hm) (by decide)⟩
    obtain ⟨y, us, l, h1, h2, h3, h4⟩ := ih _ hcf
    have hp : sequenceTypeList itemType (k :: pr ++ (⟨.rightParen, r⟩ :: (⟨.name, S "as"⟩ :: (ts ++ rest)))) =
        .ok (p, ⟨.rightParen, r⟩ :: (⟨.name, S "as"⟩ :: (ts ++ rest))) := by
      unfold sequenceTypeList
      rw [bind_ok h1]
      simp only [h3, Bool.false_eq_true, if_false]
      rw [bind_ok h2, h4]; rfl
    rw [bind_ok hp, expect_bind_run, expectName_bind_run, bind_ok (ih' rest hf)]
    rfl
  | anyMap => intro rest _; rw [itemType_eq]; rfl
  | @map s l ks k bad c ts x bad' r h h' ih =>
    intro rest _
    rw [itemType_eq]
    unfold itemTypeStep
    have e : ⟨.mapTest, s⟩ :: ⟨.leftParen, l⟩ :: ks ++ ⟨.comma, c⟩ :: ts ++ [⟨.rightParen, r⟩] ++ rest =
        ⟨.mapTest, s⟩ :: (⟨.leftParen, l⟩ :: (ks ++ (⟨.comma, c⟩ :: (ts ++ (⟨.rightParen, r⟩ :: rest))))) := by simp
    rw [e, orIfNil_nil rfl, orIfNil_nil rfl, orIfNil_nil rfl]
    refine orIfNil_ok ?_ rfl
    unfold mapTest
    have hkf : Follow bad (⟨.comma, c⟩ :: (ts ++ (⟨.rightParen, r⟩ :: rest))) := by
      rw [follow_cons]; exact fun hm => absurd (NameD.bad_sub h hm) (by simp)
    have hmiss : ∀ q ∈ (ks ++ (⟨.comma, c⟩ :: (ts ++ (⟨.rightParen, r⟩ :: rest)))).head?, q.ty ≠ .asterisk := by
      obtain ⟨q, qr, rfl, hq⟩ := NameD.first h
      intro q' hq'
      simp at hq'
      subst hq'
      rcases hq with hq | hq <;> simp [hq]
    rw [ifTok_hit, expect_bind_run, bind_run, ifTok_miss hmiss, bind_ok (eqnameRequired_run h hkf), expect_bind_run,
      bind_ok (ih _ (typeFollow (TypeD.bad_sub h') (by decide) _ _))]
    simp only [pure_run]
    rw [expect_bind_run]
    rfl
  | anyArray => intro rest _; rw [itemType_eq]; rfl
  | @array s l ts x bad r h ih =>
    intro rest _
    rw [itemType_eq]
    unfold itemTypeStep
    have e : ⟨.arrayTest, s⟩ :: ⟨.leftParen, l⟩ :: ts ++ [⟨.rightParen, r⟩] ++ rest =
        ⟨.arrayTest, s⟩ :: (⟨.leftParen, l⟩ :: (ts ++ (⟨.rightParen, r⟩ :: rest))) := by simp
    rw [e, orIfNil_nil rfl, orIfNil_nil rfl, orIfNil_nil rfl, orIfNil_nil rfl]
    refine orIfNil_ok ?_ rfl
    unfold arrayTest
    have hmiss : ∀ q ∈ (ts ++ (⟨.rightParen, r⟩ :: rest)).head?, q.ty ≠ .asterisk := by
      obtain ⟨q, qr, rfl, hq⟩ := TypeD.first h
      intro q' hq'
      simp at hq'
      subst hq'
      rcases hq with hq | hq
      · intro he; rw [he] at hq; exact absurd hq (by decide)
      · rw [hq.1]; simp
    rw [ifTok_hit, expect_bind_run, bind_run, ifTok_miss hmiss, ih _ (typeFollow (TypeD.bad_sub h) (by decide) _ _)]
    simp only
    rw [expect_bind_run]
    rfl
  | @atomic ts n bad h =>
    intro rest hf
    rw [itemType_eq]
    unfold itemTypeStep
    have hrun : atomicType (ts ++ rest) = .ok (tip .atomicOrUnionType n, rest) := by
      unfold atomicType
      rw [bind_ok (eqname_run h hf), if_neg (NameD.ne_nil h)]; rfl
    obtain ⟨k, r, rfl, hk⟩ := NameD.first h
    have hmiss : ∀ l : List TType, TType.name ∉ l → TType.bracedURILiteral ∉ l → ∀ q ∈ (k :: r ++ rest).head?, q.ty ∉ l := by
      intro l h1 h2 q hq
      simp at hq
      subst hq
      rcases hk with hk | hk <;> simpa [hk]
    have hmiss' : ∀ t, t ≠ TType.name → t ≠ TType.bracedURILiteral → ∀ q ∈ (k :: r ++ rest).head?, q.ty ≠ t := by
      intro t h1 h2 q hq
      simp at hq
      subst hq
      rcases hk with hk | hk <;> rw [hk]
      · exact h1.symm
      · exact h2.symm
    rw [orIfNil_nil (kindTest_none (hmiss _ (by decide) (by decide))), orIfNil_nil (subNone_none (hmiss' _ (by simp) (by simp)))]
    have h1 : functionTest itemType (k :: r ++ rest) = .ok (.nil, k :: r ++ rest) := by
      unfold functionTest; rw [ifTok_miss (hmiss' _ (by simp) (by simp))]; rfl
    have h2 : mapTest itemType (k :: r ++ rest) = .ok (.nil, k :: r ++ rest) := by
      unfold mapTest; rw [ifTok_miss (hmiss' _ (by simp) (by simp))]; rfl
    have h3 : arrayTest itemType (k :: r ++ rest) = .ok (.nil, k :: r ++ rest) := by
      unfold arrayTest; rw [ifTok_miss (hmiss' _ (by simp) (by simp))]; rfl
    rw [orIfNil_nil h1, orIfNil_nil h2, orIfNil_nil h3]
    exact orIfNil_ok hrun rfl
  | @paren l ts x bad r h ih =>
    intro rest _
    rw [itemType_eq]
    unfold itemTypeStep
    have e : ⟨.leftParen, l⟩ :: ts ++ [⟨.rightParen, r⟩] ++ rest = ⟨.leftParen, l⟩ :: (ts ++ (⟨.rightParen, r⟩ :: rest)) := by simp
    rw [e, orIfNil_nil rfl, orIfNil_nil rfl, orIfNil_nil rfl, orIfNil_nil rfl, orIfNil_nil rfl, orIfNil_nil rfl]
    unfold parenthesizedItemType
    rw [ifTok_hit, bind_ok (ih _ (typeFollow (TypeD.bad_sub h) (by decide) _ _)), expect_bind_run]
    rfl
  | empty => intro rest _; rfl
  | @one ts x bad h ih =>
    intro rest hf
    obtain ⟨k, r, hts, hk⟩ := TypeD.first h
    have hk' : k.ty ∈ typeStart := by rcases hk with hk | hk; exact hk; exact absurd rfl hk.2
    rw [seq_of_item hts hk' (ih rest (hf.mono (List.subset_append_right _ _))) (TypeD.ne_nil h), if_neg]
    cases rest with
    | nil => decide
    | cons q qr =>
      have := follow_cons.1 hf
      simp only [List.mem_append, not_or] at this
      exact this.1
  | @occurs ts x bad k h hk hkb ih =>
    intro rest _
    obtain ⟨k', r, hts, hk'⟩ := TypeD.first h
    have hk'' : k'.ty ∈ typeStart := by rcases hk' with hk' | hk'; exact hk'; exact absurd rfl hk'.2
    rw [List.append_assoc, List.singleton_append, seq_of_item hts hk'' (ih (k :: rest) (follow_cons.2 hkb)) (TypeD.ne_nil h), if_pos (by simpa using hk)]
    rfl
  | @last ts x bad h ih =>
    intro rest hf
    refine ⟨x, rest, [], ih rest (hf.mono (by simp)), commaList_none seqType_R ?_, TypeD.ne_nil h, rfl⟩
    intro k hk he
    have := hf k hk
    rw [he] at this
    simp at this
  | @more ts x bad c us r bad' h h' ih ih' =>
    intro rest hf
    obtain ⟨y, vs, l, h1, h2, h3, h4⟩ := ih' rest hf
    refine ⟨x, ⟨.comma, c⟩ :: (us ++ rest), y :: l, ?_, commaList_cons seqType_R h1 h2, TypeD.ne_nil h, ?_⟩
    · rw [List.append_assoc]
      exact ih _ (typeFollow (TypeD.bad_sub h) (by decide) _ _)
    · rw [h4]
      simp only [List.map_cons, linkChain]
      simp [XNode.isNil, XNode.ty, setRight]

theorem sequenceType_run {ts : List Tok} {x : XNode} {bad : List TType} (h : TypeD .seq ts x bad) {rest : List Tok} (hf : Follow bad rest) :
    sequenceType (ts ++ rest) = .ok (x, rest) := TypeD.runs h rest hf

theorem singleType_run {ts : List Tok} {x : XNode} {bad : List TType} (h : SingleTypeD ts x bad) {rest : List Tok} (hf : Follow bad rest) :
    singleType (ts ++ rest) = .ok (x, rest) := by
  unfold singleType
  cases h with
  | @plain ts n bad h =>
    rw [bind_ok (eqname_run h (hf.mono (by simp))), if_neg (NameD.ne_nil h), peek_bind]
    have : (rest.head?.getD Lexer.eofTok).ty ≠ .question := by
      cases rest with
      | nil => decide
      | cons q qr => have := follow_cons.1 hf; simp at this; exact this.1
    have hs : singleTypeName n (rest.head?.getD Lexer.eofTok) rest = .ok (n, rest) := by
      generalize rest.head?.getD Lexer.eofTok = q at this
      obtain ⟨t, s⟩ := q
      unfold singleTypeName
      cases t <;> first | rfl | simp at this
    rw [bind_ok hs]; rfl
  | @optional ts n bad h =>
    have hq : Follow bad ([⟨.question, S "?"⟩] ++ rest) := by
      rw [List.singleton_append, follow_cons]; exact fun hm => absurd (NameD.bad_sub h hm) (by simp)
    rw [List.append_assoc, bind_ok (eqname_run h hq), if_neg (NameD.ne_nil h), peek_bind]
    rfl

theorem asType_run {ts : List Tok} {x : XNode} (h : AsD ts x) {t : TType} (ht : t ∉ typeBad) (hn : t ≠ .name) (s : Str) (rest : List Tok) :
    asType (ts ++ ⟨t, s⟩ :: rest) = .ok (x, ⟨t, s⟩ :: rest) := by
  cases h with
  | none =>
    show (if t = .name ∧ s = S "as" then _ else _) = _
    rw [if_neg (by simp [hn])]; rfl
  | as h =>
    show sequenceType _ = _
    exact sequenceType_run h (typeFollow (TypeD.bad_sub h) ht s rest)

theorem param_run {d : Str} {ns ts : List Tok} {n : Str} {bad : List TType} {x : XNode} (hn : NameD [] ns n bad) (h : AsD ts x) {t : TType}
    (ht : t ∉ typeBad) (hn' : t ≠ .name) (s : Str) (rest : List Tok) :
    param (⟨.dollar, d⟩ :: (ns ++ (ts ++ ⟨t, s⟩ :: rest))) = .ok (.node .param n x .nil, ⟨t, s⟩ :: rest) := by
  unfold param
  have hf : Follow bad (ts ++ ⟨t, s⟩ :: rest) := by
    refine Follow.mono ?_ (NameD.bad_sub hn)
    cases h with
    | none => rw [List.nil_append, follow_cons]; intro hm; exact ht (by simp at hm; simp [hm, typeBad])
    | as h => rw [List.cons_append, follow_cons]; simp
  rw [ifTok_hit, bind_ok (eqnameRequired_run hn hf), bind_ok (asType_run h ht hn' s rest)]
  rfl

theorem ParamsD.runs {ts : List Tok} {x : XNode} (h : ParamsD ts x) (r : Str) (rest : List Tok) :
    ∃ y us l, param (ts ++ ⟨.rightParen, r⟩ :: rest) = .ok (y, us) ∧ looping (commaList param) us = .ok (l, ⟨.rightParen, r⟩ :: rest) ∧
      y.isNil = false ∧ x = linkChain (y :: l) .nil := by
  induction h with
  | @last d ns n bad ts t hn h =>
    refine ⟨.node .param n t .nil, ⟨.rightParen, r⟩ :: rest, [], ?_, commaList_none R.param (by simp), rfl, rfl⟩
    rw [List.cons_append, List.cons_append, List.append_assoc]
    exact param_run hn h (by decide) (by simp) r rest
  | @more d ns n bad ts t c us r' hn h h' ih =>
    obtain ⟨y, vs, l, h1, h2, h3, h4⟩ := ih
    refine ⟨.node .param n t .nil, ⟨.comma, c⟩ :: (us ++ ⟨.rightParen, r⟩ :: rest), y :: l, ?_, commaList_cons R.param h1 h2, rfl, ?_⟩
    · have e : ⟨.dollar, d⟩ :: ns ++ ts ++ ⟨.comma, c⟩ :: us ++ ⟨.rightParen, r⟩ :: rest =
          ⟨.dollar, d⟩ :: (ns ++ (ts ++ ⟨.comma, c⟩ :: (us ++ ⟨.rightParen, r⟩ :: rest))) := by simp
      rw [e]
      exact param_run hn h (by decide) (by simp) c _
    · rw [h4]; rfl

theorem paramList_run {ts : List Tok} {x : XNode} (h : ParamsD ts x) (r : Str) (rest : List Tok) :
    paramList (ts ++ ⟨.rightParen, r⟩ :: rest) = .ok (x, ⟨.rightParen, r⟩ :: rest) := by
  obtain ⟨y, us, l, h1, h2, h3, h4⟩ := ParamsD.runs h r rest
  unfold paramList
  rw [bind_ok h1]
  simp only [h3, Bool.false_eq_true, if_false]
  rw [bind_ok h2, h4]
  rfl

end Parser
end Amxml
