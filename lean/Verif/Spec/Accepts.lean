import Verif.Spec.Grammar
import Verif.Spec.Lexical

/-!
# What counts as an expression, from the other side (specification)

`Reads lax c ts x`: the tokens `ts` can be read as a phrase of the category `c` with the tree `x`. With `lax := False` these are the
productions of Verif/Spec/Grammar.lean, without the constraints on what follows a phrase (`Derives.reads` in Verif/Props/XAccepts.lean).

The productions that ask for `lax` are the ones the grammar does not have. There are nine of them: a step, a type, an argument or a parameter may
be missing; `axis::` and `@` may stand without a node test; the last predicate of a step may be `[]`; the last binding of a clause may
be missing; a word of the grammar may be replaced by any other word, or
be a string literal; `attribute(...)` is read on the child axis.
-/

namespace Amxml
namespace Spec

/-- The token is the word `w` of the grammar, or, in a lax reading, any name, or a string literal with this value. -/
def Word (lax : Prop) (w : Str) (k : Tok) : Prop := k = ⟨.name, w⟩ ∨ lax ∧ (k.ty = .name ∨ k = ⟨.stringLiteral, w⟩)

/-- `ItemType` and `SequenceType`. -/
inductive TypeA (lax : Prop) : TCat → List Tok → XNode → Prop
  | missing : lax → TypeA lax .item [] .nil
  | missingSeq : lax → TypeA lax .seq [] .nil
  | kind {ts x} : KindTestD ts x → TypeA lax .item ts (.node .kindTest [] x .nil)
  | anyItem {s l r} : TypeA lax .item [⟨.item, s⟩, ⟨.leftParen, l⟩, ⟨.rightParen, r⟩] (tip .itemTest [])
  | anyFunction {s l a r} : TypeA lax .item [⟨.function, s⟩, ⟨.leftParen, l⟩, ⟨.asterisk, a⟩, ⟨.rightParen, r⟩] (tip .anyFunctionTest [])
  | function0 {s l r k ts x} : Word lax (S "as") k → TypeA lax .seq ts x →
      TypeA lax .item (⟨.function, s⟩ :: ⟨.leftParen, l⟩ :: ⟨.rightParen, r⟩ :: k :: ts)
        (.node .typedFunctionTest [] .nil (.node .returnType [] x .nil))
  | function {s l ps p r k ts x} : TypeA lax .seqs ps p → Word lax (S "as") k → TypeA lax .seq ts x →
      TypeA lax .item (⟨.function, s⟩ :: ⟨.leftParen, l⟩ :: ps ++ ⟨.rightParen, r⟩ :: k :: ts)
        (.node .typedFunctionTest [] .nil (.node .returnType [] x p))
  | anyMap {s l a r} : TypeA lax .item [⟨.mapTest, s⟩, ⟨.leftParen, l⟩, ⟨.asterisk, a⟩, ⟨.rightParen, r⟩]
      (.node .mapTest [] (tip .atomicOrUnionType (S "xs:anyAtomicType")) anyItems)
  | map {s l ks k bad c ts x r} : NameD (S "xs") ks k bad → TypeA lax .seq ts x →
      TypeA lax .item (⟨.mapTest, s⟩ :: ⟨.leftParen, l⟩ :: ks ++ ⟨.comma, c⟩ :: ts ++ [⟨.rightParen, r⟩])
        (.node .mapTest [] (tip .atomicOrUnionType k) x)
  | anyArray {s l a r} : TypeA lax .item [⟨.arrayTest, s⟩, ⟨.leftParen, l⟩, ⟨.asterisk, a⟩, ⟨.rightParen, r⟩] (.node .arrayTest [] anyItems .nil)
  | array {s l ts x r} : TypeA lax .seq ts x →
      TypeA lax .item (⟨.arrayTest, s⟩ :: ⟨.leftParen, l⟩ :: ts ++ [⟨.rightParen, r⟩]) (.node .arrayTest [] x .nil)
  | atomic {ts n bad} : NameD (S "xs") ts n bad → TypeA lax .item ts (tip .atomicOrUnionType n)
  | paren {l ts x r} : TypeA lax .item ts x →
      TypeA lax .item (⟨.leftParen, l⟩ :: ts ++ [⟨.rightParen, r⟩]) (.node .parenthesizedItemType [] x .nil)
  | empty {s l r} : TypeA lax .seq [⟨.emptySequence, s⟩, ⟨.leftParen, l⟩, ⟨.rightParen, r⟩]
      (.node .sequenceType [] (tip .emptySequenceTest []) .nil)
  | one {ts x} : TypeA lax .item ts x → x ≠ .nil → TypeA lax .seq ts (.node .sequenceType [] x .nil)
  | occurs {ts x k} : TypeA lax .item ts x → x ≠ .nil → k.ty ∈ occurrence → TypeA lax .seq (ts ++ [k]) (.node .sequenceType k.name x .nil)
  | last {ts x} : TypeA lax .seq ts x → TypeA lax .seqs ts (.node .param [] x .nil)
  | more {ts x c us r} : TypeA lax .seq ts x → TypeA lax .seqs us r →
      TypeA lax .seqs (ts ++ ⟨.comma, c⟩ :: us) (.node .param [] x r)

/-- The optional `"as" SequenceType`, `item()*` by default. -/
inductive AsA (lax : Prop) : List Tok → XNode → Prop
  | none : AsA lax [] anyItems
  | as {ts x} : TypeA lax .seq ts x → AsA lax (⟨.name, S "as"⟩ :: ts) x

/-- `ParamList`; what follows a missing parameter is read but not kept. -/
inductive ParamsA (lax : Prop) : List Tok → XNode → Prop
  | last {d ns n bad ts t} : NameD [] ns n bad → AsA lax ts t → ParamsA lax (⟨.dollar, d⟩ :: ns ++ ts) (.node .param n t .nil)
  | more {d ns n bad ts t c us r} : NameD [] ns n bad → AsA lax ts t → ParamsA lax us r →
      ParamsA lax (⟨.dollar, d⟩ :: ns ++ ts ++ ⟨.comma, c⟩ :: us) (.node .param n t r)
  | missing : lax → ParamsA lax [] .nil
  | missingMore {c us r} : lax → ParamsA lax us r → ParamsA lax (⟨.comma, c⟩ :: us) .nil

/-- `instance of`, `treat as`, `castable as`, `cast as`: the operators on types. -/
inductive TypeOpA (lax : Prop) : Nat → TType → XNodeType → List Tok → XNode → Prop
  | instanceOf {ts x} : TypeA lax .seq ts x → x ≠ .nil → TypeOpA lax 12 .instanceOf .operatorInstanceOf ts x
  | treatAs {ts x} : TypeA lax .seq ts x → x ≠ .nil → TypeOpA lax 13 .treatAs .operatorTreatAs ts x
  | castableAs {ts x bad} : SingleTypeD ts x bad → TypeOpA lax 14 .castableAs .operatorCastableAs ts x
  | castAs {ts x bad} : SingleTypeD ts x bad → TypeOpA lax 15 .castAs .operatorCastAs ts x

/-- What stands between a variable and its expression. -/
def Clause.Sep (lax : Prop) : Clause → Tok → Prop
  | .letC, k => k.ty = .bind
  | _, k => Word lax (S "in") k

/-- The productions. -/
inductive Reads (lax : Prop) : Cat → List Tok → XNode → Prop
  -- operators
  | tighter {l ts x} : 1 ≤ l → l < 19 → Reads lax (.level (l + 1)) ts x → Reads lax (.level l) ts x
  | left {l a x k t b y} : (l, k.ty, t) ∈ binary → l ∈ leftAssoc → Reads lax (.level l) a x →
      Reads lax (.level (l + 1)) b y → Reads lax (.level l) (a ++ k :: b) (.node t k.name x y)
  | nonassoc {l a x k t b y} : (l, k.ty, t) ∈ binary → l ∉ leftAssoc → Reads lax (.level (l + 1)) a x →
      Reads lax (.level (l + 1)) b y → Reads lax (.level l) (a ++ k :: b) (.node t k.name x y)
  | typeOp {l a x k t b y} : Reads lax (.level (l + 1)) a x → TypeOpA lax l k.ty t b y →
      Reads lax (.level l) (a ++ k :: b) (.node t [] x y)
  | arrow {a x k fs f bad' l args r z} : Reads lax (.level 16) a x → NameD (S "fn") fs f bad' →
      Reads lax (.list .argument) args z →
      Reads lax (.level 16) (a ++ ⟨.arrow, k⟩ :: fs ++ ⟨.leftParen, l⟩ :: args ++ [⟨.rightParen, r⟩])
        (.node .functionCall f .nil (.node .argumentTop [] x z))
  | arrowVar {a x k d vs v bad' l args r z} : Reads lax (.level 16) a x → NameD [] vs v bad' →
      Reads lax (.list .argument) args z →
      Reads lax (.level 16) (a ++ ⟨.arrow, k⟩ :: ⟨.dollar, d⟩ :: vs ++ ⟨.leftParen, l⟩ :: args ++ [⟨.rightParen, r⟩])
        (.node .applyArgument [] (tip .varRef v) (.node .argumentListTop [] (.node .argumentTop [] x z) .nil))
  | minus {s a x} : Reads lax (.level 18) a x → Reads lax (.level 17) (⟨.minus, s⟩ :: a) (.node .operatorUnaryMinus (S "-") .nil x)
  | plus {s a x} : Reads lax (.level 18) a x → Reads lax (.level 17) (⟨.plus, s⟩ :: a) (.node .operatorUnaryPlus (S "+") .nil x)
  -- for, let, some, every, if
  | clause {c k ts x} : Reads lax (.clause c) ts x → Reads lax (.level 2) (⟨c.token, k⟩ :: ts) (c.tree x)
  | bindLast {c d vs v bad k a x w b y} : NameD [] vs v bad → c.Sep lax k → Reads lax (.level 2) a x → Word lax c.keyword w →
      Reads lax (.level 2) b y → Reads lax (.clause c) (⟨.dollar, d⟩ :: vs ++ k :: a ++ w :: b) (.node c.bind v x y)
  | bindMore {c d vs v bad k a x s b y} : NameD [] vs v bad → c.Sep lax k → Reads lax (.level 2) a x →
      Reads lax (.clause c) b y →
      Reads lax (.clause c) (⟨.dollar, d⟩ :: vs ++ k :: a ++ ⟨.comma, s⟩ :: b) (.node c.bind v x y)
  | bindMissing {c w b y} : lax → Word lax c.keyword w → Reads lax (.level 2) b y → Reads lax (.clause c) (w :: b) y
  | cond {s l a x r t b y e c z} : Reads lax (.level 1) a x → x ≠ .nil → Word lax (S "then") t → Reads lax (.level 2) b y → y ≠ .nil →
      Word lax (S "else") e → Reads lax (.level 2) c z → z ≠ .nil →
      Reads lax (.level 2) (⟨.ifT, s⟩ :: ⟨.leftParen, l⟩ :: a ++ ⟨.rightParen, r⟩ :: t :: b ++ e :: c)
        (.node .ifExpr (S "if_expr") x (.node .ifThenElse (S "if_then_else") y z))
  -- paths
  | root {s} : Reads lax (.level 19) [⟨.slash, s⟩] (.node .operatorPath (S "parse_path_expr Slash") (tip .axisRoot (S "node()")) .nil)
  | rooted {s ts x} : Reads lax .rel ts x →
      Reads lax (.level 19) (⟨.slash, s⟩ :: ts) (.node .operatorPath (S "parse_path_expr Slash") (tip .axisRoot (S "node()")) x)
  | rootedAll {s ts x} : Reads lax .rel ts x →
      Reads lax (.level 19) (⟨.slashSlash, s⟩ :: ts)
        (.node .operatorPath (S "parse_path_expr SlashSlash 1") (tip .axisRoot (S "/"))
          (.node .operatorPath (S "parse_path_expr SlashSlash 2") dslash x))
  | relative {ts x} : Reads lax .rel ts x → Reads lax (.level 19) ts x
  | oneStep {ts x} : Reads lax .step ts x → Reads lax .rel ts x
  | steps {a x b y} : Reads lax .step a x → x ≠ .nil → Reads lax .more b y → Reads lax .rel (a ++ b) (.node .operatorPath pathTop x y)
  | slashLast {s a x} : Reads lax .step a x → Reads lax .more (⟨.slash, s⟩ :: a) (.node .operatorPath pathSlash x .nil)
  | slashMore {s a x b y} : Reads lax .step a x → Reads lax .more b y →
      Reads lax .more (⟨.slash, s⟩ :: a ++ b) (.node .operatorPath pathSlash x y)
  | dslashLast {s a x} : Reads lax .step a x →
      Reads lax .more (⟨.slashSlash, s⟩ :: a) (.node .operatorPath pathSlash1 dslash (.node .operatorPath pathSlash2 x .nil))
  | dslashMore {s a x b y} : Reads lax .step a x → Reads lax .more b y →
      Reads lax .more (⟨.slashSlash, s⟩ :: a ++ b) (.node .operatorPath pathSlash1 dslash (.node .operatorPath pathSlash2 x y))
  -- steps
  | missing : lax → Reads lax .step [] .nil
  | missingTest {w a rev s} : lax → (w, a, rev) ∈ axisNames → Reads lax .step [⟨.axisName, w⟩, ⟨.colonColon, s⟩] .nil
  | missingName {s} : lax → Reads lax .step [⟨.at, s⟩] .nil
  | axis {w a rev s ts n x bad ps p} : (w, a, rev) ∈ axisNames → NodeTestD ts n x bad → Reads lax (.preds rev) ps p →
      Reads lax .step (⟨.axisName, w⟩ :: ⟨.colonColon, s⟩ :: ts ++ ps) (.node a n x p)
  | atStep {s ts n x bad ps p} : NodeTestD ts n x bad → Reads lax (.preds false) ps p →
      Reads lax .step (⟨.at, s⟩ :: ts ++ ps) (.node .axisAttribute n x p)
  | child {ts n x bad ps p} : NodeTestD ts n x bad → (lax ∨ ∀ k ∈ ts.head?, k.ty ≠ .attributeTest ∧ k.ty ≠ .schemaAttributeTest) →
      Reads lax (.preds false) ps p → Reads lax .step (ts ++ ps) (.node .axisChild n x p)
  | parent {s} : Reads lax .step [⟨.dotDot, s⟩] (tip .axisParent (S "node()"))
  | noPreds {rev} : Reads lax (.preds rev) [] .nil
  | preds {rev l a x r b y} : Reads lax (.level 1) a x → x ≠ .nil → Reads lax (.preds rev) b y →
      Reads lax (.preds rev) (⟨.leftBracket, l⟩ :: a ++ ⟨.rightBracket, r⟩ :: b)
        (.node (if rev then .predicateRevTop else .predicateTop) (S "Predicate") x y)
  | missingPred {rev l a r} : lax → Reads lax (.level 1) a .nil → Reads lax (.preds rev) (⟨.leftBracket, l⟩ :: a ++ [⟨.rightBracket, r⟩]) .nil
  | expression {ts x} : Reads lax .postfix ts x → Reads lax .step ts x
  -- postfix expressions
  | primary {ts x} : Reads lax .primary ts x → Reads lax .postfix ts x
  | filter {a x l b y r} : Reads lax .postfix a x → Reads lax (.level 1) b y →
      Reads lax .postfix (a ++ ⟨.leftBracket, l⟩ :: b ++ [⟨.rightBracket, r⟩])
        (.node .applyPredicate [] x (.node .predicateTop [] y .nil))
  | apply {a x l b y r} : Reads lax .postfix a x → Reads lax (.list .argument) b y →
      Reads lax .postfix (a ++ ⟨.leftParen, l⟩ :: b ++ [⟨.rightParen, r⟩])
        (.node .applyArgument [] x (.node .argumentListTop [] y .nil))
  | find {a x b y} : Reads lax .postfix a x → Reads lax .lookup b y → Reads lax .postfix (a ++ b) (.node .operatorMap [] x y)
  -- primary expressions
  | string {s} : Reads lax .primary [⟨.stringLiteral, s⟩] (tip .stringLiteral s)
  | integer {s} : Reads lax .primary [⟨.integerLiteral, s⟩] (tip .integerLiteral s)
  | decimal {s} : Reads lax .primary [⟨.decimalLiteral, s⟩] (tip .decimalLiteral s)
  | double {s} : Reads lax .primary [⟨.doubleLiteral, s⟩] (tip .doubleLiteral s)
  | varRef {d vs v bad} : NameD [] vs v bad → Reads lax .primary (⟨.dollar, d⟩ :: vs) (tip .varRef v)
  | paren {l a x r} : Reads lax .option a x →
      Reads lax .primary (⟨.leftParen, l⟩ :: a ++ [⟨.rightParen, r⟩]) (.node .parenthesizedExpr [] x .nil)
  | context {s} : Reads lax .primary [⟨.dot, s⟩] (tip .contextItem (S "."))
  | call {fs f bad l a x r} : NameD (S "fn") fs f bad → Reads lax (.list .argument) a x → Callable f x.chain.length →
      Reads lax .primary (fs ++ ⟨.leftParen, l⟩ :: a ++ [⟨.rightParen, r⟩])
        (.node (if ∃ y ∈ x.chain, y.ty = .argumentPlaceholder then .partialFunctionCall else .functionCall) f .nil x)
  | reference {fs f bad s n} : NameD (S "fn") fs f bad →
      Reads lax .primary (fs ++ [⟨.sharp, s⟩, ⟨.integerLiteral, n⟩]) (tip .namedFunctionRef (f ++ S "#" ++ n))
  | function0 {s l r ts t c b y d} : AsA lax ts t → Reads lax .option b y →
      Reads lax .primary (⟨.function, s⟩ :: ⟨.leftParen, l⟩ :: ⟨.rightParen, r⟩ :: ts ++ ⟨.leftCurly, c⟩ :: b ++ [⟨.rightCurly, d⟩])
        (.node .inlineFunction (S "(inline function)") y (.node .returnType [] t .nil))
  | function {s l ps p r ts t c b y d} : ParamsA lax ps p → p ≠ .nil → AsA lax ts t → Reads lax .option b y →
      Reads lax .primary (⟨.function, s⟩ :: ⟨.leftParen, l⟩ :: ps ++ ⟨.rightParen, r⟩ :: ts ++ ⟨.leftCurly, c⟩ :: b ++ [⟨.rightCurly, d⟩])
        (.node .inlineFunction (S "(inline function)") y (.node .returnType [] t p))
  | map {s c a x d} : Reads lax (.list .entry) a x →
      Reads lax .primary (⟨.map, s⟩ :: ⟨.leftCurly, c⟩ :: a ++ [⟨.rightCurly, d⟩]) (.node .map [] x .nil)
  | curlyArray {s c a x d} : Reads lax .option a x →
      Reads lax .primary (⟨.array, s⟩ :: ⟨.leftCurly, c⟩ :: a ++ [⟨.rightCurly, d⟩]) (.node .curlyArray [] x .nil)
  | squareArray {l a x r} : Reads lax (.list .member) a x →
      Reads lax .primary (⟨.leftBracket, l⟩ :: a ++ [⟨.rightBracket, r⟩]) (.node .squareArray [] x .nil)
  | lookup {ts x} : Reads lax .lookup ts x → Reads lax .primary ts x
  | lookupName {q n} : Reads lax .lookup [⟨.question, q⟩, ⟨.name, n⟩] (.node .unaryLookupByExpr [] (tip .stringLiteral n) .nil)
  | lookupInteger {q n} : Reads lax .lookup [⟨.question, q⟩, ⟨.integerLiteral, n⟩] (.node .unaryLookupByExpr [] (tip .integerLiteral n) .nil)
  | lookupAll {q s} : Reads lax .lookup [⟨.question, q⟩, ⟨.asterisk, s⟩] (tip .unaryLookupByWildcard (S "*"))
  | lookupExpr {q l a x r} : Reads lax .option a x →
      Reads lax .lookup (⟨.question, q⟩ :: ⟨.leftParen, l⟩ :: a ++ [⟨.rightParen, r⟩])
        (.node .unaryLookupByExpr [] (.node .parenthesizedExpr [] x .nil) .nil)
  -- lists
  | absent : Reads lax .option [] .nil
  | present {ts x} : Reads lax (.level 1) ts x → Reads lax .option ts x
  | empty {k} : Reads lax (.list k) [] .nil
  | nothing {k ts} : lax → Reads lax (.level 2) ts .nil → Reads lax (.list k) ts .nil
  | elems {k ts x} : Reads lax (.elems k) ts x → x ≠ .nil → Reads lax (.list k) ts x
  | lastElem {k ts x} : Reads lax (.elem k) ts x → Reads lax (.elems k) ts x
  | moreElems {k ts x c us y} : Reads lax (.elem k) ts x → Reads lax (.elems k) us y →
      Reads lax (.elems k) (ts ++ ⟨.comma, c⟩ :: us) (followedBy x y)
  | argument {ts x} : Reads lax (.level 2) ts x → x ≠ .nil → Reads lax (.elem .argument) ts (.node .argumentTop [] x .nil)
  | placeholder {q} : Reads lax (.elem .argument) [⟨.question, q⟩] (tip .argumentPlaceholder (S "?"))
  | missingPlaceholder {ts q} : lax → Reads lax (.level 2) ts .nil → Reads lax (.elem .argument) (ts ++ [⟨.question, q⟩]) (tip .argumentPlaceholder (S "?"))
  | missingArgument {ts} : lax → Reads lax (.level 2) ts .nil → Reads lax (.elem .argument) ts .nil
  | member {ts x} : Reads lax (.level 2) ts x → Reads lax (.elem .member) ts (.node .arrayEntry [] x .nil)
  | entry {a x c b y} : Reads lax (.level 2) a x → x ≠ .nil → Reads lax (.level 2) b y → y ≠ .nil →
      Reads lax (.elem .entry) (a ++ ⟨.colon, c⟩ :: b) (.node .mapConstruct [] (.node .mapEntry [] x y) .nil)
  | missingEntry {ts} : lax → Reads lax (.level 2) ts .nil → Reads lax (.elem .entry) ts (.node .mapConstruct [] .nil .nil)

/-! ## Texts -/

/-- The exponent of a number; in a lax reading the digits after a sign may be missing. -/
def ExponentA (lax : Prop) (e : Str) : Prop := ExponentL e ∨ lax ∧ ∃ c s, (c = 'e' ∨ c = 'E') ∧ (s = '+' ∨ s = '-') ∧ e = [c, s]

/-- A terminal and the token it is. In a lax reading a number may have a second exponent, and a braced URI an opening brace. -/
inductive LexemeA (lax : Prop) : Str → Tok → Prop
  | lexeme {w t} : Lexeme w t → LexemeA lax w t
  | uri {u} : lax → '}' ∉ u → LexemeA lax (S "Q{" ++ u ++ S "}") ⟨.bracedURILiteral, S "Q{" ++ u ++ S "}"⟩
  | exponent {m e} : lax → (m ≠ [] ∧ AllDigits m) ∨ DecimalL m → ExponentA lax e → LexemeA lax (m ++ e) ⟨.doubleLiteral, m ++ e⟩
  | exponents {m e f} : lax → DecimalL m → ExponentA lax e → ExponentA lax f → LexemeA lax (m ++ e ++ f) ⟨.doubleLiteral, m ++ e ++ f⟩

/-- The text consists of the terminals, with white space and comments between them. -/
inductive TextA (lax : Prop) : List Tok → Str → Prop
  | nil {b} : Blank b → TextA lax [] b
  | cons {b w t r ts} : Blank b → LexemeA lax w t → TextA lax ts r → TextA lax (t :: ts) (b ++ (w ++ r))

/-- The tokens `ts` are written by the terminals `us`: a word stands for itself or for one of the operators and keywords it can be. -/
inductive SpellsA : List Tok → List Tok → Prop
  | nil : SpellsA [] []
  | same {k ts us} : k.ty ≠ .innerName → SpellsA ts us → SpellsA (k :: ts) (k :: us)
  | operator {n t ts us} : (n, t) ∈ wordOperators → SpellsA ts us → SpellsA (⟨t, n⟩ :: ts) (⟨.innerName, n⟩ :: us)
  | pair {m n t ts us} : (m, n, t) ∈ wordPairs → SpellsA ts us → SpellsA (⟨t, m⟩ :: ts) (⟨.innerName, m⟩ :: ⟨.innerName, n⟩ :: us)
  | marked {n s t ts us} : (n, s, t) ∈ markedWords → (∃ k ∈ us.head?, k.ty = s) → SpellsA ts us → SpellsA (⟨t, n⟩ :: ts) (⟨.innerName, n⟩ :: us)
  | name {n ts us} : SpellsA ts us → SpellsA (⟨.name, n⟩ :: ts) (⟨.innerName, n⟩ :: us)

/-! ## Brackets -/

/-- The bracket that closes an opening one. -/
def closer : TType → Option TType
  | .leftParen => some .rightParen
  | .leftBracket => some .rightBracket
  | .leftCurly => some .rightCurly
  | _ => none

/-- The closing brackets. -/
def closing : List TType := [.rightParen, .rightBracket, .rightCurly]

/-- The brackets that are open are closed, the last one first; `st` are the closing brackets still expected. -/
def closes : List TType → List Tok → Bool
  | st, [] => st.isEmpty
  | st, k :: ts =>
    match closer k.ty with
    | some c => closes (c :: st) ts
    | none => if k.ty ∈ closing then (match st with | c :: st => c == k.ty && closes st ts | [] => false) else closes st ts

/-- Every opening bracket has its closing one. -/
def BracketsClosed (ts : List Tok) : Prop := closes [] ts = true

/-! ## Functions -/

/-- The functions of the library *XPath and XQuery Functions and Operators 3.1* that the code has, with the numbers of arguments they can be called
with. `concat` is not in the list: it takes any number of arguments. -/
def functions : List (Str × List Nat) := [
  (S "fn:nilled", [0, 1]), (S "fn:string", [0, 1]), (S "fn:data", [0, 1]), (S "fn:number", [0, 1]),
  (S "fn:name", [0, 1]), (S "fn:local-name", [0, 1]), (S "fn:namespace-uri", [0, 1]), (S "fn:root", [0, 1]), (S "fn:lang", [1, 2]),
  (S "fn:string-length", [0, 1]), (S "fn:normalize-space", [0, 1]), (S "fn:position", [0]), (S "fn:last", [0]),
  (S "fn:abs", [1]), (S "fn:ceiling", [1]), (S "fn:floor", [1]), (S "fn:round", [1]),
  (S "fn:codepoints-to-string", [1]), (S "fn:string-to-codepoints", [1]), (S "fn:compare", [2]), (S "fn:codepoint-equal", [2]),
  (S "fn:string-join", [1, 2]), (S "fn:substring", [2, 3]), (S "fn:upper-case", [1]), (S "fn:lower-case", [1]), (S "fn:translate", [3]),
  (S "fn:contains", [2]), (S "fn:starts-with", [2]), (S "fn:ends-with", [2]), (S "fn:substring-before", [2]), (S "fn:substring-after", [2]),
  (S "fn:true", [0]), (S "fn:false", [0]), (S "fn:boolean", [1]), (S "fn:not", [1]),
  (S "fn:empty", [1]), (S "fn:exists", [1]), (S "fn:head", [1]), (S "fn:tail", [1]), (S "fn:insert-before", [3]), (S "fn:remove", [2]),
  (S "fn:reverse", [1]), (S "fn:subsequence", [2, 3]), (S "fn:index-of", [2]), (S "fn:zero-or-one", [1]), (S "fn:one-or-more", [1]),
  (S "fn:exactly-one", [1]), (S "fn:count", [1]), (S "fn:avg", [1]), (S "fn:max", [1]), (S "fn:min", [1]), (S "fn:sum", [1, 2]),
  (S "fn:for-each", [2]), (S "fn:filter", [2]),
  (S "map:size", [1]), (S "map:keys", [1]), (S "map:contains", [2]), (S "map:get", [2]),
  (S "array:size", [1]), (S "array:get", [2]), (S "array:flatten", [1])]

/-- The function exists and can be called with so many arguments. -/
def Known (f : Str) (n : Nat) : Prop := f = S "fn:concat" ∨ ∃ e ∈ functions, e.1 = f ∧ n ∈ e.2

/-- Every call in the tree is one of a known function with the right number of arguments. -/
def CallsKnown : XNode → Prop
  | .nil => True
  | .node t n l r => (t = .functionCall ∨ t = .partialFunctionCall → Known n r.chain.length) ∧ CallsKnown l ∧ CallsKnown r

end Spec
end Amxml
