import Verif.Model.Parser

/-!
# The grammar of XPath 3.1 (specification)

The productions of the W3C recommendation *XML Path Language (XPath) 3.1*, appendix A.1, over the tokens of an expression, each with the
syntax tree the evaluator is given. `Derives c ts x bad`: the tokens `ts` form a phrase of the category `c` with the tree `x`.

`bad` lists the kinds of tokens that may not follow the phrase, because they would be read as a part of its end; these are the
extra-grammatical constraints of appendix A.1.2 (a lone `/` is not followed by a token that starts a step, a `?`, `*` or `+`
after a type is an occurrence indicator) and the longest-token rule (a name followed by `:` is the prefix of a longer name).

The categories `level l` are numbered by the precedence table of appendix A.4: `level 1` is the comma, `level 2` is `ExprSingle`, `level 3`
is `or`, ..., `level 19` is the path; `l + 1` binds tighter than `l`.
-/

namespace Amxml
namespace Spec

/-- A tree without children. -/
def tip (t : XNodeType) (n : Str) : XNode := .node t n .nil .nil

/-! ## Names -/

/-- `EQName`, with the prefix that a name without prefix gets. -/
inductive NameD (pre : Str) : List Tok → Str → List TType → Prop
  | ncname {n} : n ≠ [] → NameD pre [⟨.name, n⟩] (if pre = [] then n else pre ++ S ":" ++ n) [.colon]
  | prefixed {p n} : NameD pre [⟨.name, p⟩, ⟨.colon, S ":"⟩, ⟨.name, n⟩] (p ++ S ":" ++ n) []
  | uri {u n} : u ≠ [] → NameD pre [⟨.bracedURILiteral, u⟩, ⟨.name, n⟩] (u ++ n) []

/-- `Wildcard`. -/
inductive WildcardD : List Tok → Str → Prop
  | star : WildcardD [⟨.asterisk, S "*"⟩] (S "*")
  | anyLocal {p} : p ≠ [] → WildcardD [⟨.name, p⟩, ⟨.colonAsterisk, S ":*"⟩] (p ++ S ":*")
  | anyPrefix {n} : WildcardD [⟨.asteriskColon, S "*:"⟩, ⟨.name, n⟩] (S "*:" ++ n)
  | anyLocalUri {u} : u ≠ [] → WildcardD [⟨.bracedURILiteral, u⟩, ⟨.asterisk, S "*"⟩] (u ++ S "*")

/-! ## Types -/

/-- The part between the parentheses of `element(...)`: the name and the type it stands for. -/
inductive ElementArgsD : List Tok → Str → Str → Prop
  | none : ElementArgsD [] (S "*") (S "xs:anyType?")
  | name {ts n bad} : NameD [] ts n bad → ElementArgsD ts n (S "xs:anyType?")
  | star {s} : ElementArgsD [⟨.asterisk, s⟩] (S "*") (S "xs:anyType?")
  | nameType {ts n bad c us t bad'} : NameD [] ts n bad → NameD (S "xs") us t bad' → ElementArgsD (ts ++ ⟨.comma, c⟩ :: us) n t
  | starType {s c us t bad'} : NameD (S "xs") us t bad' → ElementArgsD (⟨.asterisk, s⟩ :: ⟨.comma, c⟩ :: us) (S "*") t
  | nameNillable {ts n bad c us t bad' q} : NameD [] ts n bad → NameD (S "xs") us t bad' →
      ElementArgsD (ts ++ ⟨.comma, c⟩ :: us ++ [⟨.question, q⟩]) n (t ++ S "?")
  | starNillable {s c us t bad' q} : NameD (S "xs") us t bad' →
      ElementArgsD (⟨.asterisk, s⟩ :: ⟨.comma, c⟩ :: us ++ [⟨.question, q⟩]) (S "*") (t ++ S "?")

/-- The part between the parentheses of `attribute(...)`. -/
inductive AttributeArgsD : List Tok → Str → Str → Prop
  | none : AttributeArgsD [] (S "*") (S "xs:anyType")
  | name {ts n bad} : NameD [] ts n bad → AttributeArgsD ts n (S "xs:anyType")
  | star {s} : AttributeArgsD [⟨.asterisk, s⟩] (S "*") (S "xs:anyType")
  | nameType {ts n bad c us t bad'} : NameD [] ts n bad → NameD (S "xs") us t bad' → AttributeArgsD (ts ++ ⟨.comma, c⟩ :: us) n t
  | starType {s c us t bad'} : NameD (S "xs") us t bad' → AttributeArgsD (⟨.asterisk, s⟩ :: ⟨.comma, c⟩ :: us) (S "*") t

/-- The kind tests `comment()`, `text()`, `namespace-node()`, `node()`. -/
def simpleTests : List (TType × XNodeType) := [
  (.commentTest, .commentTest), (.textTest, .textTest), (.namespaceNodeTest, .namespaceNodeTest), (.anyKindTest, .anyKindTest)]

/-- What stands for `ElementTest` in a tree. -/
def elementTree (n t : Str) : XNode := .node .elementTest n (tip .kindTestTypeName t) .nil

/-- `KindTest`, without the node around it. -/
inductive KindTestD : List Tok → XNode → Prop
  | simple {t x s l r} : (t, x) ∈ simpleTests → KindTestD [⟨t, s⟩, ⟨.leftParen, l⟩, ⟨.rightParen, r⟩] (tip x [])
  | element {s l ts n t r} : ElementArgsD ts n t → KindTestD (⟨.elementTest, s⟩ :: ⟨.leftParen, l⟩ :: ts ++ [⟨.rightParen, r⟩]) (elementTree n t)
  | attr {s l ts n t r} : AttributeArgsD ts n t →
      KindTestD (⟨.attributeTest, s⟩ :: ⟨.leftParen, l⟩ :: ts ++ [⟨.rightParen, r⟩]) (.node .attributeTest n (tip .kindTestTypeName t) .nil)
  | schemaElement {s l ts n bad r} : NameD [] ts n bad →
      KindTestD (⟨.schemaElementTest, s⟩ :: ⟨.leftParen, l⟩ :: ts ++ [⟨.rightParen, r⟩]) (tip .schemaElementTest n)
  | schemaAttribute {s l ts n bad r} : NameD [] ts n bad →
      KindTestD (⟨.schemaAttributeTest, s⟩ :: ⟨.leftParen, l⟩ :: ts ++ [⟨.rightParen, r⟩]) (tip .schemaAttributeTest n)
  | pi {s l r} : KindTestD [⟨.piTest, s⟩, ⟨.leftParen, l⟩, ⟨.rightParen, r⟩] (tip .pITest [])
  | piName {s l n r t} : t ∈ [TType.name, .stringLiteral] →
      KindTestD [⟨.piTest, s⟩, ⟨.leftParen, l⟩, ⟨t, n⟩, ⟨.rightParen, r⟩] (tip .pITest n)
  | document {s l r} : KindTestD [⟨.documentTest, s⟩, ⟨.leftParen, l⟩, ⟨.rightParen, r⟩] (.node .documentTest [] .nil .nil)
  | documentElement {s l s' l' ts n t r' r} : ElementArgsD ts n t →
      KindTestD (⟨.documentTest, s⟩ :: ⟨.leftParen, l⟩ :: ⟨.elementTest, s'⟩ :: ⟨.leftParen, l'⟩ :: ts ++ [⟨.rightParen, r'⟩, ⟨.rightParen, r⟩])
        (.node .documentTest [] (elementTree n t) .nil)
  | documentSchemaElement {s l s' l' ts n bad r' r} : NameD [] ts n bad →
      KindTestD (⟨.documentTest, s⟩ :: ⟨.leftParen, l⟩ :: ⟨.schemaElementTest, s'⟩ :: ⟨.leftParen, l'⟩ :: ts ++ [⟨.rightParen, r'⟩, ⟨.rightParen, r⟩])
        (.node .documentTest [] (tip .schemaElementTest n) .nil)

/-- The categories of types: `ItemType`, `SequenceType`, and `SequenceType ("," SequenceType)*`. -/
inductive TCat where
  | item | seq | seqs

/-- The type `item()*`. -/
def anyItems : XNode := .node .sequenceType (S "*") (tip .itemTest []) .nil

/-- The occurrence indicators. -/
def occurrence : List TType := [.question, .asterisk, .plus]

/-- `ItemType` and `SequenceType`. -/
inductive TypeD : TCat → List Tok → XNode → List TType → Prop
  | kind {ts x} : KindTestD ts x → TypeD .item ts (.node .kindTest [] x .nil) []
  | anyItem {s l r} : TypeD .item [⟨.item, s⟩, ⟨.leftParen, l⟩, ⟨.rightParen, r⟩] (tip .itemTest []) []
  | anyFunction {s l a r} : TypeD .item [⟨.function, s⟩, ⟨.leftParen, l⟩, ⟨.asterisk, a⟩, ⟨.rightParen, r⟩] (tip .anyFunctionTest []) []
  | function0 {s l r ts x bad} : TypeD .seq ts x bad →
      TypeD .item (⟨.function, s⟩ :: ⟨.leftParen, l⟩ :: ⟨.rightParen, r⟩ :: ⟨.name, S "as"⟩ :: ts)
        (.node .typedFunctionTest [] .nil (.node .returnType [] x .nil)) bad
  | function {s l ps p bad r ts x bad'} : TypeD .seqs ps p bad → TypeD .seq ts x bad' →
      TypeD .item (⟨.function, s⟩ :: ⟨.leftParen, l⟩ :: ps ++ ⟨.rightParen, r⟩ :: ⟨.name, S "as"⟩ :: ts)
        (.node .typedFunctionTest [] .nil (.node .returnType [] x p)) bad'
  | anyMap {s l a r} : TypeD .item [⟨.mapTest, s⟩, ⟨.leftParen, l⟩, ⟨.asterisk, a⟩, ⟨.rightParen, r⟩]
      (.node .mapTest [] (tip .atomicOrUnionType (S "xs:anyAtomicType")) anyItems) []
  | map {s l ks k bad c ts x bad' r} : NameD (S "xs") ks k bad → TypeD .seq ts x bad' →
      TypeD .item (⟨.mapTest, s⟩ :: ⟨.leftParen, l⟩ :: ks ++ ⟨.comma, c⟩ :: ts ++ [⟨.rightParen, r⟩])
        (.node .mapTest [] (tip .atomicOrUnionType k) x) []
  | anyArray {s l a r} : TypeD .item [⟨.arrayTest, s⟩, ⟨.leftParen, l⟩, ⟨.asterisk, a⟩, ⟨.rightParen, r⟩] (.node .arrayTest [] anyItems .nil) []
  | array {s l ts x bad r} : TypeD .seq ts x bad →
      TypeD .item (⟨.arrayTest, s⟩ :: ⟨.leftParen, l⟩ :: ts ++ [⟨.rightParen, r⟩]) (.node .arrayTest [] x .nil) []
  | atomic {ts n bad} : NameD (S "xs") ts n bad → TypeD .item ts (tip .atomicOrUnionType n) bad
  | paren {l ts x bad r} : TypeD .item ts x bad →
      TypeD .item (⟨.leftParen, l⟩ :: ts ++ [⟨.rightParen, r⟩]) (.node .parenthesizedItemType [] x .nil) []
  | empty {s l r} : TypeD .seq [⟨.emptySequence, s⟩, ⟨.leftParen, l⟩, ⟨.rightParen, r⟩]
      (.node .sequenceType [] (tip .emptySequenceTest []) .nil) []
  | one {ts x bad} : TypeD .item ts x bad → TypeD .seq ts (.node .sequenceType [] x .nil) (occurrence ++ bad)
  | occurs {ts x bad k} : TypeD .item ts x bad → k.ty ∈ occurrence → k.ty ∉ bad →
      TypeD .seq (ts ++ [k]) (.node .sequenceType k.name x .nil) []
  | last {ts x bad} : TypeD .seq ts x bad → TypeD .seqs ts (.node .param [] x .nil) bad
  | more {ts x bad c us r bad'} : TypeD .seq ts x bad → TypeD .seqs us r bad' →
      TypeD .seqs (ts ++ ⟨.comma, c⟩ :: us) (.node .param [] x r) bad'

/-- `SingleType`. -/
inductive SingleTypeD : List Tok → XNode → List TType → Prop
  | plain {ts n bad} : NameD [] ts n bad → SingleTypeD ts (.node .singleType [] (tip .typeName n) .nil) (.question :: bad)
  | optional {ts n bad} : NameD [] ts n bad →
      SingleTypeD (ts ++ [⟨.question, S "?"⟩]) (.node .singleType [] (tip .typeName (n ++ S "?")) .nil) []

/-- The optional `"as" SequenceType`, `item()*` by default. -/
inductive AsD : List Tok → XNode → Prop
  | none : AsD [] anyItems
  | as {ts x bad} : TypeD .seq ts x bad → AsD (⟨.name, S "as"⟩ :: ts) x

/-- `ParamList`. -/
inductive ParamsD : List Tok → XNode → Prop
  | last {d ns n bad ts t} : NameD [] ns n bad → AsD ts t → ParamsD (⟨.dollar, d⟩ :: ns ++ ts) (.node .param n t .nil)
  | more {d ns n bad ts t c us r} : NameD [] ns n bad → AsD ts t → ParamsD us r →
      ParamsD (⟨.dollar, d⟩ :: ns ++ ts ++ ⟨.comma, c⟩ :: us) (.node .param n t r)

/-! ## Expressions -/

/-- The binary operators with their precedence. -/
def binary : List (Nat × TType × XNodeType) := [
  (1, .comma, .operatorConcatenate),
  (3, .orT, .operatorOr),
  (4, .andT, .operatorAnd),
  (5, .valueEQ, .operatorValueEQ), (5, .valueNE, .operatorValueNE), (5, .valueLT, .operatorValueLT), (5, .valueLE, .operatorValueLE),
  (5, .valueGT, .operatorValueGT), (5, .valueGE, .operatorValueGE), (5, .generalEQ, .operatorGeneralEQ), (5, .generalNE, .operatorGeneralNE),
  (5, .generalLT, .operatorGeneralLT), (5, .generalLE, .operatorGeneralLE), (5, .generalGT, .operatorGeneralGT),
  (5, .generalGE, .operatorGeneralGE), (5, .isSameNode, .operatorIsSameNode), (5, .nodeBefore, .operatorNodeBefore),
  (5, .nodeAfter, .operatorNodeAfter),
  (6, .operatorConcat, .operatorConcat),
  (7, .to, .operatorTo),
  (8, .plus, .operatorAdd), (8, .minus, .operatorSubtract),
  (9, .asterisk, .operatorMultiply), (9, .div, .operatorDiv), (9, .iDiv, .operatorIDiv), (9, .mod, .operatorMod),
  (10, .union, .operatorUnion),
  (11, .intersect, .operatorIntersect), (11, .except, .operatorExcept),
  (18, .operatorMap, .operatorMap)]

/-- The levels whose operators associate to the left; those of 5 and 7 do not associate at all. -/
def leftAssoc : List Nat := [1, 3, 4, 6, 8, 9, 10, 11, 18]

/-- `instance of`, `treat as`, `castable as`, `cast as`: the operators on types. -/
inductive TypeOpD : Nat → TType → XNodeType → List Tok → XNode → List TType → Prop
  | instanceOf {ts x bad} : TypeD .seq ts x bad → TypeOpD 12 .instanceOf .operatorInstanceOf ts x bad
  | treatAs {ts x bad} : TypeD .seq ts x bad → TypeOpD 13 .treatAs .operatorTreatAs ts x bad
  | castableAs {ts x bad} : SingleTypeD ts x bad → TypeOpD 14 .castableAs .operatorCastableAs ts x bad
  | castAs {ts x bad} : SingleTypeD ts x bad → TypeOpD 15 .castAs .operatorCastAs ts x bad

/-- The kinds of tokens a step can start with. -/
def stepStart : List TType := [
  .stringLiteral, .integerLiteral, .decimalLiteral, .doubleLiteral, .dollar, .leftParen, .dot, .name, .bracedURILiteral, .function, .map,
  .array, .leftBracket, .question, .axisName, .at, .dotDot, .asterisk, .asteriskColon, .documentTest, .elementTest, .attributeTest,
  .schemaElementTest, .schemaAttributeTest, .piTest, .commentTest, .textTest, .namespaceNodeTest, .anyKindTest]

/-- The axes; the last component says whether the axis is a reverse axis. The namespace axis is not supported. -/
def axisNames : List (Str × XNodeType × Bool) := [
  (S "child", .axisChild, false), (S "descendant", .axisDescendant, false), (S "attribute", .axisAttribute, false),
  (S "self", .axisSelf, false), (S "descendant-or-self", .axisDescendantOrSelf, false),
  (S "following-sibling", .axisFollowingSibling, false), (S "following", .axisFollowing, false),
  (S "parent", .axisParent, true), (S "ancestor", .axisAncestor, true), (S "preceding-sibling", .axisPrecedingSibling, true),
  (S "preceding", .axisPreceding, true), (S "ancestor-or-self", .axisAncestorOrSelf, true)]

/-- `NodeTest`: the name and the left child of the node for the step. -/
inductive NodeTestD : List Tok → Str → XNode → List TType → Prop
  | name {ts n bad} : NameD [] ts n bad → NodeTestD ts n .nil (.sharp :: .colonAsterisk :: bad)
  | wildcard {ts n} : WildcardD ts n → NodeTestD ts n .nil []
  | kind {ts x} : KindTestD ts x → NodeTestD ts [] (.node .kindTest [] x .nil) []

/-- `for`, `let`, `some` and `every` clauses. -/
inductive Clause where
  | forC | letC | someC | everyC

namespace Clause

/-- The keyword the lexer has recognized. -/
def token : Clause → TType
  | .forC => .forT | .letC => .letT | .someC => .someT | .everyC => .every
/-- What stands between a variable and its expression. -/
def sep : Clause → Tok → Prop
  | .letC, k => k.ty = .bind
  | _, k => k = ⟨.name, S "in"⟩
/-- What stands between the bindings and the body. -/
def keyword : Clause → Str
  | .forC | .letC => S "return"
  | .someC | .everyC => S "satisfies"
/-- The node for the expression. -/
def tree : Clause → XNode → XNode
  | .forC, r => .node .forExpr (S "for") .nil r
  | .letC, r => .node .letExpr (S "let") .nil r
  | .someC, r => .node .someExpr (S "some") .nil r
  | .everyC, r => .node .everyExpr (S "every") .nil r
/-- The node for one binding. -/
def bind : Clause → XNodeType
  | .forC => .forVarBind | .letC => .letVarBind | .someC => .someVarBind | .everyC => .everyVarBind

end Clause

/-- Lists of things separated by commas: arguments, entries of a map, members of an array. -/
inductive ListKind where
  | argument | entry | member
  deriving DecidableEq

/-- The categories of expressions. -/
inductive Cat where
  /-- The operators by precedence. -/
  | level (l : Nat)
  /-- The bindings and the body of a `for`, `let`, `some` or `every` expression. -/
  | clause (c : Clause)
  /-- `RelativePathExpr`. -/
  | rel
  /-- `(("/" | "//") StepExpr)+`. -/
  | more
  /-- `StepExpr`. -/
  | step
  /-- `PostfixExpr`. -/
  | postfix
  /-- `PrimaryExpr`. -/
  | primary
  /-- `UnaryLookup`. -/
  | lookup
  /-- `PredicateList`. -/
  | preds (rev : Bool)
  /-- One element of a list. -/
  | elem (k : ListKind)
  /-- A list with at least one element. -/
  | elems (k : ListKind)
  /-- A list that may be empty. -/
  | list (k : ListKind)
  /-- An expression that may be absent. -/
  | option

/-- The next element of a list is the right child. -/
def followedBy (x r : XNode) : XNode :=
  match x with
  | .nil => .nil
  | .node t n l _ => .node t n l r

/-- The step that `//` stands for. -/
def dslash : XNode := tip .axisDescendantOrSelf (S "node()")

/-- The names of the nodes of a path carry no meaning. -/
def pathTop : Str := S "parse_relative_path_expr TOP"
/-- See `pathTop`. -/
def pathSlash : Str := S "parse_relative_path_expr Slash"
/-- See `pathTop`. -/
def pathSlash1 : Str := S "parse_relative_path_expr SlashSlash 1"
/-- See `pathTop`. -/
def pathSlash2 : Str := S "parse_relative_path_expr SlashSlash 2"

/-- The function exists and can be called with so many arguments. -/
def Callable (f : Str) (n : Nat) : Prop := checkFunctionSpec f n = true

/-- The productions. -/
inductive Derives : Cat → List Tok → XNode → List TType → Prop
  -- operators
  | tighter {l ts x bad} : 1 ≤ l → l < 19 → Derives (.level (l + 1)) ts x bad → Derives (.level l) ts x bad
  | left {l a x bad k t b y bad'} : (l, k.ty, t) ∈ binary → l ∈ leftAssoc → Derives (.level l) a x bad → k.ty ∉ bad →
      Derives (.level (l + 1)) b y bad' → Derives (.level l) (a ++ k :: b) (.node t k.name x y) bad'
  | nonassoc {l a x bad k t b y bad'} : (l, k.ty, t) ∈ binary → l ∉ leftAssoc → Derives (.level (l + 1)) a x bad → k.ty ∉ bad →
      Derives (.level (l + 1)) b y bad' → Derives (.level l) (a ++ k :: b) (.node t k.name x y) bad'
  | typeOp {l a x bad k t b y bad'} : Derives (.level (l + 1)) a x bad → k.ty ∉ bad → TypeOpD l k.ty t b y bad' →
      Derives (.level l) (a ++ k :: b) (.node t [] x y) bad'
  | arrow {a x bad k fs f bad' l args r z} : Derives (.level 16) a x bad → NameD (S "fn") fs f bad' →
      Derives (.list .argument) args z [] →
      Derives (.level 16) (a ++ ⟨.arrow, k⟩ :: fs ++ ⟨.leftParen, l⟩ :: args ++ [⟨.rightParen, r⟩])
        (.node .functionCall f .nil (.node .argumentTop [] x z)) []
  | arrowVar {a x bad k d vs v bad' l args r z} : Derives (.level 16) a x bad → NameD [] vs v bad' →
      Derives (.list .argument) args z [] →
      Derives (.level 16) (a ++ ⟨.arrow, k⟩ :: ⟨.dollar, d⟩ :: vs ++ ⟨.leftParen, l⟩ :: args ++ [⟨.rightParen, r⟩])
        (.node .applyArgument [] (tip .varRef v) (.node .argumentListTop [] (.node .argumentTop [] x z) .nil)) []
  | minus {s a x bad} : Derives (.level 18) a x bad → Derives (.level 17) (⟨.minus, s⟩ :: a) (.node .operatorUnaryMinus (S "-") .nil x) bad
  | plus {s a x bad} : Derives (.level 18) a x bad → Derives (.level 17) (⟨.plus, s⟩ :: a) (.node .operatorUnaryPlus (S "+") .nil x) bad
  -- for, let, some, every, if
  | clause {c k ts x bad} : Derives (.clause c) ts x bad → Derives (.level 2) (⟨c.token, k⟩ :: ts) (c.tree x) bad
  | bindLast {c d vs v bad k a x bad' b y bad''} : NameD [] vs v bad → c.sep k → Derives (.level 2) a x bad' → .name ∉ bad' →
      Derives (.level 2) b y bad'' →
      Derives (.clause c) (⟨.dollar, d⟩ :: vs ++ k :: a ++ ⟨.name, c.keyword⟩ :: b) (.node c.bind v x y) bad''
  | bindMore {c d vs v bad k a x bad' s b y bad''} : NameD [] vs v bad → c.sep k → Derives (.level 2) a x bad' →
      Derives (.clause c) b y bad'' →
      Derives (.clause c) (⟨.dollar, d⟩ :: vs ++ k :: a ++ ⟨.comma, s⟩ :: b) (.node c.bind v x y) bad''
  | cond {s l a x bad r b y bad' c z bad''} : Derives (.level 1) a x bad → Derives (.level 2) b y bad' → .name ∉ bad' → Derives (.level 2) c z bad'' →
      Derives (.level 2) (⟨.ifT, s⟩ :: ⟨.leftParen, l⟩ :: a ++ ⟨.rightParen, r⟩ :: ⟨.name, S "then"⟩ :: b ++ ⟨.name, S "else"⟩ :: c)
        (.node .ifExpr (S "if_expr") x (.node .ifThenElse (S "if_then_else") y z)) bad''
  -- paths
  | root {s} : Derives (.level 19) [⟨.slash, s⟩] (.node .operatorPath (S "parse_path_expr Slash") (tip .axisRoot (S "node()")) .nil) stepStart
  | rooted {s ts x bad} : Derives .rel ts x bad →
      Derives (.level 19) (⟨.slash, s⟩ :: ts) (.node .operatorPath (S "parse_path_expr Slash") (tip .axisRoot (S "node()")) x) bad
  | rootedAll {s ts x bad} : Derives .rel ts x bad →
      Derives (.level 19) (⟨.slashSlash, s⟩ :: ts)
        (.node .operatorPath (S "parse_path_expr SlashSlash 1") (tip .axisRoot (S "/"))
          (.node .operatorPath (S "parse_path_expr SlashSlash 2") dslash x)) bad
  | relative {ts x bad} : Derives .rel ts x bad → Derives (.level 19) ts x bad
  | oneStep {ts x bad} : Derives .step ts x bad → Derives .rel ts x bad
  | steps {a x bad b y bad'} : Derives .step a x bad → Derives .more b y bad' → Derives .rel (a ++ b) (.node .operatorPath pathTop x y) bad'
  | slashLast {s a x bad} : Derives .step a x bad → Derives .more (⟨.slash, s⟩ :: a) (.node .operatorPath pathSlash x .nil) bad
  | slashMore {s a x bad b y bad'} : Derives .step a x bad → Derives .more b y bad' →
      Derives .more (⟨.slash, s⟩ :: a ++ b) (.node .operatorPath pathSlash x y) bad'
  | dslashLast {s a x bad} : Derives .step a x bad →
      Derives .more (⟨.slashSlash, s⟩ :: a) (.node .operatorPath pathSlash1 dslash (.node .operatorPath pathSlash2 x .nil)) bad
  | dslashMore {s a x bad b y bad'} : Derives .step a x bad → Derives .more b y bad' →
      Derives .more (⟨.slashSlash, s⟩ :: a ++ b) (.node .operatorPath pathSlash1 dslash (.node .operatorPath pathSlash2 x y)) bad'
  -- steps
  | axis {w a rev s ts n x bad ps p} : (w, a, rev) ∈ axisNames → NodeTestD ts n x bad → Derives (.preds rev) ps p [] →
      Derives .step (⟨.axisName, w⟩ :: ⟨.colonColon, s⟩ :: ts ++ ps) (.node a n x p) (if ps = [] then bad else [])
  | atStep {s ts n x bad ps p} : NodeTestD ts n x bad → Derives (.preds false) ps p [] →
      Derives .step (⟨.at, s⟩ :: ts ++ ps) (.node .axisAttribute n x p) (if ps = [] then bad else [])
  | child {ts n x bad ps p} : NodeTestD ts n x bad → (∀ k ∈ ts.head?, k.ty ≠ .attributeTest ∧ k.ty ≠ .schemaAttributeTest) →
      Derives (.preds false) ps p [] →
      Derives .step (ts ++ ps) (.node .axisChild n x p) (if ps = [] then bad else [])
  | parent {s} : Derives .step [⟨.dotDot, s⟩] (tip .axisParent (S "node()")) []
  | noPreds {rev} : Derives (.preds rev) [] .nil []
  | preds {rev l a x bad r b y} : Derives (.level 1) a x bad → Derives (.preds rev) b y [] →
      Derives (.preds rev) (⟨.leftBracket, l⟩ :: a ++ ⟨.rightBracket, r⟩ :: b)
        (.node (if rev then .predicateRevTop else .predicateTop) (S "Predicate") x y) []
  | expression {ts x bad} : Derives .postfix ts x bad → Derives .step ts x bad
  -- postfix expressions
  | primary {ts x bad} : Derives .primary ts x bad → Derives .postfix ts x bad
  | filter {a x bad l b y bad' r} : Derives .postfix a x bad → Derives (.level 1) b y bad' →
      Derives .postfix (a ++ ⟨.leftBracket, l⟩ :: b ++ [⟨.rightBracket, r⟩])
        (.node .applyPredicate [] x (.node .predicateTop [] y .nil)) []
  | apply {a x bad l b y r} : Derives .postfix a x bad → Derives (.list .argument) b y [] →
      Derives .postfix (a ++ ⟨.leftParen, l⟩ :: b ++ [⟨.rightParen, r⟩])
        (.node .applyArgument [] x (.node .argumentListTop [] y .nil)) []
  | find {a x bad b y} : Derives .postfix a x bad → Derives .lookup b y [] → Derives .postfix (a ++ b) (.node .operatorMap [] x y) []
  -- primary expressions
  | string {s} : Derives .primary [⟨.stringLiteral, s⟩] (tip .stringLiteral s) []
  | integer {s} : Derives .primary [⟨.integerLiteral, s⟩] (tip .integerLiteral s) []
  | decimal {s} : Derives .primary [⟨.decimalLiteral, s⟩] (tip .decimalLiteral s) []
  | double {s} : Derives .primary [⟨.doubleLiteral, s⟩] (tip .doubleLiteral s) []
  | varRef {d vs v bad} : NameD [] vs v bad → Derives .primary (⟨.dollar, d⟩ :: vs) (tip .varRef v) bad
  | paren {l a x r} : Derives .option a x [] →
      Derives .primary (⟨.leftParen, l⟩ :: a ++ [⟨.rightParen, r⟩]) (.node .parenthesizedExpr [] x .nil) []
  | context {s} : Derives .primary [⟨.dot, s⟩] (tip .contextItem (S ".")) []
  | call {fs f bad l a x r} : NameD (S "fn") fs f bad → Derives (.list .argument) a x [] → Callable f x.chain.length →
      Derives .primary (fs ++ ⟨.leftParen, l⟩ :: a ++ [⟨.rightParen, r⟩])
        (.node (if ∃ y ∈ x.chain, y.ty = .argumentPlaceholder then .partialFunctionCall else .functionCall) f .nil x) []
  | reference {fs f bad s n} : NameD (S "fn") fs f bad →
      Derives .primary (fs ++ [⟨.sharp, s⟩, ⟨.integerLiteral, n⟩]) (tip .namedFunctionRef (f ++ S "#" ++ n)) []
  | function0 {s l r ts t c b y d} : AsD ts t → Derives .option b y [] →
      Derives .primary (⟨.function, s⟩ :: ⟨.leftParen, l⟩ :: ⟨.rightParen, r⟩ :: ts ++ ⟨.leftCurly, c⟩ :: b ++ [⟨.rightCurly, d⟩])
        (.node .inlineFunction (S "(inline function)") y (.node .returnType [] t .nil)) []
  | function {s l ps p r ts t c b y d} : ParamsD ps p → AsD ts t → Derives .option b y [] →
      Derives .primary (⟨.function, s⟩ :: ⟨.leftParen, l⟩ :: ps ++ ⟨.rightParen, r⟩ :: ts ++ ⟨.leftCurly, c⟩ :: b ++ [⟨.rightCurly, d⟩])
        (.node .inlineFunction (S "(inline function)") y (.node .returnType [] t p)) []
  | map {s c a x d} : Derives (.list .entry) a x [] →
      Derives .primary (⟨.map, s⟩ :: ⟨.leftCurly, c⟩ :: a ++ [⟨.rightCurly, d⟩]) (.node .map [] x .nil) []
  | curlyArray {s c a x d} : Derives .option a x [] →
      Derives .primary (⟨.array, s⟩ :: ⟨.leftCurly, c⟩ :: a ++ [⟨.rightCurly, d⟩]) (.node .curlyArray [] x .nil) []
  | squareArray {l a x r} : Derives (.list .member) a x [] →
      Derives .primary (⟨.leftBracket, l⟩ :: a ++ [⟨.rightBracket, r⟩]) (.node .squareArray [] x .nil) []
  | lookup {ts x} : Derives .lookup ts x [] → Derives .primary ts x []
  | lookupName {q n} : Derives .lookup [⟨.question, q⟩, ⟨.name, n⟩] (.node .unaryLookupByExpr [] (tip .stringLiteral n) .nil) []
  | lookupInteger {q n} : Derives .lookup [⟨.question, q⟩, ⟨.integerLiteral, n⟩] (.node .unaryLookupByExpr [] (tip .integerLiteral n) .nil) []
  | lookupAll {q s} : Derives .lookup [⟨.question, q⟩, ⟨.asterisk, s⟩] (tip .unaryLookupByWildcard (S "*")) []
  | lookupExpr {q l a x r} : Derives .option a x [] →
      Derives .lookup (⟨.question, q⟩ :: ⟨.leftParen, l⟩ :: a ++ [⟨.rightParen, r⟩])
        (.node .unaryLookupByExpr [] (.node .parenthesizedExpr [] x .nil) .nil) []
  -- lists
  | absent : Derives .option [] .nil []
  | present {ts x bad} : Derives (.level 1) ts x bad → Derives .option ts x []
  | empty {k} : Derives (.list k) [] .nil []
  | elems {k ts x bad} : Derives (.elems k) ts x bad → Derives (.list k) ts x []
  | lastElem {k ts x bad} : Derives (.elem k) ts x bad → Derives (.elems k) ts x bad
  | moreElems {k ts x bad c us y bad'} : Derives (.elem k) ts x bad → Derives (.elems k) us y bad' →
      Derives (.elems k) (ts ++ ⟨.comma, c⟩ :: us) (followedBy x y) bad'
  | argument {ts x bad} : Derives (.level 2) ts x bad → Derives (.elem .argument) ts (.node .argumentTop [] x .nil) bad
  | placeholder {q} : Derives (.elem .argument) [⟨.question, q⟩] (tip .argumentPlaceholder (S "?")) [.name, .integerLiteral, .asterisk, .leftParen]
  | member {ts x bad} : Derives (.level 2) ts x bad → Derives (.elem .member) ts (.node .arrayEntry [] x .nil) bad
  | entry {a x bad c b y bad'} : Derives (.level 2) a x bad → .colon ∉ bad → Derives (.level 2) b y bad' →
      Derives (.elem .entry) (a ++ ⟨.colon, c⟩ :: b) (.node .mapConstruct [] (.node .mapEntry [] x y) .nil) bad'

end Spec
end Amxml
