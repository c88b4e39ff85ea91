m("C01 C02","`encode_entity`/`decode_entity` as the literal sequence of replacements; induction on strings.")
m("C03","Trees with their text (Spec/Xml); induction on trees: the tokenizer reads back each serialised construct and the builder rebuilds the tree.")
m("C04","Invariant of parsed trees, merging of adjacent texts, then C03.")
m("C05","Explicit fuel bound for the token loop; characterisation of the inputs on which the start tag loop never returns.")
m("C06","The tokenizer's constructor removes carriage returns; equality of results and absence in tokens by induction.")
m("C07","Invariant relating the stack of open elements to the path of the current node, by induction on tokens.")
m("C08","Heap invariant by induction on tokens.")
m("C09 C10 C11 C12 C13","Equations for the tokenizer on a construct followed by any rest (Lemmas/Sax).")
m("C14","Every token accounts for the characters it consumed; induction on the number of tokens.")
m("C15 C16 C17","Heap functions unfolded; lemmas on attribute lists; frame statement for all other nodes.")
m("C18 C19 C20 C21","Heap functions unfolded; list of children before and after; frame statement for all other nodes.")
m("C22 C23","Induction over the tree represented in the heap; invariant over all histories that cached numbers of a document are either complete or recomputed.")
m("C24","Invariant over all histories of edits; witnesses for the edits that break it.")
m("C25","Liveness as reachability; induction on the path to the root.")
m("C26 C27 C28 C29","Induction on ancestors, names, trees.")
m("C30 C31","Each axis function related to the position in the list of nodes in document order; induction on the forest.")
m("C32 C33 C34","`sort_by_doc_order` and de-duplication characterised; lifted to expressions through `evaluate`.")
m("C35 C36","Equation for the predicate loop; the spec filters by position or truth.")
m("C37 C38 C39","Comparison loops reduced to existence of a pair; tables of types compared with a specification of comparability.")
m("C40 C41","Equations of `evaluate`; effective boolean value against a table by types.")
m("C42 C43","Induction on evaluation (Lemmas/Scope): which expressions leave the variables as they were.")
m("C44 C45 C46","Integer arithmetic on `Int` with range checks; types by a promotion table. Results that are not integers: Lemmas/Rounding proves the f64 operations correctly rounded (Spec/Rounding: nearest, ties to even, overflow to infinity).")
m("C47","Lookup functions against list lookup; key equality.")
m("C48","Case analysis over pairs of types; cast and castable share the conversion but for nodes.")
m("C49","Both functions defined from `get_nodeset` in the model, following the code; error cases.")
m("C50 C51 C52","Induction on the input of the lexer; nesting of comments by induction on the depth.")
m("C53","Node comparison against the position in document order.")
m("C54","Fuel-monotonicity of every parser (Lemmas/Parser), measure: tokens left.")
m("C55","Induction on derivations of the grammar: the parser run on the tokens of a derivation yields its tree; determinism of the grammar from it.")
m("C56 C57","From C32: the path operator as sorted union of images.")
m("C59 C60 C61 C62 C63","Function bodies unfolded; string lemmas by induction; lifted to calls through `evaluate` for arbitrary argument expressions.")
m("C64","The window computed with doubles related to rational numbers (Lemmas/F64Val).")
m("C65 C66","Function bodies unfolded; list lemmas.")
m("C68","Floor, ceiling, absolute value and rounding of doubles as exact operations on the rational value; the floor of the correctly rounded sum q + 0.5 for every q (Lemmas/HalfRound).")
m("C76","Axes from C30/C31, node tests by cases; order from C32's lemmas.")
m("C77","Subtype relation as an inductive definition; the model's decision procedure shown equivalent by induction on the depth of the trees. C77_exact does the same with the relation the code decides (Spec/TypesCode), for all types.")
m("C78 C82","Reading of numerals specified by an inductive definition (Spec/Numerals) and related to the parsing of `f64` and `i64`; the value is correctly rounded (Spec/Rounding, Lemmas/Rounding), for every exponent.")
m("C75 C79","From the functions behind the operators (Props/XOper) to the expressions; `!` by induction over the sequence; string order as in C37.")
m("C81","Invariant of the evaluator, by induction over its recursion: no evaluation changes position and last (Lemmas/Focus); the rest from C35, C36 and C37.")
m("C67","`fn:sum` against a fold of the operator `+`, by induction; exactness through Lemmas/F64Val; the extremes by the loop invariant that the kept item is not exceeded by those seen, which needs transitivity of the comparison.")
m("C69","Constructors by induction on the entries; the functions through the table and C47; application and lookup by evaluating the trees the parser builds (examples show them).")
m("C70","Through the function table; root and namespaces by C25/C26; `fn:lang` along the path to the root.")
m("C71","The recursion over the tree against the list of all nodes below in document order, by induction on the forest.")
m("C72 C74","The call of a function item as an inductive specification (`ItemCalls`), the evaluator's `call` shown to follow it; binding of parameters by induction on them, types through C77.")

m("C58", "`Reads lax` (Verif/Spec/Accepts.lean) is the grammar with its liberties as explicit productions. Verif/Lemmas/Accepts.lean goes through the parser function by function: whatever it accepts has a reading. Verif/Lemmas/LexAccepts.lean does the same for the lexer: `TextA`, `SpellsA`. `Spec.Derives.reads` shows that the strict readings contain the grammar of C55.")
m("C73", "The tables of the code are compared with an independent table by evaluation in the kernel (finite, but the theorem is for all names and numbers); the rest is an induction over the readings of C58.")

m("C80", "Verif/Lemmas/Safety.lean: an induction over values (`Clean`: all function items in them come from trees that meet the conditions) for the whole function library and every operator; Verif/Props/XSafety.lean: an induction over the rank of functions and within it over the tree, for the evaluator, with the invariant that a variable that has a rank holds no function or one of that rank (`Named`); what is called outside of functions can then be anything. That a tree of the grammar has all its operands is an induction over derivations (`complete_derives`). `C80_endless` is an induction over the depth of recursion.")

m("C83", "Verif/Lemmas/RoundTrip.lean: the f64 of a nearest value is unique (`Rounded.unique`); 17 significant digits are always enough (`gap`, `rounded_near`, `shortAt_found`), so the digits found read back as the number; positional and scientific text are numerals of those digits (Spec/Numerals.lean), which the parser reads correctly rounded.")
m("C84", "Verif/Props/XRound.lean: the remainder of two f64 is an f64 (`val_rem`: it is a multiple of the smaller exponent and less than the divisor), so no rounding takes place. `idiv`: as C45, on the truncated operands.")

m("C85", "Verif/Model/Display.lean models Display. Verif/Props/XDisplay.lean: the text of an item, followed by a separator or the end, determines the item and the rest (`item_code`, by induction on the value, `comma_code` for lists); numbers by the round trip of C83.")
m("C86", "The tokens of the text, one for each literal, bracket and comma, form the text by the lexical rules of Spec/Lexical.lean, and the array constructor, parentheses and commas by the grammar of Spec/Grammar.lean (`Phrase`, by induction on the value); then C55_text_partial (compilation), C69 and C75 (evaluation), C82/C83 (numbers).")

m("C87", "Spec/Errors.lean defines which part of an expression is evaluated next (`Next`), one rule per construct, in terms of the values of the parts before it. Props/XErrors.lean: one lemma per loop of the evaluator (the first failing turn ends it), then a case distinction on `Next`, and induction on nesting.")

m("C88", "Spec/Paths.lean: paths as texts and as relations between nodes. Lemmas/Paths.lean: the lexer reads the text of a path token by token (each token ends where the next begins), the grammar derives the tokens, hence (C55) the parser yields the tree `p.tree`. Props/XQuery.lean: the value of the tree by induction on the path, using the step, predicate and path lemmas of C32, C35, C36, C37 and C76; `//` is descendant-or-self::node().")

m("C89", "Props/EditText.lean: the text of a node is `nodeText` of its content and the texts of its children (induction on the fuel of the serialiser); texts of nodes not above the edited node are unchanged (frame lemma); the place of a node in the text of the document (`Around`) by induction along the parent chain; then C16-C21 give the new children and attributes.")

m("C90", "Props/Pretty.lean: the pretty text is the plain text of a `decorated` tree (white space texts added between the nodes), by induction on the tree; the decorated tree is writable, so C11 gives the parsed tree, and trimming its joined texts gives the trimmed original. The first part by induction on the fuel of the serialiser.")

m("C91", "Lemmas/Same*.lean: a relation between the nodes of two heaps that respects links, contents and document order is respected by every function of the evaluator (a logical relation over values, environments, functions and the whole of `evalStep`), by induction on the fuel. Lemmas/SamePlace.lean: 'at the same place in document order' is such a relation for documents with equal trees, document order by C23. Lemmas/Shift.lean: two runs of the parser on the same text build the same nodes up to a shift of the ids.")

m("C92", "As C88, by mutual induction over conditions, predicates, steps, paths and queries: the text is read as the tokens (Lexical), which derive the tree (Grammar, C55), whose value follows from C76, C36, C32, C33, C37, C40, C41, C65 and C75.")

m("C93","Spec/Elsewhere gives the histories as an inductive relation. Every edit has its effect on one node q and its new children (the Effect structure of C23), and q has the root of the node the edit is called on (effect_elsewhere); nodes of the document have the document's root, so none of them is q. By induction over the history the nodes of the document are the same up to the cached order numbers, so the contents are, and C91 gives that queries have the same outcome at the same places, which are the same nodes. The texts are read from the contents alone.")

m("C94","Simulation of the evaluator with its stack of bindings by the lexical semantics: what is left behind are entries of quantified variables only (Frame), the entries of all other names are restored, and what an expression refers to is therefore as in its scope (Fits). By induction on the size of the syntax tree, with a lemma for each loop of the evaluator.")

m("C95","Spec/Markup.lean is a grammar of source texts with the tokens each construct stands for, and separately the XML grammar. Inversion of every reader of the tokenizer (Lemmas/Markup.lean) gives the construct each call consumed; the forward direction runs the tokenizer on each construct; induction over the token stream, combined with C07, gives acceptance. The XML grammar is embedded by mutual induction over content and nodes.")

m("C96","The XML grammar of Spec/Markup.lean carries the forest each text describes. By induction over the grammar the tokens of the text describe that forest (Trees); by induction over Trees the tree builder adds just these nodes (the Adds relation of Lemmas/Serial.lean), and ParsedDoc is determined by the links. For arbitrary accepted texts, TagsMatch token lists are decomposed into TextTrees by induction on the length.")

m("C97","The meaning with lexical scope of C94 is compositional: a simulation argument (Simulates in Lemmas/Laws.lean), by induction on the size of the syntax tree, shows that a relation between expressions at places that follows the syntax is sound; it is used for replacement, for places an expression cannot tell apart, for the renaming of bound variables and for putting in literals. Each law is proved at the level of meanings from the equations of its operators, with lemmas for nested loops and predicate chains; C94 takes the result back to the evaluator and the text of the queries.")

m("C98","Each rule is proved on the meaning of queries of Spec/Queries.lean. The rules about axes rest on facts about the trees of documents (Lemmas/PathTree.lean): ancestors through a parent or a child, two nodes above one node, and following as ancestor-or-self, following-sibling, descendant-or-self. The congruence is sound by induction; C92 takes the result to the texts and the entries of the API.")

m("C99","The alphabets are written out in Spec/Case.lean; each of the 128 characters is checked by the kernel, texts by induction.")

m("C100","Spec/Names.lean writes the character classes as sorted intervals that do not touch; a verified normalisation (sort, join) of the tables of the program gives these intervals, which the kernel computes, so membership agrees for every code point; the rest follows from the grammar of C95/C96.")

m("C101","Spec/Values.lean gives every float its value (a rational, an infinity or NaN) and the order of the values; the model's comparison of unpacked floats is shown to agree with it, then C37 and C39 carry it to expressions.")

m("C102","Spec/Visit.lean says what deleting a set of nodes makes of a forest and what setting an attribute makes of a node's content. One deletion filters the children of one node; a fold of them is a filter by the set, whatever the order and although some of the nodes may already be gone with their ancestors. That a query stays in its document is C91 with the document itself on both sides.")

m("C103","The node records after both edits are those of before (up to the cached order numbers), from the exact effects of the edits (C15-C21); then C91 gives the answers and the recursion of to_string the texts. For set_attribute twice the lists of attributes are compared (Reproduced); for the copies the text of the parent is put together again from the texts of its children (C89).")

m("C104","The effect of such an edit on contents and children of the old nodes is a function of these alone; functions of edits that are apart commute, so a permutation gives the same contents and children (induction on the permutation), hence the same forest, and C91 gives the answers. Invariant of a history of such edits: the document stays well linked, its nodes are among the old ones, attributes are leaves.")

m("C105","The numbers that are rounded to an f64 form an interval around it. A number with n significant digits in it gives one on the grid of n digits of the decade of the f64 that is no farther away, hence the floor or the ceiling, which are the candidates that are tried; so the search finds the least n and the nearest candidate. Trailing zeros are removed.")

m("C106","The addition and multiplication of floats of Lean's own model are commutative; everything else is a case distinction over the kinds of items; C37 for the general comparisons.")

m("C107","Spec/Shown.lean describes the notation as an inductive relation; a mutual induction over items, sequences, entries and members shows that the code writes it. The digits are C105.")

m("C108","Spec/Applied gives expressions with calls a meaning without an environment (a Scene holds focus and variables; a call looks at the body in a scene with only the parameters). Follows: evaluator and meaning agree, variables outside the quantified ones keep their stacks of bindings; by induction on the depth of calls and the size of the expression; binding and removing parameters is shown to restore every stack.")

m("C109","Every pass of decode_entity leaves a text without its pattern as it is and makes any other shorter (Shrinks, closed under composition), so the text is unchanged exactly if no pass found its pattern; the numeric reading is by analysis of the digits of u32::from_str_radix.")

m("C110","The text of a tree is parsed back to the tree with texts joined (as for C03, for any forest of contents, not only whole documents); the parsed document is one tree, made of nodes that were not there before (a node's root has a smaller number than the node). For the insertion, C93 keeps the other document and C89 says what the edit does to its text.")

m("C111","The reader of floats is inverted: whatever it accepts is derived as a numeral or a word of the grammar of Spec.NumberTexts, with the rounding of ofScientific proved for C82; whatever is so derived is accepted (texts of the grammar do not begin or end with white space, so trimming finds them).")

m("C112","Spec/Signatures.lean is the table of the recommendation, as types. The kernel parses the table of the program and compares the trees; the subtype relation is decided as for C77.")

m("C113","Induction on the number of positions read; the texts from C107; the nodes from C49.")

m("C114","Verif/Props/Sizes.lean: each construct of the grammar of C95 costs at most a multiple of its length (the number of nodes, of characters, of characters written), by cases over the constructs and induction over attributes; the cost of a forest is that of the tokens that describe it (induction over Trees); replacing references does not lengthen a text (induction over the replacements).")

m("C115","Verif/Props/XSizes.lean: induction over the productions of C58 (Verif/Spec/Accepts.lean): every production makes at most five nodes per token it has itself; tokens are not empty.")

m("C116","Verif/Props/XDepth.lean: the bounded evaluator is shown not to reach its bound, by induction over the bound; the invariant is that all function items in values and variables come from the query, are no deeper than it and have bodies without calls. C115 bounds the depth of the tree by the length of the text. Verif/Props/XRanked.lean does the same for queries with ranks, by induction over the bound with rank times depth of the query as budget for calls.")

m("C117","Verif/Props/Accessors.lean: the queries are compiled in the kernel or by C88's text-to-tree theorem, the single step is C76/C35, and the DOM side is unfolded. That attributes are attribute nodes is an invariant of all reachable heaps.")

m("C118","Verif/Props/Depth.lean: all these functions but the order numbers are instances of one recursion (walk), for which the upper and the lower bound are proved by induction on the forest below the node. For the order numbers the induction carries the heap along (Lemmas/Order). The nested documents of the lower bound are read by the round-trip theorem behind C04.")

m("C119","The parser's combinators are shown to agree for any two bounds above the number of openings left (`Nest`, Lemmas/Nesting); the lower bound by passing an error up through the levels of the grammar, the text of nested parentheses by the lexical and grammatical relations of C55.")

m("C120","Model/Program.lean models `xmlerror` and the errors of the tokenizer and of `new_document` with their texts; case analysis over the kinds.")
m("C121","Model/Program.lean models `main` over an arbitrary file system; by cases on the result of `new_document`, with C08 (the document is well linked, so that the serialiser returns), C95 (which texts are accepted) and the trees of C90 with one more line feed.")

m("C122","Lemmas/Faults.lean: each scanner fails exactly if its delimiter is missing, the loop over a start tag by strong induction on the text; the tokens delivered before the failure are the constructs of C95; `OpenAfter` against the construction of the tree by induction on the tokens.")

m("C123","Lemmas/Late.lean: by induction on the bound of the recursion no evaluation gives an error of these kinds; the library functions and operators are covered by Lemmas/Safety.lean, and the table of signatures that `instance of` parses is checked by the kernel (Lemmas/SigTable.lean).")
