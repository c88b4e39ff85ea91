# Formal model of ctjhoa/amxml in Lean 4 — design

The subject is the Rust crate in /repo (amxml 0.5.3): a SAX tokenizer (`src/sax.rs`), a DOM (`src/dom.rs`), and an XPath 2.0/3.x
processor (`src/xpath.rs`, `src/xpath_impl/*`). Nothing in /repo is executed; the model is written by reading it.

## Layout

* `lean/Verif/Model/*.lean`  — executable model, function by function; every definition cites file and lines (checked by `tools/cite.py`).
* `lean/Verif/Spec/*.lean`   — small independent specifications used in theorem statements: XML text, trees, grammar, axes, values.
* `lean/Verif/Lemmas/*.lean` — helper lemmas.
* `lean/Verif/Props/*.lean`  — the property theorems (`Cnn_…`), with an example beside them that meets their hypotheses.
* `lean/Verif/Check/*.lean`  — /repo's tests and documentation examples, run on the model (not proofs of properties).
* `properties.jsonl` (from `tools/props.py`), `MANIFEST.json` (from `tools/claims.py`), this file (from `tools/design.py`).
* `seeded/LOG.jsonl`         — log of mutation experiments on the model, run by `tools/mutate.py`.

## Trusted base

* Lean 4.33.0's kernel. Axioms: at most `propext`, `Classical.choice`, `Quot.sound` (as `#print axioms` reports for every theorem named in
  the manifest). No axioms of our own, no `native_decide`, no `bv_decide`. `decide +kernel` is used for closed examples and finite tables:
  it is checked by the kernel.
* Two `opaque` constants, `unicodeUpper` and `unicodeLower` (Model/Func.lean), stand for the Unicode case tables of Rust's
  `to_uppercase` / `to_lowercase` on texts with characters outside ASCII. No theorem says anything about their values.
* Fidelity of the model to /repo rests on reading, and on the checks below. The points where the representation differs are listed below.

## What is modelled

| code | model |
| --- | --- |
| `sax.rs` | `Model/Chars`, `Model/Entity`, `Model/Sax`: character tables (complete), entity decoding, the tokenizer |
| `dom.rs` | `Model/Entity` (`encode_entity`), `Model/Dom`: building, navigation, attributes, all edits, document order, serialisation (also the indented form); `Model/Liveness`: `Rc`/`Weak` |
| `xpath_impl/lexer.rs` | `Model/Lexer`, complete |
| `xpath_impl/parser.rs` | `Model/Parser`, complete; the syntax tree printer in `Model/Display` |
| `xpath_impl/xitem.rs`, `xsequence.rs`, `oper.rs`, `helpers.rs` | `Model/XNode`, `Model/XItem`, `Model/XSeq`; `Model/Display`: the texts of nodes, items and sequences (`Display`) |
| `xpath_impl/eval.rs` | `Model/Axes`, `Model/Types`, `Model/Eval`: axes, node tests, sequence types, the evaluator |
| `xpath_impl/func.rs` | `Model/Func`: all functions of both tables |
| `xpath.rs` | the queries at the end of `Model/Eval` (`get_nodeset`, `each_node`, `get_first_node`, `eval_xpath`); `to_string` in `Model/Display` |
| std `f64` | `Model/F64`: Lean's `Float.Model` (IEEE 754 binary64 by bit patterns, kernel reducible) and `%`, floor, ceil, parsing and printing defined on it |

Not modelled: the texts of the error messages of the XPath part (only the kind of the error is kept; the texts of the errors of `sax.rs` and `dom.rs` and the prefixes of
`xmlerror.rs` are modelled, C120), the allocation and stack limits of the machine (how deep the recursion goes is modelled, C116 and C118; how many bytes a stack frame takes is
not), the file system that `main.rs` reads from (a parameter of C121) and the `{:?}` form of errors, performance.

## Modelling conventions

* Rust `String`/`Vec<char>` → `List Char` (`Str`). Unicode scalar values are Lean `Char`s; both exclude surrogates.
* Cursors (`char_vec` + `index`, token vector + index) → the list of what is still to be read. Every put-back undoes the last read.
* `Rc<Node>` graph with interior mutability → an explicit heap `Heap` mapping node ids (`Nat`) to records
  (type, order, name, value, parent, children, attributes). `Rc::ptr_eq` → equality of ids. Mutating calls are functions to a new heap.
  `Weak::upgrade().unwrap()` is an explicit panic outcome when the target is dead (liveness = reachability from the handles the caller
  holds; `Model/Liveness`). A cycle of strong references that is not reachable is never freed by `Rc`; liveness by reachability ignores such leaks.
* `Reach h` (Spec/Edit.lean): the heaps obtained from the empty one by parsing documents and by calls of the public editing functions.
  Theorems on documents quantify over all these histories.
* Panics are explicit outcomes (`XErr.panic`), so "never panics" is a provable statement. Integer arithmetic is on `Int`, with the outcome
  panic where an `i64` overflows (debug build; a release build wraps around, which the model does not follow further).
* Divergence: loops and recursions that may diverge take fuel. `eval h n` evaluates with recursion depth at most `n`; by `eval_mono`
  (Lemmas/Eval.lean) a result stays the same with more depth. `evaluate h c x env` is the limit: the result for large `n`, or
  `.error .outOfFuel` if there is none for any `n`, that is if the code does not return. `Value`, `Fails` in Spec/XEval.lean are stated
  with `evaluate`, so theorems do not mention fuel. For the tokenizers and the parser, bounds that always suffice are proved (C05, C52, C54).
* Evaluation does not change the heap in the model: the code only fills in cached document order numbers, and no answer depends on
  these (C23).
* The evaluation environment (`EvalEnv`: variables, position, size) is threaded as state, because the code mutates it and leaves
  changes behind in some cases (C42).

## Fidelity checks

The model is executable, so /repo's own tests can be run on it, without building /repo. These are tests of the model, not proofs.

* `tools/repo_tests.py` extracts the 647 cases of XPath in /repo's unit tests (`subtest_xpath`, `subtest_eval_xpath`) and writes a Lean
  script that evaluates them in the model. 645 give the expected text. The other two are `upper-case` and `lower-case` of texts outside
  ASCII, which are opaque in the model.
* `lean/Verif/Check/RepoDocs.lean` (part of the build) has the examples of the API documentation of `dom.rs` and the 15 cases of the unit
  test of `sax.rs`, as `example`s evaluated by the kernel. All agree.

## Specifications

* XML texts and trees: `Spec/Xml`, `Spec/Tokens`, `Spec/Tree` (a tree type of documents, its text, well-formedness of heaps as trees).
* Edits: `Spec/Edit`.
* XPath syntax: `Spec/Grammar` is the EBNF of XPath 3.1 as an inductive relation between tokens and trees, with the precedence table as
  data; `Spec/Lexical` relates texts to tokens. They do not mention the parser or the lexer.
* XPath semantics: `Spec/XEval` (values of expressions, positions, filters), `Spec/Steps` (axes and node tests), `Spec/XCompare`,
  `Spec/XOper`, `Spec/XFunc`, `Spec/Numbers` (the rational number a binary64 stands for, rounding), and definitions beside the theorems.

## Where the code violates a property

The code does not have all properties a user expects. For each violation there is a theorem with a concrete witness
(`…_violated`, `…_counterexample` and the like in the table below), proved by evaluating the model, and the property is proved
for the remaining inputs (`…_partial`). The table says what is excluded. These were found by proofs that did not go through.

## Seeded bugs

`tools/mutate.py` applies one edit to a definition of the model in a scratch copy, rebuilds, cuts the proofs that fail until everything
else builds, and reports the theorems that depend on a failed one. `seeded/LOG.jsonl` has a line per edit. Where no theorem of the
claim failed, a theorem was added or tightened (field `tightened`).

## Plan and state per property

### C01 — Entity escaping round-trips

Escaping any string the way to_string() writes text and attribute values, and then decoding it the way the parser reads text and attribute values, gives back exactly the original string.

* How: `encode_entity`/`decode_entity` as the literal sequence of replacements; induction on strings.
* proved: `C01_decode_encode`

### C02 — Escaped text cannot contain markup

The text to_string() emits for a text node or attribute value contains none of < > " ' and every & in it begins one of the five predefined entity references, so no content can break out of its text node or quoted attribute value.

* How: `encode_entity`/`decode_entity` as the literal sequence of replacements; induction on strings.
* proved: `C02_encoded_has_no_markup`, `C02_escape`

### C03 — Parse of serialise is the identity on documents

For every document tree whose names are XML names and whose texts are representable (non-empty, not adjacent, no NUL/CR; comments without '-->', instructions without '?>'), new_document(doc.to_string()) succeeds and yields the same tree: same nodes, names, values, attributes, order.

* How: Trees with their text (Spec/Xml); induction on trees: the tokenizer reads back each serialised construct and the builder rebuilds the tree.
* proved: `C03_parse_of_serialise`

### C04 — Serialisation is a fixed point of parse-then-serialise

If s has no NUL, new_document(s) succeeds, the decoded content contains no NUL and no CR and every element has a non-empty name, then parsing its to_string() succeeds again and to_string() of the result is the same string. (Violated by the code for a document with an empty CDATA section: <a><![CDATA[]]></a> is written <a></a>, which is read and written as <a/>; proved for documents without empty text nodes, and proved that the tree is stable after one round in all cases.)

* How: Invariant of parsed trees, merging of adjacent texts, then C03.
* partial: `C04_serialise_fixed_point_partial`, `C04_exact`, `C04_stable_after_one_round`, `C04_empty_cdata_counterexample`
* Note: False of the code exactly for documents with an element that has only empty texts in it (C04_exact, witness); the tree is stable after one round in all cases.

### C05 — The tokenizer always terminates

Every call to raw_token() returns, and repeatedly calling it on any input reaches EOF after at most a number of calls linear in the input length; so new_document() always returns. (Violated by the code: an unterminated start tag, e.g. '<a', makes raw_token() loop forever; proved for all other inputs, and the divergence is proved exactly for inputs that end inside a start tag.)

* How: Explicit fuel bound for the token loop; characterisation of the inputs on which the start tag loop never returns.
* partial: `C05_bounded`, `C05_returns_partial`, `C05_diverges_iff`, `C05_unterminated_start_tag`
* Note: Termination is false of the code for inputs ending inside a start tag (C05_diverges_iff says exactly when); proved for NUL-free inputs whose last tag is closed.

### C06 — Carriage returns never influence the result

Parsing a string gives the same token stream and the same document as parsing that string with every CR character removed (so CRLF and LF documents are the same document); no token delivered verbatim contains a CR taken from the input.

* How: The tokenizer's constructor removes carriage returns; equality of results and absence in tokens by induction.
* proved: `C06_cr_irrelevant`, `C06_no_cr_in_tokens`

### C07 — Start and end tags must match

If new_document(s) succeeds then every end tag in the token stream closes the innermost element still open and has its name; if some end tag does not, new_document(s) returns an error and no document. (Elements still open at the end of the input are accepted: proved as a separate fact.)

* How: Invariant relating the stack of open elements to the path of the current node, by induction on tokens.
* proved: `C07_tags_match`, `C07_ok_tags_match`, `C07_mismatch_rejected`, `C07_unclosed_accepted`

### C08 — Parsed documents are well linked

In a document returned by new_document every child's and attribute's parent() is the node that lists it, no node is listed twice, attributes hang only off elements, the document root has no parent, and root() of every node is the document root.

* How: Heap invariant by induction on tokens.
* proved: `C08_well_linked`

### C09 — Self-closing tag is the same as an empty pair of tags

For every element name and attribute list, '<n .../>' yields the tokens StartElement, EndElement with that same name, exactly as '<n ...></n>' does, so both produce the same element.

* How: Equations for the tokenizer on a construct followed by any rest (Lemmas/Sax).
* proved: `C09_self_closing`

### C10 — CDATA sections are taken verbatim

A CDATA section produces one character-data token whose text is exactly the section's content (no entity decoding), and tokenizing continues right after ']]>'.

* How: Equations for the tokenizer on a construct followed by any rest (Lemmas/Sax).
* proved: `C10_cdata_verbatim`

### C11 — Comments and processing instructions are taken verbatim

'<!--c-->' produces a comment with exactly content c for every c without '-->'; '<?t d?>' produces an instruction with target t and data d for every name t and every d without '?>' that does not start with a space; tokenizing continues right after the construct.

* How: Equations for the tokenizer on a construct followed by any rest (Lemmas/Sax).
* proved: `C11_comment_verbatim`, `C11_pi_verbatim`

### C12 — Character references decode to the named character, once

'&#N;' and '&#xH;' in text or attribute values decode to the character with that code point, to U+3013 if there is no such character, and the result of a decoded reference is never itself decoded again. (The last clause is violated by the code: '&#38;lt;' decodes to '<', and so does every numeric reference to '&' before the rest of a reference; everywhere else it is proved.)

* How: Equations for the tokenizer on a construct followed by any rest (Lemmas/Sax).
* partial: `C12_references_partial`, `C12_text_partial`, `C12_attribute_partial`, `C12_numeric_amp_decoded_twice`
* Note: False of the code when a numeric reference to '&' stands before '#' or the name of an entity with ';' (decoded twice; witnesses); proved for all other texts, also those with such references elsewhere.

### C13 — DOCTYPE and other directives leave no trace

A balanced '<!...>' directive contributes no node: the document parsed from a text with the directive has the same nodes as without it, except that it separates the text on its two sides.

* How: Equations for the tokenizer on a construct followed by any rest (Lemmas/Sax).
* proved: `C13_directive_token`, `C13_directive_leaves_no_trace`

### C14 — No input is silently dropped

If new_document(s) succeeds then every character of s was consumed by some token. (Violated by the code when s contains U+0000: parsing stops there and reports success; proved for all s without U+0000.)

* How: Every token accounts for the characters it consumed; induction on the number of tokens.
* partial: `C14_eof_means_end`, `C14_nothing_dropped_partial`, `C14_nul_truncates`, `C14_nul_drops_rest`
* Note: False of the code for texts with U+0000 (witness); proved for all others.

### C15 — Reading an attribute back after writing it

After set_attribute(n,v), attribute_value(n) is v, and attribute_value(m) is unchanged for every other name m, on that element and on every other node.

* How: Heap functions unfolded; lemmas on attribute lists; frame statement for all other nodes.
* proved: `C15_set_then_get`

### C16 — Writing an attribute keeps the attribute list in order and duplicate free

set_attribute keeps the sequence of attribute names unchanged if the name exists and appends the name otherwise; hence it never creates a second attribute of the same name.

* How: Heap functions unfolded; lemmas on attribute lists; frame statement for all other nodes.
* proved: `C16_set_keeps_names`

### C17 — A deleted attribute is gone

After delete_attribute(n), attribute_value(n) is None and all other attributes are untouched. (Violated by the code when the source document repeats the attribute: the second occurrence survives; proved for elements without repeated attributes.)

* How: Heap functions unfolded; lemmas on attribute lists; frame statement for all other nodes.
* partial: `C17_delete_attribute_partial`, `C17_repeated_attribute_survives`, `C17_exact`
* Note: False of the code for elements with a repeated attribute (witness); proved for all others.

### C18 — append_child adds exactly one last child

After append_child(c), children() of the element is the old list followed by c, and no other node's children, attributes, name, value or type changes.

* How: Heap functions unfolded; list of children before and after; frame statement for all other nodes.
* proved: `C18_append_child`

### C19 — Sibling insertion puts a copy at the right place

insert_as_previous_sibling / insert_as_next_sibling put one new node with the argument's type, name, value, attributes and children immediately before / after self in its parent's children, leaving the relative order of all other children and every other node unchanged; they do nothing when self has no parent or is not among its parent's children.

* How: Heap functions unfolded; list of children before and after; frame statement for all other nodes.
* proved: `C19_insert_sibling`, `C19_insert_parent_cycle`
* Note: The witness C19_insert_parent_cycle shows that inserting a node's own parent makes a cyclic graph.

### C20 — delete_child removes exactly the given child

delete_child(c) removes the first occurrence of c from the children and nothing else; if c is not a child, nothing changes.

* How: Heap functions unfolded; list of children before and after; frame statement for all other nodes.
* proved: `C20_delete_child`

### C21 — replace_with substitutes in place

replace_with(x) makes the parent's children list the old list with self replaced, at the same position, by a new node with x's type, name, value, attributes and children.

* How: Heap functions unfolded; list of children before and after; frame statement for all other nodes.
* proved: `C21_replace_with`

### C22 — document_order is the document order

In a well-linked document document_order() is strictly increasing along document order (element, then its attributes in order, then its children's subtrees in order), so two nodes have equal order only if they are the same node.

* How: Induction over the tree represented in the heap; invariant over all histories that cached numbers of a document are either complete or recomputed.
* proved: `C22_document_order`, `C22_injective`, `C22_parsed`

### C23 — document_order is never stale

After any sequence of DOM edits and order queries on a well-linked document, document_order() gives the order of the current tree, not of an earlier one.

* How: Induction over the tree represented in the heap; invariant over all histories that cached numbers of a document are either complete or recomputed.
* proved: `C23_never_stale`, `C23_shared_nodes_counterexample`
* Note: For well-linked documents, as stated; the counterexample shows that the order is stale once a node is listed in two documents.

### C24 — Edits keep the tree well linked

After append_child / insert_* / replace_with, parent() of every node listed as a child is the node that lists it. (Violated by the code: append_child leaves the child's parent() at its old parent, and insert_*/replace_with leave the grandchildren's parent() at the original node; proved for the remaining operations and for inserting childless, attribute-less nodes.)

* How: Invariant over all histories of edits; witnesses for the edits that break it.
* partial: `C24_edits_keep_links_partial`, `C24_append_detached_partial`, `C24_exact`, `C24_append_foreign_breaks`, `C24_insert_breaks_grandchildren`
* Note: False of the code for append_child of a node with another parent and for insertion of a node with children (witnesses); proved for the remaining edits.

### C25 — Navigation never panics while the root is held

In a well-linked document whose document root handle is alive, parent(), root(), root_element(), namespace_uri() on any node never panic. (The code panics when the root handle has been dropped and only an inner node is held; proved as a separate fact.)

* How: Liveness as reachability; induction on the path to the root.
* proved: `C25_no_panic_while_root_held`, `C25_panics_when_root_dropped`

### C26 — namespace_uri finds the innermost declaration

namespace_uri() returns the value of the xmlns / xmlns:prefix attribute on the nearest ancestor-or-self element that has one, and the empty string if none has.

* How: Induction on ancestors, names, trees.
* proved: `C26_namespace_uri`

### C27 — Names split into prefix and local name

For every name, if it contains ':' then space_name() has no ':' and space_name() + ':' + local_name() is the name; otherwise space_name() is empty and local_name() is the name.

* How: Induction on ancestors, names, trees.
* proved: `C27_prefix_local`

### C28 — Serialisation is compositional

to_string() of an element with children is its start tag, inner_xml() and its end tag; inner_xml() is the concatenation of the children's to_string(); of the document root it is the concatenation of the children's; nothing outside the subtree influences it.

* How: Induction on ancestors, names, trees.
* proved: `C28_compositional`, `C28_inner_xml`, `C28_local`

### C29 — Child access is consistent

first_child() = nth_child(0); nth_child(n) is the n-th element of children() or None beyond it; root_element() is the first element child of the root or the root itself.

* How: Induction on ancestors, names, trees.
* proved: `C29_child_access`

### C30 — Axes partition the document

For every non-attribute node of a well-linked document, self, ancestor, descendant, preceding and following are pairwise disjoint and together contain every non-attribute node exactly once, each in document order.

* How: Each axis function related to the position in the list of nodes in document order; induction on the forest.
* proved: `C30_axes_partition`, `C30_ancestor_descendant`

### C31 — Sibling axes split the parent's children

preceding-sibling, self, following-sibling concatenated are exactly the parent's children, in order; both are empty for attributes and for the root.

* How: Each axis function related to the position in the list of nodes in document order; induction on the forest.
* proved: `C31_siblings`

### C32 — Path results come in document order without duplicates

A path expression E1/E2 whose result consists of nodes returns them in strictly increasing document order without duplicates, and contains exactly the nodes E2 yields for some node of E1.

* How: `sort_by_doc_order` and de-duplication characterised; lifted to expressions through `evaluate`.
* proved: `C32_path_order`, `C32_path_members`, `C32_path_atoms`
* Note: order and absence of duplicates for every path expression; contents for operands that leave the variable bindings as they found them

### C33 — union is sorted set union

A | B contains exactly the nodes of A and of B, each once, in document order; it is commutative, associative and idempotent.

* How: `sort_by_doc_order` and de-duplication characterised; lifted to expressions through `evaluate`.
* proved: `C33_union`, `C33_laws`, `C33_expression`

### C34 — intersect and except select by node identity

A intersect B (A except B) contains exactly those nodes of A that are (are not) in B, in A's order; together they are a partition of A.

* How: `sort_by_doc_order` and de-duplication characterised; lifted to expressions through `evaluate`.
* proved: `C34_intersect_except`, `C34_partition`, `C34_expression`

### C35 — Numeric predicates select by position

step[n] with an integer n selects exactly the n-th node counted along the axis direction (from the end in document order for reverse axes), nothing if n is out of range; position() and last() inside a predicate are the item's 1-based position and the length of the sequence being filtered.

* How: Equation for the predicate loop; the spec filters by position or truth.
* proved: `C35_filter_position`, `C35_step_position`, `C35_position_last`, `C35_literal`

### C36 — Non-numeric predicates keep the items whose predicate is true

seq[P] keeps exactly the items for which the effective boolean value of P is true, in order. (Violated by the code: a predicate evaluating to two or more nodes, or to a non-empty string, drops the item; proved for predicates whose value is a boolean, a single node or empty.)

* How: Equation for the predicate loop; the spec filters by position or truth.
* partial: `C36_filter_partial`, `C36_step_partial`, `C36_violated`, `C36_filter_exact`, `C36_step_exact`
* Note: violated for predicates whose value is a string, a non-integer number or several nodes; proved for booleans, integers, single nodes and the empty sequence; C36_filter_exact and C36_step_exact say what happens for every value

### C37 — General comparisons are existential

A op B (=, !=, <, <=, >, >=) is true iff some pair of atomised items, one from each side, satisfies the item comparison; it is false if either side is empty, never an error, = and != are symmetric, and < / > are each other's converse.

* How: Comparison loops reduced to existence of a pair; tables of types compared with a specification of comparability.
* proved: `C37_existential`, `C37_empty`, `C37_converse`, `C37_expression`

### C38 — Ordering with NaN is false

Any <, <=, >, >= comparison involving NaN is false. (Violated by the code for <= and >=, which are computed as negations; proved for < and > and for all non-NaN operands.)

* How: Comparison loops reduced to existence of a pair; tables of types compared with a specification of comparability.
* partial: `C38_lt_gt_partial`, `C38_no_nan_partial`, `C38_violated`, `C38_expression_partial`
* Note: False of the code for <= and >= (witness); proved for < and >, and for all operands when NaN is not involved.

### C39 — Value comparisons

eq/ne/lt/le/gt/ge require each operand to be empty or a singleton and raise a type error otherwise; an empty operand yields the empty sequence. (The last clause is violated by the code for ne, le and ge, which return true; proved for eq, lt, gt.)

* How: Comparison loops reduced to existence of a pair; tables of types compared with a specification of comparability.
* partial: `C39_singletons`, `C39_not_singleton`, `C39_empty_partial`, `C39_violated`, `C39_expression`, `C39_expression_empty_partial`
* Note: The empty-operand clause is false of the code for ne, le, ge (witness); everything else is proved.

### C40 — Effective boolean value

EBV of the empty sequence is false, of a sequence starting with a node true, of a singleton boolean/string/number its truth value, and any other sequence is a type error; and/or/not/if/boolean() all use this same value. true() is true and false() is false.

* How: Equations of `evaluate`; effective boolean value against a table by types.
* proved: `C40_ebv`, `C40_expression`, `C40_constants`

### C41 — and / or short-circuit

A or B does not evaluate B when A is true and A and B does not evaluate B when A is false; otherwise the result is B's effective boolean value.

* How: Equations of `evaluate`; effective boolean value against a table by types.
* proved: `C41_or_left`, `C41_or_right`, `C41_and_left`, `C41_and_right`, `C41_errors`

### C42 — Variables are lexically scoped

After evaluating let / for / some / every the variable bindings are what they were before. (Violated by the code for some/every leaving early: the bound variable stays visible; proved for let and for, and for some/every that run to completion.)

* How: Induction on evaluation (Lemmas/Scope): which expressions leave the variables as they were.
* partial: `C42_scope_partial`, `C42_let`, `C42_varRef`, `C42_some_leaks`, `C42_every_leaks`, `C42_some_hides`, `C42_dynamic_scope`, `C42_call_unbinds`
* Note: violated for some/every leaving early and for calls of function items; proved for every expression without these

### C43 — for concatenates, some is exists, every is for-all

for $x in S return E is the concatenation, in order, of E for each item of S; some (every) $x in S satisfies E is true iff E is true for some (every) item, evaluated left to right. (Violated by the code for bodies that leave variables behind, see C42; proved for bodies that leave the bindings as they found them.)

* How: Induction on evaluation (Lemmas/Scope): which expressions leave the variables as they were.
* partial: `C43_for_partial`, `C43_quantifiers_partial`, `C43_some_false`, `C43_some_true`, `C43_every_true`, `C43_every_false`, `C43_for_error`, `C43_violated`
* Note: violated for bodies that leave variables behind; proved for all others

### C44 — Range expressions

a to b is the sequence of all integers from a to b in increasing order, empty when a > b; its length is max(0, b-a+1).

* How: Integer arithmetic on `Int` with range checks; types by a promotion table. Results that are not integers: Lemmas/Rounding proves the f64 operations correctly rounded (Spec/Rounding: nearest, ties to even, overflow to infinity).
* proved: `C44_range`, `C44_empty`, `C44_expression`

### C45 — Integer division and modulus

For integers with b != 0 (and no overflow), (a idiv b)*b + (a mod b) = a, |a mod b| < |b| and a mod b has a's sign; b = 0 is a dynamic error for idiv, mod and div.

* How: Integer arithmetic on `Int` with range checks; types by a promotion table. Results that are not integers: Lemmas/Rounding proves the f64 operations correctly rounded (Spec/Rounding: nearest, ties to even, overflow to infinity).
* proved: `C45_idiv_mod`, `C45_zero`, `C45_overflow_panics`, `C45_expression`

### C46 — Numeric type promotion

The type of a +,-,*,mod result is the wider of the operand types (integer < decimal < double), div of two integers is a decimal, and a non-numeric operand is a type error. A result that is not an integer is the exact result correctly rounded to an f64 (nearest, ties to even, infinity beyond the range).

* How: Integer arithmetic on `Int` with range checks; types by a promotion table. Results that are not integers: Lemmas/Rounding proves the f64 operations correctly rounded (Spec/Rounding: nearest, ties to even, overflow to infinity).
* partial: `C46_rounded`, `C46_div_rounded`, `C46_determined`, `C46_exact`, `C46_div_exact`, `C46_type`, `C46_not_numeric_partial`, `C46_numeric_ok`, `C46_integer_exact`, `C46_violated`, `C46_expression`, `C46_expression_errors_partial`, `C46_expression_integers`
* Note: see C46_violated for the case where the code differs

### C47 — Maps and arrays

map lookup returns the value of the first entry whose key has the same string form; array lookup returns the i-th member exactly for 1 <= i <= size; flatten yields the members' items in order with nested arrays expanded at every depth.

* How: Lookup functions against list lookup; key equality.
* proved: `C47_map_get`, `C47_array_get`, `C47_flatten`

### C48 — castable agrees with cast

E castable as T is true exactly when E cast as T succeeds, and a successful cast has type T.

* How: Case analysis over pairs of types; cast and castable share the conversion but for nodes.
* partial: `C48_castable_partial`, `C48_cast_type`, `C48_violated`, `C48_expression_partial`, `C48_expression_type`, `C48_exact`
* Note: False of the code for nodes with an XML declaration at or below them (witness); proved for all other operands; C48_exact says what the two operators do for every node.

### C49 — each_node and get_first_node agree with get_nodeset

each_node(x,f) calls f exactly once per node of get_nodeset(x), in that order; get_first_node(x) is its first node, or None when it is empty or x is in error.

* How: Both functions defined from `get_nodeset` in the model, following the code; error cases.
* proved: `C49_value`, `C49_error`

### C50 — String literals round-trip

Quoting any string as an XPath literal with either quote character, doubling that character inside, is lexed as a single string-literal token with exactly that string, and evaluates to that string.

* How: Induction on the input of the lexer; nesting of comments by induction on the depth.
* proved: `C50_literal_token`, `C50_literal`, `C50_nul`

### C51 — XPath comments are skipped, nested to any depth

A properly nested comment (: ... :) anywhere a token may start contributes no token and the rest of the expression is tokenized as if it were absent.

* How: Induction on the input of the lexer; nesting of comments by induction on the depth.
* proved: `C51_comment`, `C51_comment_eval`, `C51_only_comments`, `C51_white`

### C52 — The lexer terminates and keeps its sentinels

Lexer::new returns for every input (a token list or an error), and the token list begins and ends with the EOF sentinel and contains no placeholder tokens, so the parser never reads outside it. (Violated by the code for an expression that consists of nothing but white space and comments: Lexer::new panics; proved for all others, and the panic is proved exactly for these.)

* How: Induction on the input of the lexer; nesting of comments by induction on the depth.
* partial: `C52_lexer_total`, `C52_lexer_total_partial`, `C52_panics`, `C52_violated`
* Note: violated for expressions of white space and comments only, which panic; proved for all others

### C53 — Node comparisons agree with document order

For any two nodes of one document, `is` holds exactly for the same node, `<<` exactly when the left node comes earlier in document order and `>>` exactly when it comes later, so exactly one of the three holds.

* How: Node comparison against the position in document order.
* proved: `C53_node_comparison`, `C53_expression`

### C54 — The expression parser terminates

Compiling an XPath expression always returns: a syntax tree, a syntax error or a not-implemented error; no loop of the parser runs for ever and it never asks for a token outside the token list. (A blank expression panics in the lexer, see C52.)

* How: Fuel-monotonicity of every parser (Lemmas/Parser), measure: tokens left.
* proved: `C54_parser_total`

### C55 — Expressions are compiled by the grammar

Every text that is an expression by the grammar of XPath 3.1 is compiled, and to the tree the grammar gives it: operators bind by the precedence table and associate to the left, terminals are the longest possible ones, words are operators or keywords only next to the right neighbours, predicates belong to the step before them. (Violated by the code for repeated signs, predicates after .., => with a parenthesized function, attribute() without axis, the namespace axis, and words next to *, $, ? and !; proved for all other productions.)

* How: Induction on derivations of the grammar: the parser run on the tokens of a derivation yields its tree; determinism of the grammar from it.
* partial: `C55_grammar_partial`, `C55_text_partial`, `C55_unambiguous`, `C55_violated`, `C55_words_violated`, `C55_accepts_more`
* Note: proved for the productions in Spec/Grammar.lean and the lexical rules in Spec/Lexical.lean; the code departs from the grammar where C55_violated and C55_words_violated say

### C56 — The path operator is associative

(A/B)/C and A/(B/C) have the same value. (Violated by the code when C yields atomic values: paths are grouped from the right and the nodes of A/B are then not freed of duplicates; proved for operands that yield nodes.)

* How: From C32: the path operator as sorted union of images.
* partial: `C56_associative_partial`, `C56_violated`, `C56_exact`
* Note: violated when the last step yields atomic values (C56_exact says what is given); proved for operands that yield nodes

### C57 — get_nodeset is in document order

get_nodeset returns the nodes of the expression in document order without duplicates, as documented. (Violated by the code for expressions that build sequences: comma, for, intersect and except of such; proved for path expressions with steps on all axes, all predicates, parentheses, filters, union, intersect and except.)

* How: From C32: the path operator as sorted union of images.
* partial: `C57_nodeset_order_partial`, `C57_violated`, `C49_value`
* Note: violated for sequence-building expressions; proved for path expressions; C49_value says what is returned in all cases: the nodes of the value, in the order of the value

### C58 — Texts that are not expressions are rejected

compile/eval_xpath accept a text only if it is an expression: if a text without U+0000 compiles, it is made of terminals of XPath 3.1 separated by white space and comments, its words can be read as names, operators and keywords so that the productions of the grammar derive it, and the tree evaluated is the one of the derivation. In particular all brackets are closed in the right order. Every other text is reported as a syntax error.

* How: `Reads lax` (Verif/Spec/Accepts.lean) is the grammar with its liberties as explicit productions. Verif/Lemmas/Accepts.lean goes through the parser function by function: whatever it accepts has a reading. Verif/Lemmas/LexAccepts.lean does the same for the lexer: `TextA`, `SpellsA`. `Spec.Derives.reads` shows that the strict readings contain the grammar of C55.
* partial: `C58_only_expressions_partial`, `C58_balanced`, `Spec.Derives.reads`, `C58_violated`
* Note: Proved: every text that compiles has a reading (terminals, words, productions) with the tree that is evaluated, hence its brackets are closed. Missing: the readings allow nine liberties that the grammar does not have (listed in Verif/Spec/Accepts.lean); C58_violated shows that the code takes them: `1 +` compiles and panics, `concat('a',,'b')` drops an argument, any word stands for `in` and `return`.

### C59 — String building functions

concat is the concatenation of the texts of its arguments (the empty sequence counts as the empty string, several items are a type error); string-join puts the separator between the texts of neighbouring items.

* How: Function bodies unfolded; string lemmas by induction; lifted to calls through `evaluate` for arbitrary argument expressions.
* proved: `C59_concat`, `C59_concat_several`, `C59_string_join`

### C60 — Substring search functions

contains, starts-with and ends-with tell exactly whether the second string occurs (at any place, at the front, at the end) in the first; substring-before and substring-after split at the leftmost occurrence and are empty when there is none.

* How: Function bodies unfolded; string lemmas by induction; lifted to calls through `evaluate` for arbitrary argument expressions.
* proved: `C60_contains`, `C60_before_after`

### C61 — Strings and code points

string-length counts code points, string-to-codepoints lists them, codepoints-to-string inverts it and rejects integers that are not code points. (Violated by the code: integers outside the range wrap around and surrogate pairs are joined; proved for the code points of every string.)

* How: Function bodies unfolded; string lemmas by induction; lifted to calls through `evaluate` for arbitrary argument expressions.
* partial: `C61_codepoints_partial`, `C61_violated`, `C61_exact`
* Note: violated for integers that are no code points; proved for the code points of every string; C61_exact says what every list of integers gives

### C62 — translate

translate(s,f,t) replaces each character of s by the character of t at the place of its first occurrence in f, drops it if t is too short and keeps it if f does not contain it. (Violated by the code when f repeats a character: the last occurrence counts; proved for f without repetition.)

* How: Function bodies unfolded; string lemmas by induction; lifted to calls through `evaluate` for arbitrary argument expressions.
* partial: `C62_translate_partial`, `C62_violated`, `C62_exact`
* Note: violated when the second argument repeats a character; C62_exact says what is computed for all arguments

### C63 — normalize-space

normalize-space strips leading and trailing white space and makes each run of white space inside a single space. (Violated by the code for every text of several words: the words are run together; proved for texts of at most one word.)

* How: Function bodies unfolded; string lemmas by induction; lifted to calls through `evaluate` for arbitrary argument expressions.
* partial: `C63_normalize_space_partial`, `C63_violated`, `C63_exact`
* Note: violated for every text of two or more words; C63_exact says what is computed

### C64 — substring and subsequence

substring(s,x,y) and subsequence(s,x,y) select the positions p with round(x) <= p < round(x)+round(y), those from round(x) on when y is absent. (Violated by the code where its rounding is wrong, for an infinite start without length and for huge starts, which panic; proved for all numbers below 2^61 in size that round rounds rightly, infinite lengths and NaN.)

* How: The window computed with doubles related to rational numbers (Lemmas/F64Val).
* partial: `C64_window_partial`, `C64_integers_partial`, `C64_special`, `C64_exact`, `C64_violated`
* Note: C64_exact says what is given for all numbers, and when the code panics; violated for the numbers fn:round gets wrong, a start of minus infinity without length, and huge starts; proved for all numbers below 2^61 in size that fn:round rounds rightly, infinite lengths and NaN

### C65 — Sequence functions

count, empty, exists, reverse, head, tail, insert-before and remove are what XPath says: insert-before keeps all items in order and puts the inserted ones before the position (clamped to the ends), remove drops exactly the item at the position.

* How: Function bodies unfolded; list lemmas.
* proved: `C65_count`, `C65_head_tail`, `C65_insert_before`, `C65_remove`, `C65_overflow`
* Note: insert-before at the smallest 64-bit integer panics (C65_overflow)

### C66 — Cardinality functions and index-of

zero-or-one, one-or-more and exactly-one return their argument unchanged when its length is as they say and are errors otherwise. fn:index-of gives the positions, counted from 1 and increasing, of the items equal to the second argument; items that cannot be compared with it count as different. (The last point is violated by the code: they are a type error.)

* How: Function bodies unfolded; list lemmas.
* partial: `C66_cardinality`, `C66_index_of_partial`, `C66_violated`
* Note: fn:index-of proved where the items can be compared; violated for others, which are a type error instead of different

### C67 — Aggregates

fn:sum of some items is 0 + x1 + ... + xn added from left to right as + does, each item that is no number counting as its fn:number, and of no items 0 or the second argument; so for integers it is the exact sum unless a partial sum overflows, and for other numbers the exact sum whenever the partial sums are f64 numbers. fn:avg is that sum divided by the number of items, empty for no items. fn:max and fn:min give an item of the sequence that no other item exceeds (is below), empty for no items, and a type error for items that cannot be compared; with NaN among the items the result is NaN. (Violated by the code: with NaN the result depends on the order of the items, nodes are compared as text and the result is a node, strings are added.)

* How: `fn:sum` against a fold of the operator `+`, by induction; exactness through Lemmas/F64Val; the extremes by the loop invariant that the kept item is not exceeded by those seen, which needs transitivity of the comparison.
* partial: `C67_sum`, `C67_sum_integers`, `C67_sum_exact`, `C67_avg`, `C67_extremes_partial`, `C67_extremes_error`, `C67_nan_exact`, `C67_violated`
* Note: C67_nan_exact says what NaN does; extremes proved for items that are ordered among each other (no NaN); violated as C67_violated says

### C68 — Rounding functions are exact

floor, ceiling and abs of a finite number are exactly the mathematical floor, ceiling and absolute value in the type of the argument; round is the nearest integer, halves upwards; the empty sequence gives the empty sequence. (round is violated by the code for exactly the largest number below one half and the odd integers between 2^52 and 2^53 in size; proved for all others.)

* How: Floor, ceiling, absolute value and rounding of doubles as exact operations on the rational value; the floor of the correctly rounded sum q + 0.5 for every q (Lemmas/HalfRound).
* partial: `C68_exact`, `C68_integer`, `C68_round_partial`, `C68_round_wrong`, `C68_violated`, `C68_not_a_number`
* Note: round is proved for all finite numbers but the largest below one half and the odd integers between 2^52 and 2^53 in size; for each of those it is off by one (C68_round_wrong)

### C69 — Map and array expressions

map { k1 : v1, ... } is the map with these entries in order, a key that is not exactly one item is an error; [v1, ...] is the array of these members and array { e } the array of the single items of e. map:size, map:keys, map:contains, map:get, array:size, array:get and array:flatten give what the XPath function library says about the entries and members; applying a map to a key, or an array to a position, gives the value, an array applied outside its bounds is an error; m?(e) gives the values of all keys of e in order, m?* all values in order, and on items that are no map or array is a type error. (Violated by the code: duplicate keys are kept, keys of different types with the same text are the same, applying a map to an absent key is an error, array:get out of range gives nothing, the keys in m?(e) are computed with the map as the context item.)

* How: Constructors by induction on the entries; the functions through the table and C47; application and lookup by evaluating the trees the parser builds (examples show them).
* partial: `C69_map_constructor`, `C69_map_constructor_error`, `C69_array_constructors`, `C69_map_functions`, `C69_array_functions_partial`, `C69_flatten`, `C69_apply_partial`, `C69_lookup_partial`, `C69_lookup_each_partial`, `C69_violated`
* Note: keys are told apart by their text only, as in the code; lookup proved for keys computed with the map as context item; the deviations from XPath are in C69_violated

### C70 — Functions about nodes

fn:name, fn:local-name and fn:namespace-uri of a node are its DOM name(), local_name() and namespace_uri(), the empty string for no node and an error for anything else; fn:root is the document root of the node's document; fn:nilled of an element tells whether its attribute xsi:nil is true, and is empty for other nodes; without argument these functions, fn:string, fn:data, fn:number, fn:string-length, fn:normalize-space and fn:nilled take the context item. fn:lang tells whether the xml:lang of the nearest ancestor-or-self is the language asked for or a sub-language, ignoring case. (Violated by the code for fn:lang: the outermost xml:lang counts, the argument's case matters.)

* How: Through the function table; root and namespaces by C25/C26; `fn:lang` along the path to the root.
* partial: `C70_names`, `C70_nilled`, `C70_root`, `C70_context`, `C70_lang_partial`, `C70_lang_exact`, `C70_violated`
* Note: C70_lang_exact says what fn:lang computes for all arguments; fn:lang proved where all xml:lang on the path agree and the language asked for is in lower case without sub-language; violated otherwise

### C71 — The text of a node

fn:string and fn:data of an element or document node is the concatenation of the texts of all text nodes below it in document order; of a text, attribute or comment node its value. fn:string of no item is empty, of a map, array or function or several items an error; fn:data replaces each node by its text and keeps all other items, in order. (Violated by the code: comments and processing instructions below an element count as text.)

* How: The recursion over the tree against the list of all nodes below in document order, by induction on the forest.
* partial: `C71_inner`, `C71_text_partial`, `C71_leaf`, `C71_sequences`, `C71_violated`
* Note: C71_inner says exactly what the code gives for every parsed document; the XPath rule holds without comments and instructions

### C72 — Functions taking functions

fn:for-each(S, F) is the concatenation of the values of F for the items of S in order; fn:filter(S, F) is the items of S, in order, for which the effective boolean value of F is true; F may be an inline function, a named function reference or a partial call, and anything but one function item as F is a type error. (Violated by the code: the fixed arguments of a partial call are computed anew at every call, with the variables of the caller.)

* How: The call of a function item as an inductive specification (`ItemCalls`), the evaluator's `call` shown to follow it; binding of parameters by induction on them, types through C77.
* partial: `C72_for_each_partial`, `C72_filter_partial`, `C72_no_function`, `C72_violated`, `C72_error`
* Note: proved with the fixed arguments of a partial call and the free variables of a body evaluated in the caller's variables; C72_error: the error is that of the first item for which the function fails

### C73 — Calls of unknown functions are rejected before evaluation

An expression that calls a function that does not exist, or an existing one with a number of arguments it cannot take, is rejected when it is compiled, wherever the call stands and whether or not it would be evaluated; every other call compiles.

* How: The tables of the code are compared with an independent table by evaluation in the kernel (finite, but the theorem is for all names and numbers); the rest is an induction over the readings of C58.
* partial: `C73_functions`, `C73_calls_checked_partial`, `C73_violated`, `C73_exact`
* Note: Proved: the table of functions and numbers of arguments, exactly; and that in every text without `=>` that compiles all calls are of functions in the table. Missing: calls with `=>` and named function references are not checked by the code (C73_violated); they fail when they are called (C73_exact).

### C74 — Function items and their application

An inline function, a named function reference and a partial call are function items; F(a, b, …) evaluates the arguments once, checks them against the types of the parameters (a mismatch is a type error) and has the value of the body with the parameters bound. (Violated by the code: only inline functions can be applied this way; too many arguments panic, missing ones leave the parameter empty; the result type is not checked; variables of the body are those of the caller.)

* How: The call of a function item as an inductive specification (`ItemCalls`), the evaluator's `call` shown to follow it; binding of parameters by induction on them, types through C77.
* partial: `C74_items`, `C74_apply_partial`, `C74_argument_type`, `C74_violated`, `C74_exact`
* Note: proved for inline functions with as many arguments as parameters, free variables taken from the caller; C74_exact says what every other number of arguments and every other value in the place of the function gives

### C75 — Concatenation and the map operator

The value of (A, B) is the items of A followed by the items of B: sequences do not nest, the comma is associative and () is neutral; parentheses only group. A || B is the text of A followed by the text of B, () counting as the empty text, several items being a type error. A ! B is the value of B with each item of A as context item, concatenated in the order of A, without sorting or removing duplicates.

* How: From the functions behind the operators (Props/XOper) to the expressions; `!` by induction over the sequence; string order as in C37.
* proved: `C75_concatenation`, `C75_flat`, `C75_concat`, `C75_map`

### C76 — Steps select by axis and node test

A step axis::test from a node gives exactly the nodes that are on the axis and pass the node test (by node kind and name: a name test wants the principal kind of the axis), each once, in document order; the empty sequence if there is none, never an error. (Violated by the code for *:n, document-node() and Q{uri}n, which select nothing, and for the following and preceding axes of attributes; proved for all thirteen axes and all other tests.)

* How: Axes from C30/C31, node tests by cases; order from C32's lemmas.
* partial: `C76_step_partial`, `C76_violated`, `C76_exact`
* Note: violated for *:n, document-node(), and following/preceding of attributes; proved for all axes and the tests in Spec.NTest; C76_exact: the others select nothing

### C77 — instance of decides the type

e instance of T gives true exactly if the value of e is of the sequence type T: as many items as the occurrence indicator admits, and every item of the item type, where a map is of type map(K,V) if all its entries are, an array of type array(T) if all its members are, and a function of type function(P1,...) as R if its signature is a subtype of that (parameters contravariant, result covariant). It never is an error. (Violated by the code: functions are no item(), parenthesized item types have no values, named kind tests are compared wrongly in function signatures; proved for all other types.)

* How: Subtype relation as an inductive definition; the model's decision procedure shown equivalent by induction on the depth of the trees. C77_exact does the same with the relation the code decides (Spec/TypesCode), for all types.
* partial: `C77_instance_partial`, `C77_function_partial`, `C77_violated`, `C77_exact`, `C77_subtypes`
* Note: violated as C77_violated says; C77_exact says what instance of gives for every type and every value whose functions are inline functions or references to library functions; proved for types without function signatures, and for function signatures of inline functions without maps, arrays and named processing instructions

### C78 — Casts convert values

x cast as T gives the value of x in the type T: a text that writes an integer gives that integer and a text that writes a number gives that number, correctly rounded to an f64 (white space around it is ignored), a number cast to xs:integer loses its fraction, numbers cast to xs:boolean are true unless zero or NaN, integers are written in decimal notation that reads back as the same integer; what has no value in the type is a type error. (Violated by the code for texts that are no numbers, which become 0 or NaN, and for NaN and infinity to xs:integer; fn:number of several items is 0 instead of an error; proved for the rest.)

* How: Reading of numerals specified by an inductive definition (Spec/Numerals) and related to the parsing of `f64` and `i64`; the value is correctly rounded (Spec/Rounding, Lemmas/Rounding), for every exponent.
* partial: `C78_integer_partial`, `C78_number_partial`, `C78_boolean_partial`, `C78_string`, `C78_errors`, `C78_violated`, `C78_number_many`
* Note: violated as C78_violated says; C111 says exactly what the casts of texts give

### C79 — Comparison of strings

fn:compare of two strings is -1, 0 or 1 as the first is before, equal to or after the second in the order of the code points; fn:codepoint-equal is true exactly for equal strings; an empty operand makes the result empty, other operands that are no strings are a type error.

* How: From the functions behind the operators (Props/XOper) to the expressions; `!` by induction over the sequence; string order as in C37.
* proved: `C79_compare`, `C79_other`

### C80 — Evaluation of an expression ends, with a value or an error

For every document, every start node and every expression that compiles, eval_xpath returns a value or an error: it neither recurses without end nor panics.

* How: Verif/Lemmas/Safety.lean: an induction over values (`Clean`: all function items in them come from trees that meet the conditions) for the whole function library and every operator; Verif/Props/XSafety.lean: an induction over the rank of functions and within it over the tree, for the evaluator, with the invariant that a variable that has a rank holds no function or one of that rank (`Named`); what is called outside of functions can then be anything. That a tree of the grammar has all its operands is an induction over derivations (`complete_derives`). `C80_endless` is an induction over the depth of recursion.
* partial: `C80_ends_partial`, `C80_no_panic_partial`, `C80_endless`, `C80_overflow`, `C80_violated`
* Note: Proved: queries end whose functions call only what is written at the place of the call, maps, arrays and, by name, functions bound by let whose own calls are of lower rank (C80_ends_partial: `Ranked`; a special case are queries whose functions call no functions); and if besides they are expressions of the grammar and do nothing on a list of things that can panic, they end with a value or an error. Missing: the rest, where the claim fails: `let $f := function() { $f() } return $f()` recurses for ever, integer overflow, `array {}`, `function($x) {}`, a map called without argument, `$f(?)`, too many arguments and `?*` panic.

### C81 — position() and last()

In a predicate position() is the number of the item in the filtered sequence, counted from 1 along the axis, and last() the number of its items, however many predicates and other expressions were evaluated before; so A[position() op n] is the items of A whose position p satisfies p op n, and A[position() = last()] is the last item. On the right of ! and / the numbers are those of the items of the left side. (Violated by the code for ! and /, which keep the numbers of the predicate around them, or 0; proved for predicates.)

* How: Invariant of the evaluator, by induction over its recursion: no evaluation changes position and last (Lemmas/Focus); the rest from C35, C36 and C37.
* partial: `C81_focus`, `C81_filter_partial`, `C81_step_partial`, `C81_last_partial`, `C81_violated`, `C81_exact`
* Note: proved for predicates; violated on the right of ! and /, where C81_exact says what is given

### C82 — Numerals denote their numbers

An integer literal, as an expression, has the integer it writes as its value; a decimal or double literal the number it writes, correctly rounded to an f64; fn:number of a text that writes a number gives that number, correctly rounded. (Violated by the code for integer literals of more than 64 bits, which become 0.)

* How: Reading of numerals specified by an inductive definition (Spec/Numerals) and related to the parsing of `f64` and `i64`; the value is correctly rounded (Spec/Rounding, Lemmas/Rounding), for every exponent.
* partial: `C82_integer_partial`, `C82_fraction`, `C82_number`, `C82_violated`, `C82_exact`
* Note: violated for integer literals of more than 64 bits, which are 0 (C82_exact)

### C83 — A number's text reads back as the number

The text of every integer, decimal and double, cast back to its type, is the same number, for NaN and infinities too; the text of a double given to fn:number is the double. Decimals and doubles other than zero are written in decimal notation without an exponent, and the number written is one that rounds to the value; whole numbers below 2^53 are written as the integer is.

* How: Verif/Lemmas/RoundTrip.lean: the f64 of a nearest value is unique (`Rounded.unique`); 17 significant digits are always enough (`gap`, `rounded_near`, `shortAt_found`), so the digits found read back as the number; positional and scientific text are numerals of those digits (Spec/Numerals.lean), which the parser reads correctly rounded.
* proved: `C83_round_trip`, `C83_notation`, `C83_whole`

### C84 — Division with remainder of decimals and doubles

If one of x and y is not an integer and y is not zero, x mod y is exactly x - y * t and x idiv y is the integer t, where t is x / y truncated towards zero. (Violated by the code for idiv, which truncates the operands first; proved for mod, and for idiv of whole numbers.)

* How: Verif/Props/XRound.lean: the remainder of two f64 is an f64 (`val_rem`: it is a multiple of the smaller exponent and less than the divisor), so no rounding takes place. `idiv`: as C45, on the truncated operands.
* partial: `C84_mod`, `C84_idiv_partial`, `C84_idiv_exact`, `C84_violated`
* Note: mod proved; idiv proved for whole numbers and false otherwise: `5.5 idiv 1.5` is 5 and `1 idiv 0.5` a division by zero

### C85 — to_string tells values apart

Two results of queries that are not the same sequence have different texts: the text given by to_string shows the number of items, their types, and the values. (Violated by the code where strings contain quote characters, which are not escaped, and for text nodes; proved for sequences of strings without quote characters, numbers, booleans, and maps and arrays of these.)

* How: Verif/Model/Display.lean models Display. Verif/Props/XDisplay.lean: the text of an item, followed by a separator or the end, determines the item and the rest (`item_code`, by induction on the value, `comma_code` for lists); numbers by the round trip of C83.
* partial: `C85_distinct_partial`, `C85_violated`
* Note: proved for values without nodes, functions and quote characters in strings; false otherwise

### C86 — to_string of a value is an expression for it

The text that to_string gives for a sequence of atomic values, arrays and maps is an XPath expression, and evaluating it, in any document, gives the sequence. (Violated by the code for booleans, NaN and infinities, maps, the least integer, and strings with quote characters; proved for all sequences of other strings, finite numbers, and arrays of these.)

* How: The tokens of the text, one for each literal, bracket and comma, form the text by the lexical rules of Spec/Lexical.lean, and the array constructor, parentheses and commas by the grammar of Spec/Grammar.lean (`Phrase`, by induction on the value); then C55_text_partial (compilation), C69 and C75 (evaluation), C82/C83 (numbers).
* partial: `C86_reads_partial`, `C86_violated`
* Note: proved for strings (without quote characters and NUL), finite numbers (without the least integer) and arrays; false otherwise

### C87 — Errors are not swallowed

If the evaluation of an expression comes to evaluate one of its parts (an operand, a condition or the branch it chooses, a body for an item of a sequence, a step for a node, a predicate for an item, an argument, a member of an array, a key or value of a map, the body of a function that is called) and the part fails, then the expression fails with the same error, whatever stands around it; so does the query. Parts that are not reached (the other branch, the right side of `or` after true, items behind the one that decides `some`) do not matter.

* How: Spec/Errors.lean defines which part of an expression is evaluated next (`Next`), one rule per construct, in terms of the values of the parts before it. Props/XErrors.lean: one lemma per loop of the evaluator (the first failing turn ends it), then a case distinction on `Next`, and induction on nesting.
* proved: `C87_part`, `C87_nested`, `C87_query`
* Note: `Next` (Verif/Spec/Errors.lean) lists the parts of every kind of expression and when they are evaluated

### C88 — Location paths select what they say, end to end

The text of a location path - absolute or relative, steps separated by `/` and `//`, each step any of the twelve supported axes (or `@`, `.`, `..`, the child axis by default) with a node test (`n`, `p:n`, `*`, `p:*`, a kind test) and any number of predicates `[3]`, `[last()]`, `[step='v']`, `[.='v']` - evaluated from any node of a document by `eval_xpath`, `get_nodeset`, `get_first_node` or `each_node` delivers exactly the nodes the path leads to according to XPath, in document order, each once. In particular `//n` delivers all elements named n and `//n[@k='v']` those with an attribute k of value v, for all names (also names such as `div` or `for`) and all strings v.

* How: Spec/Paths.lean: paths as texts and as relations between nodes. Lemmas/Paths.lean: the lexer reads the text of a path token by token (each token ends where the next begins), the grammar derives the tokens, hence (C55) the parser yields the tree `p.tree`. Props/XQuery.lean: the value of the tree by induction on the path, using the step, predicate and path lemmas of C32, C35, C36, C37 and C76; `//` is descendant-or-self::node().
* proved: `C88_path`, `C88_named`, `C88_keyed`
* Note: from the text of the query to the nodes; `Verif/Spec/Paths.lean` gives the text and the meaning of a path; no white space between the tokens of the path; attributes of the document are not namespace declarations (`PlainAttrs`)

### C89 — Edits show in the text of the document, and only there

In a document whose nodes nest only in elements and the root, for every node e: after `append_child(c)` the `to_string()` of the document is what it was with the text of c behind the texts of e's children (and `inner_xml()` of e gains the text of c at its end); after `insert_as_previous_sibling(x)` / `insert_as_next_sibling(x)` / `replace_with(x)` the text of x stands immediately before / behind / in place of the text of the node; after `delete_child` the text of the child is gone; after `set_attribute` / `delete_attribute` the start tag has the new attributes. The text around the edited element is unchanged.

* How: Props/EditText.lean: the text of a node is `nodeText` of its content and the texts of its children (induction on the fuel of the serialiser); texts of nodes not above the edited node are unchanged (frame lemma); the place of a node in the text of the document (`Around`) by induction along the parent chain; then C16-C21 give the new children and attributes.
* proved: `C89_append_child`, `C89_siblings`, `C89_delete_child`, `C89_attributes`
* Note: `nodeText` and `Around` (Verif/Spec/EditText.lean): the text of a node from the texts of its children, and its place in the text of the document

### C90 — Pretty printing adds white space only

For every node for which `to_string()` returns a text, `to_pretty_string()` returns that text with white space added and nothing else changed; and for every document that `to_string` writes faithfully, `new_document` of the pretty text returns a document with the same tree - the same elements, attributes, comments, instructions and texts in the same order - except for white space at the ends of texts and texts of white space only.

* How: Props/Pretty.lean: the pretty text is the plain text of a `decorated` tree (white space texts added between the nodes), by induction on the tree; the decorated tree is writable, so C11 gives the parsed tree, and trimming its joined texts gives the trimmed original. The first part by induction on the fuel of the serialiser.
* proved: `C90_only_white_space`, `C90_pretty_parses`
* Note: `Spaced` and `trimForest` (Verif/Spec/Pretty.lean): a text with white space added, and a tree with white space removed at the ends of texts

### C91 — Queries depend on the content of the document only

If two documents - parsed, edited and queried before in whatever way, in one program or in two - have equal trees of contents (types, names, values, attributes and children in order), then every XPath expression asked at the same place of both has the same outcome: the same error, or values that differ only in that each node of the one stands where the other has the node at the same place. The values have equal texts; `get_nodeset` and `get_first_node` give the nodes at the same places. `new_document` of a text does not depend on what the program did before, and a document that can be written and read back answers every query like the document read back from its `to_string()`. Identity of nodes, allocation order and the history of the document are not observable.

* How: Lemmas/Same*.lean: a relation between the nodes of two heaps that respects links, contents and document order is respected by every function of the evaluator (a logical relation over values, environments, functions and the whole of `evalStep`), by induction on the fuel. Lemmas/SamePlace.lean: 'at the same place in document order' is such a relation for documents with equal trees, document order by C23. Lemmas/Shift.lean: two runs of the parser on the same text build the same nodes up to a shift of the ids.
* proved: `C91_same_answers`, `C91_same_text`, `C91_nodes`, `C91_parse_anywhere`, `C91_parsed_text`, `C91_reparsed`
* Note: `SamePlace`, `SameSeq`, `SameOutcome` (Verif/Spec/Same.lean): corresponding nodes, values and outcomes. Attribute nodes are assumed to have nothing below them (`AttrLeaves`), as in every parsed document

### C92 — Core XPath from the text to the nodes

Queries - unions `p|q` of location paths whose steps have any number of predicates, each a position, `last()` or a condition built from `boolean(q)`, `q='v'`, `q!='v'`, `p=q`, `count(q)=n`, `and`, `or` and `not()` over queries in turn, nested to any depth - mean what the recommendation says: the text of a query, given to eval_xpath, get_nodeset, get_first_node or each_node at any node of a document, yields exactly the nodes the query leads to, in document order, each once. The text of a condition yields true or false as it holds, `count(q)` the number of nodes. `[c][d]` and `[c and d]` keep the same nodes, `[not(c)]` the others.

* How: As C88, by mutual induction over conditions, predicates, steps, paths and queries: the text is read as the tokens (Lexical), which derive the tree (Grammar, C55), whose value follows from C76, C36, C32, C33, C37, C40, C41, C65 and C75.
* proved: `C92_query`, `C92_condition`, `C92_count`, `C92_filters`
* Note: The texts and the meaning of queries: Verif/Spec/Queries.lean. A bare path as a predicate is left out: with two or more nodes the code takes it for false (`C36_violated`), so existence is asked with `boolean(q)`

### C93 — What is done elsewhere leaves a document as it is

A program holds a document. Whatever it then does elsewhere - new_document of other texts, edits (set_attribute, delete_attribute, append_child, insert_as_previous_sibling, insert_as_next_sibling, delete_child, replace_with) called on nodes whose root is not the root of this document, with any nodes (this document's too) as arguments, and document order queries anywhere - every XPath expression asked at any node of the document has the outcome it had before (the same error, or the same value with the very same nodes), to_string, to_pretty_string and inner_xml of its nodes return what they returned before, and its links and contents are what they were.

* How: Spec/Elsewhere gives the histories as an inductive relation. Every edit has its effect on one node q and its new children (the Effect structure of C23), and q has the root of the node the edit is called on (effect_elsewhere); nodes of the document have the document's root, so none of them is q. By induction over the history the nodes of the document are the same up to the cached order numbers, so the contents are, and C91 gives that queries have the same outcome at the same places, which are the same nodes. The texts are read from the contents alone.
* proved: `C93_same_answers`, `C93_same_text`, `C93_same_tree`, `C93_shared`
* Note: Unconditional for edits of nodes whose root is another. C93_shared records what the condition means in the code: append_child copies one node and not what is below it, so the nodes below a copied node still belong (by their parent links) to the document they came from, and an edit of one of them shows in both documents.

### C94 — Variables mean their lexical bindings when quantified variables have names of their own

For every query that calls no function items and in which no expression refers to a variable from outside it under the name that a quantified expression inside it gives to its variable: the query has a value exactly if it has a meaning in a semantics with lexical scope, in which for, let, some and every bind their variable in their body only and nothing is changed by evaluating an expression, and the two are the same, over every document and start node. Where the meaning is an error, eval_xpath reports the same error, or a type error of a path that yields nodes and atomic values. So an expression sees only the variables it refers to, and evaluating it changes no variable but those of its quantified expressions.

* How: Simulation of the evaluator with its stack of bindings by the lexical semantics: what is left behind are entries of quantified variables only (Frame), the entries of all other names are restored, and what an expression refers to is therefore as in its scope (Fits). By induction on the size of the syntax tree, with a lemma for each loop of the evaluator.
* proved: `C94_lexical`, `C94_fails`, `C94_error`, `C94_same_scope`, `C94_restores`, `C94_no_quantifiers`
* Note: The meaning with lexical scope is Spec/Scoping (a function of the syntax tree and a place: context, position, size, values of the variables). It takes what an operator makes of values, what library functions return and which nodes an axis selects from the model. The condition on names is needed: C42_some_hides is a query that does not meet it and reads the wrong variable. Errors: C94_error; the order in which the items of a path are looked at is not part of the meaning, so an early type error of the code may stand for a later error.

### C95 — The language new_document accepts

For every text without U+0000, new_document returns a document if and only if the text (without its carriage returns) is a sequence of the constructs of a given grammar - text, comments, CDATA sections, processing instructions, directives with balanced brackets, end tags, start tags and empty-element tags with their attributes - whose tags match. The grammar gives each text one reading, and the tokens of the text are those of that reading. Every document of the XML grammar (prolog, one element, misc) is among the accepted texts. Of the other texts, exactly those which are such constructs followed by a start tag that the text ends in make new_document run for ever; all others give an error.

* How: Spec/Markup.lean is a grammar of source texts with the tokens each construct stands for, and separately the XML grammar. Inversion of every reader of the tokenizer (Lemmas/Markup.lean) gives the construct each call consumed; the forward direction runs the tokenizer on each construct; induction over the token stream, combined with C07, gives acceptance. The XML grammar is embedded by mutual induction over content and nodes.
* proved: `C95_tokens`, `C95_one_reading`, `C95_accepts`, `C95_never_returns`, `C95_rejects`, `C95_xml_written`, `C95_xml_accepted`
* Note: Exact characterisation, both directions; Spec/Markup.lean marks where the accepted language is wider than XML (junk characters in start tags, anything after the name of an end tag, missing names); markup_liberties shows such a text. Texts with U+0000 are the subject of C14.

### C96 — The tree new_document builds is the one the text describes

For every XML document (a text of the XML grammar of prolog, element and misc, without U+0000) new_document returns a document whose nodes are those the text describes: the same elements with the same names and attributes in the same order (values with references replaced), the same texts, comments, CDATA texts and processing instructions, nested and ordered as in the text, and nothing else. More generally, for every accepted text the nodes are those its constructs describe: an end tag closes the innermost open element, elements still open at the end are closed there, directives leave no node; and the text determines them.

* How: The XML grammar of Spec/Markup.lean carries the forest each text describes. By induction over the grammar the tokens of the text describe that forest (Trees); by induction over Trees the tree builder adds just these nodes (the Adds relation of Lemmas/Serial.lean), and ParsedDoc is determined by the links. For arbitrary accepted texts, TagsMatch token lists are decomposed into TextTrees by induction on the length.
* proved: `C96_xml_tree`, `C96_tree`, `C96_determined`
* Note: The trees are given by the grammar (XmlDocument relates a text with a forest), not by running the parser; ReadAs says what text with references stands for (the texts left out are those of C12). The relation for arbitrary accepted texts (TextTrees) shows the liberties of the code: missing end tags at the end of the text, nameless end tags.

### C97 — Equal expressions can replace one another

For every two queries that call no function items and whose quantified variables have names of their own: if the second is the first with some of its expressions, at any places and depths, replaced by expressions with the same meaning at every place, then over every document and from every start node both give the same answer or both give none. Some sixty laws between expressions are such replacements: parentheses, associativity of the comma, of and, or, ! and ||, the laws of De Morgan, every as not-some-not, the laws of if, of for over a comma, an empty sequence and another for, of let, the renaming of bound variables, putting in a literal or a variable for the variable of a let, joining two predicates that do not look at positions into one with and (both of steps and of filter expressions), distribution of ! and of such predicates over the comma, reverse, head and tail, [1] as head, empty as not(exists) and as count = 0, a < b as b > a and the like (C106), a comparison with = and its like as a some, some as not-every-not, true() and false() as conditions of if, and, or and predicates, a function call, a comma, a for or a let of an if taken apart, and a predicate under a for as an if.

* How: The meaning with lexical scope of C94 is compositional: a simulation argument (Simulates in Lemmas/Laws.lean), by induction on the size of the syntax tree, shows that a relation between expressions at places that follows the syntax is sound; it is used for replacement, for places an expression cannot tell apart, for the renaming of bound variables and for putting in literals. Each law is proved at the level of meanings from the equations of its operators, with lemmas for nested loops and predicate chains; C94 takes the result back to the evaluator and the text of the queries.
* proved: `C97_replace`, `C97_laws`, `C97_equal`
* Note: The laws are the constructors of Law in Spec/Laws.lean, stated on syntax trees as the parser builds them; Within is replacement at any places, Equal its closure. Answers are the same; errors arise in the same cases (for queries that make no function items that call others), but need not be the same errors. Conditions as in C94. Function items are left alone by replacement because their expression is their value.

### C98 — Queries that the rules of paths make equal have the same answers

For every document that can come about and every node of it, two queries (unions of location paths with all axes, tests, positions and nested conditions) give the same nodes in the same order through eval_xpath, get_nodeset, get_first_node and each_node whenever one can be turned into the other by any number of applications, at any places and in either direction, of some fifty rules: Boolean algebra of conditions, the laws of union, the abbreviations written out (//, .., ., @), positions picked twice, conditions moved between paths and predicates, [c][d] as [c and d], // as the descendant axis, the axes descendant, ancestor, following and preceding in terms of the others, there-and-back steps as conditions, and the reverse axes turned round (/descendant-or-self::T/preceding::U as /descendant-or-self::U[boolean(following::T)]). The same for the truth of conditions.

* How: Each rule is proved on the meaning of queries of Spec/Queries.lean. The rules about axes rest on facts about the trees of documents (Lemmas/PathTree.lean): ancestors through a parent or a child, two nodes above one node, and following as ancestor-or-self, following-sibling, descendant-or-self. The congruence is sound by induction; C92 takes the result to the texts and the entries of the API.
* proved: `C98_query`, `C98_condition`, `C98_deep`, `C98_preceding`, `C98_de_morgan`, `C98_there_and_back`
* Note: The rules are the constructors of PathLaw in Spec/PathLaws.lean, PathEq is the least congruence with them; both speak about syntax only. Documents as in C92: attributes are the nodes the parser or set_attribute makes.

### C99 — Upper and lower case

fn:upper-case of an ASCII text is the text with every small letter replaced by its capital and nothing else changed, fn:lower-case the other way round; of no text it is the empty text, and of anything but one string a type error.

* How: The alphabets are written out in Spec/Case.lean; each of the 128 characters is checked by the kernel, texts by induction.
* proved: `C99_case`, `C99_other`
* Note: Texts with other characters go through the Unicode tables of the Rust library, which are not modelled (an opaque function).

### C100 — Names are those of XML 1.0

The names that the parser reads in tags, attributes and processing instructions are the names of XML 1.0 (Letter, '_' or ':' followed by letters, digits, '.', '-', '_', ':', combining characters and extenders, with the tables of the recommendation): what is read as a name is the longest such name that stands at the place; every such name can be used; in every document that new_document returns all names of elements, attributes and processing instructions are of that form (or missing, see C95); white space is space, tab, CR and LF.

* How: Spec/Names.lean writes the character classes as sorted intervals that do not touch; a verified normalisation (sort, join) of the tables of the program gives these intervals, which the kernel computes, so membership agrees for every code point; the rest follows from the grammar of C95/C96.
* proved: `C100_names`, `C100_spaces`, `C100_longest`, `C100_reported`, `C100_tree`, `C100_usable`, `C100_ascii`
* Note: For texts without U+0000 (see C14).

### C101 — Numbers are compared by value

A comparison of two numbers (general or value comparison) compares the numbers they stand for: two integers exactly, a decimal or double with any number by the value of the floats, where an integer counts as the nearest float (itself up to 2^53), negative infinity is below and infinity above all others, and NaN is equal to nothing and neither before nor after anything. So of two numbers other than NaN exactly one of <, =, > holds. (NaN with <= and >= is C38.)

* How: Spec/Values.lean gives every float its value (a rational, an infinity or NaN) and the order of the values; the model's comparison of unpacked floats is shown to agree with it, then C37 and C39 carry it to expressions.
* proved: `C101_value`, `C101_compare`, `C101_integers`, `C101_order`

### C102 — Editing what a query selects

each_node(q, f) with a function that edits the node it is given does to the document exactly what the query says: the nodes edited are those that q selects in the document as it was, and they are nodes of that document. Deleting them leaves the document without them and what is below them, and nothing else changed; setting an attribute gives it to them, at its place or last, and deleting an attribute takes it away, and nothing else changes; and to_string writes just that. So after deleting what //m selects, //m selects nothing.

* How: Spec/Visit.lean says what deleting a set of nodes makes of a forest and what setting an attribute makes of a node's content. One deletion filters the children of one node; a fold of them is a filter by the set, whatever the order and although some of the nodes may already be gone with their ancestors. That a query stays in its document is C91 with the document itself on both sides.
* proved: `C102_stays`, `C102_delete`, `C102_set`, `C102_drop`, `C102_named`

### C103 — An edit can be taken back

After an edit and its inverse nothing tells the new state of the document from the old one: set_attribute of a name that was not there followed by delete_attribute, append_child of a node that was not a child followed by delete_child, insert_as_previous_sibling or insert_as_next_sibling of any node followed by delete_child of the copy, delete_child of the last child followed by append_child - the document is the same tree of the same nodes, every XPath query at every node has the same outcome, and to_string, to_pretty_string and inner_xml of every node return the same text. set_attribute followed by set_attribute with the old value gives the same texts, and the same answers up to the identity of the attribute node. A child deleted and inserted again beside its old neighbour, or replaced by any node and put back by another replace_with, leaves the text of the document as it was.

* How: The node records after both edits are those of before (up to the cached order numbers), from the exact effects of the edits (C15-C21); then C91 gives the answers and the recursion of to_string the texts. For set_attribute twice the lists of attributes are compared (Reproduced); for the copies the text of the parent is put together again from the texts of its children (C89).
* proved: `C103_attribute`, `C103_value`, `C103_append`, `C103_insert`, `C103_last`, `C103_delete_text`, `C103_replace_text`
* Note: a node put back with insert_as_… or replace_with is a copy whose children still have the old node as their parent (C24), so for these only the text is claimed

### C104 — Independent edits can be done in any order

A program that sets and deletes attributes and deletes children at nodes of a document may do so in any order, as long as no two edits set attributes of one node and none sets an attribute that another one of them deletes: every permutation gives a document with the same tree, the same contents, the same to_string, to_pretty_string and inner_xml of every node, and the same outcome of every XPath query (up to the identity of new attribute nodes).

* How: The effect of such an edit on contents and children of the old nodes is a function of these alone; functions of edits that are apart commute, so a permutation gives the same contents and children (induction on the permutation), hence the same forest, and C91 gives the answers. Invariant of a history of such edits: the document stays well linked, its nodes are among the old ones, attributes are leaves.
* proved: `C104_any_order`, `C104_new_attributes`
* Note: C104_new_attributes shows that the condition is needed: two new attributes stand in the order in which they are set

### C105 — Numbers are written with as few digits as possible

The string of a decimal or double (cast to xs:string, fn:string) that is not zero, infinite or NaN is the shortest numeral for it: of all decimal numbers that are rounded to the number it writes one with the fewest significant digits, among those the nearest to the exact value, with a minus sign exactly for negative numbers and without superfluous zeros; to_string shows a double with the same digits in scientific notation.

* How: The numbers that are rounded to an f64 form an interval around it. A number with n significant digits in it gives one on the grid of n digits of the decade of the f64 that is no farther away, hence the floor or the ceiling, which are the candidates that are tried; so the search finds the least n and the nearest candidate. Trailing zeros are removed.
* proved: `C105_shortest`, `C105_scientific`

### C106 — Exchanging the operands

For every two values, a + b has the same outcome as b + a, a * b as b * a, a = b as b = a, a != b as b != a, a < b as b > a, a <= b as b >= a, and the same for eq, ne, lt, gt, le, ge, for is, and for << with >>: the same value, or the same error.

* How: The addition and multiplication of floats of Lean's own model are commutative; everything else is a case distinction over the kinds of items; C37 for the general comparisons.
* proved: `C106_value`, `C106_error`
* Note: The pairs of operators are listed in swaps (Spec/Laws.lean). The operands are values: which of two failing operand expressions reports its error is another matter.

### C107 — The text of a value

to_string of a sequence shows its items in order, separated by a comma and a space and in parentheses unless there is exactly one: strings in double quotes (not escaped), true and false, integers in decimal notation, decimals in positional notation with the fewest digits and always with a decimal point, doubles in scientific notation with the fewest digits (NaN, +Infinity, -Infinity, 0e0, -0e0), maps as {key => value, ...} and arrays as [member, ...] with their entries in order, the document root as (DocumentRoot), an element as its start tag with its attributes (values not escaped), an attribute as name="value", a text as its value, and any other node as the empty text. A function is shown as the listing of its syntax tree, one line for each node (place, kind, name), a parent before its left part and that before its right part, indented by four spaces for each level; decimals that are infinite or NaN as inf.0, -inf.0 and NaN.0. The start tag shown for an element is the one that to_string of the element writes, if no attribute value needs escaping.

* How: Spec/Shown.lean describes the notation as an inductive relation; a mutual induction over items, sequences, entries and members shows that the code writes it. The digits are C105.
* proved: `C107_text`, `C107_start_tag`
* Note: for every value, function items (a listing of the syntax tree) and infinite or NaN decimals (inf.0, -inf.0, NaN.0) included

### C108 — Calling a function item means evaluating its body with the parameters bound to the arguments

Let a query call function items: inline functions with $f(…) or through for-each and filter, references such as string-length#1, and partial calls such as concat('x', ?). If every inline function called refers to its own parameters only, has parameters of different names and no quantified expressions, and is called with as many arguments as it has parameters, then the call has the value of the body where the parameters, and no other variables, are in scope with the values of the arguments; arguments that do not have the declared types are an error; and the call leaves all variables of the caller as they were. This holds for calls nested to any depth, for functions that are given themselves (recursion), and when variables of the caller have the names of parameters. eval_xpath finds the value this gives, and reports the error where it gives an error (or a type error of a path that yields nodes and atomic values).

* How: Spec/Applied gives expressions with calls a meaning without an environment (a Scene holds focus and variables; a call looks at the body in a scene with only the parameters). Follows: evaluator and meaning agree, variables outside the quantified ones keep their stacks of bindings; by induction on the depth of calls and the size of the expression; binding and removing parameters is shown to restore every stack.
* proved: `C108_value`, `C108_fails`, `C108_depth`, `C108_restores`, `C108_no_quantifiers`
* Note: The meaning is Spec/Applied (means, with callItem for calls to a depth; where callItem says outOfFuel nothing is claimed). The focus in the body of a function is that of the caller, and the fixed arguments of a partial call are evaluated at each call, as the code does. The conditions on the functions are needed: examples in Props/Applied show the code reading a variable of the caller, hiding one, and removing one.

### C109 — Text is changed by reading exactly if it contains references

The character data and attribute values that new_document and the SAX decoder report are what stands in the document if and only if that contains neither &# with a semicolon somewhere behind it nor one of &lt; &gt; &amp; &quot; &apos;: other ampersands are kept as they are. A numeric reference in a text without other ampersands is replaced by the character with that number, also if a plus sign stands before the digits, and by U+3013 if there is no such character or if what stands before the semicolon is no number.

* How: Every pass of decode_entity leaves a text without its pattern as it is and makes any other shorter (Shrinks, closed under composition), so the text is unchanged exactly if no pass found its pattern; the numeric reading is by analysis of the digits of u32::from_str_radix.
* proved: `C109_unchanged`, `C109_text`, `C109_attribute`, `C109_numeric`
* Note: The reading of well-formed references among each other is C12.

### C110 — An element can be copied through its text

new_document(e.to_string()), for any element e of any document whose contents can be written (XML names, no U+0000 or carriage return in values, no --> in comments, no ?> in processing instructions), returns a document made of new nodes whose root element is a copy of e with all that is below it: the same types, names, values and attributes in the same order and nesting, except that adjacent texts are joined and empty texts left out; without such texts the copy has the same text again. new_document(e.inner_xml()) gives copies of what is below e in the same way. Nothing changes for the nodes that were there. The copy can be put anywhere in any document, also in that of e: appended to a node, or before, behind or in place of a child, the text of the document then has the text of e at that place and is otherwise as before.

* How: The text of a tree is parsed back to the tree with texts joined (as for C03, for any forest of contents, not only whole documents); the parsed document is one tree, made of nodes that were not there before (a node's root has a smaller number than the node). For the insertion, C93 keeps the other document and C89 says what the edit does to its text.
* proved: `C110_copy`, `C110_same`, `C110_inner`, `C110_parsed`, `C110_append`, `C110_insert`
* Note: Contents outside the stated class are changed by writing and reading (C03, C04, C14).

### C111 — Which texts are read as numbers, and as which

fn:number and the casts to xs:double and xs:decimal read every text in the same way: an optional sign and a decimal numeral (digits, with an optional point and an optional exponent), with any white space around it, as the nearest float; inf, infinity and nan, in any case and with an optional sign, as the infinities and NaN; all other texts as NaN. The cast to xs:integer reads a numeral of an optional sign and digits only, with any white space around it, as this integer if it has 64 bits, and all other texts as 0. A text is read in only one of these ways.

* How: The reader of floats is inverted: whatever it accepts is derived as a numeral or a word of the grammar of Spec.NumberTexts, with the rounding of ofScientific proved for C82; whatever is so derived is accepted (texts of the grammar do not begin or end with white space, so trimming finds them).
* proved: `C111_number`, `C111_integer`, `C111_classes`
* Note: says exactly what C78 and C82 give for texts, also where they are violated. The grammar of f64::from_str is that of Rust since 1.55.

### C112 — References to library functions have the types of the recommendation

f#n instance of function(P1,...) as R, for a function f of the library with n parameters, is true exactly if the signature that XQuery and XPath Functions and Operators 3.1 gives f is a subtype of this type (parameters contravariant, return type covariant). (Violated by the code: normalize-space, one-or-more, exactly-one, sum, string-join and string-to-codepoints have other signatures, concat with more than two parameters has none; proved for the other 69 functions, counted by arity, and the types of the exceptions are given.)

* How: Spec/Signatures.lean is the table of the recommendation, as types. The kernel parses the table of the program and compares the trees; the subtype relation is decided as for C77.
* partial: `C112_signatures_partial`, `C112_mistaken`, `C112_violated`
* Note: violated for the functions in mistakenSignatures, for which C112_mistaken says exactly what they are taken for, and for concat

### C113 — A value is its items

What eval_xpath returns is determined by len and get_item: the items at the positions below len are all items, in order, and get_item beyond panics; values that agree in these are the same. to_string of the value is made of to_string of the items (the only one, or all of them as a list in parentheses). The items that as_nodeptr gives as nodes are exactly what get_nodeset returns for the same query, in the same order and as often; and where eval_xpath fails, get_nodeset fails alike.

* How: Induction on the number of positions read; the texts from C107; the nodes from C49.
* proved: `C113_items`, `C113_extensional`, `C113_text`, `C113_nodes`, `C113_error`

### C114 — Reading a document does not blow it up

For every text (without U+0000) that new_document accepts, the document has no more nodes - elements, texts, comments, instructions and attributes together - than the text has characters, no more nodes than that and the root are created while it is read, and the names and values of all nodes together have no more characters than the text: references are never replaced by something longer, and there are no entities that expand. Written again with to_string, the document has at most six times as many characters as the text it was read from (six for a text of quotes).

* How: Verif/Props/Sizes.lean: each construct of the grammar of C95 costs at most a multiple of its length (the number of nodes, of characters, of characters written), by cases over the constructs and induction over attributes; the cost of a forest is that of the tokens that describe it (induction over Trees); replacing references does not lengthen a text (induction over the replacements).
* proved: `C114_no_larger`, `C114_created`, `C114_written`, `C114_references`
* Note: For texts without U+0000 (see C14).

### C115 — Compiling does not blow up

For every text (without U+0000) that is compiled as an XPath expression, the tree that is evaluated has at most five nodes for each character of the text: abbreviations such as //, defaults for omitted types and missing parts never expand to more than a constant. A short expression cannot exhaust memory by being compiled.

* How: Verif/Props/XSizes.lean: induction over the productions of C58 (Verif/Spec/Accepts.lean): every production makes at most five nodes per token it has itself; tokens are not empty.
* proved: `C115_no_larger`
* Note: For texts without U+0000 (see C52).

### C116 — Evaluation recurses no deeper than the query is long

Let the functions that a query makes not call function items themselves. Evaluating the query, on every document and from every node, nests calls of the evaluator to a depth of at most ten times the number of characters of the query (and two), or five times (and one) if the query calls no function items at all; the document, however large or deep, does not matter. If functions do call functions, but can be ranked such that each calls by name only functions of lower rank, and others only where they are written, the depth is at most k + 2 times five times the number of characters and one, where k is the greatest rank (m + 1 times, if only functions of ranks below m are called outside of functions). With that depth of recursion and every greater one the result is the same: a value, an error or a panic.

* How: Verif/Props/XDepth.lean: the bounded evaluator is shown not to reach its bound, by induction over the bound; the invariant is that all function items in values and variables come from the query, are no deeper than it and have bodies without calls. C115 bounds the depth of the tree by the length of the text. Verif/Props/XRanked.lean does the same for queries with ranks, by induction over the bound with rank times depth of the query as budget for calls.
* proved: `C116_depth`, `C116_ranked`
* Note: The depth is the fuel of the model's evaluator: one for each nested call of evaluate_xnode or call_function. The recursion of axes over the tree is not counted here but in C118. For functions that call themselves there is no such bound: C80_endless.

### C117 — The accessors of a node and the queries for the same thing agree

At every node, the queries node(), .., /, ., node()[k] and node()[1] select exactly the children, the parent if there is one, the root, the node itself, nth_child(k - 1) and first_child. The query T and the query @T, for every node test T of the forms n, p:n, *, p:*, node(), text(), comment(), processing-instruction() and element(), select exactly the children and the attributes that pass the test, in their order: so * and text() select the child elements and text nodes, a name the child elements of that name, @* all attributes, @m the attributes named m, and attribute_value(m) is the value of the first of them. /* selects the element children of the root, and root_element is the first of them, or the root if there is none. name(), local-name() and namespace-uri() give the name, its part behind the colon, and what namespace_uri gives. This holds for eval_xpath, get_nodeset, get_first_node and each_node alike.

* How: Verif/Props/Accessors.lean: the queries are compiled in the kernel or by C88's text-to-tree theorem, the single step is C76/C35, and the DOM side is unfolded. That attributes are attribute nodes is an invariant of all reachable heaps.
* proved: `C117_navigation`, `C117_tests`, `C117_children`, `C117_attributes`, `C117_root_element`, `C117_names`
* Note: Finds (Props/Accessors.lean) says that all four functions of the interface give these nodes, from some depth of recursion on. C117_attributes asks that the heap be reachable, C117_root_element that the node belong to a document tree with plain attributes (both hold of everything made by new_document and edits: C08, C16).

### C118 — Recursion over a document is as deep as its elements are nested

to_string (with any indentation), the string value and typed value of a node, the descendants of a node and the order numbers of a document are computed with exactly as many nested calls as nodes are nested below the node, itself counted: with that many they return, and what they return does not depend on any limit beyond it; with fewer they do not return. The number of siblings does not matter. For a document read from a text of n characters n + 1 calls suffice; and no fixed number suffices for all documents: with a limit of d + 1 nested calls the document of 7d + 4 characters made of d + 1 nested elements is read, but can neither be written nor searched nor numbered.

* How: Verif/Props/Depth.lean: all these functions but the order numbers are instances of one recursion (walk), for which the upper and the lower bound are proved by induction on the forest below the node. For the order numbers the induction carries the heap along (Lemmas/Order). The nested documents of the lower bound are read by the round-trip theorem behind C04.
* proved: `C118_depth`, `C118_order`, `C118_text`, `C118_unbounded`
* Note: Model/Depth.lean has the recursive functions once more, with the calls that may be nested (stack frames) counted and the loops over children as loops; the theorems say that they agree with the functions of the other properties exactly from the depth nesting on. How many bytes a frame takes is not modelled. The lower bound for strings and to_string asks that only elements and the root have children, as in every parsed document.

### C119 — Compiling needs a stack as deep as the text is nested, not as it is long

Compiling an XPath text with at most n + 1 nested calls of the expression parser gives the same tree or error as without a bound, where n is the number of tokens of the text behind which an expression opens inside another: the brackets `(`, `[`, `{` and the words for, let, some, every. So a text without these, however long, needs one call. The bound is exact: a period in n pairs of parentheses needs n + 1 calls, so texts that are nested deep enough overflow every stack.

* How: The parser's combinators are shown to agree for any two bounds above the number of openings left (`Nest`, Lemmas/Nesting); the lower bound by passing an error up through the levels of the grammar, the text of nested parentheses by the lexical and grammatical relations of C55.
* proved: `C119_nesting`, `C119_flat`, `C119_needed`, `C119_exact`
* Note: the calls counted are those of parse_expr_single, through which all recursion of the expression grammar goes; besides, parse_predicate_list calls itself once for each predicate of a step, and parse_item_type nests as the type is nested

### C120 — The description of an error tells its kind

The description (and Display form) of an error is the prefix of its kind, a space and the message; no two kinds can be mistaken for one another: two errors with the same description are of the same kind and have the same message. Errors of new_document are of kind XmlSyntaxError, and their description begins with 'Syntax Error in XML:'.

* How: Model/Program.lean models `xmlerror` and the errors of the tokenizer and of `new_document` with their texts; case analysis over the kinds.
* proved: `C120_description`, `C120_tells`, `C120_kind`, `C120_document`
* Note: `kindPrefix` (Spec/Program.lean) is the table of prefixes

### C121 — The command line program prints the document or says what is wrong

The sample program, run with the name of a file: if the file can be read and new_document accepts it, its pretty text and a line feed are printed on stdout, nothing on stderr, and the status is 0. In every other case where the program ends (no name given, file not readable, text rejected) nothing is printed on stdout, something on stderr, and the status is 1; it hangs exactly where new_document does. What it printed is accepted again, and is the same tree up to white space.

* How: Model/Program.lean models `main` over an arbitrary file system; by cases on the result of `new_document`, with C08 (the document is well linked, so that the serialiser returns), C95 (which texts are accepted) and the trees of C90 with one more line feed.
* proved: `C121_usage`, `C121_unreadable`, `C121_rejected`, `C121_prints`, `C121_hangs`, `C121_status`, `C121_accepts`, `C121_again`
* Note: the file system and the `{:?}` form of errors are parameters

### C122 — The error tells what is wrong with a text

The error of new_document for a rejected text is determined by the grammar: the text is read as constructs (C95) with matching tags, and it is reported what is wrong with the first construct that cannot be read (missing delimiter, attribute without '=' or quote, '/' without '>', wrong '<!' sequence, unbalanced '<'), or the first end tag whose name is not that of the innermost open element, with both names. Every text is accepted, or ends in a start tag (the call does not return), or has such a fault, or such a mismatch, and never two of these.

* How: Lemmas/Faults.lean: each scanner fails exactly if its delimiter is missing, the loop over a start tag by strong induction on the text; the tokens delivered before the failure are the constructs of C95; `OpenAfter` against the construction of the tree by induction on the tokens.
* proved: `C122_fault`, `C122_mismatch`, `C122_one_fault`, `C122_verdict`
* Note: `Fault`, `TagFault` and `OpenAfter` (Spec/Faults.lean) are the specification, over the grammar of C95

### C123 — Syntax errors tell about the query, not about the document

A query gives a syntax error or 'not implemented' in one document at one node if and only if it does so in every document at every node, through eval_xpath, get_nodeset and each_node (get_first_node gives nothing): these errors come from the text of the query, all of which is checked before anything is evaluated. So a query that gave a value once is never rejected later; what it can fail with then is a type error, a dynamic error or an inner error, besides panics and endless recursion.

* How: Lemmas/Late.lean: by induction on the bound of the recursion no evaluation gives an error of these kinds; the library functions and operators are covered by Lemmas/Safety.lean, and the table of signatures that `instance of` parses is checked by the kernel (Lemmas/SigTable.lean).
* proved: `C123_text`, `C123_everywhere`, `C123_kinds`, `C123_value`
* Note: blank queries panic (C52)

