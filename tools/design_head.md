# Formal model of ctjhoa/amxml in Lean 4 — design

The subject is the Rust crate in /repo (amxml 0.5.3): a SAX tokenizer (`src/sax.rs`), a DOM (`src/dom.rs`), and an XPath 2.0/3.x
processor (`src/xpath.rs`, `src/xpath_impl/*`). Nothing in /repo is executed; the model is written by reading it.

## Layout

* `lean/Verif/Model/*.lean`  — executable model, function by function; every definition cites file and lines (checked by `tools/cite.py`).
* `lean/Verif/Spec/*.lean`   — small independent specifications used in theorem statements: XML text, trees, grammar, axes, values.
* `lean/Verif/Lemmas/*.lean` — helper lemmas.
* `lean/Verif/Props/*.lean`  — the property theorems (`Cnn_…`), with an example beside them that meets their hypotheses.
* `lean/Verif/Check/*.lean`  — /repo's tests and documentation examples, run on the model (not proofs of properties).
* `properties.jsonl` (from `tools/props.py`), `MANIFEST.json` (from `tools/claims.py`), this file (from `tools/design.py`).
* `seeded/LOG.jsonl`         — log of mutation experiments on the model, run by `tools/mutate.py`.

## Trusted base

* Lean 4.33.0's kernel. Axioms: at most `propext`, `Classical.choice`, `Quot.sound` (as `#print axioms` reports for every theorem named in
  the manifest). No axioms of our own, no `native_decide`, no `bv_decide`. `decide +kernel` is used for closed examples and finite tables:
  it is checked by the kernel.
* Two `opaque` constants, `unicodeUpper` and `unicodeLower` (Model/Func.lean), stand for the Unicode case tables of Rust's
  `to_uppercase` / `to_lowercase` on texts with characters outside ASCII. No theorem says anything about their values.
* Fidelity of the model to /repo rests on reading, and on the checks below. The points where the representation differs are listed below.

## What is modelled

| code | model |
| --- | --- |
| `sax.rs` | `Model/Chars`, `Model/Entity`, `Model/Sax`: character tables (complete), entity decoding, the tokenizer |
| `dom.rs` | `Model/Entity` (`encode_entity`), `Model/Dom`: building, navigation, attributes, all edits, document order, serialisation (also the indented form); `Model/Liveness`: `Rc`/`Weak` |
| `xpath_impl/lexer.rs` | `Model/Lexer`, complete |
| `xpath_impl/parser.rs` | `Model/Parser`, complete; the syntax tree printer in `Model/Display` |
| `xpath_impl/xitem.rs`, `xsequence.rs`, `oper.rs`, `helpers.rs` | `Model/XNode`, `Model/XItem`, `Model/XSeq`; `Model/Display`: the texts of nodes, items and sequences (`Display`) |
| `xpath_impl/eval.rs` | `Model/Axes`, `Model/Types`, `Model/Eval`: axes, node tests, sequence types, the evaluator |
| `xpath_impl/func.rs` | `Model/Func`: all functions of both tables |
| `xpath.rs` | the queries at the end of `Model/Eval` (`get_nodeset`, `each_node`, `get_first_node`, `eval_xpath`); `to_string` in `Model/Display` |
| std `f64` | `Model/F64`: Lean's `Float.Model` (IEEE 754 binary64 by bit patterns, kernel reducible) and `%`, floor, ceil, parsing and printing defined on it |

Not modelled: the texts of the error messages of the XPath part (only the kind of the error is kept; the texts of the errors of `sax.rs` and `dom.rs` and the prefixes of
`xmlerror.rs` are modelled, C120), the allocation and stack limits of the machine (how deep the recursion goes is modelled, C116 and C118; how many bytes a stack frame takes is
not), the file system that `main.rs` reads from (a parameter of C121) and the `{:?}` form of errors, performance.

## Modelling conventions

* Rust `String`/`Vec<char>` → `List Char` (`Str`). Unicode scalar values are Lean `Char`s; both exclude surrogates.
* Cursors (`char_vec` + `index`, token vector + index) → the list of what is still to be read. Every put-back undoes the last read.
* `Rc<Node>` graph with interior mutability → an explicit heap `Heap` mapping node ids (`Nat`) to records
  (type, order, name, value, parent, children, attributes). `Rc::ptr_eq` → equality of ids. Mutating calls are functions to a new heap.
  `Weak::upgrade().unwrap()` is an explicit panic outcome when the target is dead (liveness = reachability from the handles the caller
  holds; `Model/Liveness`). A cycle of strong references that is not reachable is never freed by `Rc`; liveness by reachability ignores such leaks.
* `Reach h` (Spec/Edit.lean): the heaps obtained from the empty one by parsing documents and by calls of the public editing functions.
  Theorems on documents quantify over all these histories.
* Panics are explicit outcomes (`XErr.panic`), so "never panics" is a provable statement. Integer arithmetic is on `Int`, with the outcome
  panic where an `i64` overflows (debug build; a release build wraps around, which the model does not follow further).
* Divergence: loops and recursions that may diverge take fuel. `eval h n` evaluates with recursion depth at most `n`; by `eval_mono`
  (Lemmas/Eval.lean) a result stays the same with more depth. `evaluate h c x env` is the limit: the result for large `n`, or
  `.error .outOfFuel` if there is none for any `n`, that is if the code does not return. `Value`, `Fails` in Spec/XEval.lean are stated
  with `evaluate`, so theorems do not mention fuel. For the tokenizers and the parser, bounds that always suffice are proved (C05, C52, C54).
* Evaluation does not change the heap in the model: the code only fills in cached document order numbers, and no answer depends on
  these (C23).
* The evaluation environment (`EvalEnv`: variables, position, size) is threaded as state, because the code mutates it and leaves
  changes behind in some cases (C42).

## Fidelity checks

The model is executable, so /repo's own tests can be run on it, without building /repo. These are tests of the model, not proofs.

* `tools/repo_tests.py` extracts the 647 cases of XPath in /repo's unit tests (`subtest_xpath`, `subtest_eval_xpath`) and writes a Lean
  script that evaluates them in the model. 645 give the expected text. The other two are `upper-case` and `lower-case` of texts outside
  ASCII, which are opaque in the model.
* `lean/Verif/Check/RepoDocs.lean` (part of the build) has the examples of the API documentation of `dom.rs` and the 15 cases of the unit
  test of `sax.rs`, as `example`s evaluated by the kernel. All agree.

## Specifications

* XML texts and trees: `Spec/Xml`, `Spec/Tokens`, `Spec/Tree` (a tree type of documents, its text, well-formedness of heaps as trees).
* Edits: `Spec/Edit`.
* XPath syntax: `Spec/Grammar` is the EBNF of XPath 3.1 as an inductive relation between tokens and trees, with the precedence table as
  data; `Spec/Lexical` relates texts to tokens. They do not mention the parser or the lexer.
* XPath semantics: `Spec/XEval` (values of expressions, positions, filters), `Spec/Steps` (axes and node tests), `Spec/XCompare`,
  `Spec/XOper`, `Spec/XFunc`, `Spec/Numbers` (the rational number a binary64 stands for, rounding), and definitions beside the theorems.

## Where the code violates a property

The code does not have all properties a user expects. For each violation there is a theorem with a concrete witness
(`…_violated`, `…_counterexample` and the like in the table below), proved by evaluating the model, and the property is proved
for the remaining inputs (`…_partial`). The table says what is excluded. These were found by proofs that did not go through.

## Seeded bugs

`tools/mutate.py` applies one edit to a definition of the model in a scratch copy, rebuilds, cuts the proofs that fail until everything
else builds, and reports the theorems that depend on a failed one. `seeded/LOG.jsonl` has a line per edit. Where no theorem of the
claim failed, a theorem was added or tightened (field `tightened`).

## Plan and state per property

