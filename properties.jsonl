{"id": "C01", "title": "Entity escaping round-trips", "statement": "Escaping any string the way to_string() writes text and attribute values, and then decoding it the way the parser reads text and attribute values, gives back exactly the original string.", "quantifier": "every string (any characters, any length)", "why_tests_cant": "The claim ranges over an infinite set of inputs; a test suite samples finitely many of them.", "anchors": ["src/dom.rs: encode_entity", "src/sax.rs: decode_entity"]}
{"id": "C02", "title": "Escaped text cannot contain markup", "statement": "The text to_string() emits for a text node or attribute value contains none of < > \" ' and every & in it begins one of the five predefined entity references, so no content can break out of its text node or quoted attribute value.", "quantifier": "every string value", "why_tests_cant": "The claim ranges over an infinite set of inputs; a test suite samples finitely many of them.", "anchors": ["src/dom.rs: encode_entity, to_string_with_indent"]}
{"id": "C03", "title": "Parse of serialise is the identity on documents", "statement": "For every document tree whose names are XML names and whose texts are representable (non-empty, not adjacent, no NUL/CR; comments without '-->', instructions without '?>'), new_document(doc.to_string()) succeeds and yields the same tree: same nodes, names, values, attributes, order.", "quantifier": "every such document tree, any depth and width", "why_tests_cant": "The claim ranges over an infinite set of inputs; a test suite samples finitely many of them.", "anchors": ["src/dom.rs: new_document, to_string_with_indent", "src/sax.rs: SaxDecoder::raw_token"]}
{"id": "C04", "title": "Serialisation is a fixed point of parse-then-serialise", "statement": "If s has no NUL, new_document(s) succeeds, the decoded content contains no NUL and no CR and every element has a non-empty name, then parsing its to_string() succeeds again and to_string() of the result is the same string. (Violated by the code for a document with an empty CDATA section: <a><![CDATA[]]></a> is written <a></a>, which is read and written as <a/>; proved for documents without empty text nodes, and proved that the tree is stable after one round in all cases.)", "quantifier": "every input string s accepted by new_document", "why_tests_cant": "The claim ranges over an infinite set of inputs; a test suite samples finitely many of them.", "anchors": ["src/dom.rs: new_document, to_string_with_indent", "src/sax.rs: raw_token"]}
{"id": "C05", "title": "The tokenizer always terminates", "statement": "Every call to raw_token() returns, and repeatedly calling it on any input reaches EOF after at most a number of calls linear in the input length; so new_document() always returns. (Violated by the code: an unterminated start tag, e.g. '<a', makes raw_token() loop forever; proved for all other inputs, and the divergence is proved exactly for inputs that end inside a start tag.)", "quantifier": "every input string and every decoder state", "why_tests_cant": "Non-termination cannot be observed by a finite test and the claim is over all inputs.", "anchors": ["src/sax.rs: raw_token, skip_spaces, get_until, get_until_ch, get_name"]}
{"id": "C06", "title": "Carriage returns never influence the result", "statement": "Parsing a string gives the same token stream and the same document as parsing that string with every CR character removed (so CRLF and LF documents are the same document); no token delivered verbatim contains a CR taken from the input.", "quantifier": "every input string", "why_tests_cant": "The claim ranges over an infinite set of inputs; a test suite samples finitely many of them.", "anchors": ["src/sax.rs: SaxDecoder::new"]}
{"id": "C07", "title": "Start and end tags must match", "statement": "If new_document(s) succeeds then every end tag in the token stream closes the innermost element still open and has its name; if some end tag does not, new_document(s) returns an error and no document. (Elements still open at the end of the input are accepted: proved as a separate fact.)", "quantifier": "every input string", "why_tests_cant": "The claim ranges over an infinite set of inputs; a test suite samples finitely many of them.", "anchors": ["src/dom.rs: new_document"]}
{"id": "C08", "title": "Parsed documents are well linked", "statement": "In a document returned by new_document every child's and attribute's parent() is the node that lists it, no node is listed twice, attributes hang only off elements, the document root has no parent, and root() of every node is the document root.", "quantifier": "every input string accepted by new_document and every node of the result", "why_tests_cant": "The claim ranges over an infinite set of inputs; a test suite samples finitely many of them.", "anchors": ["src/dom.rs: new_document, make_new_rc_node, make_new_child_rc_node, NodePtr::parent, NodePtr::root"]}
{"id": "C09", "title": "Self-closing tag is the same as an empty pair of tags", "statement": "For every element name and attribute list, '<n .../>' yields the tokens StartElement, EndElement with that same name, exactly as '<n ...></n>' does, so both produce the same element.", "quantifier": "every name, attribute list and continuation of the input", "why_tests_cant": "The claim ranges over an infinite set of inputs; a test suite samples finitely many of them.", "anchors": ["src/sax.rs: raw_token (to_close)"]}
{"id": "C10", "title": "CDATA sections are taken verbatim", "statement": "A CDATA section produces one character-data token whose text is exactly the section's content (no entity decoding), and tokenizing continues right after ']]>'.", "quantifier": "every content not containing ']]>' (and no NUL), and every continuation of the input", "why_tests_cant": "The claim ranges over an infinite set of inputs; a test suite samples finitely many of them.", "anchors": ["src/sax.rs: raw_token, get_until, look_ahead_keyword"]}
{"id": "C11", "title": "Comments and processing instructions are taken verbatim", "statement": "'<!--c-->' produces a comment with exactly content c for every c without '-->'; '<?t d?>' produces an instruction with target t and data d for every name t and every d without '?>' that does not start with a space; tokenizing continues right after the construct.", "quantifier": "every content and every continuation of the input", "why_tests_cant": "The claim ranges over an infinite set of inputs; a test suite samples finitely many of them.", "anchors": ["src/sax.rs: raw_token, get_until"]}
{"id": "C12", "title": "Character references decode to the named character, once", "statement": "'&#N;' and '&#xH;' in text or attribute values decode to the character with that code point, to U+3013 if there is no such character, and the result of a decoded reference is never itself decoded again. (The last clause is violated by the code: '&#38;lt;' decodes to '<', and so does every numeric reference to '&' before the rest of a reference; everywhere else it is proved.)", "quantifier": "every sequence of references and texts free of '&'", "why_tests_cant": "The claim ranges over an infinite set of inputs; a test suite samples finitely many of them.", "anchors": ["src/sax.rs: decode_entity"]}
{"id": "C13", "title": "DOCTYPE and other directives leave no trace", "statement": "A balanced '<!...>' directive contributes no node: the document parsed from a text with the directive has the same nodes as without it, except that it separates the text on its two sides.", "quantifier": "every directive with balanced angle brackets and every surrounding text", "why_tests_cant": "The claim ranges over an infinite set of inputs; a test suite samples finitely many of them.", "anchors": ["src/sax.rs: get_until_matching_bracket", "src/dom.rs: new_document"]}
{"id": "C14", "title": "No input is silently dropped", "statement": "If new_document(s) succeeds then every character of s was consumed by some token. (Violated by the code when s contains U+0000: parsing stops there and reports success; proved for all s without U+0000.)", "quantifier": "every input string accepted by new_document", "why_tests_cant": "The claim ranges over an infinite set of inputs; a test suite samples finitely many of them.", "anchors": ["src/sax.rs: getchar, raw_token", "src/dom.rs: new_document"]}
{"id": "C15", "title": "Reading an attribute back after writing it", "statement": "After set_attribute(n,v), attribute_value(n) is v, and attribute_value(m) is unchanged for every other name m, on that element and on every other node.", "quantifier": "every DOM state, node, name and value", "why_tests_cant": "The claim ranges over every document and every sequence of DOM calls; tests fix a handful of both.", "anchors": ["src/dom.rs: set_attribute, attribute_value, find_attribute_index"]}
{"id": "C16", "title": "Writing an attribute keeps the attribute list in order and duplicate free", "statement": "set_attribute keeps the sequence of attribute names unchanged if the name exists and appends the name otherwise; hence it never creates a second attribute of the same name.", "quantifier": "every DOM state, node, name and value", "why_tests_cant": "The claim ranges over every document and every sequence of DOM calls; tests fix a handful of both.", "anchors": ["src/dom.rs: set_attribute"]}
{"id": "C17", "title": "A deleted attribute is gone", "statement": "After delete_attribute(n), attribute_value(n) is None and all other attributes are untouched. (Violated by the code when the source document repeats the attribute: the second occurrence survives; proved for elements without repeated attributes.)", "quantifier": "every DOM state, node and name", "why_tests_cant": "The claim ranges over every document and every sequence of DOM calls; tests fix a handful of both.", "anchors": ["src/dom.rs: delete_attribute"]}
{"id": "C18", "title": "append_child adds exactly one last child", "statement": "After append_child(c), children() of the element is the old list followed by c, and no other node's children, attributes, name, value or type changes.", "quantifier": "every DOM state and pair of nodes", "why_tests_cant": "The claim ranges over every document and every sequence of DOM calls; tests fix a handful of both.", "anchors": ["src/dom.rs: append_child"]}
{"id": "C19", "title": "Sibling insertion puts a copy at the right place", "statement": "insert_as_previous_sibling / insert_as_next_sibling put one new node with the argument's type, name, value, attributes and children immediately before / after self in its parent's children, leaving the relative order of all other children and every other node unchanged; they do nothing when self has no parent or is not among its parent's children.", "quantifier": "every DOM state and pair of nodes", "why_tests_cant": "The claim ranges over every document and every sequence of DOM calls; tests fix a handful of both.", "anchors": ["src/dom.rs: insert_as_previous_sibling, insert_as_next_sibling, make_new_child_rc_node, shallow_copy_rc_rels, find_child_index"]}
{"id": "C20", "title": "delete_child removes exactly the given child", "statement": "delete_child(c) removes the first occurrence of c from the children and nothing else; if c is not a child, nothing changes.", "quantifier": "every DOM state and pair of nodes", "why_tests_cant": "The claim ranges over every document and every sequence of DOM calls; tests fix a handful of both.", "anchors": ["src/dom.rs: delete_child, find_child_index"]}
{"id": "C21", "title": "replace_with substitutes in place", "statement": "replace_with(x) makes the parent's children list the old list with self replaced, at the same position, by a new node with x's type, name, value, attributes and children.", "quantifier": "every DOM state and pair of nodes", "why_tests_cant": "The claim ranges over every document and every sequence of DOM calls; tests fix a handful of both.", "anchors": ["src/dom.rs: replace_with"]}
{"id": "C22", "title": "document_order is the document order", "statement": "In a well-linked document document_order() is strictly increasing along document order (element, then its attributes in order, then its children's subtrees in order), so two nodes have equal order only if they are the same node.", "quantifier": "every well-linked document and every pair of nodes", "why_tests_cant": "The claim ranges over every document and every sequence of DOM calls; tests fix a handful of both.", "anchors": ["src/dom.rs: document_order, setup_document_order_sub"]}
{"id": "C23", "title": "document_order is never stale", "statement": "After any sequence of DOM edits and order queries on a well-linked document, document_order() gives the order of the current tree, not of an earlier one.", "quantifier": "every sequence of edits that keeps the document well linked, interleaved with queries", "why_tests_cant": "The claim ranges over every document and every sequence of DOM calls; tests fix a handful of both.", "anchors": ["src/dom.rs: clear_document_order, document_order, set_attribute, delete_child, insert_as_next_sibling"]}
{"id": "C24", "title": "Edits keep the tree well linked", "statement": "After append_child / insert_* / replace_with, parent() of every node listed as a child is the node that lists it. (Violated by the code: append_child leaves the child's parent() at its old parent, and insert_*/replace_with leave the grandchildren's parent() at the original node; proved for the remaining operations and for inserting childless, attribute-less nodes.)", "quantifier": "every DOM state and operation", "why_tests_cant": "The claim ranges over every document and every sequence of DOM calls; tests fix a handful of both.", "anchors": ["src/dom.rs: append_child, shallow_copy_rc_rels, make_new_rc_node"]}
{"id": "C25", "title": "Navigation never panics while the root is held", "statement": "In a well-linked document whose document root handle is alive, parent(), root(), root_element(), namespace_uri() on any node never panic. (The code panics when the root handle has been dropped and only an inner node is held; proved as a separate fact.)", "quantifier": "every well-linked document, every node, every set of live handles containing the root", "why_tests_cant": "The claim ranges over every document and every sequence of DOM calls; tests fix a handful of both.", "anchors": ["src/dom.rs: parent, root (Weak upgrade unwrap)"]}
{"id": "C26", "title": "namespace_uri finds the innermost declaration", "statement": "namespace_uri() returns the value of the xmlns / xmlns:prefix attribute on the nearest ancestor-or-self element that has one, and the empty string if none has.", "quantifier": "every well-linked document and every node", "why_tests_cant": "The claim ranges over every document and every sequence of DOM calls; tests fix a handful of both.", "anchors": ["src/dom.rs: namespace_uri"]}
{"id": "C27", "title": "Names split into prefix and local name", "statement": "For every name, if it contains ':' then space_name() has no ':' and space_name() + ':' + local_name() is the name; otherwise space_name() is empty and local_name() is the name.", "quantifier": "every node name", "why_tests_cant": "The claim ranges over an infinite set of inputs; a test suite samples finitely many of them.", "anchors": ["src/dom.rs: local_name, space_name"]}
{"id": "C28", "title": "Serialisation is compositional", "statement": "to_string() of an element with children is its start tag, inner_xml() and its end tag; inner_xml() is the concatenation of the children's to_string(); of the document root it is the concatenation of the children's; nothing outside the subtree influences it.", "quantifier": "every document tree", "why_tests_cant": "The claim ranges over an infinite set of inputs; a test suite samples finitely many of them.", "anchors": ["src/dom.rs: to_string, inner_xml, to_string_with_indent"]}
{"id": "C29", "title": "Child access is consistent", "statement": "first_child() = nth_child(0); nth_child(n) is the n-th element of children() or None beyond it; root_element() is the first element child of the root or the root itself.", "quantifier": "every DOM state, node and index", "why_tests_cant": "The claim ranges over every document and every sequence of DOM calls; tests fix a handful of both.", "anchors": ["src/dom.rs: first_child, nth_child, children, root_element"]}
{"id": "C30", "title": "Axes partition the document", "statement": "For every non-attribute node of a well-linked document, self, ancestor, descendant, preceding and following are pairwise disjoint and together contain every non-attribute node exactly once, each in document order.", "quantifier": "every well-linked document and every node", "why_tests_cant": "The claim ranges over every document and every expression/operand; tests fix a handful of both.", "anchors": ["src/xpath_impl/eval.rs: array_ancestor, array_descendant, array_following, array_preceding"]}
{"id": "C31", "title": "Sibling axes split the parent's children", "statement": "preceding-sibling, self, following-sibling concatenated are exactly the parent's children, in order; both are empty for attributes and for the root.", "quantifier": "every well-linked document and every node", "why_tests_cant": "The claim ranges over every document and every expression/operand; tests fix a handful of both.", "anchors": ["src/xpath_impl/eval.rs: array_following_sibling, array_preceding_sibling"]}
{"id": "C32", "title": "Path results come in document order without duplicates", "statement": "A path expression E1/E2 whose result consists of nodes returns them in strictly increasing document order without duplicates, and contains exactly the nodes E2 yields for some node of E1.", "quantifier": "every well-linked document, every left and right operand, every context", "why_tests_cant": "The claim ranges over every document and every expression/operand; tests fix a handful of both.", "anchors": ["src/xpath_impl/eval.rs: evaluate_xnode (OperatorPath), EvalEnv::sort_by_doc_order"]}
{"id": "C33", "title": "union is sorted set union", "statement": "A | B contains exactly the nodes of A and of B, each once, in document order; it is commutative, associative and idempotent.", "quantifier": "every two node sequences of a well-linked document", "why_tests_cant": "The claim ranges over every document and every expression/operand; tests fix a handful of both.", "anchors": ["src/xpath_impl/oper.rs: op_union"]}
{"id": "C34", "title": "intersect and except select by node identity", "statement": "A intersect B (A except B) contains exactly those nodes of A that are (are not) in B, in A's order; together they are a partition of A.", "quantifier": "every two node sequences", "why_tests_cant": "The claim ranges over every document and every expression/operand; tests fix a handful of both.", "anchors": ["src/xpath_impl/oper.rs: op_intersect, op_except"]}
{"id": "C35", "title": "Numeric predicates select by position", "statement": "step[n] with an integer n selects exactly the n-th node counted along the axis direction (from the end in document order for reverse axes), nothing if n is out of range; position() and last() inside a predicate are the item's 1-based position and the length of the sequence being filtered.", "quantifier": "every sequence, every integer, both directions", "why_tests_cant": "The claim ranges over every document and every expression/operand; tests fix a handful of both.", "anchors": ["src/xpath_impl/eval.rs: filter_by_predicate"]}
{"id": "C36", "title": "Non-numeric predicates keep the items whose predicate is true", "statement": "seq[P] keeps exactly the items for which the effective boolean value of P is true, in order. (Violated by the code: a predicate evaluating to two or more nodes, or to a non-empty string, drops the item; proved for predicates whose value is a boolean, a single node or empty.)", "quantifier": "every sequence and every predicate", "why_tests_cant": "The claim ranges over every document and every expression/operand; tests fix a handful of both.", "anchors": ["src/xpath_impl/eval.rs: filter_by_predicate"]}
{"id": "C37", "title": "General comparisons are existential", "statement": "A op B (=, !=, <, <=, >, >=) is true iff some pair of atomised items, one from each side, satisfies the item comparison; it is false if either side is empty, never an error, = and != are symmetric, and < / > are each other's converse.", "quantifier": "every two sequences", "why_tests_cant": "The claim ranges over every document and every expression/operand; tests fix a handful of both.", "anchors": ["src/xpath_impl/xsequence.rs: general_comparison"]}
{"id": "C38", "title": "Ordering with NaN is false", "statement": "Any <, <=, >, >= comparison involving NaN is false. (Violated by the code for <= and >=, which are computed as negations; proved for < and > and for all non-NaN operands.)", "quantifier": "every pair of numeric items", "why_tests_cant": "The claim ranges over every document and every expression/operand; tests fix a handful of both.", "anchors": ["src/xpath_impl/xsequence.rs: general_compare_le, general_compare_ge, value_compare_le, value_compare_ge"]}
{"id": "C39", "title": "Value comparisons", "statement": "eq/ne/lt/le/gt/ge require each operand to be empty or a singleton and raise a type error otherwise; an empty operand yields the empty sequence. (The last clause is violated by the code for ne, le and ge, which return true; proved for eq, lt, gt.)", "quantifier": "every two sequences", "why_tests_cant": "The claim ranges over every document and every expression/operand; tests fix a handful of both.", "anchors": ["src/xpath_impl/xsequence.rs: value_comparison, value_compare_ne"]}
{"id": "C40", "title": "Effective boolean value", "statement": "EBV of the empty sequence is false, of a sequence starting with a node true, of a singleton boolean/string/number its truth value, and any other sequence is a type error; and/or/not/if/boolean() all use this same value. true() is true and false() is false.", "quantifier": "every sequence", "why_tests_cant": "The claim ranges over every document and every expression/operand; tests fix a handful of both.", "anchors": ["src/xpath_impl/xsequence.rs: effective_boolean_value"]}
{"id": "C41", "title": "and / or short-circuit", "statement": "A or B does not evaluate B when A is true and A and B does not evaluate B when A is false; otherwise the result is B's effective boolean value.", "quantifier": "every expression and context", "why_tests_cant": "The claim ranges over every document and every expression/operand; tests fix a handful of both.", "anchors": ["src/xpath_impl/eval.rs: evaluate_xnode (OperatorOr, OperatorAnd)"]}
{"id": "C42", "title": "Variables are lexically scoped", "statement": "After evaluating let / for / some / every the variable bindings are what they were before. (Violated by the code for some/every leaving early: the bound variable stays visible; proved for let and for, and for some/every that run to completion.)", "quantifier": "every expression and environment", "why_tests_cant": "The claim ranges over every document and every expression/operand; tests fix a handful of both.", "anchors": ["src/xpath_impl/eval.rs: ForVarBind, LetVarBind, SomeVarBind, EveryVarBind, EvalEnv"]}
{"id": "C43", "title": "for concatenates, some is exists, every is for-all", "statement": "for $x in S return E is the concatenation, in order, of E for each item of S; some (every) $x in S satisfies E is true iff E is true for some (every) item, evaluated left to right. (Violated by the code for bodies that leave variables behind, see C42; proved for bodies that leave the bindings as they found them.)", "quantifier": "every sequence and body expression", "why_tests_cant": "The claim ranges over every document and every expression/operand; tests fix a handful of both.", "anchors": ["src/xpath_impl/eval.rs: ForVarBind, SomeVarBind, EveryVarBind"]}
{"id": "C44", "title": "Range expressions", "statement": "a to b is the sequence of all integers from a to b in increasing order, empty when a > b; its length is max(0, b-a+1).", "quantifier": "every pair of integers", "why_tests_cant": "The claim ranges over an infinite set of inputs; a test suite samples finitely many of them.", "anchors": ["src/xpath_impl/oper.rs: op_to"]}
{"id": "C45", "title": "Integer division and modulus", "statement": "For integers with b != 0 (and no overflow), (a idiv b)*b + (a mod b) = a, |a mod b| < |b| and a mod b has a's sign; b = 0 is a dynamic error for idiv, mod and div.", "quantifier": "every pair of 64-bit integers", "why_tests_cant": "The claim ranges over an infinite set of inputs; a test suite samples finitely many of them.", "anchors": ["src/xpath_impl/xitem.rs: xitem_numeric_integer_divide, xitem_numeric_mod, xitem_numeric_divide"]}
{"id": "C46", "title": "Numeric type promotion", "statement": "The type of a +,-,*,mod result is the wider of the operand types (integer < decimal < double), div of two integers is a decimal, and a non-numeric operand is a type error. A result that is not an integer is the exact result correctly rounded to an f64 (nearest, ties to even, infinity beyond the range).", "quantifier": "every pair of items", "why_tests_cant": "The claim ranges over every document and every expression/operand; tests fix a handful of both.", "anchors": ["src/xpath_impl/xitem.rs: xitem_numeric_operation, xitem_numeric_divide"]}
{"id": "C47", "title": "Maps and arrays", "statement": "map lookup returns the value of the first entry whose key has the same string form; array lookup returns the i-th member exactly for 1 <= i <= size; flatten yields the members' items in order with nested arrays expanded at every depth.", "quantifier": "every map, array and key", "why_tests_cant": "The claim ranges over every document and every expression/operand; tests fix a handful of both.", "anchors": ["src/xpath_impl/xitem.rs: XSeqMap, XSeqArray"]}
{"id": "C48", "title": "castable agrees with cast", "statement": "E castable as T is true exactly when E cast as T succeeds, and a successful cast has type T.", "quantifier": "every sequence and type name", "why_tests_cant": "The claim ranges over every document and every expression/operand; tests fix a handful of both.", "anchors": ["src/xpath_impl/xsequence.rs: castable_as, cast_as", "src/xpath_impl/xitem.rs: cast_as"]}
{"id": "C49", "title": "each_node and get_first_node agree with get_nodeset", "statement": "each_node(x,f) calls f exactly once per node of get_nodeset(x), in that order; get_first_node(x) is its first node, or None when it is empty or x is in error.", "quantifier": "every document, expression and callback", "why_tests_cant": "The claim ranges over every document and every expression/operand; tests fix a handful of both.", "anchors": ["src/xpath.rs: each_node, get_first_node, get_nodeset, eval_xpath"]}
{"id": "C50", "title": "String literals round-trip", "statement": "Quoting any string as an XPath literal with either quote character, doubling that character inside, is lexed as a single string-literal token with exactly that string, and evaluates to that string.", "quantifier": "every string without U+0000 and both quote characters", "why_tests_cant": "The claim ranges over an infinite set of inputs; a test suite samples finitely many of them.", "anchors": ["src/xpath_impl/lexer.rs: fetch_string_literal"]}
{"id": "C51", "title": "XPath comments are skipped, nested to any depth", "statement": "A properly nested comment (: ... :) anywhere a token may start contributes no token and the rest of the expression is tokenized as if it were absent.", "quantifier": "every nesting depth and content", "why_tests_cant": "The claim ranges over an infinite set of inputs; a test suite samples finitely many of them.", "anchors": ["src/xpath_impl/lexer.rs: skip_comment, Lexer::new"]}
{"id": "C52", "title": "The lexer terminates and keeps its sentinels", "statement": "Lexer::new returns for every input (a token list or an error), and the token list begins and ends with the EOF sentinel and contains no placeholder tokens, so the parser never reads outside it. (Violated by the code for an expression that consists of nothing but white space and comments: Lexer::new panics; proved for all others, and the panic is proved exactly for these.)", "quantifier": "every input string", "why_tests_cant": "The claim ranges over an infinite set of inputs; a test suite samples finitely many of them.", "anchors": ["src/xpath_impl/lexer.rs: Lexer::new, get_tok, rewrite_pair_words, eliminate_nops"]}
{"id": "C53", "title": "Node comparisons agree with document order", "statement": "For any two nodes of one document, `is` holds exactly for the same node, `<<` exactly when the left node comes earlier in document order and `>>` exactly when it comes later, so exactly one of the three holds.", "quantifier": "every document and every pair of its nodes", "why_tests_cant": "The claim ranges over an infinite set of inputs; a test suite samples finitely many of them.", "anchors": ["src/xpath_impl/oper.rs: op_is_same_node, op_node_before, op_node_after"]}
{"id": "C54", "title": "The expression parser terminates", "statement": "Compiling an XPath expression always returns: a syntax tree, a syntax error or a not-implemented error; no loop of the parser runs for ever and it never asks for a token outside the token list. (A blank expression panics in the lexer, see C52.)", "quantifier": "every expression, of any length and nesting", "why_tests_cant": "The claim ranges over an infinite set of inputs; a test suite samples finitely many of them.", "anchors": ["src/xpath_impl/parser.rs: parse_main, parse_expr_single and all parse_* functions"]}
{"id": "C56", "title": "The path operator is associative", "statement": "(A/B)/C and A/(B/C) have the same value. (Violated by the code when C yields atomic values: paths are grouped from the right and the nodes of A/B are then not freed of duplicates; proved for operands that yield nodes.)", "quantifier": "every document, every three operands", "why_tests_cant": "The claim ranges over every document and every expression/operand; tests fix a handful of both.", "anchors": ["src/xpath_impl/eval.rs: evaluate_xnode (OperatorPath)", "src/xpath_impl/parser.rs: parse_relative_path_expr"]}
{"id": "C57", "title": "get_nodeset is in document order", "statement": "get_nodeset returns the nodes of the expression in document order without duplicates, as documented. (Violated by the code for expressions that build sequences: comma, for, intersect and except of such; proved for path expressions with steps on all axes, all predicates, parentheses, filters, union, intersect and except.)", "quantifier": "every document, every start node, every path expression", "why_tests_cant": "The claim ranges over every document and every expression/operand; tests fix a handful of both.", "anchors": ["src/xpath.rs: get_nodeset", "src/xpath_impl/eval.rs: evaluate_xnode"]}
{"id": "C59", "title": "String building functions", "statement": "concat is the concatenation of the texts of its arguments (the empty sequence counts as the empty string, several items are a type error); string-join puts the separator between the texts of neighbouring items.", "quantifier": "every number and values of arguments", "why_tests_cant": "The claim ranges over every document and every expression/operand; tests fix a handful of both.", "anchors": ["src/xpath_impl/func.rs: fn_concat, fn_string_join"]}
{"id": "C60", "title": "Substring search functions", "statement": "contains, starts-with and ends-with tell exactly whether the second string occurs (at any place, at the front, at the end) in the first; substring-before and substring-after split at the leftmost occurrence and are empty when there is none.", "quantifier": "every pair of strings", "why_tests_cant": "The claim ranges over an infinite set of inputs; a test suite samples finitely many of them.", "anchors": ["src/xpath_impl/func.rs: fn_contains, fn_starts_with, fn_ends_with, fn_substring_before, fn_substring_after"]}
{"id": "C61", "title": "Strings and code points", "statement": "string-length counts code points, string-to-codepoints lists them, codepoints-to-string inverts it and rejects integers that are not code points. (Violated by the code: integers outside the range wrap around and surrogate pairs are joined; proved for the code points of every string.)", "quantifier": "every string; every sequence of integers", "why_tests_cant": "The claim ranges over an infinite set of inputs; a test suite samples finitely many of them.", "anchors": ["src/xpath_impl/func.rs: fn_string_length, fn_string_to_codepoints, fn_codepoints_to_string"]}
{"id": "C62", "title": "translate", "statement": "translate(s,f,t) replaces each character of s by the character of t at the place of its first occurrence in f, drops it if t is too short and keeps it if f does not contain it. (Violated by the code when f repeats a character: the last occurrence counts; proved for f without repetition.)", "quantifier": "every three strings", "why_tests_cant": "The claim ranges over an infinite set of inputs; a test suite samples finitely many of them.", "anchors": ["src/xpath_impl/func.rs: fn_translate"]}
{"id": "C63", "title": "normalize-space", "statement": "normalize-space strips leading and trailing white space and makes each run of white space inside a single space. (Violated by the code for every text of several words: the words are run together; proved for texts of at most one word.)", "quantifier": "every string", "why_tests_cant": "The claim ranges over an infinite set of inputs; a test suite samples finitely many of them.", "anchors": ["src/xpath_impl/func.rs: fn_normalize_space"]}
{"id": "C64", "title": "substring and subsequence", "statement": "substring(s,x,y) and subsequence(s,x,y) select the positions p with round(x) <= p < round(x)+round(y), those from round(x) on when y is absent. (Violated by the code where its rounding is wrong, for an infinite start without length and for huge starts, which panic; proved for all numbers below 2^61 in size that round rounds rightly, infinite lengths and NaN.)", "quantifier": "every string or sequence and all numbers", "why_tests_cant": "The claim ranges over an infinite set of inputs; a test suite samples finitely many of them.", "anchors": ["src/xpath_impl/func.rs: fn_substring, fn_subsequence, sub_index"]}
{"id": "C65", "title": "Sequence functions", "statement": "count, empty, exists, reverse, head, tail, insert-before and remove are what XPath says: insert-before keeps all items in order and puts the inserted ones before the position (clamped to the ends), remove drops exactly the item at the position.", "quantifier": "every sequence and position (insert-before: other than the smallest 64-bit integer, where its subtraction overflows)", "why_tests_cant": "The claim ranges over an infinite set of inputs; a test suite samples finitely many of them.", "anchors": ["src/xpath_impl/func.rs: fn_count, fn_empty, fn_exists, fn_reverse, fn_head, fn_tail, fn_insert_before, fn_remove"]}
{"id": "C66", "title": "Cardinality functions and index-of", "statement": "zero-or-one, one-or-more and exactly-one return their argument unchanged when its length is as they say and are errors otherwise. fn:index-of gives the positions, counted from 1 and increasing, of the items equal to the second argument; items that cannot be compared with it count as different. (The last point is violated by the code: they are a type error.)", "quantifier": "every sequence and every item searched for", "why_tests_cant": "The claim ranges over an infinite set of inputs; a test suite samples finitely many of them.", "anchors": ["src/xpath_impl/func.rs: fn_zero_or_one, fn_one_or_more, fn_exactly_one, fn_index_of"]}
{"id": "C68", "title": "Rounding functions are exact", "statement": "floor, ceiling and abs of a finite number are exactly the mathematical floor, ceiling and absolute value in the type of the argument; round is the nearest integer, halves upwards; the empty sequence gives the empty sequence. (round is violated by the code for exactly the largest number below one half and the odd integers between 2^52 and 2^53 in size; proved for all others.)", "quantifier": "every integer, decimal and double", "why_tests_cant": "The claim ranges over an infinite set of inputs; a test suite samples finitely many of them.", "anchors": ["src/xpath_impl/func.rs: fn_abs, fn_ceiling, fn_floor, fn_round"]}
{"id": "C55", "title": "Expressions are compiled by the grammar", "statement": "Every text that is an expression by the grammar of XPath 3.1 is compiled, and to the tree the grammar gives it: operators bind by the precedence table and associate to the left, terminals are the longest possible ones, words are operators or keywords only next to the right neighbours, predicates belong to the step before them. (Violated by the code for repeated signs, predicates after .., => with a parenthesized function, attribute() without axis, the namespace axis, and words next to *, $, ? and !; proved for all other productions.)", "quantifier": "every text and every derivation in the grammar, of any depth and length", "why_tests_cant": "The claim ranges over an infinite set of inputs; a test suite samples finitely many of them.", "anchors": ["src/xpath_impl/parser.rs: parse_main, parse_expr, parse_step_expr, parse_primary_expr", "src/xpath_impl/lexer.rs: Lexer::new, get_tok, rewrite_operator_type, rewrite_name_and_symbol"]}
{"id": "C76", "title": "Steps select by axis and node test", "statement": "A step axis::test from a node gives exactly the nodes that are on the axis and pass the node test (by node kind and name: a name test wants the principal kind of the axis), each once, in document order; the empty sequence if there is none, never an error. (Violated by the code for *:n, document-node() and Q{uri}n, which select nothing, and for the following and preceding axes of attributes; proved for all thirteen axes and all other tests.)", "quantifier": "every document, every node in it, every axis and node test", "why_tests_cant": "The claim ranges over every document and every sequence of DOM calls; tests fix a handful of both.", "anchors": ["src/xpath_impl/eval.rs: match_loc_step, match_along_axis, match_node_test, match_name_test, match_kind_test, array_ancestor, array_following"]}
{"id": "C77", "title": "instance of decides the type", "statement": "e instance of T gives true exactly if the value of e is of the sequence type T: as many items as the occurrence indicator admits, and every item of the item type, where a map is of type map(K,V) if all its entries are, an array of type array(T) if all its members are, and a function of type function(P1,...) as R if its signature is a subtype of that (parameters contravariant, result covariant). It never is an error. (Violated by the code: functions are no item(), parenthesized item types have no values, named kind tests are compared wrongly in function signatures; proved for all other types.)", "quantifier": "every value, every sequence type, of any nesting", "why_tests_cant": "The claim ranges over an infinite set of inputs; a test suite samples finitely many of them.", "anchors": ["src/xpath_impl/eval.rs: match_sequence_type, match_sequence_typed_function_test, subtype, subtype_itemtype, match_occurence, derives_from"]}
{"id": "C78", "title": "Casts convert values", "statement": "x cast as T gives the value of x in the type T: a text that writes an integer gives that integer and a text that writes a number gives that number, correctly rounded to an f64 (white space around it is ignored), a number cast to xs:integer loses its fraction, numbers cast to xs:boolean are true unless zero or NaN, integers are written in decimal notation that reads back as the same integer; what has no value in the type is a type error. (Violated by the code for texts that are no numbers, which become 0 or NaN, and for NaN and infinity to xs:integer; fn:number of several items is 0 instead of an error; proved for the rest.)", "quantifier": "every value, every text, every supported target type", "why_tests_cant": "The claim ranges over an infinite set of inputs; a test suite samples finitely many of them.", "anchors": ["src/xpath_impl/xitem.rs: cast_as, get_as_raw_string, get_as_raw_double, get_as_raw_integer, get_as_raw_boolean, atoi, atof", "src/xpath_impl/xsequence.rs: cast_as"]}
{"id": "C82", "title": "Numerals denote their numbers", "statement": "An integer literal, as an expression, has the integer it writes as its value; a decimal or double literal the number it writes, correctly rounded to an f64; fn:number of a text that writes a number gives that number, correctly rounded. (Violated by the code for integer literals of more than 64 bits, which become 0.)", "quantifier": "every numeric literal of any length, every text", "why_tests_cant": "The claim ranges over an infinite set of inputs; a test suite samples finitely many of them.", "anchors": ["src/xpath_impl/lexer.rs: get_number", "src/xpath_impl/eval.rs: evaluate_xnode", "src/xpath_impl/func.rs: fn_number", "src/xpath_impl/xitem.rs: atoi, atof"]}
{"id": "C75", "title": "Concatenation and the map operator", "statement": "The value of (A, B) is the items of A followed by the items of B: sequences do not nest, the comma is associative and () is neutral; parentheses only group. A || B is the text of A followed by the text of B, () counting as the empty text, several items being a type error. A ! B is the value of B with each item of A as context item, concatenated in the order of A, without sorting or removing duplicates.", "quantifier": "every pair of operands and every value they can have", "why_tests_cant": "The claim ranges over every document and every expression/operand; tests fix a handful of both.", "anchors": ["src/xpath_impl/eval.rs: evaluate_xnode", "src/xpath_impl/oper.rs: op_concatenate", "src/xpath_impl/func.rs: fn_concat"]}
{"id": "C79", "title": "Comparison of strings", "statement": "fn:compare of two strings is -1, 0 or 1 as the first is before, equal to or after the second in the order of the code points; fn:codepoint-equal is true exactly for equal strings; an empty operand makes the result empty, other operands that are no strings are a type error.", "quantifier": "every pair of strings, every pair of values", "why_tests_cant": "The claim ranges over an infinite set of inputs; a test suite samples finitely many of them.", "anchors": ["src/xpath_impl/func.rs: fn_compare, fn_codepoint_equal, codepoint_equal_sub, string_to_codepoints_sub"]}
{"id": "C81", "title": "position() and last()", "statement": "In a predicate position() is the number of the item in the filtered sequence, counted from 1 along the axis, and last() the number of its items, however many predicates and other expressions were evaluated before; so A[position() op n] is the items of A whose position p satisfies p op n, and A[position() = last()] is the last item. On the right of ! and / the numbers are those of the items of the left side. (Violated by the code for ! and /, which keep the numbers of the predicate around them, or 0; proved for predicates.)", "quantifier": "every expression, every sequence of any length, every comparison and every integer", "why_tests_cant": "The claim ranges over every document and every expression/operand; tests fix a handful of both.", "anchors": ["src/xpath_impl/eval.rs: filter_by_predicate, evaluate_xnode, EvalEnv", "src/xpath_impl/func.rs: fn_position, fn_last"]}
{"id": "C67", "title": "Aggregates", "statement": "fn:sum of some items is 0 + x1 + ... + xn added from left to right as + does, each item that is no number counting as its fn:number, and of no items 0 or the second argument; so for integers it is the exact sum unless a partial sum overflows, and for other numbers the exact sum whenever the partial sums are f64 numbers. fn:avg is that sum divided by the number of items, empty for no items. fn:max and fn:min give an item of the sequence that no other item exceeds (is below), empty for no items, and a type error for items that cannot be compared; with NaN among the items the result is NaN. (Violated by the code: with NaN the result depends on the order of the items, nodes are compared as text and the result is a node, strings are added.)", "quantifier": "every sequence of any length", "why_tests_cant": "The claim ranges over an infinite set of inputs; a test suite samples finitely many of them.", "anchors": ["src/xpath_impl/func.rs: fn_sum, fn_avg, fn_max, fn_min"]}
{"id": "C69", "title": "Map and array expressions", "statement": "map { k1 : v1, ... } is the map with these entries in order, a key that is not exactly one item is an error; [v1, ...] is the array of these members and array { e } the array of the single items of e. map:size, map:keys, map:contains, map:get, array:size, array:get and array:flatten give what the XPath function library says about the entries and members; applying a map to a key, or an array to a position, gives the value, an array applied outside its bounds is an error; m?(e) gives the values of all keys of e in order, m?* all values in order, and on items that are no map or array is a type error. (Violated by the code: duplicate keys are kept, keys of different types with the same text are the same, applying a map to an absent key is an error, array:get out of range gives nothing, the keys in m?(e) are computed with the map as the context item.)", "quantifier": "every map and array of any size, every key", "why_tests_cant": "The claim ranges over an infinite set of inputs; a test suite samples finitely many of them.", "anchors": ["src/xpath_impl/func.rs: map_size, map_keys, map_contains, map_get, array_size, array_get, array_flatten", "src/xpath_impl/eval.rs: evaluate_xnode (Map, SquareArray, CurlyArray, UnaryLookupByExpr, UnaryLookupByWildcard, ApplyArgument)"]}
{"id": "C70", "title": "Functions about nodes", "statement": "fn:name, fn:local-name and fn:namespace-uri of a node are its DOM name(), local_name() and namespace_uri(), the empty string for no node and an error for anything else; fn:root is the document root of the node's document; fn:nilled of an element tells whether its attribute xsi:nil is true, and is empty for other nodes; without argument these functions, fn:string, fn:data, fn:number, fn:string-length, fn:normalize-space and fn:nilled take the context item. fn:lang tells whether the xml:lang of the nearest ancestor-or-self is the language asked for or a sub-language, ignoring case. (Violated by the code for fn:lang: the outermost xml:lang counts, the argument's case matters.)", "quantifier": "every document, node and argument", "why_tests_cant": "The claim ranges over every document and every sequence of DOM calls; tests fix a handful of both.", "anchors": ["src/xpath_impl/func.rs: fn_name, fn_local_name, fn_namespace_uri, fn_root, fn_lang, fn_lang_1, fn_string_0"]}
{"id": "C71", "title": "The text of a node", "statement": "fn:string and fn:data of an element or document node is the concatenation of the texts of all text nodes below it in document order; of a text, attribute or comment node its value. fn:string of no item is empty, of a map, array or function or several items an error; fn:data replaces each node by its text and keeps all other items, in order. (Violated by the code: comments and processing instructions below an element count as text.)", "quantifier": "every parsed document, node and sequence", "why_tests_cant": "The claim ranges over an infinite set of inputs; a test suite samples finitely many of them.", "anchors": ["src/xpath_impl/xitem.rs: string_value, typed_value, atomize", "src/xpath_impl/func.rs: fn_string, fn_data"]}
{"id": "C72", "title": "Functions taking functions", "statement": "fn:for-each(S, F) is the concatenation of the values of F for the items of S in order; fn:filter(S, F) is the items of S, in order, for which the effective boolean value of F is true; F may be an inline function, a named function reference or a partial call, and anything but one function item as F is a type error. (Violated by the code: the fixed arguments of a partial call are computed anew at every call, with the variables of the caller.)", "quantifier": "every sequence and function item", "why_tests_cant": "The claim ranges over an infinite set of inputs; a test suite samples finitely many of them.", "anchors": ["src/xpath_impl/func.rs: fn_for_each, fn_filter", "src/xpath_impl/eval.rs: call_function, call_inline_func"]}
{"id": "C74", "title": "Function items and their application", "statement": "An inline function, a named function reference and a partial call are function items; F(a, b, …) evaluates the arguments once, checks them against the types of the parameters (a mismatch is a type error) and has the value of the body with the parameters bound. (Violated by the code: only inline functions can be applied this way; too many arguments panic, missing ones leave the parameter empty; the result type is not checked; variables of the body are those of the caller.)", "quantifier": "every function item and argument list", "why_tests_cant": "The claim ranges over an infinite set of inputs; a test suite samples finitely many of them.", "anchors": ["src/xpath_impl/eval.rs: call_inline_func, evaluate_xnode"]}
{"id": "C58", "title": "Texts that are not expressions are rejected", "statement": "compile/eval_xpath accept a text only if it is an expression: if a text without U+0000 compiles, it is made of terminals of XPath 3.1 separated by white space and comments, its words can be read as names, operators and keywords so that the productions of the grammar derive it, and the tree evaluated is the one of the derivation. In particular all brackets are closed in the right order. Every other text is reported as a syntax error.", "quantifier": "every text without U+0000", "why_tests_cant": "The claim ranges over an infinite set of inputs; a test suite samples finitely many of them.", "anchors": ["src/xpath_impl/parser.rs: compile_xpath, parse_main, all parse_* functions", "src/xpath_impl/lexer.rs: Lexer::new, get_tok, rewrite_*"]}
{"id": "C73", "title": "Calls of unknown functions are rejected before evaluation", "statement": "An expression that calls a function that does not exist, or an existing one with a number of arguments it cannot take, is rejected when it is compiled, wherever the call stands and whether or not it would be evaluated; every other call compiles.", "quantifier": "every text; every function name and number of arguments", "why_tests_cant": "The claim ranges over an infinite set of inputs; a test suite samples finitely many of them.", "anchors": ["src/xpath_impl/func.rs: check_function_spec, FUNC_TBL, FUNC_CONTEXT_TBL", "src/xpath_impl/parser.rs: parse_function_call, parse_arrow_expr"]}
{"id": "C80", "title": "Evaluation of an expression ends, with a value or an error", "statement": "For every document, every start node and every expression that compiles, eval_xpath returns a value or an error: it neither recurses without end nor panics.", "quantifier": "every text that compiles, every document, every start node", "why_tests_cant": "The claim ranges over an infinite set of inputs; a test suite samples finitely many of them.", "anchors": ["src/xpath_impl/eval.rs: match_xpath, evaluate_xnode, call_function, call_inline_func, apply_argument", "src/xpath_impl/func.rs: evaluate_function and every function of the library", "src/xpath_impl/oper.rs"]}
{"id": "C83", "title": "A number's text reads back as the number", "statement": "The text of every integer, decimal and double, cast back to its type, is the same number, for NaN and infinities too; the text of a double given to fn:number is the double. Decimals and doubles other than zero are written in decimal notation without an exponent, and the number written is one that rounds to the value; whole numbers below 2^53 are written as the integer is.", "quantifier": "every 64-bit integer and every f64", "why_tests_cant": "The claim ranges over an infinite set of inputs; a test suite samples finitely many of them.", "anchors": ["src/xpath_impl/xitem.rs: get_as_raw_string, cast_as, atof, atoi", "src/xpath_impl/func.rs: fn_string, fn_number"]}
{"id": "C84", "title": "Division with remainder of decimals and doubles", "statement": "If one of x and y is not an integer and y is not zero, x mod y is exactly x - y * t and x idiv y is the integer t, where t is x / y truncated towards zero. (Violated by the code for idiv, which truncates the operands first; proved for mod, and for idiv of whole numbers.)", "quantifier": "every pair of finite numbers", "why_tests_cant": "The claim ranges over an infinite set of inputs; a test suite samples finitely many of them.", "anchors": ["src/xpath_impl/xitem.rs: xitem_numeric_mod, xitem_numeric_integer_divide"]}
{"id": "C85", "title": "to_string tells values apart", "statement": "Two results of queries that are not the same sequence have different texts: the text given by to_string shows the number of items, their types, and the values. (Violated by the code where strings contain quote characters, which are not escaped, and for text nodes; proved for sequences of strings without quote characters, numbers, booleans, and maps and arrays of these.)", "quantifier": "every pair of sequences", "why_tests_cant": "The claim ranges over an infinite set of inputs; a test suite samples finitely many of them.", "anchors": ["src/xpath.rs: Sequence::to_string, Item::to_string", "src/xpath_impl/xsequence.rs: Display for XSequence", "src/xpath_impl/xitem.rs: Display for XItem, XSeqMap, XSeqArray"]}
{"id": "C86", "title": "to_string of a value is an expression for it", "statement": "The text that to_string gives for a sequence of atomic values, arrays and maps is an XPath expression, and evaluating it, in any document, gives the sequence. (Violated by the code for booleans, NaN and infinities, maps, the least integer, and strings with quote characters; proved for all sequences of other strings, finite numbers, and arrays of these.)", "quantifier": "every sequence of atomic values, arrays and maps, and every document", "why_tests_cant": "The claim ranges over an infinite set of inputs; a test suite samples finitely many of them.", "anchors": ["src/xpath.rs: Sequence::to_string", "src/xpath_impl/xsequence.rs: Display for XSequence", "src/xpath_impl/xitem.rs: Display for XItem, XSeqArray", "src/xpath_impl/lexer.rs", "src/xpath_impl/parser.rs"]}
{"id": "C87", "title": "Errors are not swallowed", "statement": "If the evaluation of an expression comes to evaluate one of its parts (an operand, a condition or the branch it chooses, a body for an item of a sequence, a step for a node, a predicate for an item, an argument, a member of an array, a key or value of a map, the body of a function that is called) and the part fails, then the expression fails with the same error, whatever stands around it; so does the query. Parts that are not reached (the other branch, the right side of `or` after true, items behind the one that decides `some`) do not matter.", "quantifier": "every expression, every part of it at any depth, every document, context and variables", "why_tests_cant": "The claim ranges over an infinite set of inputs; a test suite samples finitely many of them.", "anchors": ["src/xpath_impl/eval.rs: evaluate_xnode, filter_by_predicate, call_function", "src/xpath.rs: eval_xpath"]}
{"id": "C88", "title": "Location paths select what they say, end to end", "statement": "The text of a location path - absolute or relative, steps separated by `/` and `//`, each step any of the twelve supported axes (or `@`, `.`, `..`, the child axis by default) with a node test (`n`, `p:n`, `*`, `p:*`, a kind test) and any number of predicates `[3]`, `[last()]`, `[step='v']`, `[.='v']` - evaluated from any node of a document by `eval_xpath`, `get_nodeset`, `get_first_node` or `each_node` delivers exactly the nodes the path leads to according to XPath, in document order, each once. In particular `//n` delivers all elements named n and `//n[@k='v']` those with an attribute k of value v, for all names (also names such as `div` or `for`) and all strings v.", "quantifier": "every document reachable by parsing and edits, every node of it, every path of the stated form of any length, all names and strings", "why_tests_cant": "The claim ranges over an infinite set of inputs; a test suite samples finitely many of them.", "anchors": ["src/xpath.rs: eval_xpath, get_nodeset, get_first_node, each_node", "src/xpath_impl/lexer.rs", "src/xpath_impl/parser.rs", "src/xpath_impl/eval.rs: evaluate_xnode"]}
{"id": "C89", "title": "Edits show in the text of the document, and only there", "statement": "In a document whose nodes nest only in elements and the root, for every node e: after `append_child(c)` the `to_string()` of the document is what it was with the text of c behind the texts of e's children (and `inner_xml()` of e gains the text of c at its end); after `insert_as_previous_sibling(x)` / `insert_as_next_sibling(x)` / `replace_with(x)` the text of x stands immediately before / behind / in place of the text of the node; after `delete_child` the text of the child is gone; after `set_attribute` / `delete_attribute` the start tag has the new attributes. The text around the edited element is unchanged.", "quantifier": "every document reachable by parsing and edits, every node of it, every inserted node that does not contain the edited one, all names and values", "why_tests_cant": "The claim ranges over every document and every sequence of DOM calls; tests fix a handful of both.", "anchors": ["src/dom.rs: append_child, insert_as_previous_sibling, insert_as_next_sibling, replace_with, delete_child, set_attribute, delete_attribute, to_string, inner_xml"]}
{"id": "C90", "title": "Pretty printing adds white space only", "statement": "For every node for which `to_string()` returns a text, `to_pretty_string()` returns that text with white space added and nothing else changed; and for every document that `to_string` writes faithfully, `new_document` of the pretty text returns a document with the same tree - the same elements, attributes, comments, instructions and texts in the same order - except for white space at the ends of texts and texts of white space only.", "quantifier": "every document (every node of every state for the first part), any nesting", "why_tests_cant": "The claim ranges over an infinite set of inputs; a test suite samples finitely many of them.", "anchors": ["src/dom.rs: to_pretty_string, to_string_with_indent"]}
{"id": "C91", "title": "Queries depend on the content of the document only", "statement": "If two documents - parsed, edited and queried before in whatever way, in one program or in two - have equal trees of contents (types, names, values, attributes and children in order), then every XPath expression asked at the same place of both has the same outcome: the same error, or values that differ only in that each node of the one stands where the other has the node at the same place. The values have equal texts; `get_nodeset` and `get_first_node` give the nodes at the same places. `new_document` of a text does not depend on what the program did before, and a document that can be written and read back answers every query like the document read back from its `to_string()`. Identity of nodes, allocation order and the history of the document are not observable.", "quantifier": "every pair of reachable states and documents in them with equal contents, every start node, every query text, every depth of recursion", "why_tests_cant": "The claim ranges over every document and every sequence of DOM calls; tests fix a handful of both.", "anchors": ["src/xpath.rs: eval_xpath, get_nodeset, get_first_node", "src/xpath_impl/eval.rs", "src/xpath_impl/func.rs", "src/dom.rs: new_document, document_order"]}
{"id": "C92", "title": "Core XPath from the text to the nodes", "statement": "Queries - unions `p|q` of location paths whose steps have any number of predicates, each a position, `last()` or a condition built from `boolean(q)`, `q='v'`, `q!='v'`, `p=q`, `count(q)=n`, `and`, `or` and `not()` over queries in turn, nested to any depth - mean what the recommendation says: the text of a query, given to eval_xpath, get_nodeset, get_first_node or each_node at any node of a document, yields exactly the nodes the query leads to, in document order, each once. The text of a condition yields true or false as it holds, `count(q)` the number of nodes. `[c][d]` and `[c and d]` keep the same nodes, `[not(c)]` the others.", "quantifier": "every document, every start node, every query of this form, whatever its names, strings, numbers and nesting", "why_tests_cant": "The claim ranges over an infinite set of inputs; a test suite samples finitely many of them.", "anchors": ["src/xpath.rs: eval_xpath, get_nodeset, get_first_node, each_node", "src/xpath_impl/lexer.rs", "src/xpath_impl/parser.rs", "src/xpath_impl/eval.rs", "src/xpath_impl/func.rs: fn_boolean, fn_not, fn_count"]}
{"id": "C93", "title": "What is done elsewhere leaves a document as it is", "statement": "A program holds a document. Whatever it then does elsewhere - new_document of other texts, edits (set_attribute, delete_attribute, append_child, insert_as_previous_sibling, insert_as_next_sibling, delete_child, replace_with) called on nodes whose root is not the root of this document, with any nodes (this document's too) as arguments, and document order queries anywhere - every XPath expression asked at any node of the document has the outcome it had before (the same error, or the same value with the very same nodes), to_string, to_pretty_string and inner_xml of its nodes return what they returned before, and its links and contents are what they were.", "quantifier": "all reachable states, all well-linked documents in them (attribute nodes being leaves, for the XPath part), all histories of any length of parses, edits outside the document and order queries, all nodes of the document and all expressions", "why_tests_cant": "The claim ranges over every document and every sequence of DOM calls; tests fix a handful of both.", "anchors": ["src/dom.rs: append_child, insert_as_previous_sibling, insert_as_next_sibling, delete_child, replace_with, set_attribute, delete_attribute, new_document", "src/xpath_impl/eval.rs: evaluate_xpath", "src/xpath_impl/xitem.rs: Display"]}
{"id": "C94", "title": "Variables mean their lexical bindings when quantified variables have names of their own", "statement": "For every query that calls no function items and in which no expression refers to a variable from outside it under the name that a quantified expression inside it gives to its variable: the query has a value exactly if it has a meaning in a semantics with lexical scope, in which for, let, some and every bind their variable in their body only and nothing is changed by evaluating an expression, and the two are the same, over every document and start node. Where the meaning is an error, eval_xpath reports the same error, or a type error of a path that yields nodes and atomic values. So an expression sees only the variables it refers to, and evaluating it changes no variable but those of its quantified expressions.", "quantifier": "All queries without calls of function items, with any nesting of for, let, some, every, paths, predicates, operators, maps, arrays and library functions; all documents and start nodes; all bindings of the variables.", "why_tests_cant": "The claim ranges over every document and every expression/operand; tests fix a handful of both.", "anchors": ["src/xpath_impl/eval.rs: EvalEnv::set_var", "src/xpath_impl/eval.rs: EvalEnv::remove_var", "src/xpath_impl/eval.rs: EvalEnv::get_var", "src/xpath_impl/eval.rs: evaluate_xnode"]}
{"id": "C95", "title": "The language new_document accepts", "statement": "For every text without U+0000, new_document returns a document if and only if the text (without its carriage returns) is a sequence of the constructs of a given grammar - text, comments, CDATA sections, processing instructions, directives with balanced brackets, end tags, start tags and empty-element tags with their attributes - whose tags match. The grammar gives each text one reading, and the tokens of the text are those of that reading. Every document of the XML grammar (prolog, one element, misc) is among the accepted texts. Of the other texts, exactly those which are such constructs followed by a start tag that the text ends in make new_document run for ever; all others give an error.", "quantifier": "all texts without U+0000, in every heap", "why_tests_cant": "The claim ranges over an infinite set of inputs; a test suite samples finitely many of them.", "anchors": ["src/sax.rs: raw_token", "src/sax.rs: get_name", "src/sax.rs: get_until", "src/sax.rs: get_until_matching_bracket", "src/dom.rs: new_document"]}
{"id": "C96", "title": "The tree new_document builds is the one the text describes", "statement": "For every XML document (a text of the XML grammar of prolog, element and misc, without U+0000) new_document returns a document whose nodes are those the text describes: the same elements with the same names and attributes in the same order (values with references replaced), the same texts, comments, CDATA texts and processing instructions, nested and ordered as in the text, and nothing else. More generally, for every accepted text the nodes are those its constructs describe: an end tag closes the innermost open element, elements still open at the end are closed there, directives leave no node; and the text determines them.", "quantifier": "all texts of the XML grammar, and all texts new_document accepts, in every heap", "why_tests_cant": "The claim ranges over an infinite set of inputs; a test suite samples finitely many of them.", "anchors": ["src/dom.rs: new_document", "src/sax.rs: raw_token"]}
{"id": "C97", "title": "Equal expressions can replace one another", "statement": "For every two queries that call no function items and whose quantified variables have names of their own: if the second is the first with some of its expressions, at any places and depths, replaced by expressions with the same meaning at every place, then over every document and from every start node both give the same answer or both give none. Some sixty laws between expressions are such replacements: parentheses, associativity of the comma, of and, or, ! and ||, the laws of De Morgan, every as not-some-not, the laws of if, of for over a comma, an empty sequence and another for, of let, the renaming of bound variables, putting in a literal or a variable for the variable of a let, joining two predicates that do not look at positions into one with and (both of steps and of filter expressions), distribution of ! and of such predicates over the comma, reverse, head and tail, [1] as head, empty as not(exists) and as count = 0, a < b as b > a and the like (C106), a comparison with = and its like as a some, some as not-every-not, true() and false() as conditions of if, and, or and predicates, a function call, a comma, a for or a let of an if taken apart, and a predicate under a for as an if.", "quantifier": "all pairs of queries without calls of function items, related by any number of applications of the laws at any places and in either direction; all documents and start nodes", "why_tests_cant": "The claim ranges over every document and every expression/operand; tests fix a handful of both.", "anchors": ["src/xpath_impl/eval.rs: evaluate_xnode", "src/xpath_impl/eval.rs: match_xpath", "src/xpath_impl/eval.rs: filter_by_predicates", "src/xpath_impl/func.rs: evaluate_function"]}
{"id": "C98", "title": "Queries that the rules of paths make equal have the same answers", "statement": "For every document that can come about and every node of it, two queries (unions of location paths with all axes, tests, positions and nested conditions) give the same nodes in the same order through eval_xpath, get_nodeset, get_first_node and each_node whenever one can be turned into the other by any number of applications, at any places and in either direction, of some fifty rules: Boolean algebra of conditions, the laws of union, the abbreviations written out (//, .., ., @), positions picked twice, conditions moved between paths and predicates, [c][d] as [c and d], // as the descendant axis, the axes descendant, ancestor, following and preceding in terms of the others, there-and-back steps as conditions, and the reverse axes turned round (/descendant-or-self::T/preceding::U as /descendant-or-self::U[boolean(following::T)]). The same for the truth of conditions.", "quantifier": "all pairs of queries related by the rules, all documents reachable by parsing and editing, all context nodes", "why_tests_cant": "The claim ranges over an infinite set of inputs; a test suite samples finitely many of them.", "anchors": ["src/xpath_impl/eval.rs: evaluate_xnode", "src/xpath_impl/eval.rs: match_location_path", "src/xpath_impl/eval.rs: filter_by_predicates", "src/xpath.rs: NodePtr::get_nodeset"]}
{"id": "C99", "title": "Upper and lower case", "statement": "fn:upper-case of an ASCII text is the text with every small letter replaced by its capital and nothing else changed, fn:lower-case the other way round; of no text it is the empty text, and of anything but one string a type error.", "quantifier": "every ASCII text, every argument", "why_tests_cant": "The claim ranges over an infinite set of inputs; a test suite samples finitely many of them.", "anchors": ["src/xpath_impl/func.rs: fn_upper_case, fn_lower_case"]}
{"id": "C100", "title": "Names are those of XML 1.0", "statement": "The names that the parser reads in tags, attributes and processing instructions are the names of XML 1.0 (Letter, '_' or ':' followed by letters, digits, '.', '-', '_', ':', combining characters and extenders, with the tables of the recommendation): what is read as a name is the longest such name that stands at the place; every such name can be used; in every document that new_document returns all names of elements, attributes and processing instructions are of that form (or missing, see C95); white space is space, tab, CR and LF.", "quantifier": "every text, every name", "why_tests_cant": "The claim ranges over an infinite set of inputs; a test suite samples finitely many of them.", "anchors": ["src/sax.rs: is_name_first_char, is_name_char, is_space, get_name", "src/sax.rs: is_letter, is_digit, is_combining_char, is_extender"]}
{"id": "C101", "title": "Numbers are compared by value", "statement": "A comparison of two numbers (general or value comparison) compares the numbers they stand for: two integers exactly, a decimal or double with any number by the value of the floats, where an integer counts as the nearest float (itself up to 2^53), negative infinity is below and infinity above all others, and NaN is equal to nothing and neither before nor after anything. So of two numbers other than NaN exactly one of <, =, > holds. (NaN with <= and >= is C38.)", "quantifier": "every pair of numeric items and all six operators, in both forms", "why_tests_cant": "The claim ranges over an infinite set of inputs; a test suite samples finitely many of them.", "anchors": ["src/xpath_impl/oper.rs: op_numeric_equal, op_numeric_less_than, op_numeric_greater_than", "src/xpath_impl/xitem.rs: xitem_numeric_equal, xitem_numeric_less_than, xitem_numeric_greater_than"]}
{"id": "C102", "title": "Editing what a query selects", "statement": "each_node(q, f) with a function that edits the node it is given does to the document exactly what the query says: the nodes edited are those that q selects in the document as it was, and they are nodes of that document. Deleting them leaves the document without them and what is below them, and nothing else changed; setting an attribute gives it to them, at its place or last, and deleting an attribute takes it away, and nothing else changes; and to_string writes just that. So after deleting what //m selects, //m selects nothing.", "quantifier": "every document that calls of the library can make, every query and every node of the document it starts from, every name and value", "why_tests_cant": "The claim ranges over every document and every sequence of DOM calls; tests fix a handful of both.", "anchors": ["src/xpath.rs: each_node", "src/dom.rs: delete_child, set_attribute, delete_attribute, to_string"]}
{"id": "C103", "title": "An edit can be taken back", "statement": "After an edit and its inverse nothing tells the new state of the document from the old one: set_attribute of a name that was not there followed by delete_attribute, append_child of a node that was not a child followed by delete_child, insert_as_previous_sibling or insert_as_next_sibling of any node followed by delete_child of the copy, delete_child of the last child followed by append_child - the document is the same tree of the same nodes, every XPath query at every node has the same outcome, and to_string, to_pretty_string and inner_xml of every node return the same text. set_attribute followed by set_attribute with the old value gives the same texts, and the same answers up to the identity of the attribute node. A child deleted and inserted again beside its old neighbour, or replaced by any node and put back by another replace_with, leaves the text of the document as it was.", "quantifier": "every reachable state, document, node, attribute, argument node and query", "why_tests_cant": "The claim ranges over every document and every sequence of DOM calls; tests fix a handful of both.", "anchors": ["src/dom.rs: set_attribute, delete_attribute, append_child, delete_child, insert_as_previous_sibling, insert_as_next_sibling, replace_with"]}
{"id": "C104", "title": "Independent edits can be done in any order", "statement": "A program that sets and deletes attributes and deletes children at nodes of a document may do so in any order, as long as no two edits set attributes of one node and none sets an attribute that another one of them deletes: every permutation gives a document with the same tree, the same contents, the same to_string, to_pretty_string and inner_xml of every node, and the same outcome of every XPath query (up to the identity of new attribute nodes).", "quantifier": "every reachable state, document, list of edits and permutation of it", "why_tests_cant": "The claim ranges over every document and every sequence of DOM calls; tests fix a handful of both.", "anchors": ["src/dom.rs: set_attribute, delete_attribute, delete_child"]}
{"id": "C105", "title": "Numbers are written with as few digits as possible", "statement": "The string of a decimal or double (cast to xs:string, fn:string) that is not zero, infinite or NaN is the shortest numeral for it: of all decimal numbers that are rounded to the number it writes one with the fewest significant digits, among those the nearest to the exact value, with a minus sign exactly for negative numbers and without superfluous zeros; to_string shows a double with the same digits in scientific notation.", "quantifier": "every f64", "why_tests_cant": "The claim ranges over an infinite set of inputs; a test suite samples finitely many of them.", "anchors": ["src/xpath_impl/xitem.rs: get_as_raw_string, Display of XItem"]}
{"id": "C106", "title": "Exchanging the operands", "statement": "For every two values, a + b has the same outcome as b + a, a * b as b * a, a = b as b = a, a != b as b != a, a < b as b > a, a <= b as b >= a, and the same for eq, ne, lt, gt, le, ge, for is, and for << with >>: the same value, or the same error.", "quantifier": "every pair of sequences as operands, every document", "why_tests_cant": "The claim ranges over an infinite set of inputs; a test suite samples finitely many of them.", "anchors": ["src/xpath_impl/oper.rs: op_numeric_add, op_numeric_multiply, op_general_eq, op_value_eq, op_value_less_than, op_is_same_node, op_node_before", "src/xpath_impl/xitem.rs: xitem_numeric_add, xitem_numeric_multiply"]}
{"id": "C107", "title": "The text of a value", "statement": "to_string of a sequence shows its items in order, separated by a comma and a space and in parentheses unless there is exactly one: strings in double quotes (not escaped), true and false, integers in decimal notation, decimals in positional notation with the fewest digits and always with a decimal point, doubles in scientific notation with the fewest digits (NaN, +Infinity, -Infinity, 0e0, -0e0), maps as {key => value, ...} and arrays as [member, ...] with their entries in order, the document root as (DocumentRoot), an element as its start tag with its attributes (values not escaped), an attribute as name=\"value\", a text as its value, and any other node as the empty text. A function is shown as the listing of its syntax tree, one line for each node (place, kind, name), a parent before its left part and that before its right part, indented by four spaces for each level; decimals that are infinite or NaN as inf.0, -inf.0 and NaN.0. The start tag shown for an element is the one that to_string of the element writes, if no attribute value needs escaping.", "quantifier": "every value (whatever is in it), every document", "why_tests_cant": "The claim ranges over an infinite set of inputs; a test suite samples finitely many of them.", "anchors": ["src/xpath.rs: Sequence::to_string, Item::to_string", "src/xpath_impl/xitem.rs: impl fmt::Display for XItem, XSeqMap, XSeqArray", "src/xpath_impl/xsequence.rs: impl fmt::Display for XSequence", "src/dom.rs: impl fmt::Debug for NodePtr"]}
{"id": "C108", "title": "Calling a function item means evaluating its body with the parameters bound to the arguments", "statement": "Let a query call function items: inline functions with $f(…) or through for-each and filter, references such as string-length#1, and partial calls such as concat('x', ?). If every inline function called refers to its own parameters only, has parameters of different names and no quantified expressions, and is called with as many arguments as it has parameters, then the call has the value of the body where the parameters, and no other variables, are in scope with the values of the arguments; arguments that do not have the declared types are an error; and the call leaves all variables of the caller as they were. This holds for calls nested to any depth, for functions that are given themselves (recursion), and when variables of the caller have the names of parameters. eval_xpath finds the value this gives, and reports the error where it gives an error (or a type error of a path that yields nodes and atomic values).", "quantifier": "all documents, all start nodes, all queries whose quantified variables outside function items have names of their own, calls nested to any depth", "why_tests_cant": "The claim ranges over every document and every expression/operand; tests fix a handful of both.", "anchors": ["src/xpath_impl/eval.rs: call_inline_func, call_named_func, call_partial_func, call_function, apply_argument, set_var, remove_var", "src/xpath_impl/func.rs: evaluate_function, fn_for_each, fn_filter"]}
{"id": "C109", "title": "Text is changed by reading exactly if it contains references", "statement": "The character data and attribute values that new_document and the SAX decoder report are what stands in the document if and only if that contains neither &# with a semicolon somewhere behind it nor one of &lt; &gt; &amp; &quot; &apos;: other ampersands are kept as they are. A numeric reference in a text without other ampersands is replaced by the character with that number, also if a plus sign stands before the digits, and by U+3013 if there is no such character or if what stands before the semicolon is no number.", "quantifier": "every text", "why_tests_cant": "The claim ranges over an infinite set of inputs; a test suite samples finitely many of them.", "anchors": ["src/sax.rs: decode_entity"]}
{"id": "C110", "title": "An element can be copied through its text", "statement": "new_document(e.to_string()), for any element e of any document whose contents can be written (XML names, no U+0000 or carriage return in values, no --> in comments, no ?> in processing instructions), returns a document made of new nodes whose root element is a copy of e with all that is below it: the same types, names, values and attributes in the same order and nesting, except that adjacent texts are joined and empty texts left out; without such texts the copy has the same text again. new_document(e.inner_xml()) gives copies of what is below e in the same way. Nothing changes for the nodes that were there. The copy can be put anywhere in any document, also in that of e: appended to a node, or before, behind or in place of a child, the text of the document then has the text of e at that place and is otherwise as before.", "quantifier": "all elements with writable contents in all heaps (documents reached by any history of parsing and editing for the insertion), all places", "why_tests_cant": "The claim ranges over every document and every sequence of DOM calls; tests fix a handful of both.", "anchors": ["src/dom.rs: new_document", "src/dom.rs: to_string", "src/dom.rs: inner_xml", "src/dom.rs: root_element", "src/dom.rs: append_child", "src/dom.rs: insert_as_previous_sibling", "src/dom.rs: replace_with"]}
{"id": "C111", "title": "Which texts are read as numbers, and as which", "statement": "fn:number and the casts to xs:double and xs:decimal read every text in the same way: an optional sign and a decimal numeral (digits, with an optional point and an optional exponent), with any white space around it, as the nearest float; inf, infinity and nan, in any case and with an optional sign, as the infinities and NaN; all other texts as NaN. The cast to xs:integer reads a numeral of an optional sign and digits only, with any white space around it, as this integer if it has 64 bits, and all other texts as 0. A text is read in only one of these ways.", "quantifier": "all strings", "why_tests_cant": "The claim ranges over an infinite set of inputs; a test suite samples finitely many of them.", "anchors": ["src/xpath_impl/xitem.rs: atof", "src/xpath_impl/xitem.rs: atoi", "src/xpath_impl/xitem.rs: cast_as", "src/xpath_impl/func.rs: fn_number"]}
{"id": "C112", "title": "References to library functions have the types of the recommendation", "statement": "f#n instance of function(P1,...) as R, for a function f of the library with n parameters, is true exactly if the signature that XQuery and XPath Functions and Operators 3.1 gives f is a subtype of this type (parameters contravariant, return type covariant). (Violated by the code: normalize-space, one-or-more, exactly-one, sum, string-join and string-to-codepoints have other signatures, concat with more than two parameters has none; proved for the other 69 functions, counted by arity, and the types of the exceptions are given.)", "quantifier": "every function of the library, every function type of any size (without processing-instruction(n), and not mixing map or array types with typed functions, see C77)", "why_tests_cant": "The claim ranges over an infinite set of inputs; a test suite samples finitely many of them.", "anchors": ["src/xpath_impl/func.rs: FUNC_SIGNATURE_TBL", "src/xpath_impl/func.rs: get_function_signature", "src/xpath_impl/eval.rs: match_sequence_typed_function_test", "src/xpath_impl/parser.rs: parse_function_test"]}
{"id": "C113", "title": "A value is its items", "statement": "What eval_xpath returns is determined by len and get_item: the items at the positions below len are all items, in order, and get_item beyond panics; values that agree in these are the same. to_string of the value is made of to_string of the items (the only one, or all of them as a list in parentheses). The items that as_nodeptr gives as nodes are exactly what get_nodeset returns for the same query, in the same order and as often; and where eval_xpath fails, get_nodeset fails alike.", "quantifier": "all values; all documents, start nodes and query texts", "why_tests_cant": "The claim ranges over an infinite set of inputs; a test suite samples finitely many of them.", "anchors": ["src/xpath.rs: Sequence, Item, NodePtr::get_nodeset", "src/xpath_impl/xsequence.rs: XSequence"]}
{"id": "C114", "title": "Reading a document does not blow it up", "statement": "For every text (without U+0000) that new_document accepts, the document has no more nodes - elements, texts, comments, instructions and attributes together - than the text has characters, no more nodes than that and the root are created while it is read, and the names and values of all nodes together have no more characters than the text: references are never replaced by something longer, and there are no entities that expand. Written again with to_string, the document has at most six times as many characters as the text it was read from (six for a text of quotes).", "quantifier": "all texts without U+0000 that new_document accepts, in every heap", "why_tests_cant": "The claim ranges over an infinite set of inputs; a test suite samples finitely many of them.", "anchors": ["src/dom.rs: new_document", "src/sax.rs: decode_entity", "src/dom.rs: to_string_with_indent", "src/dom.rs: encode_entity"]}
{"id": "C115", "title": "Compiling does not blow up", "statement": "For every text (without U+0000) that is compiled as an XPath expression, the tree that is evaluated has at most five nodes for each character of the text: abbreviations such as //, defaults for omitted types and missing parts never expand to more than a constant. A short expression cannot exhaust memory by being compiled.", "quantifier": "all texts without U+0000 that are compiled", "why_tests_cant": "The claim ranges over an infinite set of inputs; a test suite samples finitely many of them.", "anchors": ["src/xpath_impl/parser.rs: compile_xpath", "src/xpath_impl/parser.rs: parse_main", "src/xpath_impl/lexer.rs: Lexer::new"]}
{"id": "C116", "title": "Evaluation recurses no deeper than the query is long", "statement": "Let the functions that a query makes not call function items themselves. Evaluating the query, on every document and from every node, nests calls of the evaluator to a depth of at most ten times the number of characters of the query (and two), or five times (and one) if the query calls no function items at all; the document, however large or deep, does not matter. If functions do call functions, but can be ranked such that each calls by name only functions of lower rank, and others only where they are written, the depth is at most k + 2 times five times the number of characters and one, where k is the greatest rank (m + 1 times, if only functions of ranks below m are called outside of functions). With that depth of recursion and every greater one the result is the same: a value, an error or a panic.", "quantifier": "all queries (without U+0000) whose functions can be ranked, all documents, start nodes and depths", "why_tests_cant": "The claim ranges over an infinite set of inputs; a test suite samples finitely many of them.", "anchors": ["src/xpath_impl/eval.rs: evaluate_xnode", "src/xpath_impl/eval.rs: call_function", "src/xpath.rs: eval_xpath"]}
{"id": "C117", "title": "The accessors of a node and the queries for the same thing agree", "statement": "At every node, the queries node(), .., /, ., node()[k] and node()[1] select exactly the children, the parent if there is one, the root, the node itself, nth_child(k - 1) and first_child. The query T and the query @T, for every node test T of the forms n, p:n, *, p:*, node(), text(), comment(), processing-instruction() and element(), select exactly the children and the attributes that pass the test, in their order: so * and text() select the child elements and text nodes, a name the child elements of that name, @* all attributes, @m the attributes named m, and attribute_value(m) is the value of the first of them. /* selects the element children of the root, and root_element is the first of them, or the root if there is none. name(), local-name() and namespace-uri() give the name, its part behind the colon, and what namespace_uri gives. This holds for eval_xpath, get_nodeset, get_first_node and each_node alike.", "quantifier": "all documents a program can reach, all nodes, names and node tests, all positions k below 2^63", "why_tests_cant": "The claim ranges over an infinite set of inputs; a test suite samples finitely many of them.", "anchors": ["src/dom.rs: children", "src/dom.rs: parent", "src/dom.rs: root", "src/dom.rs: root_element", "src/dom.rs: nth_child", "src/dom.rs: first_child", "src/dom.rs: attributes", "src/dom.rs: attribute_value", "src/dom.rs: namespace_uri", "src/xpath.rs: eval_xpath", "src/xpath.rs: get_nodeset", "src/xpath.rs: get_first_node", "src/xpath.rs: each_node"]}
{"id": "C118", "title": "Recursion over a document is as deep as its elements are nested", "statement": "to_string (with any indentation), the string value and typed value of a node, the descendants of a node and the order numbers of a document are computed with exactly as many nested calls as nodes are nested below the node, itself counted: with that many they return, and what they return does not depend on any limit beyond it; with fewer they do not return. The number of siblings does not matter. For a document read from a text of n characters n + 1 calls suffice; and no fixed number suffices for all documents: with a limit of d + 1 nested calls the document of 7d + 4 characters made of d + 1 nested elements is read, but can neither be written nor searched nor numbered.", "quantifier": "all documents, all nodes, all depths of recursion and all indentations", "why_tests_cant": "The claim ranges over an infinite set of inputs; a test suite samples finitely many of them.", "anchors": ["src/dom.rs: to_string_with_indent", "src/dom.rs: setup_document_order_sub", "src/xpath_impl/xitem.rs: string_value", "src/xpath_impl/xitem.rs: typed_value", "src/xpath_impl/eval.rs: array_descendant"]}
{"id": "C119", "title": "Compiling needs a stack as deep as the text is nested, not as it is long", "statement": "Compiling an XPath text with at most n + 1 nested calls of the expression parser gives the same tree or error as without a bound, where n is the number of tokens of the text behind which an expression opens inside another: the brackets `(`, `[`, `{` and the words for, let, some, every. So a text without these, however long, needs one call. The bound is exact: a period in n pairs of parentheses needs n + 1 calls, so texts that are nested deep enough overflow every stack.", "quantifier": "every text, every n", "why_tests_cant": "The claim ranges over an infinite set of inputs; a test suite samples finitely many of them.", "anchors": ["src/xpath_impl/parser.rs: compile_xpath, parse_expr_single, parse_parenthesized_expr, parse_bin_op_sub, parse_for_expr, parse_predicate", "src/xpath_impl/lexer.rs: Lexer::new"]}
{"id": "C120", "title": "The description of an error tells its kind", "statement": "The description (and Display form) of an error is the prefix of its kind, a space and the message; no two kinds can be mistaken for one another: two errors with the same description are of the same kind and have the same message. Errors of new_document are of kind XmlSyntaxError, and their description begins with 'Syntax Error in XML:'.", "quantifier": "every kind of error and every message; every error of new_document", "why_tests_cant": "The claim ranges over an infinite set of inputs; a test suite samples finitely many of them.", "anchors": ["src/xmlerror.rs: xmlerror, ERROR_PREFIX, XmlError", "src/dom.rs: new_document", "src/sax.rs: raw_token"]}
{"id": "C121", "title": "The command line program prints the document or says what is wrong", "statement": "The sample program, run with the name of a file: if the file can be read and new_document accepts it, its pretty text and a line feed are printed on stdout, nothing on stderr, and the status is 0. In every other case where the program ends (no name given, file not readable, text rejected) nothing is printed on stdout, something on stderr, and the status is 1; it hangs exactly where new_document does. What it printed is accepted again, and is the same tree up to white space.", "quantifier": "every list of arguments, every file system, every content of the file", "why_tests_cant": "The claim ranges over an infinite set of inputs; a test suite samples finitely many of them.", "anchors": ["src/main.rs: main, pretty_print", "src/dom.rs: new_document, to_pretty_string"]}
{"id": "C122", "title": "The error tells what is wrong with a text", "statement": "The error of new_document for a rejected text is determined by the grammar: the text is read as constructs (C95) with matching tags, and it is reported what is wrong with the first construct that cannot be read (missing delimiter, attribute without '=' or quote, '/' without '>', wrong '<!' sequence, unbalanced '<'), or the first end tag whose name is not that of the innermost open element, with both names. Every text is accepted, or ends in a start tag (the call does not return), or has such a fault, or such a mismatch, and never two of these.", "quantifier": "every text without U+0000, every kind of fault", "why_tests_cant": "The claim ranges over an infinite set of inputs; a test suite samples finitely many of them.", "anchors": ["src/sax.rs: raw_token, raw_token_pi, raw_token_start_element, attr_name, attr_value", "src/dom.rs: new_document, XmlError"]}
{"id": "C123", "title": "Syntax errors tell about the query, not about the document", "statement": "A query gives a syntax error or 'not implemented' in one document at one node if and only if it does so in every document at every node, through eval_xpath, get_nodeset and each_node (get_first_node gives nothing): these errors come from the text of the query, all of which is checked before anything is evaluated. So a query that gave a value once is never rejected later; what it can fail with then is a type error, a dynamic error or an inner error, besides panics and endless recursion.", "quantifier": "every query, every document and node, every bound on the recursion", "why_tests_cant": "The claim ranges over an infinite set of inputs; a test suite samples finitely many of them.", "anchors": ["src/xpath.rs: eval_xpath, get_nodeset, get_first_node, each_node", "src/xpath_impl/eval.rs: match_xpath, evaluate_xnode", "src/xpath_impl/func.rs: evaluate_function"]}
