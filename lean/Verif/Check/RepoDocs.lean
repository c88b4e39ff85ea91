import Verif.Model.Eval
import Verif.Model.Display

/-!
# The repository's own tests of the tokenizer and examples in its documentation

These are tests of the fidelity of the model, not theorems: each example of the API documentation of `dom.rs` and each case of
`sax.rs`'s unit test, evaluated by the kernel in the model. (The tests of XPath, 647 cases, are run by `tools/repo_tests.py`.)
-/

namespace Amxml.Check

open Amxml

/-- The document of a text, in an empty heap, and its root. (Stands for `new_document(…).unwrap()`, dom.rs:262.) -/
def doc (xml : String) : Heap × NodeId :=
  match newDocument Heap.empty (S xml) with
  | some (.ok p) => p
  | _ => (Heap.empty, 0)

/-- A second document in the same heap. (Stands for `new_document(…).unwrap()`, dom.rs:596.) -/
def doc2 (h : Heap) (xml : String) : Heap × NodeId :=
  match newDocument h (S xml) with
  | some (.ok p) => p
  | _ => (h, 0)

/-- `get_first_node(…).unwrap()` (dom.rs:355). -/
def first (p : Heap × NodeId) (q : String) : NodeId :=
  match getFirstNode p.1 40 p.2 (S q) with
  | .ok (some i) => i
  | _ => 0

/-- `root_element()` of a document. (dom.rs:482) -/
def elem (p : Heap × NodeId) : NodeId := p.1.rootElement p.2

/-- A text of the documentation (dom.rs:262-860). -/
def article : String := "<?xml version=\"1.0\"?><article>About <em>XML</em> string</article>"

-- dom.rs:262, 280, 306
example : (doc article).1.toString 40 (elem (doc article)) = some (S "<article>About <em>XML</em> string</article>") := by
  decide +kernel
example : (doc article).1.toPrettyString 40 (elem (doc article)) =
    some (S "<article>\n    About \n    <em>\n        XML\n    </em>\n     string\n</article>\n") := by decide +kernel
example : (doc article).1.innerXml 40 (elem (doc article)) = some (S "About <em>XML</em> string") := by decide +kernel

/-- A text of the documentation (dom.rs:262-860). -/
def nsArticle : String := "<ns:article>XML</ns:article>"

-- dom.rs:336, 355, 372, 395
example : ((doc nsArticle).1.node (elem (doc nsArticle))).name = S "ns:article" := by decide +kernel
example : ((doc nsArticle).1.node (first (doc nsArticle) "//text()")).value = S "XML" := by decide +kernel
example : localName ((doc nsArticle).1.node (elem (doc nsArticle))).name = S "article" := by decide +kernel
example : spaceName ((doc nsArticle).1.node (elem (doc nsArticle))).name = S "ns" := by decide +kernel

/-- A text of the documentation (dom.rs:262-860). -/
def nsRoot : String := "<root xmlns=\"http://def\" xmlns:ns=\"http://ns\"><ns:a/><b/></root>"

-- dom.rs:418
example : (doc nsRoot).1.namespaceUri (first (doc nsRoot) "//ns:a") = S "http://ns" := by decide +kernel
example : (doc nsRoot).1.namespaceUri (first (doc nsRoot) "//b") = S "http://def" := by decide +kernel

/-- A text of the documentation (dom.rs:262-860). -/
def articleP : String := "<article><p>DOM</p></article>"

-- dom.rs:456, 482, 508
example : ((doc articleP).1.node (first (doc articleP) "/article/p")).name = S "p" := by decide +kernel
example : ((doc articleP).1.node ((doc articleP).1.root (first (doc articleP) "/article/p"))).ntype = .documentRoot := by decide +kernel
example : ((doc articleP).1.node ((doc articleP).1.rootElement (first (doc articleP) "/article/p"))).name = S "article" := by
  decide +kernel
example : ((doc articleP).1.node (first (doc articleP) "//p")).parent = some (elem (doc articleP)) := by decide +kernel

/-- A text of the documentation (dom.rs:262-860). -/
def articleAB : String := "<article><a/>foo<b/></article>"

-- dom.rs:565
example : (((doc articleAB).1.firstChild (elem (doc articleAB))).map fun i => ((doc articleAB).1.node i).name) = some (S "a") := by
  decide +kernel
example : (((doc articleAB).1.nthChild (elem (doc articleAB)) 1).map fun i => ((doc articleAB).1.node i).value) = some (S "foo") := by
  decide +kernel
example : (((doc articleAB).1.nthChild (elem (doc articleAB)) 2).map fun i => ((doc articleAB).1.node i).name) = some (S "b") := by
  decide +kernel
example : (doc articleAB).1.nthChild (elem (doc articleAB)) 3 = none := by decide +kernel

/-- A document, a second one, and the first after an edit with the root element of the second, as text. (dom.rs:596 ff.) -/
def edited (xml new at_ : String) (edit : Heap → NodeId → NodeId → Heap) : Option Str :=
  (edit (doc2 (doc xml).1 new).1 (first (doc xml) at_) (elem (doc2 (doc xml).1 new))).toString 40 (doc xml).2

-- dom.rs:596, 626, 670, 714, 744
example : edited articleAB "<c>baa</c>" "//article" Heap.appendChild = some (S "<article><a/>foo<b/><c>baa</c></article>") := by
  decide +kernel
example : edited "<article><a/><b/><c/></article>" "<x>yyy</x>" "//b" Heap.insertPrev =
    some (S "<article><a/><x>yyy</x><b/><c/></article>") := by decide +kernel
example : edited "<article><a/><b/><c/></article>" "<x>yyy</x>" "//b" Heap.insertNext =
    some (S "<article><a/><b/><x>yyy</x><c/></article>") := by decide +kernel
example : (((doc "<article><a/><b/><c/><d/></article>").1.deleteChild (first (doc "<article><a/><b/><c/><d/></article>") "//article")
    (first (doc "<article><a/><b/><c/><d/></article>") "//b")).toString 40 (doc "<article><a/><b/><c/><d/></article>").2) =
    some (S "<article><a/><c/><d/></article>") := by decide +kernel
example : edited "<article><a/><b/><c/></article>" "<x>yyy</x>" "//b" Heap.replaceWith =
    some (S "<article><a/><x>yyy</x><c/></article>") := by decide +kernel

/-- A text of the documentation (dom.rs:262-860). -/
def articleId : String := "<article id=\"a1\">foo</article>"

-- dom.rs:791, 816, 850
example : (doc articleId).1.attributeValue (elem (doc articleId)) (S "id") = some (S "a1") := by decide +kernel
example : (doc articleId).1.attributeValue (elem (doc articleId)) (S "none") = none := by decide +kernel
example : (((doc articleId).1.setAttribute (elem (doc articleId)) (S "id") (S "b1")).setAttribute (elem (doc articleId))
    (S "title") (S "about xml")).toString 40 (doc articleId).2 = some (S "<article id=\"b1\" title=\"about xml\">foo</article>") := by
  decide +kernel
example : ((doc articleId).1.deleteAttribute (elem (doc articleId)) (S "id")).toString 40 (doc articleId).2 =
    some (S "<article>foo</article>") := by decide +kernel

deriving instance DecidableEq for Except

/-- The tokens up to the end of the input. (The loop of `test_decoder`, sax.rs:978-1016.) -/
def tokens : Nat → Dec → List (Except SaxErr Token)
  | 0, _ => []
  | n + 1, d =>
    match rawToken d with
    | some (.ok .eof, _) => [.ok .eof]
    | some (t, d') => t :: tokens n d'
    | none => []

/-- The tokens of a text (sax.rs:964-968). -/
def toks (s : String) : List (Except SaxErr Token) := tokens 20 (Dec.new (S s))

-- sax.rs:928-957
example : toks "<article>About <em>XML</em> string</article>" =
    [.ok (.startElement (S "article") []), .ok (.charData (S "About ")), .ok (.startElement (S "em") []), .ok (.charData (S "XML")),
     .ok (.endElement (S "em")), .ok (.charData (S " string")), .ok (.endElement (S "article")), .ok .eof] := by decide +kernel
example : toks "<ns:a>R&amp;D</ns:a>" =
    [.ok (.startElement (S "ns:a") []), .ok (.charData (S "R&D")), .ok (.endElement (S "ns:a")), .ok .eof] := by decide +kernel
example : toks "<a>R&amp;D&#169; &#x30BD;&#x30BF;</a>" =
    [.ok (.startElement (S "a") []), .ok (.charData (S "R&D© ソタ")), .ok (.endElement (S "a")), .ok .eof] := by decide +kernel
example : toks "<a>&#xXXXX; - &#x110000;</a>" =
    [.ok (.startElement (S "a") []), .ok (.charData (S "〓 - 〓")), .ok (.endElement (S "a")), .ok .eof] := by decide +kernel
example : toks "<a><![CDATA[<R&D>]]></a>" =
    [.ok (.startElement (S "a") []), .ok (.charData (S "<R&D>")), .ok (.endElement (S "a")), .ok .eof] := by decide +kernel
example : toks "<a b=\"c&gt;d\"/>" =
    [.ok (.startElement (S "a") [(S "b", S "c>d")]), .ok (.endElement (S "a")), .ok .eof] := by decide +kernel
example : toks "<?xml version=\"1.0\" ?>" = [.ok (.procInst (S "xml") (S "version=\"1.0\" ")), .ok .eof] := by decide +kernel
example : toks "<?xml version=\"3.0\" ??>" = [.ok (.procInst (S "xml") (S "version=\"3.0\" ?")), .ok .eof] := by decide +kernel
example : toks "<段落 属性=\"値\">文章</段落>" =
    [.ok (.startElement (S "段落") [(S "属性", S "値")]), .ok (.charData (S "文章")), .ok (.endElement (S "段落")), .ok .eof] := by
  decide +kernel
example : toks "<!--COMMENT-->" = [.ok (.comment (S "COMMENT")), .ok .eof] := by decide +kernel
example : toks "<!--A-B-->" = [.ok (.comment (S "A-B")), .ok .eof] := by decide +kernel
example : toks "<!--A--B-->" = [.ok (.comment (S "A--B")), .ok .eof] := by decide +kernel
example : toks "<!-COMMENT-->" = [.error .badComment, .ok (.charData (S "COMMENT-->")), .ok .eof] := by decide +kernel
example : toks "<?xml version=\"1.0\" " = [.error (.eofSearching (S "?>")), .ok .eof] := by decide +kernel
example : toks "<!DOCTYPE a [ <!ENTITY a b> ]>" = [.ok (.directive (S "<!DOCTYPE a [ <!ENTITY a b> ]>")), .ok .eof] := by decide +kernel

end Amxml.Check
