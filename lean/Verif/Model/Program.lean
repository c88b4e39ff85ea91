import Verif.Model.Dom

/-!
# Errors and the command line program

Model of `src/xmlerror.rs` and `src/main.rs`, with the texts of the errors of `src/sax.rs` and `src/dom.rs`.

Simplifications: the file system is a function from file names to the text of the file, or to an error (the file cannot be opened, cannot be
read, or is no UTF-8: `File::open`, `read_to_string`); the `{:?}` form of an error is a parameter; writing to stdout and stderr never fails.
-/

namespace Amxml

/-- `XmlErrorType` (src/xmlerror.rs:20-28). -/
inductive ErrKind where
  | cantOccur | unimplemented | xmlSyntaxError | xpathSyntaxError | staticError | dynamicError | typeError
  deriving DecidableEq, Repr

/-- `ERROR_PREFIX` (src/xmlerror.rs:30-38). -/
def errorPrefix : List (ErrKind × Str) :=
  [ (.cantOccur, S "Can't Occur: problem in amxml library:"),
    (.unimplemented, S "Feature not inplemented yet:"),
    (.xmlSyntaxError, S "Syntax Error in XML:"),
    (.xpathSyntaxError, S "Syntax Error in XPath:"),
    (.staticError, S "Static Error:"),
    (.dynamicError, S "Dynamic Error:"),
    (.typeError, S "Type Error:") ]

/-- `XmlError` (src/xmlerror.rs:41-44); `Display` and `description()` both give `descri` (43-53). -/
structure XmlError where
  errorType : ErrKind
  descri : Str
  deriving DecidableEq, Repr

/-- The loop of `xmlerror` over the table (src/xmlerror.rs:59-65). -/
def prefixIn (kind : ErrKind) : List (ErrKind × Str) → Str
  | [] => S "Unknown error:"
  | el :: rest => if el.1 = kind then el.2 else prefixIn kind rest

/-- `xmlerror` (src/xmlerror.rs:60-74), and the macros that call it (76-137). -/
def xmlerror (kind : ErrKind) (descri : Str) : XmlError := ⟨kind, prefixIn kind errorPrefix ++ S " " ++ descri⟩

/-- The errors of the decoder (src/sax.rs:181, 217, 224, 267, 271, 283, 347, 365, 425). -/
def SaxErr.toXml : SaxErr → XmlError
  | .eofAfterLt => xmlerror .xmlSyntaxError (S "Unexpected EOF after <")
  | .eofSearching delim => xmlerror .xmlSyntaxError (S "Unexpected EOF while searching " ++ delim)
  | .badComment => xmlerror .xmlSyntaxError (S "Invalid sequence '<!-', not part of '<!--'")
  | .badCdata => xmlerror .xmlSyntaxError (S "Invalid sequence '<![', not part of '<![CDATA[' ")
  | .noQuote => xmlerror .xmlSyntaxError (S "attr_value: no Quote")
  | .noEq => xmlerror .xmlSyntaxError (S "attr_name: no Eq")
  | .illegalAfterSlash => xmlerror .xmlSyntaxError (S "illegal char after /")
  | .eofBracket => xmlerror .xmlSyntaxError (S "Unexpected EOF while searching matching bracket")

/-- The errors of `new_document` (src/dom.rs:202-204, 235). -/
def DocErr.toXml : DocErr → XmlError
  | .nameMismatch curr name => xmlerror .xmlSyntaxError (S "Element name mismatch: " ++ curr ++ S " and " ++ name)
  | .syntaxErr e => xmlerror .xmlSyntaxError (S "XML syntax error: " ++ e.toXml.descri)

/-- What can be returned as `Box<Error>` by `pretty_print` (src/main.rs:29-40): an error of the file system or one of the parser. -/
inductive AppErr where
  | io (e : Str)
  | xml (e : XmlError)
  deriving DecidableEq, Repr

/-- How a run of the program ends: by `process::exit` or the end of `main`, with what it wrote to stdout and stderr; or by a panic. -/
inductive Outcome where
  | exited (status : Nat) (out err : Str)
  | panicked
  deriving DecidableEq, Repr

/-- `pretty_print` (src/main.rs:29-40): what is written to stdout. `none`: `new_document` does not return. The fuel of the serialiser is enough:
see `C121_prints`. -/
def prettyPrint (files : Str → Except Str Str) (filename : Str) : Option (Except AppErr Str) :=
  match files filename with
  | .error e => some (.error (.io e))
  | .ok xmlString =>
    match newDocument Heap.empty xmlString with
    | none => none
    | some (.error e) => some (.error (.xml e.toXml))
    | some (.ok (h, doc)) => (h.toPrettyString (h.size + 1) doc).map fun s => .ok (s ++ S "\n")

/-- `main` (src/main.rs:16-27). `args` are the name of the program and the arguments; `&args[0]` panics where there is not even the name.
`debug` is the `{:?}` form of an error. -/
def mainProgram (files : Str → Except Str Str) (debug : AppErr → Str) (args : List Str) : Option Outcome :=
  match args with
  | [] => some .panicked
  | [program] => some (.exited 1 [] (S "Usage: " ++ program ++ S " filename\n"))
  | _ :: filename :: _ =>
    match prettyPrint files filename with
    | none => none
    | some (.error e) => some (.exited 1 [] (S "Application error: " ++ debug e ++ S "\n"))
    | some (.ok out) => some (.exited 0 out [])

end Amxml
