import Verif.Props.Sax
import Verif.Props.Build
import Verif.Props.Serial
import Verif.Props.Entity
import Verif.Props.Edit
import Verif.Props.Order
import Verif.Props.Links
import Verif.Props.Navigate
import Verif.Model.Axes
import Verif.Props.XCompare
import Verif.Props.XNumeric
import Verif.Props.XMap
import Verif.Props.XAxes
import Verif.Props.XNodes
import Verif.Props.XLexer
import Verif.Props.XParse
import Verif.Props.XEval
import Verif.Props.XPath
import Verif.Props.XApi
import Verif.Spec.XFunc
import Verif.Spec.Numbers
import Verif.Lemmas.Func
import Verif.Lemmas.F64Val
import Verif.Props.XFunc
import Verif.Props.XNumFunc
import Verif.Spec.XOper
import Verif.Props.XOper
import Verif.Spec.Grammar
import Verif.Spec.Lexical
import Verif.Lemmas.Grammar
import Verif.Lemmas.GrammarExpr
import Verif.Lemmas.GrammarRuns
import Verif.Lemmas.Lexical
import Verif.Props.XGrammar
import Verif.Spec.Steps
import Verif.Props.XStep
import Verif.Spec.SeqTypes
import Verif.Props.XTypes
import Verif.Spec.Numerals
import Verif.Lemmas.Numerals
import Verif.Props.XCast
import Verif.Lemmas.Focus
import Verif.Props.XFocus
import Verif.Props.XAgg
import Verif.Props.XMapFn
import Verif.Props.XNodeFn
import Verif.Props.XHigher
import Verif.Props.XAccepts
import Verif.Props.XSafety
import Verif.Props.XRound
import Verif.Props.XDisplay
import Verif.Check.RepoDocs
import Verif.Props.XErrors
import Verif.Props.XExact
import Verif.Props.XQuery
import Verif.Props.EditText
import Verif.Props.XExactFn
import Verif.Props.XExact2
import Verif.Props.XExact3
import Verif.Props.XExact4
import Verif.Props.Pretty
import Verif.Props.XSame
import Verif.Props.XQueries
import Verif.Props.Elsewhere
import Verif.Props.Scoping
import Verif.Props.Markup
import Verif.Props.Laws
import Verif.Props.PathLaws
import Verif.Props.XCase
import Verif.Props.Names
import Verif.Props.XValues
import Verif.Props.Visit
import Verif.Props.Settle
import Verif.Props.Misplaced
import Verif.Props.Undo
import Verif.Props.Commute
import Verif.Props.XShort
import Verif.Props.Swap
import Verif.Props.Shown
import Verif.Props.Applied
import Verif.Props.Bare
import Verif.Props.Copy
import Verif.Props.NumberTexts
import Verif.Props.Signatures
import Verif.Props.XTypesExact
import Verif.Props.Public
import Verif.Props.Sizes
import Verif.Props.XSizes
import Verif.Props.XDepth
import Verif.Props.Accessors
import Verif.Model.Depth
import Verif.Props.Depth
import Verif.Props.XExact5
import Verif.Props.XRanked
import Verif.Props.XNesting
import Verif.Props.Program
import Verif.Props.Faults
import Verif.Props.Kinds
