import Verif.Model.MacroSet
import Verif.Model.Print
import Verif.Proofs.Fuel
import Verif.Props.Store
import Verif.Props.Expand
import Verif.Props.Calls
import Verif.Props.Lex
import Verif.Props.Numbers
import Verif.Props.Text
import Verif.Props.Paste
import Verif.Props.Params
import Verif.Props.Panics
import Verif.Props.Stringify
import Verif.Props.Fold
import Verif.Props.Codegen
import Verif.Props.Export
import Verif.Props.Constants
import Verif.Props.Strings
import Verif.Props.Asm
import Verif.Spec.Asm
import Verif.Proofs.AsmRead
import Verif.Props.AsmText
import Verif.Props.Logic
import Verif.Props.Pipeline
import Verif.Props.Parse
import Verif.Props.Types
import Verif.Props.Grammar
import Verif.Props.Value
import Verif.Props.Ambig
import Verif.Props.RustSyntax
import Verif.Props.CText
import Verif.Props.NoPanic
import Verif.Props.Statements
import Verif.Props.Control
import Verif.Props.Occurs
import Verif.Props.CInt
import Verif.Props.FnValue
import Verif.Props.Metavar
import Verif.Props.Fragment
import Verif.Props.Hygiene
import Verif.Props.ConstCast
import Verif.Props.FnExpand
import Verif.Props.Wrapper
import Verif.Props.FloatLex
import Verif.Props.Floats
import Verif.Props.FnTotal
import Verif.Props.Again
import Verif.Props.Comments
import Verif.Props.Chars
import Verif.Props.BadNames
import Verif.Props.Vocab
import Verif.Props.PasteExpand
import Verif.Props.RustTypes
import Verif.Props.MacroValue
import Verif.Props.Rename
import Verif.Props.Reach
import Verif.Props.Consult
import Verif.Props.Compose
import Verif.Props.Eval
import Verif.Props.Template
import Verif.Props.RustItem
import Verif.Props.Limits
import Verif.Props.FnDecl
import Verif.Props.Assign
import Verif.Props.SizeOf
import Verif.Props.Pointers
import Verif.Props.PtrConst
import Verif.Props.ReadText
import Verif.Props.ReadInt
import Verif.Props.ReadToken
import Verif.Props.Invalid
import Verif.Props.InvalidFn
import Verif.Props.RenameAll
import Verif.Props.Texts
import Verif.Props.Bare
import Verif.Props.Trees
import Verif.Props.Worth
import Verif.Props.Parens
import Verif.Props.Alias
import Verif.Props.AliasCode
import Verif.Props.Inline
import Verif.Props.InlineCode
import Verif.Props.Beforehand
import Verif.Props.BeforehandTotal
import Verif.Props.BareFn
import Verif.Check.Fixtures
import Verif.Axioms
