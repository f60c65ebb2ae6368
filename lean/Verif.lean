import Verif.Gc.Alloc
import Verif.Gc.AllocProof
import Verif.Gc.Collect
import Verif.Gc.Header
import Verif.Gc.MarkProof
import Verif.Gc.Spec
import Verif.Gc.SweepProof
import Verif.Gen.Active
import Verif.Gen.Balance
import Verif.Gen.Bounds
import Verif.Gen.Bytes
import Verif.Gen.CodeFile
import Verif.Gen.Compute
import Verif.Gen.Cpp
import Verif.Gen.CppLemmas
import Verif.Gen.Data
import Verif.Gen.DataLabels
import Verif.Gen.DataPlace
import Verif.Gen.DataProof
import Verif.Gen.DataRoots
import Verif.Gen.DataTable
import Verif.Gen.DataText
import Verif.Gen.Depth
import Verif.Gen.Dyn
import Verif.Gen.DynFn
import Verif.Gen.Emit
import Verif.Gen.Format
import Verif.Gen.Frame
import Verif.Gen.Frames
import Verif.Gen.Gas
import Verif.Gen.GasData
import Verif.Gen.GasLemmas
import Verif.Gen.Going
import Verif.Gen.Helpers
import Verif.Gen.Labels
import Verif.Gen.Logic
import Verif.Gen.Machine
import Verif.Gen.NoPanic
import Verif.Gen.Peep
import Verif.Gen.PeepList
import Verif.Gen.Ready
import Verif.Gen.Rename
import Verif.Gen.RootStmts
import Verif.Gen.Roots
import Verif.Gen.Sem
import Verif.Gen.Shape
import Verif.Gen.SimAll
import Verif.Gen.SimCall
import Verif.Gen.SimExpr
import Verif.Gen.SimExpr2
import Verif.Gen.SimFn
import Verif.Gen.SimGo
import Verif.Gen.SimStmt
import Verif.Gen.SiteVars
import Verif.Gen.Sites
import Verif.Gen.Spec
import Verif.Gen.Strings
import Verif.Gen.Text
import Verif.Gen.TextProg
import Verif.Gen.Top
import Verif.Gen.Transfer
import Verif.Gen.TypeTable
import Verif.Gen.TypeTableProof
import Verif.Gen.Valid
import Verif.Gen.Walk
import Verif.Gen.Word
import Verif.Lex.Basic
import Verif.Lex.Channel
import Verif.Lex.Eval
import Verif.Lex.Grammar
import Verif.Lex.Model
import Verif.Lex.Print
import Verif.Lex.Reject
import Verif.Lex.Run
import Verif.Lex.Runes
import Verif.Lex.Spec
import Verif.Lib.Boot
import Verif.Lib.BufferProof
import Verif.Lib.Files
import Verif.Lib.Functional
import Verif.Lib.Map
import Verif.Lib.MapProof
import Verif.Lib.NumberProof
import Verif.Lib.Print
import Verif.Lib.Startup
import Verif.Lib.Strings
import Verif.Lib.StringsProof
import Verif.Parse.Complete
import Verif.Parse.Copy
import Verif.Parse.Grammar
import Verif.Parse.Kinds
import Verif.Parse.Model
import Verif.Parse.Print
import Verif.Parse.Show
import Verif.Parse.Sound
import Verif.Parse.Spec
import Verif.Parse.Walk
import Verif.Props.Alloc
import Verif.Props.Boot
import Verif.Props.Check
import Verif.Props.CheckTerm
import Verif.Props.Closure
import Verif.Props.CodeFile
import Verif.Props.Codegen
import Verif.Props.Codegen2
import Verif.Props.Compiler
import Verif.Props.Copies
import Verif.Props.Cpp
import Verif.Props.Data
import Verif.Props.DataLabels
import Verif.Props.Declare
import Verif.Props.Dynamic
import Verif.Props.FileTail
import Verif.Props.Files
import Verif.Props.FnValues
import Verif.Props.Format
import Verif.Props.Freed
import Verif.Props.Front
import Verif.Props.Functional
import Verif.Props.Gc
import Verif.Props.Going
import Verif.Props.HelperLines
import Verif.Props.Helpers
import Verif.Props.LexErrors
import Verif.Props.Lexer
import Verif.Props.Literal
import Verif.Props.Lower
import Verif.Props.Map
import Verif.Props.Meaning
import Verif.Props.Messages
import Verif.Props.Names
import Verif.Props.NamesExact
import Verif.Props.NoCrash
import Verif.Props.NoCrashSlots
import Verif.Props.Numbers
import Verif.Props.Orders
import Verif.Props.Parse
import Verif.Props.Paths
import Verif.Props.Print
import Verif.Props.RootWords
import Verif.Props.Roots
import Verif.Props.Says
import Verif.Props.ShowTypes
import Verif.Props.SourceRoots
import Verif.Props.Stack
import Verif.Props.Startup
import Verif.Props.Strings
import Verif.Props.TableFn
import Verif.Props.Text
import Verif.Props.Texts
import Verif.Props.TreePrint
import Verif.Props.TypeTable
import Verif.Props.Types
import Verif.Props.Unwritten
import Verif.Props.Walk
import Verif.Props.WholeText
import Verif.Sema.Back
import Verif.Sema.Backward
import Verif.Sema.Captures
import Verif.Sema.Check
import Verif.Sema.CheckLemmas
import Verif.Sema.CheckMain
import Verif.Sema.CheckSafe
import Verif.Sema.CheckSafeMain
import Verif.Sema.CheckSound
import Verif.Sema.CheckStmt
import Verif.Sema.CheckTerm
import Verif.Sema.Closure
import Verif.Sema.Compile
import Verif.Sema.Declare
import Verif.Sema.DeclareInst
import Verif.Sema.DeclareLoops
import Verif.Sema.DeclareMain
import Verif.Sema.DeclareMeans
import Verif.Sema.DeclareOrder
import Verif.Sema.DeclareRules
import Verif.Sema.DeclareSafe
import Verif.Sema.DeclareSpec
import Verif.Sema.DeclareSubst
import Verif.Sema.DeclareTame
import Verif.Sema.DeclareThird
import Verif.Sema.Fine
import Verif.Sema.Forward
import Verif.Sema.FromNode
import Verif.Sema.FromNodeOk
import Verif.Sema.Literal
import Verif.Sema.Lits
import Verif.Sema.Lower
import Verif.Sema.Match
import Verif.Sema.Meaning
import Verif.Sema.MeaningEnd
import Verif.Sema.MeaningFine
import Verif.Sema.MeaningOk
import Verif.Sema.MeaningSteady
import Verif.Sema.Messages
import Verif.Sema.Paths
import Verif.Sema.Pipeline
import Verif.Sema.SafeBridge
import Verif.Sema.Says
import Verif.Sema.SaysOk
import Verif.Sema.ShowTypes
import Verif.Sema.Source
import Verif.Sema.Stable
import Verif.Sema.Tame
import Verif.Sema.Terminate
import Verif.Sema.ToGen
import Verif.Sema.ToGenSafe
import Verif.Sema.ToGenVars
import Verif.Sema.Typing
import Verif.Types.AsmName
import Verif.Types.Graph
import Verif.Types.Lemmas
import Verif.Types.Model
import Verif.Types.Spec
import Verif.Types.SymTab
import Verif.Types.Texts
import Verif.Util
import Verif.Audit
