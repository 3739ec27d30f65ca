import Verif.Spec.Law
import Verif.Model.Basic
import Verif.Model.RV
import Verif.Model.Ops
import Verif.Proofs.Law
import Verif.Proofs.Ctor
import Verif.Proofs.Canon
import Verif.Proofs.Conv
import Verif.Props.Ctor
import Verif.Props.Ops
import Verif.Props.Algebra
import Verif.Proofs.Mix
import Verif.Props.Mix
import Verif.Proofs.Float
import Verif.Proofs.Sorted
import Verif.Proofs.Order
import Verif.Props.Derived
import Verif.Proofs.Expand
import Verif.Model.World
import Verif.Model.Roll
import Verif.Model.Cast
import Verif.Model.SeqOps
import Verif.Model.Funclib
import Verif.Model.History
import Verif.Proofs.World
import Verif.Proofs.Roll
import Verif.Proofs.RollPure
import Verif.Proofs.Compound
import Verif.Spec.Pool
import Verif.Spec.Call
import Verif.Props.Roll
import Verif.Proofs.Cast
import Verif.Props.Cast
import Verif.Spec.Program
import Verif.Props.Depth
import Verif.Props.Pool
import Verif.Props.Funclib
import Verif.Props.Library
import Verif.Props.Objects
import Verif.Props.Stats
import Verif.Props.Display
import Verif.Props.Settings
import Verif.Props.Output
import Verif.Props.RollStr
import Verif.Props.StringVal
import Verif.Props.StrAlias
import Verif.Props.Expr
import Verif.Props.Lexer
import Verif.Props.Names
import Verif.Props.Literal
import Verif.Props.Blocks
import Verif.Props.Expressions
import Verif.Props.Blanks
import Verif.Model.Grammar
import Verif.Model.Yacc
import Verif.Model.Tables
import Verif.Model.Parser
import Verif.Spec.Parse
import Verif.Proofs.Build
import Verif.Proofs.Tables
import Verif.Proofs.LR
import Verif.Proofs.LRSpell
import Verif.Proofs.LRSound
import Verif.Proofs.ParseFacts
import Verif.Proofs.ParseSound
import Verif.Proofs.ParseSoundE
import Verif.Proofs.ParseSoundS
import Verif.Proofs.ParseComplete
import Verif.Proofs.ParseCompleteE
import Verif.Proofs.ParseCompleteC
import Verif.Proofs.ParseCompleteS
import Verif.Props.Parse
import Verif.Model.Compile
import Verif.Spec.Compile
import Verif.Proofs.ParseEnds
import Verif.Proofs.Parts
import Verif.Props.Compile
import Verif.Spec.PyProgram
import Verif.Spec.PyMeaning
import Verif.Proofs.Program
import Verif.Props.Program
import Verif.Model.PyOps
import Verif.Model.Exec
import Verif.Spec.Run
import Verif.Spec.Runnable
import Verif.Spec.RunDepth
import Verif.Proofs.Blind
import Verif.Proofs.Sim
import Verif.Proofs.RunRel
import Verif.Proofs.RunSim
import Verif.Proofs.RunStmt
import Verif.Proofs.RunCall
import Verif.Proofs.RunMain
import Verif.Proofs.Quiet
import Verif.Proofs.Agree
import Verif.Props.Run
import Verif.Model.Flags
import Verif.Props.Flags
import Verif.Spec.Naive
import Verif.Proofs.NaiveLaw
import Verif.Proofs.NaiveFull
import Verif.Proofs.MoreCalls
import Verif.Proofs.NaiveOps
import Verif.Proofs.NaiveRoll
import Verif.Proofs.NaiveCast
import Verif.Proofs.NaiveSelect
import Verif.Proofs.NaiveLib
import Verif.Proofs.Calm
import Verif.Proofs.NaiveRun
import Verif.Props.Naive
import Verif.Props.Reduction
import Verif.Model.Altcast
import Verif.Props.Altcast
import Verif.Model.StringDice
import Verif.Model.StrShow
import Verif.Spec.StringText
import Verif.Proofs.StringText
import Verif.Spec.Symbol
import Verif.Props.StringDice
import Verif.Props.StrShow
import Verif.Model.Header
import Verif.Spec.Decimal
import Verif.Proofs.Header
import Verif.Props.Header
import Verif.Model.Kwargs
import Verif.Spec.Kwargs
import Verif.Props.Kwargs
import Verif.Proofs.Identities
import Verif.Props.Identities
import Verif.Proofs.Expect
import Verif.Props.Expect
import Verif.Spec.Session
import Verif.Proofs.Replay
import Verif.Proofs.Sound
import Verif.Proofs.SoundRun
import Verif.Proofs.SoundExec
import Verif.Props.Sound
import Verif.Proofs.Zeros
import Verif.Props.Zeros
import Verif.Spec.Table
import Verif.Props.Drawn
import Verif.Proofs.Tidy
import Verif.Props.Replay
import Verif.Spec.Rounding
import Verif.Model.Rounding
import Verif.Proofs.Rounding
import Verif.Props.Rounding
import Verif.Spec.Rename
import Verif.Proofs.Rename
import Verif.Proofs.RenameText
import Verif.Props.Rename
import Verif.Model.SeqShow
import Verif.Props.SeqShow
import Verif.Spec.Formulas
import Verif.Props.Formulas
import Verif.Proofs.Ahead
import Verif.Spec.Sequel
import Verif.Proofs.Sequel
import Verif.Props.Sequel
import Verif.Spec.Exact
import Verif.Proofs.Exact
import Verif.Proofs.ExactLib
import Verif.Proofs.ExactRun
import Verif.Proofs.ExactDec
import Verif.Props.Exact
import Verif.Props.Texts
import Verif.Spec.Accuracy
import Verif.Proofs.Accuracy
import Verif.Props.Accuracy
import Verif.Spec.Insert
import Verif.Proofs.Insert
import Verif.Props.Insert
import Verif.Model.ExecGlobals
import Verif.Spec.Given
import Verif.Proofs.Given
import Verif.Props.Given
import Verif.Spec.Replace
import Verif.Proofs.Replace
import Verif.Props.Replace
import Verif.Model.StringSeq
import Verif.Props.StringSeq
import Verif.Spec.Inline
import Verif.Proofs.Deepless
import Verif.Proofs.Inline
import Verif.Props.Inline
import Verif.Spec.Simplify
import Verif.Proofs.Simplify
import Verif.Props.Simplify
import Verif.Spec.Dominance
import Verif.Proofs.Dominance
import Verif.Props.Dominance
import Verif.Spec.Cost
import Verif.Proofs.Grown
import Verif.Proofs.Drift
import Verif.Proofs.DriftExec
import Verif.Props.Cost
import Verif.Spec.OwnLibrary
import Verif.Proofs.OwnLibrary
import Verif.Proofs.OwnBodies
import Verif.Proofs.OwnCalls
import Verif.Props.OwnLibrary
import Verif.Spec.Foreign
import Verif.Proofs.Foreign
import Verif.Props.Foreign
import Verif.Model.Regex
import Verif.Model.PlyLex
import Verif.Proofs.PlyLex
import Verif.Props.PlyLex
import Verif.Model.Digraph
import Verif.Model.Lalr
import Verif.Proofs.Digraph
import Verif.Proofs.Lalr
import Verif.Proofs.LalrFollow
import Verif.Proofs.LalrActions
import Verif.Proofs.LalrTables
import Verif.Props.Lalr
import Verif.Model.PlyParse
import Verif.Proofs.PlyParse
import Verif.Proofs.Renumber
import Verif.Props.PlyParse
import Verif.Spec.Numeral
import Verif.Proofs.Repr
import Verif.Proofs.ReprText
import Verif.Props.Repr
import Verif.Model.PlyCompile
import Verif.Proofs.PlyCompile
import Verif.Props.PlyCompile
import Verif.Model.Factorial
import Verif.Props.Factorial
import Verif.Props.Sampling
import Verif.Conformance.Dice
import Verif.Conformance.Seqs
import Verif.Conformance.Strings
import Verif.Conformance.Programs
