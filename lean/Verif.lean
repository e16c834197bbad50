import Verif.Basic
import Verif.Token
import Verif.Scanner
import Verif.ScannerLemmas
import Verif.Props.ScannerInv
import Verif.Props.ScannerLex
import Verif.Props.ScannerOps
import Verif.Props.ScannerComments
import Verif.Props.ScannerEnds
import Verif.ScannerSim
import Verif.Props.ScannerText
import Verif.Props.HereDoc
import Verif.Node
import Verif.DocBlock
import Verif.ParserCore
import Verif.Grammar
import Verif.GoodAttr
import Verif.NodeGood
import Verif.ParserRel
import Verif.GrammarRel
import Verif.ParserLemmas
import Verif.Props.ParserInv
import Verif.Props.DocBlock
import Verif.Props.DocDirectives
import Verif.Props.ParserTotal
import Verif.Props.ParserTrivia
import Verif.ParserTerm
import Verif.GrammarTerm
import Verif.GrammarTerm2
import Verif.GrammarTerm3
import Verif.KernelRfl
import Verif.Props.ParserRecovery
import Verif.Props.ParserTermination
import Verif.Props.ParserHang
import Verif.Range
import Verif.Relocate
import Verif.Props.Range
import Verif.Visibility
import Verif.Props.Visibility
import Verif.Fs
import Verif.Props.Formatter
import Verif.Props.Fs
import Verif.ParserRun
import Verif.ExprSpec
import Verif.ExprLemmas
import Verif.ExprReads
import Verif.Props.ParserExpr
import Verif.Props.ParserAssoc
import Verif.Props.ParserModifiers
import Verif.TypeRef
import Verif.Import
import Verif.Props.Imports
import Verif.Arena
import Verif.ArenaLemmas
import Verif.NodeInfo
import Verif.Suggester
import Verif.Symbol
import Verif.Props.SymbolAt
import Verif.Out
import Verif.Traverser
import Verif.Props.TreeRange
import Verif.Props.Traverser
import Verif.Dict
import Verif.Resolver
import Verif.ResolverLemmas
import Verif.ResolverTarget
import Verif.ResolverAsked
import Verif.Props.Resolver
import Verif.Props.Members
import Verif.Props.TraitRules
import Verif.Props.Inheritance
import Verif.NameResolve
import Verif.NameResolveLemmas
import Verif.WorkspaceSymbol
import Verif.Backend
import Verif.ArenaTree
import Verif.Runs
import Verif.Props.Scopes
import Verif.CollectorLemmas
import Verif.BackendLemmas
import Verif.ResolveLemmas
import Verif.Props.GlobalTable
import Verif.Props.References
import Verif.ArenaBelow
import Verif.BackendQueries
import Verif.Props.Completion
import Verif.Props.CompletionMembers
import Verif.Props.CompletionNames
import Verif.Props.CompletionKeywords
import Verif.Props.Definition
import Verif.Props.Documents
import Verif.Props.Queries
import Verif.Concurrency
import Verif.Formatter
import Verif.FormatterSpec
import Verif.FormatterShows
import Verif.FormatterCount
import Verif.Props.Concurrency
import Verif.NodeCover
import Verif.CoverRun
import Verif.GrammarCover
import Verif.GrammarCover2
import Verif.GrammarCover3
import Verif.GrammarCover4
import Verif.Props.TreeCover
import Verif.KeepRun
import Verif.GrammarKeep
import Verif.GrammarKeep2
import Verif.Props.TreeKeeps
import Verif.Props.ConcurrencySearch
import Verif.ResolveLive
import Verif.Props.ReferencesLive
import Verif.ResolveNamed
import Verif.Props.ReferencesNamed
import Verif.Hover
import Verif.Props.Hover
import Verif.CompletionItem
import Verif.Props.CompletionItem
import Verif.Props.ProtocolPositions
import Verif.Props.MemberAccess
import Verif.Props.VariableTypes
import Verif.Props.VariableCatch
import Verif.Props.VariableUses
import Verif.Props.VariableOne
import Verif.Props.VariableOneAccess
import Verif.Props.VariableOneChange
import Verif.Props.VariableOneAnswers
import Verif.Props.VariableKnown
import Verif.Props.Declarations
import Verif.SyntaxRun
import Verif.SyntaxSpec
import Verif.SyntaxExpr
import Verif.SyntaxCall
import Verif.SyntaxPrim
import Verif.SyntaxStmt
import Verif.SyntaxMore
import Verif.SyntaxSem
import Verif.Props.Programs
import Verif.Props.ProgramsMore
import Verif.Props.ProgramSymbols
import Verif.CommandLine
import Verif.Props.CommandLine
import Verif.Props.ReferencesLooked
import Verif.FlawSpec
import Verif.FlawRun
import Verif.FlawSem
import Verif.FlawSem2
import Verif.Props.Flaws
import Verif.Spans
import Verif.SpanRuns
import Verif.Props.Spans
import Verif.Props.SpanPrograms
import Verif.Announce
import Verif.Props.Announce
import Verif.Props.Jump
import Verif.Props.OutlineRanges
