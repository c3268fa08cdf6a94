import Verif.Atoms
import Verif.Composer
import Verif.ComposerLemmas
import Verif.ComposerLinks
import Verif.Conversation
import Verif.Core
import Verif.CoreLemmas
import Verif.DataSource
import Verif.Datalog
import Verif.DatalogEndless
import Verif.DatalogLemmas
import Verif.DatalogLevel
import Verif.DatalogMain
import Verif.DatalogReturns
import Verif.DatalogTerm
import Verif.DedupLemmas
import Verif.Dict
import Verif.Digits
import Verif.Earley
import Verif.EarleyDistinct
import Verif.EarleyLemmas
import Verif.EarleyMore
import Verif.EarleyRoots
import Verif.EarleyTrees
import Verif.FirstOrder
import Verif.FirstOrderLemmas
import Verif.FirstOrderMain
import Verif.Generator
import Verif.Grammar
import Verif.GrammarSyntax
import Verif.Inference
import Verif.InferenceSyntax
import Verif.IsolateLemmas
import Verif.Languages
import Verif.Lexer
import Verif.LiveRules
import Verif.Logging
import Verif.LoggingLemmas
import Verif.MemoryLemmas
import Verif.Monad
import Verif.Mono
import Verif.MonoModules
import Verif.Optimizer
import Verif.Pipeline
import Verif.Processors
import Verif.Props.Atoms
import Verif.Props.Attached
import Verif.Props.Calm
import Verif.Props.Cases
import Verif.Props.ClaimSessions
import Verif.Props.Claims
import Verif.Props.Composer
import Verif.Props.Conversation
import Verif.Props.Core1
import Verif.Props.Core2
import Verif.Props.Core3
import Verif.Props.Counted
import Verif.Props.DataSource
import Verif.Props.Datalog
import Verif.Props.Dedup
import Verif.Props.Dialog
import Verif.Props.Dialogues
import Verif.Props.Earley
import Verif.Props.EarleyTrees
import Verif.Props.Edges
import Verif.Props.EndToEnd
import Verif.Props.Fallible
import Verif.Props.FirstOrder
import Verif.Props.Forgetting
import Verif.Props.FrontResolve
import Verif.Props.Generator
import Verif.Props.GeneratorReturns
import Verif.Props.Grammar
import Verif.Props.GrammarSyntax
import Verif.Props.InferenceSyntax
import Verif.Props.InlineTrees
import Verif.Props.Isolate
import Verif.Props.Knowledge
import Verif.Props.Languages
import Verif.Props.Lessons
import Verif.Props.LiveRules
import Verif.Props.LoggedAnswers
import Verif.Props.Logging
import Verif.Props.Meaning
import Verif.Props.Memory
import Verif.Props.MixedDialogs
import Verif.Props.OptimisedQuestions
import Verif.Props.OptimisedText
import Verif.Props.Pipeline
import Verif.Props.PrintedTrees
import Verif.Props.PrintedValues
import Verif.Props.QuantifiedText
import Verif.Props.Quantifiers
import Verif.Props.QueryOrder
import Verif.Props.Recursion
import Verif.Props.Replies
import Verif.Props.RuleForms
import Verif.Props.RuleText
import Verif.Props.Small
import Verif.Props.SolveOne
import Verif.Props.Solver
import Verif.Props.SolverMore
import Verif.Props.SortByCost
import Verif.Props.Sparql
import Verif.Props.Sql
import Verif.Props.SqlMemory
import Verif.Props.Stats
import Verif.Props.StatsCounts
import Verif.Props.Teaching
import Verif.Props.Telling
import Verif.Props.Template
import Verif.Props.Total
import Verif.Props.TypedQuestions
import Verif.Quantified
import Verif.QuantifiedGrammar
import Verif.QuantifiedLemmas
import Verif.QuantifiedMain
import Verif.QuantifiedRule
import Verif.QuantifiedTree
import Verif.QuantifiedValues
import Verif.QueryIsolate
import Verif.QueryIsolateRun
import Verif.QueryOrder
import Verif.QueryOrderLemmas
import Verif.QuerySort
import Verif.QuerySortRun
import Verif.Refine
import Verif.Repr
import Verif.ReprLemmas
import Verif.RuleBase
import Verif.RuleBaseOthers
import Verif.RuleForms
import Verif.RuleFormsLemmas
import Verif.RuleFormsMain
import Verif.RuleStrata
import Verif.RuleText
import Verif.Runs.Chat80
import Verif.Runs.Cooper
import Verif.Runs.HelloWorld
import Verif.Runs.Main
import Verif.Runs.Sir
import Verif.Runs.Texts
import Verif.Runs.Tools
import Verif.Runs.Units
import Verif.Simulate
import Verif.Small
import Verif.SolveOne
import Verif.Solver
import Verif.SolverLemmas
import Verif.Sql
import Verif.SqlLemmas
import Verif.SqlMemory
import Verif.SqlSources
import Verif.Stats
import Verif.Tables
import Verif.Value
