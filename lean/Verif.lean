import Verif.Base
import Verif.Model.HashTable
import Verif.Spec.HashTable
import Verif.Lemmas.HashTable
import Verif.Lemmas.HashTableIter
import Verif.Lemmas.HashTableSim
import Verif.Props.HashTable
import Verif.Model.Str
import Verif.Spec.Str
import Verif.Lemmas.Str
import Verif.Props.Str
import Verif.Model.PhaseDriver
import Verif.Spec.PhaseDriver
import Verif.Lemmas.PhaseDriver
import Verif.Lemmas.PhaseDriverTrace
import Verif.Lemmas.PhaseDriverErr
import Verif.Lemmas.PhaseDriverBreak
import Verif.Lemmas.PhaseDriverPrefix
import Verif.Props.PhaseDriver
import Verif.Model.Ids
import Verif.Spec.Ids
import Verif.Lemmas.Ids
import Verif.Props.Ids
import Verif.Model.Sets
import Verif.Spec.Sets
import Verif.Lemmas.Sets
import Verif.Props.Sets
import Verif.Model.SetGrammar
import Verif.Spec.SetGrammar
import Verif.Lemmas.SetGrammar
import Verif.Props.SetGrammar
import Verif.Model.Unwrap
import Verif.Spec.Unwrap
import Verif.Lemmas.Unwrap
import Verif.Props.Unwrap
import Verif.Model.Queue
import Verif.Spec.Queue
import Verif.Lemmas.Queue
import Verif.Props.Queue
import Verif.Model.Graph
import Verif.Spec.Graph
import Verif.Lemmas.Graph
import Verif.Props.Graph
import Verif.Model.Partition
import Verif.Spec.Partition
import Verif.Lemmas.Partition
import Verif.Props.Partition
import Verif.Model.EmptyVisits
import Verif.Spec.EmptyVisits
import Verif.Lemmas.EmptyVisits
import Verif.Props.EmptyVisits
import Verif.Model.Visits
import Verif.Spec.Visits
import Verif.Lemmas.Visits
import Verif.Lemmas.VisitsComplete
import Verif.Props.Visits
import Verif.Model.ChildTable
import Verif.Spec.ChildTable
import Verif.Lemmas.ChildTable
import Verif.Props.ChildTable
import Verif.Model.Propagate
import Verif.Spec.Propagate
import Verif.Lemmas.Propagate
import Verif.Props.Propagate
import Verif.Model.CheckAttrs
import Verif.Spec.CheckAttrs
import Verif.Props.CheckAttrs
import Verif.Model.ProductRules
import Verif.Spec.ProductRules
import Verif.Lemmas.ProductRules
import Verif.Props.ProductRules
import Verif.Model.Reach
import Verif.Spec.Reach
import Verif.Lemmas.Reach
import Verif.Props.Reach
import Verif.Model.Tables
import Verif.Spec.Tables
import Verif.Lemmas.Tables
import Verif.Props.Tables
import Verif.Model.Lifetimes
import Verif.Spec.Lifetimes
import Verif.Lemmas.Lifetimes
import Verif.Props.Lifetimes
import Verif.Model.Trav
import Verif.Spec.Trav
import Verif.Lemmas.Trav
import Verif.Props.Trav
import Verif.Model.CopyFree
import Verif.Spec.CopyFree
import Verif.Lemmas.CopyFree
import Verif.Props.CopyFree
import Verif.Model.EvalGen
import Verif.Spec.EvalGen
import Verif.Lemmas.EvalGen
import Verif.Props.EvalGen
import Verif.Model.Cti
import Verif.Spec.Cti
import Verif.Lemmas.Cti
import Verif.Lemmas.CtiRun
import Verif.Props.Cti
import Verif.Model.CheckExist
import Verif.Spec.CheckExist
import Verif.Lemmas.CheckExist
import Verif.Props.CheckExist
import Verif.Model.NodeGen
import Verif.Spec.NodeGen
import Verif.Lemmas.NodeGen
import Verif.Lemmas.NodeGenCtor
import Verif.Lemmas.NodeGenHeader
import Verif.Lemmas.NodeGenTrav
import Verif.Props.NodeGen
import Verif.Model.VisitGen
import Verif.Spec.VisitGen
import Verif.Lemmas.VisitGen
import Verif.Lemmas.VisitGenRun
import Verif.Lemmas.VisitGenCompile
import Verif.Props.VisitGen
import Verif.Model.Induce
import Verif.Spec.Induce
import Verif.Lemmas.Induce
import Verif.Lemmas.InduceRounds
import Verif.Lemmas.InduceStart
import Verif.Lemmas.InduceSets
import Verif.Spec.AttrTree
import Verif.Lemmas.AttrTree
import Verif.Props.Induce
import Verif.Model.Schedule
import Verif.Spec.Evaluate
import Verif.Lemmas.Evaluate
import Verif.Lemmas.Fuel
import Verif.Lemmas.Schedule
import Verif.Props.Evaluate
import Verif.Model.Lex
import Verif.Spec.Text
import Verif.Lemmas.Lex
import Verif.Lemmas.Scan
import Verif.Lemmas.ScanPick
import Verif.Lemmas.ScanRun
import Verif.Lemmas.ScanText
import Verif.Lemmas.ScanPlace
import Verif.Props.Lex
import Verif.Model.Parse
import Verif.Lemmas.Parse
import Verif.Lemmas.ParseDecl
import Verif.Lemmas.ParsePhase
import Verif.Spec.Syntax
import Verif.Lemmas.Syntax
import Verif.Props.Parse
import Verif.Model.Evaluator
import Verif.Spec.Evaluator
import Verif.Lemmas.Evaluator
import Verif.Lemmas.EvaluatorGen
import Verif.Lemmas.EvaluatorRun
import Verif.Lemmas.EvaluatorSolve
import Verif.Lemmas.EvaluatorOne
import Verif.Props.Evaluator
import Verif.Model.Semantic
import Verif.Lemmas.SemanticNames
import Verif.Spec.Semantic
import Verif.Lemmas.SemanticSets
import Verif.Lemmas.SemanticRun
import Verif.Lemmas.SemanticEqns
import Verif.Lemmas.SemanticSpec
import Verif.Lemmas.SemanticMain
import Verif.Lemmas.SemanticText
import Verif.Props.Semantic
import Verif.Model.Unpack
import Verif.Spec.Unpack
import Verif.Lemmas.Unpack
import Verif.Props.Unpack
import Verif.Model.Compiled
import Verif.Spec.Compiled
import Verif.Lemmas.CompiledRun
import Verif.Lemmas.Compiled
import Verif.Lemmas.CompiledProgram
import Verif.Props.Compiled
import Verif.Model.Targets
import Verif.Spec.Targets
import Verif.Lemmas.Targets
import Verif.Lemmas.TargetsRun
import Verif.Lemmas.TravFuel
import Verif.Lemmas.TargetsBack
import Verif.Lemmas.TargetsTable
import Verif.Lemmas.TargetsParse
import Verif.Lemmas.TargetsWalk
import Verif.Props.Targets
import Verif.Model.Declared
import Verif.Spec.Declared
import Verif.Lemmas.Declared
import Verif.Lemmas.DeclaredFiles
import Verif.Props.Declared
import Verif.Model.EnumHeader
import Verif.Spec.EnumHeader
import Verif.Lemmas.EnumHeader
import Verif.Props.EnumHeader
import Verif.Model.Described
import Verif.Spec.Described
import Verif.Lemmas.Described
import Verif.Props.Described
import Verif.Model.TravData
import Verif.Spec.TravData
import Verif.Lemmas.TravData
import Verif.Lemmas.TravDataRun
import Verif.Props.TravData
import Verif.Model.CopyGen
import Verif.Spec.CopyGen
import Verif.Lemmas.CopyGen
import Verif.Props.CopyGen
import Verif.Model.GenFiles
import Verif.Spec.GenFiles
import Verif.Lemmas.GenFiles
import Verif.Lemmas.GenFilesTypes
import Verif.Lemmas.GenFilesBlocks
import Verif.Lemmas.GenFilesKeys
import Verif.Lemmas.GenFilesRun
import Verif.Lemmas.GenFilesWalk
import Verif.Lemmas.GenFilesFlow
import Verif.Lemmas.GenFilesGood
import Verif.Lemmas.GenFilesBad
import Verif.Lemmas.GenFilesBackend
import Verif.Lemmas.GenFilesSeen
import Verif.Props.GenFiles
import Verif.Model.CommandLine
import Verif.Spec.CommandLine
import Verif.Lemmas.CommandLine
import Verif.Props.CommandLine
import Verif.Model.Dot
import Verif.Spec.Dot
import Verif.Lemmas.DotText
import Verif.Lemmas.UnwrapIds
import Verif.Lemmas.Dot
import Verif.Props.Dot
import Verif.Model.Templates
import Verif.Spec.Templates
import Verif.Lemmas.Templates
import Verif.Props.Templates
import Verif.Model.TableText
import Verif.Spec.TableText
import Verif.Lemmas.TableText
import Verif.Props.TableText
import Verif.Spec.FileNames
import Verif.Lemmas.FileNames
import Verif.Props.FileNames
import Verif.Model.ActionText
import Verif.Spec.ActionText
import Verif.Lemmas.ActionText
import Verif.Props.ActionText
import Verif.Model.DotAg
import Verif.Spec.DotAg
import Verif.Props.DotAg
