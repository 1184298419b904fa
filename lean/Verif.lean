import Verif.Props.Config
import Verif.Props.Values
import Verif.Props.Runs
import Verif.Props.Outcome
import Verif.Props.Report
import Verif.Props.Help
import Verif.Props.Translate
import Verif.Props.Format
import Verif.Props.Languages
import Verif.Props.Filters
import Verif.Props.HttpCache
import Verif.Props.Versions
import Verif.Props.Explanations
import Verif.Props.Reported
import Verif.Props.ConstValue
import Verif.Props.LocalDefects
import Verif.Props.Letters
import Verif.Props.InRange
import Verif.Props.Negation
import Verif.Props.Repetition
import Verif.Props.Branches
import Verif.Props.Cfg
import Verif.Props.Reaching
import Verif.Props.Antiunify
import Verif.Props.Types
import Verif.Props.Z3
import Verif.Props.Elif
import Verif.Props.SimpleIf
import Verif.Model.Flow
import Verif.Model.FlowRun
import Verif.Model.FlowUse
import Verif.Props.Flow
import Verif.Model.FlowCheck
import Verif.Props.FlowCheck
import Verif.Model.Scope
import Verif.Model.ScopePy
import Verif.Props.Scope
import Verif.Model.Z3Block
import Verif.Lemmas.Z3Block
import Verif.Lemmas.Z3BlockValue
import Verif.Lemmas.Z3BlockRun
import Verif.Props.Z3Block
import Verif.Props.Z3BlockTotal
import Verif.Model.MergeIfs
import Verif.Lemmas.MergeIfs
import Verif.Lemmas.MergeRun
import Verif.Lemmas.MergeChain
import Verif.Lemmas.MergeApart
import Verif.Props.MergeIfs
import Verif.Model.Loops
import Verif.Lemmas.Loops
import Verif.Props.Loops
import Verif.Model.Traverse
import Verif.Lemmas.Traverse
import Verif.Lemmas.TraverseMirror
import Verif.Props.Traverse
import Verif.Model.TraverseFlow
import Verif.Model.Changed
import Verif.Lemmas.TraverseFlow
import Verif.Props.TraverseFlow
import Verif.Props.Changed
import Verif.Model.CommonBranches
import Verif.Lemmas.CommonBranches
import Verif.Props.CommonBranches
import Verif.Model.Inside
import Verif.Model.Occurs
import Verif.Lemmas.InsideLay
import Verif.Lemmas.InsideCover
import Verif.Lemmas.InsideCtx
import Verif.Lemmas.InsideWalk
import Verif.Lemmas.InsideFind
import Verif.Lemmas.InsideTrace
import Verif.Lemmas.InsideAll
import Verif.Model.Modified
import Verif.Props.Inside
import Verif.Model.Uses
import Verif.Lemmas.Uses
import Verif.Lemmas.FlowStart
import Verif.Lemmas.UsesFile
import Verif.Lemmas.UsesVar
import Verif.Props.Uses
import Verif.Model.BoolOps
import Verif.Model.BoolParts
import Verif.Lemmas.BoolOps
import Verif.Lemmas.BoolParts
import Verif.Lemmas.BoolInts
import Verif.Lemmas.BoolMaxMin
import Verif.Props.BoolOps
import Verif.Props.BoolParts
import Verif.Props.BoolMaxMin
import Verif.Props.BoolMod
import Verif.Model.LocalOps
import Verif.Model.Statements
import Verif.Props.LocalOps
import Verif.Props.LocalFixes
import Verif.Props.Statements
import Verif.Model.CallGraph
import Verif.Props.CallGraph
import Verif.Model.ForEach
import Verif.Props.ForEachRun
import Verif.Props.ForEach
import Verif.Model.UseFor
import Verif.Lemmas.UseFor
import Verif.Props.UseFor
import Verif.Model.LoopVars
import Verif.Lemmas.SameVar
import Verif.Props.LoopVars
import Verif.Model.LoopMerge
import Verif.Props.LoopMerge
import Verif.Model.Candidates
import Verif.Props.Candidates
import Verif.Model.Events
import Verif.Props.Events
import Verif.Model.Extract
import Verif.Props.Extract
import Verif.Model.CallInstead
import Verif.Props.CallInstead
import Verif.Model.Mutability
import Verif.Props.Mutability
import Verif.Model.GlobalVars
import Verif.Props.GlobalVars
import Verif.Model.IfContainer
import Verif.Props.IfContainer
import Verif.Model.SimilarIf
import Verif.Props.SimilarIf
import Verif.Props.SimilarIfExpr
import Verif.Props.SimilarIfBlock
import Verif.Props.SimilarIfVars
import Verif.Model.IfAttempts
import Verif.Props.IfAttempts
import Verif.Model.ConfigPaths
import Verif.Props.ConfigPaths
import Verif.Model.Assigned
import Verif.Props.Assigned
import Verif.Model.Requirements
import Verif.Props.Requirements
import Verif.Model.PythonTa
import Verif.Props.PythonTa
import Verif.Model.Parts
import Verif.Props.Parts
import Verif.Props.Renamed
import Verif.Model.SeqIfs
import Verif.Props.SeqIfs
import Verif.Model.DupBlocks
import Verif.Props.DupBlocks
import Verif.Model.DupSequence
import Verif.Props.DupSequence
import Verif.Model.DupExprs
import Verif.Props.DupExprs
import Verif.Model.IterUse
import Verif.Props.IterUse
import Verif.Model.ElifWhole
import Verif.Props.ElifWhole
import Verif.Model.MadeUp
import Verif.Model.MadeUpFile
import Verif.Props.MadeUp
import Verif.Props.MadeUpFile
import Verif.Model.DefsAt
import Verif.Props.DefsAt
import Verif.Model.Json
import Verif.Props.Json
import Verif.Model.CollectBlocks
import Verif.Props.CollectBlocks
import Verif.Model.MergeVars
import Verif.Props.MergeVars
import Verif.Model.Purity
import Verif.Props.Purity
import Verif.Model.VersionChoice
import Verif.Props.VersionChoice
import Verif.Model.EventStore
import Verif.Props.EventStore
import Verif.Model.Streams
import Verif.Props.Streams
import Verif.Model.UniqueAvars
import Verif.Props.UniqueAvars
import Verif.Model.CommonParent
import Verif.Props.CommonParent
import Verif.Model.RepeatLoop
import Verif.Props.RepeatLoop
import Verif.Model.Process
import Verif.Props.Process
import Verif.Model.Layout
import Verif.Props.Layout
import Verif.Model.ConfigOne
import Verif.Props.ConfigOne
import Verif.Model.StmtNodes
import Verif.Props.StmtNodes
import Verif.Model.Analyses
import Verif.Props.Analyses
import Verif.Model.Consistent
import Verif.Props.Consistent
import Verif.Props.WholeNames
import Verif.Model.LoopExit
import Verif.Props.LoopExit
import Verif.Model.CommandLine
import Verif.Props.CommandLine
import Verif.Model.CompileExpls
import Verif.Props.CompileExpls
import Verif.Model.Patch
import Verif.Props.Patch
import Verif.Model.SetParents
import Verif.Props.SetParents
import Verif.Model.Repr
import Verif.Props.Repr
import Verif.Props.Small
import Verif.Props.Semantics
import Verif.Model.SatCondition
import Verif.Props.SatCondition
import Verif.Model.IndexLoop
import Verif.Props.IndexLoop
import Verif.Model.UpdateCheck
import Verif.Props.UpdateCheck
import Verif.Model.RaiseTo
import Verif.Props.RaiseTo
