import Verif.Conform.Diffs
import Verif.Conform.Files
import Verif.Conform.Options
import Verif.Conform.Small
import Verif.Conform.Snapshots
import Verif.Conform.Syntax
import Verif.Conform.Trees
import Verif.Conform.Values
import Verif.Conform.Walked
import Verif.Model.BuildDir
import Verif.Model.Cargo
import Verif.Model.Colors
import Verif.Model.ConfigFile
import Verif.Model.CopyTree
import Verif.Model.Dirt
import Verif.Model.FnValue
import Verif.Model.Glob
import Verif.Model.Group
import Verif.Model.InDiff
import Verif.Model.Interrupt
import Verif.Model.Join
import Verif.Model.Json
import Verif.Model.Lab
import Verif.Model.Link
import Verif.Model.Lock
import Verif.Model.Logs
import Verif.Model.Manifest
import Verif.Model.Message
import Verif.Model.Mutant
import Verif.Model.Options
import Verif.Model.Outcome
import Verif.Model.Output
import Verif.Model.OutputDir
import Verif.Model.PathSafe
import Verif.Model.Pipeline
import Verif.Model.Process
import Verif.Model.Program
import Verif.Model.Progress
import Verif.Model.Run
import Verif.Model.Shard
import Verif.Model.Shuffle
import Verif.Model.Sort
import Verif.Model.Span
import Verif.Model.Start
import Verif.Model.Summary
import Verif.Model.TailFile
import Verif.Model.Temp
import Verif.Model.Timeouts
import Verif.Model.Tokens
import Verif.Model.Unified
import Verif.Model.Utf8
import Verif.Model.View
import Verif.Model.Visit
import Verif.Model.Walk
import Verif.Model.Workspace
import Verif.Proofs.CopyTree
import Verif.Proofs.Dirt
import Verif.Proofs.FnValue
import Verif.Proofs.FnValue2
import Verif.Proofs.FnValue3
import Verif.Proofs.FnValue4
import Verif.Proofs.Glob
import Verif.Proofs.History
import Verif.Proofs.InDiff
import Verif.Proofs.Join
import Verif.Proofs.Json
import Verif.Proofs.JsonFiles
import Verif.Proofs.LabConsole
import Verif.Proofs.LabContent
import Verif.Proofs.LabEnd
import Verif.Proofs.LabFine
import Verif.Proofs.LabInv
import Verif.Proofs.LabOutcomes
import Verif.Proofs.LabPrint
import Verif.Proofs.LabStep
import Verif.Proofs.ListUtil
import Verif.Proofs.Logs
import Verif.Proofs.Loss
import Verif.Proofs.Message
import Verif.Proofs.Outcome
import Verif.Proofs.Output
import Verif.Proofs.OutputDir
import Verif.Proofs.Pipeline
import Verif.Proofs.Run
import Verif.Proofs.RunStop
import Verif.Proofs.Shard
import Verif.Proofs.Sort
import Verif.Proofs.Span
import Verif.Proofs.Temp
import Verif.Proofs.Text
import Verif.Proofs.Unified
import Verif.Proofs.Utf8
import Verif.Proofs.View
import Verif.Proofs.Visit
import Verif.Proofs.Walk
import Verif.Props.Again
import Verif.Props.BareDiff
import Verif.Props.BuildDir
import Verif.Props.Campaign
import Verif.Props.Cargo
import Verif.Props.Cfg
import Verif.Props.Colors
import Verif.Props.ConfigArgs
import Verif.Props.ConfigFile
import Verif.Props.CopyTree
import Verif.Props.Dirt
import Verif.Props.Dots
import Verif.Props.Edit
import Verif.Props.Exactly
import Verif.Props.Fate
import Verif.Props.FnValue
import Verif.Props.GlobAlts
import Verif.Props.GlobBytes
import Verif.Props.GlobClass
import Verif.Props.GlobGroups
import Verif.Props.GlobUnion
import Verif.Props.Group
import Verif.Props.InDiff
import Verif.Props.Inside
import Verif.Props.Interrupt
import Verif.Props.Join
import Verif.Props.Json
import Verif.Props.Lab
import Verif.Props.Lex
import Verif.Props.Link
import Verif.Props.ListFiles
import Verif.Props.Lock
import Verif.Props.LockWindow
import Verif.Props.Logs
import Verif.Props.Manifest
import Verif.Props.Message
import Verif.Props.ModSource
import Verif.Props.Name
import Verif.Props.Options
import Verif.Props.Outcome
import Verif.Props.Output
import Verif.Props.OutputDir
import Verif.Props.Part
import Verif.Props.PathSafe
import Verif.Props.Phases
import Verif.Props.Pipeline
import Verif.Props.Place
import Verif.Props.Pretty
import Verif.Props.PrettySpaces
import Verif.Props.Process
import Verif.Props.Program
import Verif.Props.Progress
import Verif.Props.ReadBack
import Verif.Props.ReadValues
import Verif.Props.Reads
import Verif.Props.Reproducible
import Verif.Props.RoundTrip
import Verif.Props.Run
import Verif.Props.RunStop
import Verif.Props.Same
import Verif.Props.Shard
import Verif.Props.SourceText
import Verif.Props.Span
import Verif.Props.SpanExact
import Verif.Props.Start
import Verif.Props.Summary
import Verif.Props.TailFile
import Verif.Props.Temp
import Verif.Props.Tested
import Verif.Props.Texts
import Verif.Props.Timeouts
import Verif.Props.Unified
import Verif.Props.UnifiedOnce
import Verif.Props.View
import Verif.Props.Visit
import Verif.Props.Walk
import Verif.Props.Workspace
import Verif.Props.Zero
import Verif.Spec.Alphabet
import Verif.Spec.BuildDir
import Verif.Spec.Cargo
import Verif.Spec.Cfg
import Verif.Spec.ConfigArgs
import Verif.Spec.ConfigFile
import Verif.Spec.CopyTree
import Verif.Spec.Dirt
import Verif.Spec.Edit
import Verif.Spec.Fate
import Verif.Spec.FnValue
import Verif.Spec.Glob
import Verif.Spec.Group
import Verif.Spec.InDiff
import Verif.Spec.Inside
import Verif.Spec.Interrupt
import Verif.Spec.Join
import Verif.Spec.Json
import Verif.Spec.Lab
import Verif.Spec.Lex
import Verif.Spec.Link
import Verif.Spec.Logs
import Verif.Spec.Manifest
import Verif.Spec.Message
import Verif.Spec.ModSource
import Verif.Spec.Name
import Verif.Spec.Options
import Verif.Spec.Output
import Verif.Spec.Path
import Verif.Spec.Program
import Verif.Spec.Progress
import Verif.Spec.Reads
import Verif.Spec.Run
import Verif.Spec.Same
import Verif.Spec.Seen
import Verif.Spec.Shard
import Verif.Spec.Span
import Verif.Spec.Start
import Verif.Spec.Temp
import Verif.Spec.Terminal
import Verif.Spec.Tested
import Verif.Spec.Tokens
import Verif.Spec.Unified
import Verif.Spec.View
import Verif.Spec.Visit
import Verif.Spec.Walk
