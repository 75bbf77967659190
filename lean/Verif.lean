import Verif.Lemmas.Trim
import Verif.Lemmas.Unicode
import Verif.Spec.Unicode
import Verif.Model.Unicode
import Verif.Props.Symbol
import Verif.Props.Composer
import Verif.Props.Visitors
import Verif.Props.AnonKey
import Verif.Props.CrossModule
import Verif.Props.CrossModuleExact
import Verif.Props.Table
import Verif.Props.Document
import Verif.Props.Lookup
import Verif.Props.LookupAnswer
import Verif.Props.FileVisitorSample
import Verif.Props.Fingerprint
import Verif.Props.ImplementationsSample
import Verif.Props.LoaderSample
import Verif.Props.Index
import Verif.Props.PackageDocs
import Verif.Props.Determinism
import Verif.Props.RelativePath
import Verif.Props.IndexSample
import Verif.Props.EndToEnd
import Verif.Props.EndToEndSample
import Verif.Props.Wire
import Verif.Props.Cmd
import Verif.Model.Commands
import Verif.Props.Commands
import Verif.Props.CommandsSample
import Verif.Props.CmdSample
import Verif.Props.ConcurrentWriter
import Verif.Props.ConcurrentComposer
import Verif.Props.ConcurrentLookup
import Verif.Props.Duration
import Verif.Props.Progress
import Verif.Props.Git
import Verif.Props.Signatures
import Verif.Props.SignaturesSample
import Verif.Spec.Comments
import Verif.Spec.WholeRun
import Verif.Props.WholeRun
import Verif.Props.WholeRunSample
import Verif.Lemmas.Comments
import Verif.Props.CommentsRun
import Verif.Props.CommentsRunSample
import Verif.Props.SignaturesRun
import Verif.Props.SignaturesRunSample
import Verif.Model.Program
import Verif.Model.Main
import Verif.Spec.Program
import Verif.Lemmas.Program
import Verif.Props.Identity
import Verif.Props.SymbolsRun
import Verif.Props.Program
import Verif.Props.ProgramSample
import Verif.Spec.Types
import Verif.Props.TypesRun
import Verif.Props.TypesRunSample
import Verif.Props.ProgramTypes
import Verif.Props.SkipImplementations
import Verif.Spec.Renaming
import Verif.Lemmas.Renaming
import Verif.Lemmas.RenamingVisit
import Verif.Lemmas.RenamingImpl
import Verif.Lemmas.RenamingIndex
import Verif.Props.Renaming
import Verif.Props.RenamingSample
import Verif.Props.ProgramTypesSample
import Verif.Props.ProgramRelations
import Verif.Props.ProgramRelationsSample
import Verif.Spec.Content
import Verif.Props.Content
import Verif.Props.ContentDetermined
import Verif.Props.ContentSample
import Verif.Model.Stdout
import Verif.Props.Truncation
import Verif.Props.Stdout
import Verif.Props.EndToEndCommand
import Verif.Props.EndToEndCommandSample
import Verif.Props.StdoutSample
import Verif.Spec.Text
import Verif.Spec.SourceText
import Verif.Spec.SignatureText
import Verif.Lemmas.Text
import Verif.Lemmas.SourceText
import Verif.Lemmas.IndexText
import Verif.Lemmas.FileText
import Verif.Lemmas.SignatureText
import Verif.Props.Text
import Verif.Props.TextSample
import Verif.Model.ConcurrentIndex
import Verif.Lemmas.ConcurrentIndex
import Verif.Props.ConcurrentIndex
import Verif.Model.ConcurrentStdout
import Verif.Lemmas.ConcurrentStdout
import Verif.Props.ConcurrentStdout
import Verif.Props.ConcurrentIndexSample
import Verif.Spec.Modularity
import Verif.Props.Modularity
import Verif.Props.ModularitySample
import Verif.Spec.Locality
import Verif.Props.Locality
import Verif.Props.LocalitySample
import Verif.Model.Log
import Verif.Spec.Log
import Verif.Lemmas.Log
import Verif.Props.Log
import Verif.Props.LogSample
import Verif.Props.BrokenModule
import Verif.Props.BrokenModuleSample
import Verif.Spec.OutputFlags
import Verif.Props.OutputFlags
import Verif.Props.OutputFlagsSample
import Verif.Spec.Places
import Verif.Lemmas.Places
import Verif.Props.Places
import Verif.Props.PlacesSample
import Verif.Spec.Naming
import Verif.Lemmas.Naming
import Verif.Props.Naming
import Verif.Props.NamingSample
import Verif.Spec.Checkout
import Verif.Props.Main
import Verif.Spec.Status
import Verif.Props.MainCrash
import Verif.Props.MainStatus
import Verif.Props.MainSample
import Verif.Model.Warnings
import Verif.Spec.Warnings
import Verif.Props.Warnings
import Verif.Props.WarningsSample
import Verif.Model.Stderr
import Verif.Spec.Stderr
import Verif.Props.Stderr
import Verif.Props.StderrRun
import Verif.Props.StderrSample
import Verif.Props.Debug
import Verif.Props.DebugLoad
import Verif.Props.DebugRun
import Verif.Props.DebugSample
import Verif.Props.FingerprintText
import Verif.Model.VisitNotes
import Verif.Spec.VisitNotes
import Verif.Lemmas.VisitNotes
import Verif.Props.VisitNotes
import Verif.Spec.KeptDeclaration
import Verif.Lemmas.KeptDeclaration
import Verif.Props.KeptDeclaration
import Verif.Props.KeptDeclarationSample
import Verif.Props.CrossIndex
import Verif.Props.PackageSymbol
import Verif.Props.CrossIndexTypes
import Verif.Props.CrossIndexSample
