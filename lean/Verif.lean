import Verif.Props.GrammarProps
import Verif.Props.AnalyzerProps
import Verif.Props.ResolverProps
import Verif.Props.ContextProps
import Verif.Props.LookupProps
import Verif.Proofs.ReportLemmas
import Verif.Proofs.IndexRows
import Verif.Proofs.SnippetLemmas
import Verif.Props.ErrorProps
import Verif.Props.ValidationProps
import Verif.Proofs.WorldLoad
import Verif.Props.ElementProps
import Verif.Props.ElementReadProps
import Verif.Props.ElementListProps
import Verif.Props.ErrorKindProps
import Verif.Spec.Marks
import Verif.Proofs.WorldMarks
import Verif.Proofs.WorldRequire
import Verif.Props.ElementMoreProps
import Verif.Spec.Diagnosis
import Verif.Proofs.UnclosedKey
import Verif.Proofs.Explained
import Verif.Props.DiagnosisProps
import Verif.Spec.Several
import Verif.Proofs.Several
import Verif.Props.SeveralProps
import Verif.Spec.Document
import Verif.Proofs.WrittenLines
import Verif.Proofs.WrittenRun
import Verif.Proofs.WrittenElements
import Verif.Proofs.WrittenSections
import Verif.Proofs.WrittenDocument
import Verif.Proofs.WrittenForms
import Verif.Props.DocumentProps
import Verif.Props.EndToEndProps
import Verif.Spec.Screen
import Verif.Spec.Complaint
import Verif.Proofs.Paint
import Verif.Proofs.TerminalRows
import Verif.Proofs.ErrorUniform
import Verif.Props.TerminalProps
import Verif.Spec.Merge
import Verif.Proofs.Merge
import Verif.Proofs.Links
import Verif.Proofs.ReadMerged
import Verif.Proofs.MergeList
import Verif.Props.MergeProps
import Verif.Messages
import Verif.MessageTexts
import Verif.Shown
import Verif.Proofs.Wording
import Verif.Props.MessageProps
import Verif.Spec.Programs
import Verif.Proofs.ComplaintAgree
import Verif.Proofs.WorldAgree
import Verif.Proofs.WorldAgreeCalls
import Verif.Proofs.ProgramAgree
import Verif.Proofs.SelectionPlaces
import Verif.Props.ProgramProps
import Verif.Register
import Verif.Spec.Registered
import Verif.Proofs.Registers
import Verif.Props.RegisterProps
import Verif.Spec.Represent
import Verif.Props.ReprProps
import Verif.Proofs.WorldFound
import Verif.Props.FoundProps
import Verif.Props.UnusedProps
import Verif.Props.BlankCommentProps
import Verif.Proofs.LookupPast
import Verif.Props.LookupPastProps
import Verif.Props.SpaceProps
import Verif.Props.WindowProps
import Verif.Spec.Sayings
import Verif.Spec.Gist
import Verif.Proofs.Alike
import Verif.Proofs.AlikeRun
import Verif.Proofs.SaysLemmas
import Verif.Proofs.AlikeResolve
import Verif.Proofs.AlikeLoad
import Verif.Proofs.GapLemmas
import Verif.Props.LayoutProps
import Verif.Props.CircleProps
import Verif.Proofs.ComplaintLayout
import Verif.Props.SpokenProps
import Verif.Spec.Hazard
import Verif.Proofs.HazardLemmas
import Verif.Proofs.HazardCalls
import Verif.Props.HazardProps
import Verif.PyTexts
import Verif.Spec.RawShape
import Verif.Proofs.RawShape
import Verif.Proofs.Samples
import Verif.Proofs.SampleHeaps
import Verif.Props.PyTextProps
import Verif.Spec.Tree
import Verif.Spec.Copied
import Verif.Proofs.Roles
import Verif.Proofs.TreeBuild
import Verif.Proofs.TreeUnique
import Verif.Proofs.SaidTrim
import Verif.Proofs.TreeSays
import Verif.Proofs.TreeAccepted
import Verif.Props.TreeProps
import Verif.Proofs.CopiedRun
import Verif.Proofs.CopiedMeans
import Verif.Proofs.CopiedParts
import Verif.Proofs.CopiedText
import Verif.Proofs.QuietTree
import Verif.Props.CopiedProps
import Verif.Proofs.AlikeRaw
import Verif.Spec.CopiedReads
import Verif.Proofs.CopiedReads
import Verif.Proofs.CopiedObjects
import Verif.Props.CopiedReadsProps
import Verif.Spec.AnyQuestion
import Verif.Proofs.AnySession
import Verif.Props.AnySessionProps
import Verif.Proofs.Shaky
import Verif.Props.ShakyProps
import Verif.Spec.Expanded
import Verif.Proofs.Expanded
import Verif.Props.ExpandedProps
import Verif.Spec.MessageFiles
import Verif.Spec.Wordings
import Verif.Props.WordingProps
import Verif.Proofs.RawOnly
import Verif.Props.RawOnlyProps
import Verif.Proofs.Hush
import Verif.Proofs.HushResolve
import Verif.Spec.Uncommented
import Verif.Spec.Aside
import Verif.Proofs.HushLoad
import Verif.Proofs.Interject
import Verif.Props.UncommentedProps
import Verif.Proofs.HushComplaint
import Verif.Props.AsideProps
import Verif.Proofs.AskedSane
import Verif.Spec.Misuse
import Verif.Props.RawProgramProps
import Verif.Props.RawDocumentProps
