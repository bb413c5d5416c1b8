import Verif.Props.Imports
import Verif.Props.Types
import Verif.Proof.QuoteLemmas
import Verif.Props.Render
import Verif.Props.Names
import Verif.Props.Conversions
import Verif.Props.Output
import Verif.Props.Code
import Verif.Props.Decls
import Verif.Props.TypeDecls
import Verif.Props.Whole
import Verif.Props.Specs
import Verif.Props.Templates
import Verif.Props.Determinism
import Verif.Props.Sharing
import Verif.Props.Memory
import Verif.Proof.BuilderBlocks
import Verif.Proof.DataFresh
import Verif.Proof.DataKeys
import Verif.Props.DataMemory
import Verif.Props.SigMemory
import Verif.Props.Builders
import Verif.Props.FileSyntax
import Verif.Props.FileMeaning
import Verif.Props.Cycles
import Verif.Props.Fmt
import Verif.Props.Disk
import Verif.Props.Purego
import Verif.Props.ListMemory
import Verif.Props.Copyable
import Verif.Props.Directory
import Verif.Check.EndToEnd
import Verif.Check.Unit
import Verif.Spec.DeclStands
import Verif.Proof.DeclExact
import Verif.Props.DeclExact
import Verif.Model.TemplateText
import Verif.Spec.TemplateText
import Verif.Proof.TemplateText
import Verif.Props.TemplateText
import Verif.Spec.Visited
import Verif.Proof.VisitedLemmas
import Verif.Props.UnusedImports
import Verif.Props.UsedImports
import Verif.Spec.ImportNames
import Verif.Props.ImportNames
import Verif.Props.ImportOrder
import Verif.Props.RefMeaning
import Verif.Props.RefMeaningFile
import Verif.Props.FileNames
import Verif.Proof.TemplateFile
import Verif.Props.TemplateFile
import Verif.Spec.TypeText
import Verif.Proof.TypeText
import Verif.Props.TypeText
import Verif.Spec.Independent
import Verif.Proof.Independent
import Verif.Proof.IndependentText
import Verif.Props.Independent
import Verif.Spec.Writable
import Verif.Proof.DataFit
import Verif.Proof.Fuel
import Verif.Proof.Writable
import Verif.Proof.WritableText
import Verif.Props.Writable
import Verif.Spec.Package
import Verif.Props.Package
import Verif.Spec.Renamed
import Verif.Props.Renamed
import Verif.Spec.Growing
import Verif.Props.Growing
import Verif.Spec.Locals
import Verif.Props.Locals
import Verif.Proof.Synced
import Verif.Spec.Rearranged
import Verif.Props.Rearranged
import Verif.Spec.Legible
import Verif.Proof.LegibleText
import Verif.Proof.LegibleQualify
import Verif.Proof.LegibleFile
import Verif.Props.SourceText
import Verif.Spec.Directives
import Verif.Props.Directives
import Verif.Spec.Docs
import Verif.Props.Docs
import Verif.Model.ImportText
import Verif.Spec.TemplateWhole
import Verif.Proof.TemplateWhole
import Verif.Props.TemplateWhole
import Verif.Spec.Program
import Verif.Proof.ProgramMentions
import Verif.Proof.ProgramSays
import Verif.Proof.ProgramFuncs
import Verif.Proof.ProgramGiven
import Verif.Proof.ProgramCode
import Verif.Proof.DataPaths
import Verif.Proof.ExecHeap
import Verif.Props.Program
import Verif.Props.ProgramWritten
import Verif.Props.ProgramExample
import Verif.Props.ProgramTemplate
import Verif.Props.ProgramApart
import Verif.Props.ProgramDisk
import Verif.Props.ProgramNested
import Verif.Props.ProgramDocs
import Verif.Props.ProgramMembers
import Verif.Proof.OneLine
import Verif.Props.MemberDocs
import Verif.Props.ProgramMemberDocs
import Verif.Props.Tags
import Verif.Props.DeterminismNames
import Verif.Props.OrderOfPackages
import Verif.Props.NaNKeys
import Verif.Props.ReceiverMemory
