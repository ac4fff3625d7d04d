import Verif.Basic
import Verif.Sample
import Verif.Model.Peg
import Verif.Model.Grammar
import Verif.Model.Ast
import Verif.Model.Enquote
import Verif.Model.Splicer
import Verif.Model.Image
import Verif.Model.Records
import Verif.Model.Dockerfile
import Verif.Model.Stage
import Verif.Conformance
import Verif.ConformanceDocs
import Verif.Proof.Str
import Verif.Spec.Image
import Verif.Proof.Image
import Verif.Props.Image
import Verif.Spec.Splice
import Verif.Proof.Splicer
import Verif.Props.Splicer
import Verif.Spec.Stage
import Verif.Proof.Stage
import Verif.Props.Stage
import Verif.Spec.Subst
import Verif.Proof.Subst
import Verif.Props.Subst
import Verif.Spec.Instr
import Verif.Proof.Loop
import Verif.Props.Loop
import Verif.Proof.Peg
import Verif.Proof.Shape
import Verif.Spec.Layout
import Verif.Proof.Lex
import Verif.Proof.SemX
import Verif.Proof.Tokens
import Verif.Proof.Records
import Verif.Proof.Layout
import Verif.Spec.Document
import Verif.Proof.Document
import Verif.Spec.Fields
import Verif.Proof.Spans
import Verif.Props.Parse
import Verif.Spec.Shift
import Verif.Spec.Keyword
import Verif.Proof.Shift
import Verif.Proof.Lines
import Verif.Proof.Keyword
import Verif.Props.Shift
import Verif.Spec.Lines
import Verif.Proof.Local
import Verif.Props.Lines
import Verif.Spec.Print
import Verif.Proof.Gap
import Verif.Proof.Quote
import Verif.Proof.Print
import Verif.Proof.Print2
import Verif.Proof.Print3
import Verif.Proof.PrintDoc
import Verif.Spec.Plain
import Verif.Proof.Plain
import Verif.Props.Print
import Verif.Spec.Source
import Verif.Proof.SrcGap
import Verif.Proof.SrcShell
import Verif.Proof.SrcFrom
import Verif.Proof.SrcCopy
import Verif.Proof.SrcPairs
import Verif.Proof.SrcExec
import Verif.Proof.SrcDoc
import Verif.Props.Source
import Verif.Spec.Remap
import Verif.Spec.Relayout
import Verif.Proof.Relayout
import Verif.Props.Relayout
import Verif.Proof.Swap
import Verif.Proof.SwapItem
import Verif.Proof.Move
import Verif.Spec.Update
import Verif.Proof.Update
import Verif.Proof.Remap
import Verif.Props.Update
import Verif.Props.Exact
import Verif.Model.Cost
import Verif.Spec.Cost
import Verif.Proof.Cost
import Verif.Proof.CostBound
import Verif.Proof.CostGap
import Verif.Proof.CostLow
import Verif.Proof.CostNest
import Verif.Props.Cost
import Verif.Spec.Alike
import Verif.Proof.Alike
import Verif.Proof.AlikeItem
import Verif.Proof.AlikeEval
import Verif.Proof.AlikeSkel
import Verif.Proof.AlikeLeaf
import Verif.Props.Alike
import Verif.Spec.Quoted
import Verif.Spec.Like
import Verif.Proof.Exch
import Verif.Proof.ExchSpot
import Verif.Spec.Edit
import Verif.Proof.EditSeg
import Verif.Proof.EditItem
import Verif.Proof.EditFits
import Verif.Proof.EditDoc
import Verif.Proof.EditValue
import Verif.Proof.EditEval
import Verif.Props.Edit
import Verif.Model.PestText
import Verif.Model.Pest
import Verif.Model.PestRuns
import Verif.Proof.PestRuns
import Verif.Proof.PestInline
import Verif.Props.PestText
import Verif.Proof.Cut
import Verif.Proof.CutItem
import Verif.Proof.CutOpen
import Verif.Proof.CutDoc
import Verif.Props.Excerpt
import Verif.Spec.Join
import Verif.Proof.Join
import Verif.Proof.JoinDoc
import Verif.Props.Join
import Verif.Model.PestState
import Verif.Proof.PestState
import Verif.Props.PestState
import Verif.Proof.Growth
import Verif.Props.Growth
import Verif.Props.StageOrder
import Verif.Props.PestError
import Verif.Props.Builder
import Verif.Spec.SubstCost
import Verif.Model.SubstCost
import Verif.Props.SubstCost
import Verif.Model.Debug
import Verif.Proof.Debug
import Verif.Props.Debug
import Verif.Spec.FinalBreak
import Verif.Proof.FinalBreak
import Verif.Proof.FinalDoc
import Verif.Props.FinalBreak
import Verif.Model.Examples
import Verif.Proof.SpliceProgram
import Verif.Proof.StagesProgram
import Verif.Props.Examples
import Verif.Spec.LineEnds
import Verif.Proof.LineEnds
import Verif.Proof.LineEndsRead
import Verif.Proof.LineEndsTexts
import Verif.Proof.LineEndsDoc
import Verif.Props.LineEnds
import Verif.Spec.Split
import Verif.Proof.Split
import Verif.Props.Split
import Verif.Spec.Faults
import Verif.Proof.Faults
import Verif.Props.Faults
import Verif.Spec.Write
import Verif.Proof.Write
import Verif.Props.Write
import Verif.Spec.Resolve
import Verif.Props.Resolve
import Verif.Model.Accessors
import Verif.Props.Accessors
import Verif.Props.ImageEdit
import Verif.Spec.StageShape
import Verif.Props.StageShape
import Verif.Model.Regex
import Verif.Props.Regex
import Verif.Model.Machine
import Verif.Model.Machine32
import Verif.Props.Machine
import Verif.Spec.Malformed
import Verif.Proof.Malformed
import Verif.Props.Malformed
import Verif.Spec.Machine
import Verif.Props.MachineSubst
import Verif.Props.Machine32
import Verif.Props.MachineSubst32
import Verif.Spec.Size
import Verif.Props.Size
import Verif.Spec.StrLines
import Verif.Props.StrLines
import Verif.Proof.Breaks
import Verif.Props.Breaks
import Verif.Props.Unsupported
import Verif.Model.Work
import Verif.Props.Work
import Verif.Props.Word
import Verif.Spec.Escape
import Verif.Props.Escape
import Verif.Model.Format
import Verif.Spec.Format
import Verif.Proof.Format
import Verif.Props.Format
import Verif.Spec.Logical
import Verif.Proof.Logical
import Verif.Proof.LogicalItem
import Verif.Proof.LogicalDoc
import Verif.Props.Logical
import Verif.Spec.AnyEnds
import Verif.Proof.AnyEnds
import Verif.Proof.AnyEndsDoc
import Verif.Props.AnyEnds
import Verif.Spec.Forms
import Verif.Props.Forms
import Verif.Spec.Rename
import Verif.Props.Rename
import Verif.Spec.Prune
import Verif.Props.Prune
import Verif.Spec.Respell
import Verif.Props.Respell
import Verif.Spec.Pieces
import Verif.Props.Pieces
import Verif.Spec.Seam
import Verif.Proof.Seam
import Verif.Proof.SeamDoc
import Verif.Props.Seam
import Verif.Props.Alter
import Verif.Props.Place
import Verif.Props.PestNum
import Verif.Spec.Parts
import Verif.Props.Parts
import Verif.Spec.Default
import Verif.Props.Default
import Verif.Spec.Filter
import Verif.Props.Filter
import Verif.Spec.Rewrite
import Verif.Props.Rewrite
import Verif.Spec.Settled
import Verif.Props.Settled
import Verif.Spec.SettledParts
import Verif.Props.SettledParts
import Verif.Spec.Reorder
import Verif.Props.SettledStages
import Verif.Props.Reorder
import Verif.Props.InFront
import Verif.Spec.Probe
import Verif.Props.Probe
import Verif.Props.Reader
import Verif.Props.Messages
import Verif.Props.Probes
import Verif.Spec.Behind
import Verif.Props.Behind
import Verif.Props.BehindAll
import Verif.Props.Idle
import Verif.Props.Footer
