import Verif.Props.Encoding
import Verif.Props.Usages
import Verif.Model.Formatter
import Verif.Proofs.Stream
import Verif.Props.Streams
import Verif.Proofs.Text
import Verif.Proofs.Numeral
import Verif.Props.Formats
import Verif.Model.Optimizer
import Verif.Spec.Hid
import Verif.Proofs.Hid
import Verif.Props.Passes
import Verif.Proofs.RangeMerge
import Verif.Props.Passes2
import Verif.Props.Passes3
import Verif.Props.Passes4
import Verif.Proofs.MainMerge
import Verif.Proofs.MainMerge2
import Verif.Proofs.Transport
import Verif.Proofs.Made
import Verif.Proofs.Views
import Verif.Proofs.Bits
import Verif.Props.Passes5
import Verif.Model.Streamer
import Verif.Spec.Descriptor
import Verif.Proofs.Streamer
import Verif.Proofs.Compile
import Verif.Proofs.Compile2
import Verif.Proofs.Exact
import Verif.Proofs.TreeKeys
import Verif.Proofs.OptTree
import Verif.Proofs.OptTree2
import Verif.Spec.Extract
import Verif.Proofs.Extract
import Verif.Proofs.Extract2
import Verif.Proofs.Extract3
import Verif.Proofs.Extract4
import Verif.Model.Compiler
import Verif.Model.Extractor
import Verif.Props.Compile
import Verif.Props.Compile2
import Verif.Props.Compile3
import Verif.Props.Extract
import Verif.Props.Extract2
import Verif.Spec.Script
import Verif.Model.Dumper
import Verif.Proofs.Script
import Verif.Proofs.Dumper
import Verif.Proofs.Dumper2
import Verif.Model.UsageTable
import Verif.Proofs.UsageTable
import Verif.Props.Table
import Verif.Proofs.Dumper3
import Verif.Proofs.Alike
import Verif.Model.Decompiler
import Verif.Model.Command
import Verif.Proofs.Read
import Verif.Props.Dumper
import Verif.Spec.Names
import Verif.Props.Naming
import Verif.Check.RepoTests
import Verif.Check.Docs
import Verif.Props.Redundancy
import Verif.Proofs.Size
import Verif.Props.Size
import Verif.Spec.Legal
import Verif.Proofs.Legal
import Verif.Proofs.Legal2
import Verif.Props.Success
import Verif.Model.Constant
import Verif.Props.Constants
import Verif.Proofs.OneLine
import Verif.Props.Expected
import Verif.Spec.Nesting
import Verif.Proofs.Nesting
import Verif.Proofs.Leaves
import Verif.Proofs.Wrap
import Verif.Props.Nesting
import Verif.Proofs.Command
import Verif.Props.Commands
import Verif.Proofs.Fits
import Verif.Props.Fits
import Verif.Proofs.Sig
import Verif.Props.Registry
import Verif.Spec.Fits
import Verif.Props.Written
import Verif.Props.Pipeline
import Verif.Model.DumperTrace
import Verif.Props.Decompile
import Verif.Props.Idempotent
import Verif.Props.Messages
import Verif.Props.Grouping
import Verif.Props.Numbers
import Verif.Props.Merging
import Verif.Props.Bounds
import Verif.Props.Desigs
import Verif.Props.OptExact
import Verif.Check.Examples
import Verif.Props.Layout
import Verif.Props.PushPop
import Verif.Props.Ranges
import Verif.Props.Pages
import Verif.Spec.Named
import Verif.Proofs.Tag
import Verif.Proofs.Named
import Verif.Proofs.Named2
import Verif.Proofs.Named3
import Verif.Props.Named
import Verif.Proofs.MergeRecs
import Verif.Proofs.OptExtract
import Verif.Proofs.OptExtract2
import Verif.Proofs.OptExtract3
import Verif.Props.Extract3
import Verif.Spec.Alike
import Verif.Proofs.OnePage
import Verif.Proofs.OnePage2
import Verif.Proofs.Neighbours
import Verif.Proofs.Neighbours2
import Verif.Props.Rebuild
import Verif.Spec.Settle
import Verif.Proofs.Settle
import Verif.Proofs.Settle2
import Verif.Proofs.Settle3
import Verif.Proofs.Settle4
import Verif.Proofs.Settle5
import Verif.Proofs.Settle6
import Verif.Props.Settle
import Verif.Props.Stored
import Verif.Props.Sources
import Verif.Spec.Composite
import Verif.Props.Composite
import Verif.Proofs.Dumper4
import Verif.Props.Scripts
import Verif.Spec.Rebuild
import Verif.Proofs.Rebuild
import Verif.Props.Reading
import Verif.Proofs.Recompile
import Verif.Props.Recompile
import Verif.Spec.Code
import Verif.Props.CodeText
import Verif.Props.Documents
import Verif.Spec.Pageless
import Verif.Proofs.Pageless
import Verif.Props.Pageless
import Verif.Props.Usual
import Verif.Spec.Hut
import Verif.Props.Hut
import Verif.Spec.Units
import Verif.Props.Units
import Verif.Props.SizesExact
import Verif.Props.Stacked
import Verif.Spec.Apart
import Verif.Props.Apart
import Verif.Props.Exactly
import Verif.Props.AlignExact
import Verif.Spec.Data
import Verif.Props.Data
import Verif.Spec.Frame
import Verif.Props.Frame
import Verif.Props.Frame2
import Verif.Spec.Slot
import Verif.Props.Counted
import Verif.Props.Slot
import Verif.Props.Slot2
import Verif.Props.Placed
import Verif.Spec.CLang
import Verif.Props.CLang
import Verif.Spec.Joined
import Verif.Props.Joined
import Verif.Spec.Edited
import Verif.Props.Edited
import Verif.Props.Edited2
import Verif.Props.Composite2
import Verif.Spec.Authored
import Verif.Proofs.Authored
import Verif.Props.Authored
import Verif.Spec.Seam
import Verif.Proofs.Seam
import Verif.Props.Seam
import Verif.Props.Redundancy2
import Verif.Props.Rewritten
import Verif.Props.Bound
import Verif.Props.Later
import Verif.Proofs.Again
import Verif.Proofs.Again2
import Verif.Proofs.Again3
import Verif.Proofs.Again4
import Verif.Proofs.Again5
import Verif.Proofs.Again6
import Verif.Proofs.Again7
import Verif.Props.Again
import Verif.Spec.Grow
import Verif.Props.Grow
import Verif.Spec.Bulk
import Verif.Props.Bulk
import Verif.Props.Seams
