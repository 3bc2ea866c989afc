import Verif.Basic.Res
import Verif.Sched.Model
import Verif.Sched.Spec
import Verif.Sched.Lemmas
import Verif.Sched.Props
import Verif.Queue.Model
import Verif.Queue.Lemmas
import Verif.Queue.Inv
import Verif.Queue.Measure
import Verif.Queue.Props
import Verif.Basic.Copy
import Verif.Dense.Spec
import Verif.Dense.Model
import Verif.Dense.Windows
import Verif.Dense.Lemmas
import Verif.Dense.Append
import Verif.Dense.Kernels
import Verif.Dense.KernelProps
import Verif.Dense.Ew
import Verif.Vect.Example
import Verif.Vect.Fused
import Verif.Fuse.Limits
import Verif.Csr.EwProps
import Verif.Front.SymTab
import Verif.Obj.List
import Verif.Col.Group
import Verif.Ser.Main
import Verif.Io.Coo
import Verif.Front.SsaValid
import Verif.Ref.Props
import Verif.Rel.OrderProps
import Verif.Rel.Frame
import Verif.Rel.GroupThms
import Verif.Rel.OrderThms
import Verif.Rel.FrameThms
import Verif.Rel.Joins
import Verif.Rel.JoinProps
import Verif.Rel.JoinThms
import Verif.Rel.ThetaThms
import Verif.Rel.SemiThms
import Verif.Rel.JoinExamples
import Verif.Agg.Limits
import Verif.Shape.Reshape
import Verif.Shape.Tri
import Verif.Shape.Cells
import Verif.Shape.Cast
import Verif.Shape.CTable
import Verif.Shape.Encode
import Verif.Shape.Quant
import Verif.Ir.Fold
import Verif.Ir.Pipe
import Verif.Ir.Canon
import Verif.Ir.FrameRw
import Verif.Infer.Types
import Verif.Infer.Pass
import Verif.Infer.Loop
import Verif.Infer.Shape
import Verif.Mm.Spec
import Verif.Mm.CsrDense
import Verif.Mm.DenseCsr
import Verif.Mm.CsrCsr
import Verif.Mm.Blas
import Verif.Mm.Phy
import Verif.Mm.Examples
import Verif.Rel.FrameBytes
import Verif.Rel.FrameBytesThms
import Verif.Columnar.Model
import Verif.Columnar.Thms
import Verif.Columnar.Frames
import Verif.Columnar.Group
import Verif.Columnar.Examples
import Verif.Rand.Model
import Verif.Rand.Sample
import Verif.Rand.Dense
import Verif.Rand.Csr
import Verif.Rand.Examples
import Verif.Dist.Model
import Verif.Dist.Spec
import Verif.Dist.Place
import Verif.Dist.Compute
import Verif.Dist.Run
import Verif.Dist.Execute
import Verif.Dist.Core
import Verif.Dist.Props
import Verif.Dist.Example
import Verif.Nn.Acc
import Verif.Nn.BackModel
import Verif.Nn.Bias
import Verif.Nn.Conv
import Verif.Nn.DataBack
import Verif.Nn.FilterBack
import Verif.Nn.GradProps
import Verif.Nn.Lemmas
import Verif.Nn.Model
import Verif.Nn.Norm
import Verif.Nn.NormBack
import Verif.Nn.NormModel
import Verif.Nn.Pool
import Verif.Nn.PoolBack
import Verif.Nn.PoolProps
import Verif.Nn.PoolQuick
import Verif.Nn.Scatter
import Verif.Nn.Softmax
import Verif.Nn.Spec
import Verif.Basic.Post
import Verif.Labels.Model
import Verif.Labels.Kernels
import Verif.Labels.Thms
import Verif.Check.Model
import Verif.Check.Sym
import Verif.Check.Special
import Verif.Sql.Spec
import Verif.Sql.Model
import Verif.Sql.Names
import Verif.Sql.From
import Verif.Sql.Plain
import Verif.Sql.Distinct
import Verif.Sql.Grouped
import Verif.Sql.Fetch
import Verif.Sql.GroupRun
import Verif.Sql.Whole
import Verif.Sql.Thms
import Verif.Sql.Escape
import Verif.Call.Model
import Verif.Call.Thms
import Verif.Special.Model
import Verif.Special.Lemmas
import Verif.Special.Inv
import Verif.Special.Walk
import Verif.Special.Thms
import Verif.Early.Spec
import Verif.Hor.Model
import Verif.Hor.Exec
import Verif.Hor.Body
import Verif.Hor.Order
import Verif.Hor.Pairs
import Verif.Hor.Step
import Verif.Hor.Inv
import Verif.Hor.Keep
import Verif.Hor.Main
import Verif.Hor.Limits
import Verif.Mtx.Model
import Verif.Mtx.Header
import Verif.Mtx.Entries
import Verif.Mtx.Files
import Verif.Mtx.Props
import Verif.Mtx.Faults
import Verif.FileMeta.Files
import Verif.FrameBin.Props
import Verif.Approx.Model
import Verif.Approx.Props
import Verif.Tens.Model
import Verif.Tens.Props
import Verif.Str16.Model
import Verif.Str16.Props
import Verif.Sp.Model
import Verif.Sp.Props
import Verif.TyText.Model
import Verif.TyText.Lemmas
import Verif.TyText.Props
import Verif.Disp.Model
import Verif.Disp.Find
import Verif.Disp.Call
import Verif.Disp.Names
import Verif.Disp.Adapt
import Verif.DataProp.Model
import Verif.DataProp.Record
import Verif.DataProp.Pass
import Verif.DataProp.Dead
import Verif.Conf.Model
import Verif.Conf.File
import Verif.Conf.Cli
import Verif.Conf.Text
import Verif.Lower.Model
import Verif.Lower.Call
import Verif.Lower.Pipeline
import Verif.Views.Spec
import Verif.Views.Model
import Verif.Views.Thms
import Verif.StrRef.Thms
import Verif.DistPipe.Thms
import Verif.Interop.Model
import Verif.Interop.Numpy
import Verif.Interop.Map
import Verif.Chunk.Model
import Verif.Chunk.Props
import Verif.Chunk.Reverse
import Verif.Chunk.Chunks
import Verif.Chunk.Equal
import Verif.Chunk.Findings
import Verif.Chunk.Padding
import Verif.Chunk.Rechunk
import Verif.Chunk.Dice
import Verif.Chunk.DiceChunks
import Verif.Chunk.Compare
