import Verif.Assert.Assume
import Verif.Assert.Csv
import Verif.Assert.Rel
import Verif.Assert.Ring
import Verif.Assert.Sparsity
import Verif.Assert.TypeErased
import Verif.Assert.Views
import Verif.Base
import Verif.Blas.Batch
import Verif.Blas.BatchBad
import Verif.Blas.BatchRef
import Verif.Blas.Cholesky
import Verif.Blas.Contract
import Verif.Blas.Empty
import Verif.Blas.EmptyExact
import Verif.Blas.Flops
import Verif.Blas.Info
import Verif.Blas.Model
import Verif.Blas.Overflow
import Verif.Blas.Props
import Verif.Blas.Ref
import Verif.Blas.Routines
import Verif.Blas.Spec
import Verif.Blas.Views
import Verif.CopyPtr.Model
import Verif.CopyPtr.Poly
import Verif.CopyPtr.Props
import Verif.CopyPtr.Refine
import Verif.CopyPtr.Rep
import Verif.CopyPtr.Steps
import Verif.Csv.ByExact
import Verif.Csv.Chunks
import Verif.Csv.Fallback
import Verif.Csv.Faults
import Verif.Csv.FaultsLemmas
import Verif.Csv.FaultsLists
import Verif.Csv.FaultsProps
import Verif.Csv.FaultsReturns
import Verif.Csv.FaultsVector
import Verif.Csv.IntFields
import Verif.Csv.Ints
import Verif.Csv.Lemmas
import Verif.Csv.Long
import Verif.Csv.Model
import Verif.Csv.Props
import Verif.Csv.Rows
import Verif.Csv.Spec
import Verif.Dl.Exact
import Verif.Dl.Model
import Verif.Dl.Props
import Verif.Dl.Threads
import Verif.Duration.Double
import Verif.Duration.Errors
import Verif.Duration.Exact
import Verif.Duration.Model
import Verif.Duration.Munch
import Verif.Duration.Props
import Verif.Duration.Scan
import Verif.Duration.Spec
import Verif.Duration.Stod
import Verif.Duration.StodProps
import Verif.Float.Copy
import Verif.Float.Elems
import Verif.Float.Fallback
import Verif.Float.Fields
import Verif.Float.FieldsProps
import Verif.Float.Fits
import Verif.Float.Gap
import Verif.Float.Limits
import Verif.Float.LimitsRange
import Verif.Float.Model
import Verif.Float.Near
import Verif.Float.Parse
import Verif.Float.Precision
import Verif.Float.Quad
import Verif.Float.QuadOut
import Verif.Float.QuadStream
import Verif.Float.RoundTrip
import Verif.Float.Snprintf
import Verif.Float.Strtod
import Verif.Float.Widen
import Verif.Ints
import Verif.Lifetimes
import Verif.Loops
import Verif.MatView.Alias
import Verif.MatView.AsColumn
import Verif.MatView.Checked
import Verif.MatView.Checked2
import Verif.MatView.Checked3
import Verif.MatView.CheckedExact
import Verif.MatView.Eigen
import Verif.MatView.EigenExact
import Verif.MatView.Lemmas
import Verif.MatView.Lemmas2
import Verif.MatView.Model
import Verif.MatView.Overlap
import Verif.MatView.Props
import Verif.MatView.Sharp
import Verif.MatView.Spec
import Verif.MatView.Threads
import Verif.MaxHistory.Histories
import Verif.MaxHistory.Model
import Verif.MaxHistory.Nan
import Verif.MaxHistory.Props
import Verif.Misc.AnyPtr
import Verif.Misc.BadType
import Verif.Misc.EnumAssign
import Verif.Misc.FromChars
import Verif.Misc.FromCharsExact
import Verif.Misc.Lifetime
import Verif.Misc.Macros
import Verif.Misc.NoopDelete
import Verif.Misc.Postfix
import Verif.Misc.Ranges
import Verif.Misc.StopSignal
import Verif.Misc.Timed
import Verif.Misc.TimedCall
import Verif.Misc.TimedFloat
import Verif.Misc.TimedNarrow
import Verif.Misc.TimedPrint
import Verif.Par.OpenMP
import Verif.Print.Callback
import Verif.Print.Copy
import Verif.Print.Elems
import Verif.Print.Exact
import Verif.Print.Layout
import Verif.Print.Matlab
import Verif.Print.MatlabComplex
import Verif.Print.Model
import Verif.Print.Python
import Verif.Print.RoundTrip
import Verif.Print.RoundTripBy
import Verif.Print.Spec
import Verif.Print.Stream
import Verif.Print.StreamFormat
import Verif.Print.StreamItems
import Verif.Print.StreamProps
import Verif.Print.Views
import Verif.Ring.Machine
import Verif.Ring.Model
import Verif.Ring.Props
import Verif.SetInter.Compose
import Verif.SetInter.Enumerate
import Verif.SetInter.Lazy
import Verif.SetInter.Model
import Verif.SetInter.Props
import Verif.Sparsity.CscLemmas
import Verif.Sparsity.EigenExact
import Verif.Sparsity.EigenSparse
import Verif.Sparsity.FromDense
import Verif.Sparsity.Lemmas
import Verif.Sparsity.LinalgView
import Verif.Sparsity.Memory
import Verif.Sparsity.MemoryInto
import Verif.Sparsity.MemoryProps
import Verif.Sparsity.Model
import Verif.Sparsity.Narrow
import Verif.Sparsity.Ops
import Verif.Sparsity.Ownership
import Verif.Sparsity.OwnershipExact
import Verif.Sparsity.OwnershipLife
import Verif.Sparsity.PropsChain
import Verif.Sparsity.PropsCoo
import Verif.Sparsity.PropsCsc
import Verif.Sparsity.PropsCscCsc
import Verif.Sparsity.PropsDense
import Verif.Sparsity.PropsFromDense
import Verif.Sparsity.PropsVariant
import Verif.Sparsity.Requests
import Verif.Sparsity.Sizes
import Verif.Sparsity.Spec
import Verif.Sparsity.ToDense
import Verif.Sparsity.Unique
import Verif.Sparsity.Variant
import Verif.Std.Sort
import Verif.StrUtil.Model
import Verif.StrUtil.Props
import Verif.StrUtil.SinglePass
import Verif.Streambuf.Model
import Verif.Streambuf.Overrun
import Verif.Streambuf.Props
import Verif.Streambuf.Redirect
import Verif.Streambuf.RedirectExact
import Verif.Streambuf.RedirectLife
import Verif.Streambuf.RedirectLifo
import Verif.Streambuf.Throw
import Verif.Streambuf.ThrowExact
import Verif.Streambuf.Utf8
import Verif.Tactics
import Verif.TagInvoke.Model
import Verif.TagInvoke.Props
import Verif.Trace.AnyReset
import Verif.Trace.Inv
import Verif.Trace.Itt
import Verif.Trace.IttExact
import Verif.Trace.IttLife
import Verif.Trace.Line
import Verif.Trace.Model
import Verif.Trace.Output
import Verif.Trace.Props
import Verif.Trace.Step
import Verif.Trace.WaitFree
import Verif.TypeErased.Align
import Verif.TypeErased.Args
import Verif.TypeErased.ArgsProps
import Verif.TypeErased.Cells
import Verif.TypeErased.Empty
import Verif.TypeErased.LastType
import Verif.TypeErased.Model
import Verif.TypeErased.Nested
import Verif.TypeErased.Ops
import Verif.TypeErased.Ops2
import Verif.TypeErased.Optional
import Verif.TypeErased.Props
import Verif.TypeErased.Queries
import Verif.TypeErased.Refine
import Verif.TypeErased.Refine2
import Verif.TypeErased.Small
import Verif.TypeErased.Spec
import Verif.Weak.Model
import Verif.Weak.Stop
import Verif.Weak.Trace
import Verif.Weak.TraceExamples
import Verif.Weak.TraceLemmas
import Verif.Weak.TraceProps
import Verif.Witness.Blas
import Verif.Witness.Csv
import Verif.Witness.Duration
import Verif.Witness.MatView
import Verif.Witness.Sparsity
import Verif.Witness.Streambuf
import Verif.Witness.Weak
