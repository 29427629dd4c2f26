import Verif.TopSort.Props
import Verif.Dfcxx.TypesProps
import Verif.Dfcxx.SimProps
import Verif.Dfcxx.ArithProps
import Verif.Dfcxx.SimIOProps
import Verif.Sched.RunExists
import Verif.Config.Props
import Verif.Sched.CombProps
import Verif.Hw.NamesProps
import Verif.Hw.StubsProps
import Verif.Hw.LowerProps
import Verif.Dfcxx.DfcirProps
import Verif.Std.GostProps
import Verif.Dfcxx.WorldExamples
import Verif.Dfcxx.HeapProps
import Verif.Dfcxx.Registry
import Verif.Dfcxx.CallProps
import Verif.Flow.SimHw
import Verif.Flow.Shape
import Verif.Flow.Verify
import Verif.Flow.Units
import Verif.Flow.Eval
import Verif.Kernels.Props
import Verif.Kernels.Chain
import Verif.Dot.Examples
import Verif.Driver.Props
import Verif.Sched.LpExists
import Verif.Text.Examples
import Verif.Flow.HwExamples
import Verif.Flat.Examples
import Verif.Flat.SimNever
import Verif.Cli.Examples
import Verif.Whole.Examples
import Verif.Whole.ProcessExamples
import Verif.Tpl.Dot
import Verif.Vcd.Examples
import Verif.Vcd.Instances
import Verif.Vlog.Examples
import Verif.Dfcxx.Fields
import Verif.Sched.RangeExamples
import Verif.Sdf.Examples
import Verif.Sched.Least
import Verif.Sdf.PortsExamples
import Verif.Kernels.Size
import Verif.Vlog.Bounded
import Verif.Vlog.Kernels
import Verif.Vlog.KernelsExamples
import Verif.Dfcxx.TypeFields
import Verif.Dot.ReadExamples
import Verif.Sched.LpExact
import Verif.Json.Examples
import Verif.Ieee.Spec
import Verif.Ieee.Round
import Verif.Ieee.Ops
import Verif.Ieee.Unique
import Verif.Ieee.Machine
import Verif.Ieee.Fold
import Verif.Ieee.Hardware
import Verif.Ieee.Strtod
import Verif.Ieee.Examples
