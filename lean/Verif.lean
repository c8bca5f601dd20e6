import Verif.Common
import Verif.Base.VectorProps
import Verif.Base.RingProps
import Verif.Base.MapProps
import Verif.Base.StrProps
import Verif.Base.StrEditProps
import Verif.Base.StrEscapeProps
import Verif.Base.IntegerProps
import Verif.Base.TimeProps
import Verif.Vm.OperationProps
import Verif.Vm.CompareProps
import Verif.Vm.StoreProps
import Verif.Vm.ContainerProps
import Verif.Vm.ShareProps
import Verif.Vm.CallProps
import Verif.Vm.DepthProps
import Verif.Compiler.PrecedenceProps
import Verif.Compiler.FoldProps
import Verif.Compiler.ExprProps
import Verif.Compiler.StmtProps
import Verif.Compiler.StackNeedProps
import Verif.Compiler.LexerProps
import Verif.Core.TypesProps
import Verif.Vm.NativeProps
import Verif.Vm.IterProps
import Verif.Core.ScopeProps
import Verif.Core.GlobalsProps
import Verif.Core.ImportSyntax
import Verif.Core.ImportSpec
import Verif.Core.Import
import Verif.Core.ImportLemmas
import Verif.Core.ImportProps
import Verif.Core.CheckpointProps
import Verif.Base.FloatTextProps
import Verif.Base.FloatParseProps
import Verif.Module.JsonProps
import Verif.Compiler.AccessProps
import Verif.Vm.MetaProps
import Verif.Compiler.ParseProps
import Verif.Vm.NewProps
import Verif.Vm.SlotsSyntax
import Verif.Vm.Slots
import Verif.Vm.SlotsSpec
import Verif.Vm.SlotsLemmas
import Verif.Vm.SlotsDrain
import Verif.Vm.SlotsRel
import Verif.Vm.SlotsOps
import Verif.Vm.SlotsStore
import Verif.Vm.SlotsStep
import Verif.Vm.SlotsCopy
import Verif.Vm.SlotsLit
import Verif.Vm.SlotsClear
import Verif.Vm.SlotsLeak
import Verif.Vm.SlotsProps
import Verif.Vm.HostSyntax
import Verif.Vm.HostSpec
import Verif.Vm.Host
import Verif.Vm.HostLemmas
import Verif.Vm.HostProps
import Verif.Module.EvalSyntax
import Verif.Module.EvalSpec
import Verif.Module.Eval
import Verif.Module.EvalLemmas
import Verif.Module.EvalProps
import Verif.Vm.Format
import Verif.Vm.FormatSpec
import Verif.Vm.FormatLemmas
import Verif.Vm.FormatProps
import Verif.Vm.Bridge
import Verif.Vm.BridgeSpec
import Verif.Vm.BridgeLemmas
import Verif.Vm.BridgeArray
import Verif.Vm.BridgeProps
import Verif.Vm.StrVal
import Verif.Vm.StrValSpec
import Verif.Vm.StrValLemmas
import Verif.Vm.StrValProps
import Verif.Vm.Weak
import Verif.Vm.WeakSpec
import Verif.Vm.WeakLemmas
import Verif.Vm.WeakProps
import Verif.Vm.Abort
import Verif.Vm.AbortSpec
import Verif.Vm.AbortLemmas
import Verif.Vm.AbortProps
import Verif.Base.Dates
import Verif.Base.DatesSpec
import Verif.Base.DatesLemmas
import Verif.Base.DatesProps
import Verif.Module.Shell
import Verif.Module.ShellSpec
import Verif.Module.ShellLemmas
import Verif.Module.ShellProps
import Verif.Base.DateText
import Verif.Base.DateTextSpec
import Verif.Base.DateTextLemmas
import Verif.Base.DateTextProps
import Verif.Vm.FramesSyntax
import Verif.Vm.Frames
import Verif.Vm.FramesSpec
import Verif.Vm.FramesLemmas
import Verif.Vm.FramesProps
import Verif.Core.RedefSyntax
import Verif.Core.Redef
import Verif.Core.RedefSpec
import Verif.Core.RedefLemmas
import Verif.Core.RedefProps
import Verif.Vm.ErrorsSyntax
import Verif.Vm.Errors
import Verif.Vm.ErrorsSpec
import Verif.Vm.ErrorsLemmas
import Verif.Vm.ErrorsProps
import Verif.Vm.BridgeMap
import Verif.Vm.BridgeMapSpec
import Verif.Vm.BridgeMapLemmas
import Verif.Vm.BridgeMapProps
import Verif.Vm.BindPath
import Verif.Vm.BindPathSpec
import Verif.Vm.BindPathLemmas
import Verif.Vm.BindPathProps
import Verif.Compiler.Consts
import Verif.Compiler.ConstsSpec
import Verif.Compiler.ConstsLemmas
import Verif.Compiler.ConstsProps
import Verif.Vm.Numbers
import Verif.Vm.NumbersSpec
import Verif.Vm.NumbersLemmas
import Verif.Vm.NumbersProps
import Verif.Core.TypesAccept
import Verif.Compiler.LexPrefix
import Verif.Module.JsonComments
import Verif.Vm.OperationMixed
import Verif.Module.MathFns
import Verif.Module.MathFnsSpec
import Verif.Module.MathFnsLemmas
import Verif.Module.MathFnsProps
import Verif.Core.PathOs
import Verif.Core.Path
import Verif.Core.PathSpec
import Verif.Core.PathLemmas
import Verif.Core.PathRun
import Verif.Core.PathProps
import Verif.Module.Report
import Verif.Module.ReportProps
import Verif.Vm.FloatOrder
import Verif.Module.Clock
import Verif.Module.ClockSpec
import Verif.Module.ClockLemmas
import Verif.Module.ClockProps
import Verif.Vm.NumOrderSpec
import Verif.Vm.NumOrderLemmas
import Verif.Vm.NumOrderProps
import Verif.Module.MathRootSpec
import Verif.Module.MathRootLemmas
import Verif.Module.MathRootProps
import Verif.Vm.NumMulSpec
import Verif.Vm.NumMulLemmas
import Verif.Vm.NumMulProps
import Verif.Vm.NumSubSpec
import Verif.Vm.NumSubLemmas
import Verif.Vm.NumSubProps
