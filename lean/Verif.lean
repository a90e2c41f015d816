import Verif.Time.DateProps
import Verif.Time.HolidaysProps
import Verif.Time.IncrementProps
import Verif.Time.ScheduleProps
import Verif.Time.DayBasisProps
import Verif.Time.DateTextProps
import Verif.Strings.StringProps
import Verif.Strings.DictionaryProps
import Verif.Storage.RepositoryProps
import Verif.Storage.GlobalsProps
import Verif.Storage.SplatProps
import Verif.Storage.FileModel
import Verif.Storage.FileProps
import Verif.Storage.JsonProps
import Verif.Script.IndexProps
import Verif.Script.CompileProps
import Verif.Script.CondProps
import Verif.Script.EventProps
import Verif.Script.DomainProps
import Verif.Script.ParserProps
import Verif.Concurrency.QueueProps
import Verif.Concurrency.PoolProps
import Verif.Concurrency.BatchProps
import Verif.Random.PseudoProps
import Verif.Random.SkipProps
import Verif.Time.HolidayTextProps
import Verif.Time.BuiltInProps
import Verif.Script.ScheduleProps
import Verif.Script.EvalStackProps
import Verif.Script.DebugProps
import Verif.Storage.ArchiveProps
import Verif.Storage.JsonDocModel
import Verif.Storage.JsonDocLemmas
import Verif.Storage.JsonDocProps
import Verif.Random.BridgeProps
import Verif.Aad.BlocksProps
import Verif.Aad.AdjointProps
import Verif.Aad.StackProps
import Verif.Matrix.TridiagProps
import Verif.Matrix.BandedProps
import Verif.Matrix.DecompProps
import Verif.Matrix.CholeskyProps
import Verif.Interp.LinearProps
import Verif.Interp.CubicProps
import Verif.Numeric.SmoothProps
import Verif.Numeric.BrentProps
import Verif.Numeric.NdProps
import Verif.Numeric.CgProps
import Verif.Risk.ReportProps
import Verif.Curve.CurveProps
import Verif.Protocol.UnderlyingProps
import Verif.Indice.PathProps
import Verif.Strings.EnumProps
import Verif.Protocol.RatesProps
import Verif.Numeric.OptionProps
import Verif.Matrix.ContainerProps
import Verif.Matrix.ArithProps
import Verif.Matrix.VolsProps
import Verif.Matrix.FormatProps
import Verif.Pde.FdProps
import Verif.Pde.MesherProps
import Verif.Pde.MapProps
import Verif.Indice.NameProps
import Verif.Sim.TimeLineProps
import Verif.Time.StepProps
import Verif.Numeric.UnderProps
import Verif.Storage.AuditProps
import Verif.Sim.DupireProps
import Verif.Sim.ResultProps
import Verif.Sim.CalibProps
import Verif.Excel.InputProps
import Verif.Excel.OutputProps
import Verif.Util.VectorProps
import Verif.Util.NoteProps
import Verif.Indice.RateProps
import Verif.Numeric.NcdfProps
import Verif.Storage.PastFixingModel
import Verif.Storage.PastFixingProps
import Verif.Excel.DriverModel
import Verif.Excel.DriverProps
import Verif.Strings.SettingsModel
import Verif.Strings.SettingsProps
import Verif.Excel.InterpolateModel
import Verif.Excel.InterpolateProps
import Verif.Random.ObjectModel
import Verif.Random.ObjectProps
import Verif.Sim.ValueModel
import Verif.Sim.ValueProps
import Verif.Numeric.MeanLemmas
import Verif.Numeric.MeanProps
import Verif.Sim.PriceLemmas
import Verif.Sim.PriceProps
import Verif.Numeric.ImpliedModel
import Verif.Numeric.ImpliedLemmas
import Verif.Numeric.ImpliedProps
import Verif.Script.GradientModel
import Verif.Script.GradientProps
import Verif.Sim.GreekLemmas
import Verif.Sim.GreekProps
import Verif.Script.SmoothModel
import Verif.Script.SmoothProps
import Verif.Sim.SmoothDigitalProps
import Verif.Sim.NoiseModel
import Verif.Sim.NoiseLemmas
import Verif.Sim.NoiseProps
import Verif.Sim.NoiseOptionProps
import Verif.Sim.BridgeLawProps
import Verif.Script.CompileHom
import Verif.Sim.TapeModel
import Verif.Sim.TapeLemmas
import Verif.Sim.TapePathLemmas
import Verif.Sim.TapeSimLemmas
import Verif.Sim.TapeProps
import Verif.Script.SmoothValue
import Verif.Sim.FuzzyTapeModel
import Verif.Sim.FuzzyTapeSpec
import Verif.Sim.FuzzyTapeLemmas
import Verif.Sim.FuzzyTapeSimLemmas
import Verif.Sim.FuzzyTapeProps
import Verif.Sim.ReportModel
import Verif.Sim.ReportLemmas
import Verif.Sim.ReportProps
import Verif.Pde.RollModel
import Verif.Pde.RollLemmas
import Verif.Pde.TaylorLemmas
import Verif.Pde.RollProps
import Verif.Pde.BlackLemmas
import Verif.Pde.ConvergeLemmas
import Verif.Pde.ConvergeProps
import Verif.Pde.CallProps
import Verif.Pde.PriceProps
import Verif.Matrix.AccumModel
import Verif.Matrix.AccumProps
import Verif.Aad.MultiModel
import Verif.Aad.MultiProps
import Verif.Sim.BarrierSpec
import Verif.Sim.BarrierText
import Verif.Sim.BarrierLemmas
import Verif.Sim.BarrierProps
import Verif.Sim.BarrierPriceProps
import Verif.Sim.SeasonedSpec
import Verif.Sim.SeasonedModel
import Verif.Sim.SeasonedLemmas
import Verif.Sim.SeasonedProps
import Verif.Sim.SeasonedBarrierProps
import Verif.Script.DcfModel
import Verif.Script.DcfLemmas
import Verif.Script.DcfSpec
import Verif.Script.DcfProps
import Verif.Script.DomainTotalSpec
import Verif.Script.DomainTotalLemmas
import Verif.Script.DomainTotalProps
import Verif.Sim.TameSpec
import Verif.Sim.TameLemmas
import Verif.Sim.TameProps
import Verif.Sim.SnowballSpec
import Verif.Sim.SnowballText
import Verif.Sim.SnowballLemmas
import Verif.Sim.SnowballProps
import Verif.Sim.SnowballReportProps
import Verif.Script.MacroModel
import Verif.Script.MacroProps
import Verif.Sim.TableLemmas
import Verif.Sim.SnowballTableProps
import Verif.Sim.BarrierTableProps
import Verif.Sim.TodayProps
import Verif.Sim.RefusedProps
import Verif.Sim.EuropeanProps
import Verif.Sim.CompiledTodayLemmas
import Verif.Sim.CompiledTodayProps
import Verif.Sim.CompiledRunModel
import Verif.Sim.CompiledRunLemmas
import Verif.Sim.CompiledRunProps
import Verif.Aad.RewindModel
import Verif.Aad.RewindLemmas
import Verif.Aad.RewindProps
import Verif.Matrix.PerfModel
import Verif.Matrix.PerfLemmas
import Verif.Matrix.PerfProps
