import Verif.Timing.Props
import Verif.Timing.Props2
import Verif.Q1.RegisterProps
import Verif.Q1.WaitProps
import Verif.Q1.SpacingProps
import Verif.Q1.ProgramProps
import Verif.Q1.FuelProps
import Verif.Q1.BinProps
import Verif.AcqBins.Props
import Verif.Numeric.Props
import Verif.Waves.Props
import Verif.Latency.Props
import Verif.RfSwitch.Props
import Verif.Stack.Props
import Verif.Crosstalk.Props
import Verif.Compensation.Props
import Verif.AcqIndices.Props
import Verif.Flatten.Props
import Verif.Build.Props
import Verif.MergeRz.Props
import Verif.Redundant.Props
import Verif.Conditional.Props
import Verif.Long.Props
import Verif.Overlap.Props
import Verif.Retrieve.Props2
import Verif.Gates.Props
import Verif.Circuit.Examples
import Verif.Json.Examples
import Verif.Experiments.Model
import Verif.Experiments.Spec
import Verif.Experiments.Lemmas
import Verif.Experiments.Labels
import Verif.Experiments.TimeDomain
import Verif.Experiments.Cpmg
import Verif.Experiments.Pulse
import Verif.Experiments.Pulse2
import Verif.Experiments.Examples
import Verif.Experiments.Measure
import Verif.Experiments.MeasureProps
import Verif.Experiments.MeasureProps2
import Verif.Experiments.MeasureExamples
import Verif.Shapes.Model
import Verif.Shapes.Props
import Verif.Shapes.Drag
import Verif.Shapes.Soft
import Verif.Shapes.NetZero
import Verif.Shapes.Interp
import Verif.Shapes.Sampling
import Verif.Shapes.Mixer
import Verif.Shapes.Examples
import Verif.Distortion.Model
import Verif.Distortion.Spec
import Verif.Distortion.Props
import Verif.Distortion.Samples
import Verif.Distortion.Examples
import Verif.Connect.Model
import Verif.Connect.Spec
import Verif.Connect.Paths
import Verif.Connect.Frame
import Verif.Connect.Direct
import Verif.Connect.Assign
import Verif.Connect.Modules
import Verif.Connect.Deliver
import Verif.Connect.Props
import Verif.Connect.Pipeline
import Verif.Connect.Accept
import Verif.Connect.Mixer
import Verif.Connect.Examples
import Verif.Settings.FreqInit
import Verif.Settings.FreqExamples
import Verif.Settings.Options
import Verif.Settings.OptionsSpec
import Verif.Settings.OptionsProps
import Verif.Settings.OptionsAtt
import Verif.Settings.OptionsFilters
import Verif.Settings.OptionsWrites
import Verif.Settings.OptionsExamples
import Verif.AcqSet.Model
import Verif.AcqSet.Spec
import Verif.AcqSet.Props
import Verif.AcqSet.Analog
import Verif.AcqSet.Qtm
import Verif.AcqSet.Examples
import Verif.Prepare.Model
import Verif.Prepare.Spec
import Verif.Prepare.Lemmas
import Verif.Prepare.Trace
import Verif.Prepare.Result
import Verif.Prepare.Props
import Verif.Prepare.Channels
import Verif.Prepare.More
import Verif.Prepare.Examples
import Verif.Lifecycle.Model
import Verif.Lifecycle.Spec
import Verif.Lifecycle.Lemmas
import Verif.Lifecycle.Steps
import Verif.Lifecycle.Merge
import Verif.Lifecycle.Props
import Verif.Lifecycle.Data
import Verif.Lifecycle.More
import Verif.Lifecycle.Examples
import Verif.Lifecycle.Zi
import Verif.Digital.Model
import Verif.Digital.Spec
import Verif.Digital.Lemmas
import Verif.Digital.Props
import Verif.Digital.Examples
import Verif.Spacing.Model
import Verif.Spacing.Spec
import Verif.Spacing.Props
import Verif.Spacing.Examples
import Verif.Zi.Time
import Verif.Zi.TimeSpec
import Verif.Zi.TimeLemmas
import Verif.Zi.TimeFix
import Verif.Zi.TimeProps
import Verif.Zi.Seqc
import Verif.Zi.SeqcSpec
import Verif.Zi.SeqcProps
import Verif.Zi.Device
import Verif.Zi.DeviceSpec
import Verif.Zi.DeviceProps
import Verif.Zi.Examples
import Verif.Zi.Acq
import Verif.Zi.AcqSpec
import Verif.Zi.AcqProps
import Verif.Zi.AcqWeights
import Verif.Zi.AcqExamples
import Verif.Table.Model
import Verif.Table.Spec
import Verif.Table.Props
import Verif.Table.Examples
import Verif.Diagram.Model
import Verif.Diagram.Spec
import Verif.Diagram.Curve
import Verif.Diagram.Props
import Verif.Diagram.Examples
import Verif.Sampled.Model
import Verif.Sampled.Spec
import Verif.Sampled.Props
import Verif.Sampled.Examples
import Verif.EndToEnd.Model
import Verif.EndToEnd.Spec
import Verif.EndToEnd.Lemmas
import Verif.EndToEnd.Run
import Verif.EndToEnd.Content
import Verif.EndToEnd.Props
import Verif.EndToEnd.Updates
import Verif.EndToEnd.Examples
import Verif.Strategies.Model
import Verif.Strategies.Spec
import Verif.Strategies.Lemmas
import Verif.Strategies.Props
import Verif.Strategies.Program
import Verif.Strategies.Played
import Verif.Strategies.Examples
import Verif.Asm.Model
import Verif.Asm.Spec
import Verif.Asm.Lemmas
import Verif.Asm.Props
import Verif.Asm.Limits
import Verif.Asm.Text
import Verif.Asm.Examples
import Verif.Compile.Model
import Verif.Compile.Spec
import Verif.Compile.Copy
import Verif.Compile.Run
import Verif.Compile.Props
import Verif.Compile.Examples
import Verif.Device.Model
import Verif.Device.Spec
import Verif.Device.Lemmas
import Verif.Device.Gen
import Verif.Device.Props
import Verif.Device.Props2
import Verif.Device.Props3
import Verif.Device.Props4
import Verif.Device.Props5
import Verif.Device.Saving
import Verif.Device.Examples
import Verif.Device.Examples2
import Verif.Device.Props6
import Verif.CircuitDiagram.Model
import Verif.CircuitDiagram.Spec
import Verif.CircuitDiagram.Lemmas
import Verif.CircuitDiagram.Lines
import Verif.CircuitDiagram.Draw
import Verif.CircuitDiagram.Props
import Verif.CircuitDiagram.Props2
import Verif.CircuitDiagram.Examples
import Verif.ZiPrepare.Model
import Verif.ZiPrepare.Spec
import Verif.ZiPrepare.Lemmas
import Verif.ZiPrepare.Effect
import Verif.ZiPrepare.Built
import Verif.ZiPrepare.Hd
import Verif.ZiPrepare.Uh
import Verif.ZiPrepare.UhNodes
import Verif.ZiPrepare.Props
import Verif.ZiPrepare.UhProps
import Verif.ZiPrepare.Examples
import Verif.ZiFreq.Model
import Verif.ZiFreq.Spec
import Verif.ZiFreq.Lemmas
import Verif.ZiFreq.Wiring
import Verif.ZiFreq.Props
import Verif.ZiFreq.Emission
import Verif.ZiFreq.Examples
import Verif.DcComp.Model
import Verif.DcComp.Spec
import Verif.DcComp.Props
import Verif.MockRom.Model
import Verif.MockRom.Spec
import Verif.MockRom.Props
import Verif.MockRom.Results
import Verif.MockRom.Claims
import Verif.MockRom.Trace
import Verif.MockRom.Examples
import Verif.Instruments.Model
import Verif.Instruments.Spec
import Verif.Instruments.Lemmas
import Verif.Instruments.Props
import Verif.Instruments.Claims
import Verif.Instruments.Examples
import Verif.Ops.Model
import Verif.Ops.Spec
import Verif.Ops.Lemmas
import Verif.Ops.Entry
import Verif.Ops.Holds
import Verif.Ops.Props
import Verif.Ops.Accepted
import Verif.Ops.Contents
import Verif.Ops.Text
import Verif.Ops.RoundTrip
import Verif.Ops.Exceptions
import Verif.Ops.Numeric
import Verif.Ops.Simple
import Verif.Ops.Examples
import Verif.ZiFiles.Model
import Verif.ZiFiles.Spec
import Verif.ZiFiles.Lemmas
import Verif.ZiFiles.Fold
import Verif.ZiFiles.Props
import Verif.ZiFiles.Compiled
import Verif.ZiFiles.Examples
import Verif.OldConfig.Model
import Verif.OldConfig.Spec
import Verif.OldConfig.Lemmas
import Verif.OldConfig.Fold
import Verif.OldConfig.Props
import Verif.OldConfig.Described
import Verif.OldConfig.Examples
import Verif.ZiOld.Model
import Verif.ZiOld.Spec
import Verif.ZiOld.Fold
import Verif.ZiOld.Props
import Verif.ZiOld.Examples
import Verif.SpinInit.Model
import Verif.SpinInit.Spec
import Verif.SpinInit.Props
import Verif.Warnings.Model
import Verif.Warnings.Props
