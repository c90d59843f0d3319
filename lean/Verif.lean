import Verif.Spec
import Verif.Slicing.Model
import Verif.Slicing.Lemmas
import Verif.Slicing.Props
import Verif.Layout
import Verif.Dtype
import Verif.Partition.Model
import Verif.Partition.Lemmas
import Verif.Partition.Props
import Verif.Decomp.Model
import Verif.Decomp.Props
import Verif.Buffer.Model
import Verif.Buffer.Props
import Verif.Exchange.Machine
import Verif.Exchange.Lemmas
import Verif.Exchange.Props
import Verif.Repartition.Model
import Verif.Repartition.Lemmas
import Verif.Repartition.Setup
import Verif.Repartition.Props
import Verif.Group.Model
import Verif.Group.Lemmas
import Verif.Group.Colors
import Verif.Collective.Machine
import Verif.Group.Props
import Verif.Group.Exact
import Verif.Collective.Model
import Verif.Collective.Lemmas
import Verif.Collective.Struct
import Verif.Collective.Safe
import Verif.Collective.Data
import Verif.Collective.Props
import Verif.AllReduce.Model
import Verif.AllReduce.Props
import Verif.AllReduce.Exact
import Verif.Module.Model
import Verif.Module.Props
import Verif.Module.Mixed
import Verif.Halo.Model
import Verif.Halo.Lemmas
import Verif.Halo.Data
import Verif.Halo.Adjoint
import Verif.Halo.Arith
import Verif.Halo.Setup
import Verif.Halo.Props
import Verif.Halo.Wide
import Verif.Halo.Limits
import Verif.Halo.Near
import Verif.Window.Model
import Verif.Window.Lemmas
import Verif.Window.Core
import Verif.Window.Reads
import Verif.Window.Props
import Verif.Window.Limits
import Verif.Window.Exact
import Verif.Window.Near
import Verif.Linear.Model
import Verif.Linear.Stack
import Verif.Linear.Props
import Verif.Linear.Refuse
import Verif.Conv.Model
import Verif.Conv.Shapes
import Verif.Conv.Core
import Verif.Conv.Channel
import Verif.Conv.Roots
import Verif.Conv.General
import Verif.Conv.Props
import Verif.Conv.Examples
import Verif.Conv.Grouped
import Verif.Conv.GroupedGeneral
import Verif.Loss.Model
import Verif.Loss.Props
import Verif.Loss.ZeroVolume
import Verif.BatchNorm.Model
import Verif.BatchNorm.Lemmas
import Verif.BatchNorm.Stats
import Verif.BatchNorm.Forward
import Verif.BatchNorm.Props
import Verif.BatchNorm.Exact
import Verif.Interp.Model
import Verif.Interp.Kernel
import Verif.Interp.Adjoint
import Verif.Interp.Dim
import Verif.Interp.Local
import Verif.Interp.Layer
import Verif.Interp.Props
import Verif.Interp.Fits
import Verif.Interp.Limits
import Verif.Interp.Near
import Verif.Grad.Near
import Verif.Interp.Threads
import Verif.Interp.ThreadLemmas
import Verif.Interp.ThreadProps
import Verif.Grad.Model
import Verif.Grad.Core
import Verif.Grad.Props
import Verif.Grad.Limits
import Verif.Grad.ChanModel
import Verif.Grad.ChanCore
import Verif.Grad.ChanProps
import Verif.Grad.GenProps
import Verif.Grad.ChanParam
import Verif.Grad.ChanExamples
import Verif.Grad.NormModel
import Verif.Grad.NormCore
import Verif.Grad.NormProps
import Verif.Grad.NormExamples
import Verif.Grad.NormReal
import Verif.Grad.UpModel
import Verif.Grad.UpProps
import Verif.Grad.UpLimits
import Verif.Linear.Train
import Verif.Linear.TrainProps
import Verif.Linear.TrainReal
import Verif.Net.Machine
import Verif.Net.Lemmas
import Verif.Net.Async
import Verif.Net.Lift
import Verif.Net.Setup
import Verif.Net.Halo
import Verif.Net.Coll
import Verif.Net.Stack
import Verif.Net.Window
import Verif.Net.Repart
import Verif.Net.Dense
import Verif.Net.Chan
import Verif.Net.ChanStuck
import Verif.Net.Network
import Verif.Net.Props
import Verif.Net.Tape
import Verif.Net.StackBack
import Verif.Net.DenseBack
import Verif.Net.RepBack
import Verif.Net.WinBack
import Verif.Net.ConvBack
import Verif.Net.ChanBack
import Verif.Net.GenBack
import Verif.Net.Train
import Verif.Net.TrainProps
import Verif.Net.TrainReal
import Verif.Net.Stuck
import Verif.Net.Live
import Verif.Net.LiveProps
import Verif.Net.Sim
import Verif.Net.Mods
import Verif.Net.Cache
import Verif.Net.Repeat
import Verif.Net.Update
import Verif.Net.Loop
import Verif.Net.LoopProps
import Verif.Net.Batch
import Verif.Net.BatchProps
import Verif.Net.Loss
import Verif.Net.Learn
import Verif.Net.LearnProps
import Verif.Net.Up
import Verif.Net.UpBack
import Verif.Net.Norm
import Verif.Net.NormRun
import Verif.Net.NormBack
import Verif.Net.Decoder
import Verif.Net.DecoderProps
import Verif.Net.XMods
import Verif.Net.XNorm
import Verif.Net.XStep
import Verif.Net.XSteady
import Verif.Net.XLoop
import Verif.Net.XTrain
import Verif.Net.XTrainProps
import Verif.Net.XReal
import Verif.Net.NormProps
import Verif.Fp.Model
import Verif.Fp.Lemmas
import Verif.Fp.Cells
import Verif.Fp.Props
import Verif.Fp.Linear
import Verif.Fp.LinearSpec
import Verif.Fp.LinearLemmas
import Verif.Fp.LinearCells
import Verif.Fp.LinearMain
import Verif.Fp.LinearProps
import Verif.Fp.OutShape
import Verif.Fp.Sum
import Verif.Fp.SumProps
import Verif.Fp.Stats
import Verif.Fp.StatsProps
import Verif.Fp.Normal
import Verif.Fp.NormalProps
import Verif.Params.Model
import Verif.Params.Props
import Verif.Params.Grouped
import Verif.Build.Model
import Verif.Build.Lemmas
import Verif.Build.Lines
import Verif.Build.Layers
import Verif.Build.Live
import Verif.Build.Props
import Verif.Build.Stuck
import Verif.Debug.Model
import Verif.Debug.Props
import Verif.Memory.Model
import Verif.Memory.Props
import Verif.Memory.Up
import Verif.Mode.Model
import Verif.Mode.Props
import Verif.Mode.General
import Verif.Mode.Channel
import Verif.Mean.Model
import Verif.Mean.Lemmas
import Verif.Mean.Props
import Verif.Mean.Train
