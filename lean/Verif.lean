import Verif.Common
import Verif.Model.Adiabat
import Verif.Model.Advection
import Verif.Model.ArrayIO
import Verif.Model.Bondi
import Verif.Model.Bounds
import Verif.Model.Burrows
import Verif.Model.Composition
import Verif.Model.Compton
import Verif.Model.Config
import Verif.Model.Conserve
import Verif.Model.Control
import Verif.Model.Coord
import Verif.Model.Current
import Verif.Model.Decomp
import Verif.Model.Diag
import Verif.Model.DirAverage
import Verif.Model.DiskProfile
import Verif.Model.DumpAverage
import Verif.Model.DumpRead
import Verif.Model.DumpReset
import Verif.Model.DumpVectors
import Verif.Model.DynTime
import Verif.Model.EhtProfiles
import Verif.Model.Electrons
import Verif.Model.Emission
import Verif.Model.Emissivity
import Verif.Model.EnergyShift
import Verif.Model.EntropyCurve
import Verif.Model.Eos
import Verif.Model.EosInvert
import Verif.Model.EosTable
import Verif.Model.EstimateThetae
import Verif.Model.Fixup
import Verif.Model.FixupUtoprim
import Verif.Model.FlattenRestart
import Verif.Model.FloatCT
import Verif.Model.FloatConserve
import Verif.Model.FloatTable
import Verif.Model.FloatTime
import Verif.Model.FloatZone
import Verif.Model.Floors
import Verif.Model.Fluid
import Verif.Model.FluidRestart
import Verif.Model.FluidStep
import Verif.Model.FluxCT
import Verif.Model.GammaTable
import Verif.Model.History
import Verif.Model.Host
import Verif.Model.Inflow
import Verif.Model.Interact
import Verif.Model.JetFlux
import Verif.Model.LightStep
import Verif.Model.LogRead
import Verif.Model.Luminosity
import Verif.Model.MainLoop
import Verif.Model.MessageRun
import Verif.Model.Messages
import Verif.Model.Metric
import Verif.Model.MovieCache
import Verif.Model.OpacTable
import Verif.Model.Oscillate
import Verif.Model.Outflow
import Verif.Model.OutputDirs
import Verif.Model.PacketRecord
import Verif.Model.Params
import Verif.Model.Passive
import Verif.Model.PhotonBounds
import Verif.Model.PhotonList
import Verif.Model.PhotonMessages
import Verif.Model.PhotonSync
import Verif.Model.PlaneWave
import Verif.Model.PrismConvert
import Verif.Model.PrismExtrap
import Verif.Model.PrismSmooth
import Verif.Model.Push
import Verif.Model.RadDiag
import Verif.Model.RadKinds
import Verif.Model.RadMessages
import Verif.Model.RadStep
import Verif.Model.RadSync
import Verif.Model.RadZone
import Verif.Model.RadialGrid
import Verif.Model.Reconstruct
import Verif.Model.RepairFlags
import Verif.Model.Resources
import Verif.Model.Restart
import Verif.Model.ResumedWeights
import Verif.Model.RootFind
import Verif.Model.Rounding
import Verif.Model.RunControl
import Verif.Model.Scaling
import Verif.Model.ScatterFrame
import Verif.Model.Scattering
import Verif.Model.SkyNet
import Verif.Model.SlicePlot
import Verif.Model.SodReference
import Verif.Model.SolidAngle
import Verif.Model.Spectrum
import Verif.Model.StartFluid
import Verif.Model.StartPackets
import Verif.Model.SumMessages
import Verif.Model.SynchTable
import Verif.Model.TableFallback
import Verif.Model.TableFetch
import Verif.Model.TableLoad
import Verif.Model.TableSmooth
import Verif.Model.TableTest
import Verif.Model.TestVerdict
import Verif.Model.Tetrad
import Verif.Model.ThermalTests
import Verif.Model.Threads
import Verif.Model.TimeLoop
import Verif.Model.Timers
import Verif.Model.TorusField
import Verif.Model.TorusId
import Verif.Model.TorusInit
import Verif.Model.TracerFiles
import Verif.Model.TracerPartition
import Verif.Model.TracerPrune
import Verif.Model.TracerPush
import Verif.Model.TracerVars
import Verif.Model.Tracers
import Verif.Model.TransformCheck
import Verif.Model.Tune
import Verif.Model.TuneStart
import Verif.Model.Units
import Verif.Model.Util
import Verif.Model.Utoprim
import Verif.Model.WaveTests
import Verif.Model.WindBins
import Verif.Model.Xdmf
import Verif.Model.YeDecay
import Verif.Model.YeStats
import Verif.Props.Adiabat
import Verif.Props.Advection
import Verif.Props.ArrayIO
import Verif.Props.Bondi
import Verif.Props.Bounds
import Verif.Props.Burrows
import Verif.Props.Composition
import Verif.Props.Compton
import Verif.Props.Config
import Verif.Props.ConfigText
import Verif.Props.Conserve
import Verif.Props.Control
import Verif.Props.CoolTime
import Verif.Props.Coord
import Verif.Props.Current
import Verif.Props.Decomp
import Verif.Props.Diag
import Verif.Props.DirAverage
import Verif.Props.DiskProfile
import Verif.Props.DriftFloor
import Verif.Props.DumpAverage
import Verif.Props.DumpMean
import Verif.Props.DumpRead
import Verif.Props.DumpReset
import Verif.Props.DumpVectors
import Verif.Props.DynTime
import Verif.Props.EhtProfiles
import Verif.Props.Electrons
import Verif.Props.Emission
import Verif.Props.Emissivity
import Verif.Props.EmitSample
import Verif.Props.EnergyShift
import Verif.Props.EntropyCurve
import Verif.Props.Eos
import Verif.Props.EosInvert
import Verif.Props.EosTable
import Verif.Props.EosUnits
import Verif.Props.EstimateThetae
import Verif.Props.Fixup
import Verif.Props.FixupUtoprim
import Verif.Props.FlattenRestart
import Verif.Props.FloatCT
import Verif.Props.FloatConserve
import Verif.Props.FloatTable
import Verif.Props.FloatTime
import Verif.Props.FloatZone
import Verif.Props.Floors
import Verif.Props.Fluid
import Verif.Props.Fluid2
import Verif.Props.FluidBudget
import Verif.Props.FluidField
import Verif.Props.FluidMidpoint
import Verif.Props.FluidRestart
import Verif.Props.FluidStep
import Verif.Props.FluidWindow
import Verif.Props.FluxCT
import Verif.Props.GammaTable
import Verif.Props.GasSample
import Verif.Props.History
import Verif.Props.Host
import Verif.Props.HotCross
import Verif.Props.Inflow
import Verif.Props.Interact
import Verif.Props.JetFlux
import Verif.Props.Kirchhoff
import Verif.Props.LightStep
import Verif.Props.LogRead
import Verif.Props.Luminosity
import Verif.Props.MainLoop
import Verif.Props.MessageRun
import Verif.Props.Messages
import Verif.Props.Metric
import Verif.Props.MovieCache
import Verif.Props.Mp5
import Verif.Props.NormalFloor
import Verif.Props.NuScattering
import Verif.Props.OpacTable
import Verif.Props.Oscillate
import Verif.Props.Outflow
import Verif.Props.OutputDirs
import Verif.Props.PacketRecord
import Verif.Props.Params
import Verif.Props.Passive
import Verif.Props.PhotonBounds
import Verif.Props.PhotonList
import Verif.Props.PhotonMessages
import Verif.Props.PhotonSync
import Verif.Props.PlaneWave
import Verif.Props.PrismConvert
import Verif.Props.PrismExtrap
import Verif.Props.PrismSmooth
import Verif.Props.Push
import Verif.Props.RadDiag
import Verif.Props.RadKinds
import Verif.Props.RadMessages
import Verif.Props.RadStep
import Verif.Props.RadSync
import Verif.Props.RadZone
import Verif.Props.RadialGrid
import Verif.Props.Reconstruct
import Verif.Props.Recovery
import Verif.Props.RepairFlags
import Verif.Props.Resources
import Verif.Props.Restart
import Verif.Props.ResumedWeights
import Verif.Props.Riemann
import Verif.Props.RootFind
import Verif.Props.Rounding
import Verif.Props.RunControl
import Verif.Props.Scaling
import Verif.Props.ScatterFrame
import Verif.Props.Scattering
import Verif.Props.SkyNet
import Verif.Props.SlicePlot
import Verif.Props.SodReference
import Verif.Props.SolidAngle
import Verif.Props.Source
import Verif.Props.Spectrum
import Verif.Props.StartFluid
import Verif.Props.StartPackets
import Verif.Props.SumMessages
import Verif.Props.SynchTable
import Verif.Props.TableFallback
import Verif.Props.TableFetch
import Verif.Props.TableLoad
import Verif.Props.TableSmooth
import Verif.Props.TableTest
import Verif.Props.TestVerdict
import Verif.Props.Tetrad
import Verif.Props.ThermalTests
import Verif.Props.ThreadLoops
import Verif.Props.Threads
import Verif.Props.TimeLoop
import Verif.Props.Timers
import Verif.Props.TorusDisk
import Verif.Props.TorusField
import Verif.Props.TorusId
import Verif.Props.TorusInit
import Verif.Props.TracerFiles
import Verif.Props.TracerPartition
import Verif.Props.TracerPrune
import Verif.Props.TracerPush
import Verif.Props.TracerTraces
import Verif.Props.TracerVars
import Verif.Props.Tracers
import Verif.Props.TransformCheck
import Verif.Props.Tune
import Verif.Props.TuneStart
import Verif.Props.Units
import Verif.Props.Util
import Verif.Props.Utoprim
import Verif.Props.Vchar
import Verif.Props.WaveTests
import Verif.Props.Weno
import Verif.Props.WindBins
import Verif.Props.Xdmf
import Verif.Props.YeDecay
import Verif.Props.YeStats
import Verif.Audit
