import Lean.Util.CollectAxioms
import Verif.Props.Adiabat
import Verif.Props.Advection
import Verif.Props.ArrayIO
import Verif.Props.Bondi
import Verif.Props.Bounds
import Verif.Props.Burrows
import Verif.Props.Composition
import Verif.Props.Compton
import Verif.Props.Config
import Verif.Props.ConfigText
import Verif.Props.Conserve
import Verif.Props.Control
import Verif.Props.CoolTime
import Verif.Props.Coord
import Verif.Props.Current
import Verif.Props.Decomp
import Verif.Props.Diag
import Verif.Props.DirAverage
import Verif.Props.DiskProfile
import Verif.Props.DriftFloor
import Verif.Props.DumpAverage
import Verif.Props.DumpMean
import Verif.Props.DumpRead
import Verif.Props.DumpReset
import Verif.Props.DumpVectors
import Verif.Props.DynTime
import Verif.Props.EhtProfiles
import Verif.Props.Electrons
import Verif.Props.Emission
import Verif.Props.Emissivity
import Verif.Props.EmitSample
import Verif.Props.EnergyShift
import Verif.Props.EntropyCurve
import Verif.Props.Eos
import Verif.Props.EosInvert
import Verif.Props.EosTable
import Verif.Props.EosUnits
import Verif.Props.EstimateThetae
import Verif.Props.Fixup
import Verif.Props.FixupUtoprim
import Verif.Props.FlattenRestart
import Verif.Props.FloatCT
import Verif.Props.FloatConserve
import Verif.Props.FloatTable
import Verif.Props.FloatTime
import Verif.Props.FloatZone
import Verif.Props.Floors
import Verif.Props.Fluid
import Verif.Props.Fluid2
import Verif.Props.FluidBudget
import Verif.Props.FluidField
import Verif.Props.FluidMidpoint
import Verif.Props.FluidRestart
import Verif.Props.FluidStep
import Verif.Props.FluidWindow
import Verif.Props.FluxCT
import Verif.Props.GammaTable
import Verif.Props.GasSample
import Verif.Props.History
import Verif.Props.Host
import Verif.Props.HotCross
import Verif.Props.Inflow
import Verif.Props.Interact
import Verif.Props.JetFlux
import Verif.Props.Kirchhoff
import Verif.Props.LightStep
import Verif.Props.LogRead
import Verif.Props.Luminosity
import Verif.Props.MainLoop
import Verif.Props.MessageRun
import Verif.Props.Messages
import Verif.Props.Metric
import Verif.Props.MovieCache
import Verif.Props.Mp5
import Verif.Props.NormalFloor
import Verif.Props.NuScattering
import Verif.Props.OpacTable
import Verif.Props.Oscillate
import Verif.Props.Outflow
import Verif.Props.OutputDirs
import Verif.Props.PacketRecord
import Verif.Props.Params
import Verif.Props.Passive
import Verif.Props.PhotonBounds
import Verif.Props.PhotonList
import Verif.Props.PhotonMessages
import Verif.Props.PhotonSync
import Verif.Props.PlaneWave
import Verif.Props.PrismConvert
import Verif.Props.PrismExtrap
import Verif.Props.PrismSmooth
import Verif.Props.Push
import Verif.Props.RadDiag
import Verif.Props.RadKinds
import Verif.Props.RadMessages
import Verif.Props.RadStep
import Verif.Props.RadSync
import Verif.Props.RadZone
import Verif.Props.RadialGrid
import Verif.Props.Reconstruct
import Verif.Props.Recovery
import Verif.Props.RepairFlags
import Verif.Props.Resources
import Verif.Props.Restart
import Verif.Props.ResumedWeights
import Verif.Props.Riemann
import Verif.Props.RootFind
import Verif.Props.Rounding
import Verif.Props.RunControl
import Verif.Props.Scaling
import Verif.Props.ScatterFrame
import Verif.Props.Scattering
import Verif.Props.SkyNet
import Verif.Props.SlicePlot
import Verif.Props.SodReference
import Verif.Props.SolidAngle
import Verif.Props.Source
import Verif.Props.Spectrum
import Verif.Props.StartFluid
import Verif.Props.StartPackets
import Verif.Props.SumMessages
import Verif.Props.SynchTable
import Verif.Props.TableFallback
import Verif.Props.TableFetch
import Verif.Props.TableLoad
import Verif.Props.TableSmooth
import Verif.Props.TableTest
import Verif.Props.TestVerdict
import Verif.Props.Tetrad
import Verif.Props.ThermalTests
import Verif.Props.ThreadLoops
import Verif.Props.Threads
import Verif.Props.TimeLoop
import Verif.Props.Timers
import Verif.Props.TorusDisk
import Verif.Props.TorusField
import Verif.Props.TorusId
import Verif.Props.TorusInit
import Verif.Props.TracerFiles
import Verif.Props.TracerPartition
import Verif.Props.TracerPrune
import Verif.Props.TracerPush
import Verif.Props.TracerTraces
import Verif.Props.TracerVars
import Verif.Props.Tracers
import Verif.Props.TransformCheck
import Verif.Props.Tune
import Verif.Props.TuneStart
import Verif.Props.Units
import Verif.Props.Util
import Verif.Props.Utoprim
import Verif.Props.Vchar
import Verif.Props.WaveTests
import Verif.Props.Weno
import Verif.Props.WindBins
import Verif.Props.Xdmf
import Verif.Props.YeDecay
import Verif.Props.YeStats

/-!
# Axiom audit

Elaborating this module fails if any theorem of the `Nubhlight` namespace depends on an axiom other than `propext`,
`Classical.choice` and `Quot.sound`.
-/

open Lean Elab Command in
run_cmd do
  let env ← getEnv
  let ok : List Name := [``propext, ``Classical.choice, ``Quot.sound]
  let mut n : Nat := 0
  for (c, info) in env.constants.map₁.toList do
    if (`Nubhlight).isPrefixOf c then
      if let .thmInfo _ := info then
        n := n + 1
        for a in ← liftCoreM (collectAxioms c) do
          unless ok.contains a do throwError "{c} depends on {a}"
  if n < 100 then throwError "audit saw only {n} theorems"
