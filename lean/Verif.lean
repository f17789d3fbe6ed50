import Verif.Model.Basic
import Verif.Model.Vec
import Verif.Lemmas.Vec
import Verif.Model.Fields
import Verif.Model.FieldTrace
import Verif.Model.Particle
import Verif.Props.Vector
import Verif.Props.Fields
import Verif.Props.ParticleBook
import Verif.Lemmas.Vay
import Verif.Props.Vay
import Verif.Props.ParticleComm
import Verif.Model.Retarded
import Verif.Props.Interp
import Verif.Spec.LW
import Verif.Props.RetardedField
import Verif.Lemmas.LightCone
import Verif.Props.LightCone
import Verif.Lemmas.Integrate
import Verif.Props.Integrate
import Verif.Props.FieldTrace
import Verif.Model.Elements
import Verif.Spec.Maxwell
import Verif.Props.Dipoles
import Verif.Props.Undulators
import Verif.Props.Waves
import Verif.Model.Bunch
import Verif.Model.Beam
import Verif.Lemmas.Distribution
import Verif.Props.Distribution
import Verif.Spec.BeamOps
import Verif.Lemmas.Beam
import Verif.Props.BunchBeam
import Verif.Props.BeamExchange
import Verif.Model.Logger
import Verif.Model.Hybrid
import Verif.Lemmas.Hybrid
import Verif.Lemmas.HybridSim
import Verif.Props.Hybrid
import Verif.Props.HybridSerial
import Verif.Model.Output
import Verif.Lemmas.Output
import Verif.Props.Loggers
import Verif.Props.Watches
import Verif.Model.Observers
import Verif.Spec.Observers
import Verif.Model.Parallel
import Verif.Lemmas.Parallel
import Verif.Lemmas.Additive
import Verif.Lemmas.Observers
import Verif.Lemmas.Observe
import Verif.Lemmas.ObserveSum
import Verif.Lemmas.Reduce
import Verif.Props.Observation
import Verif.Props.Schedule
import Verif.Props.Grid
import Verif.Model.FEL1D
import Verif.Spec.FEL
import Verif.Lemmas.FEL
import Verif.Lemmas.FELStep
import Verif.Lemmas.FELHistory
import Verif.Props.FEL
import Verif.Props.FELField
import Verif.Props.FELRun
import Verif.Lemmas.SourceScreen
import Verif.Props.SourceScreen
import Verif.Model.Mesh
import Verif.Model.Propagate
import Verif.Spec.Mesh
import Verif.Lemmas.Mesh
import Verif.Props.Mesh
import Verif.Spec.Propagate
import Verif.Props.PropagateSurface
import Verif.Props.Propagation
import Verif.Model.SDDS
import Verif.Spec.SDDS
import Verif.Props.SDDS
import Verif.Model.Parser
import Verif.Props.Statistics
import Verif.Spec.Input
import Verif.Props.InputLattice
import Verif.Props.InputBeam
import Verif.Props.InputTracking
import Verif.Props.InputObservers
import Verif.Props.Calculator
import Verif.Spec.InputExample
import Verif.Props.InputBunch
import Verif.Lemmas.Gauss
import Verif.Props.FELCurrent
import Verif.Props.ProbeLog
import Verif.Props.FELFile
import Verif.Props.PropagateProgram
import Verif.Props.ObserverFiles
import Verif.Props.ScreenReload
import Verif.Props.LoggerFiles
import Verif.Lemmas.ParseRandom
import Verif.Props.Program
import Verif.Props.ProgramFiles
import Verif.Props.ProgramNames
import Verif.Props.ProgramHistory
import Verif.Props.ProgramRuns
import Verif.Props.InputValues
import Verif.Model.Faults
import Verif.Props.Faults
import Verif.Props.ProgramComplete
import Verif.Spec.Coupled
import Verif.Lemmas.Coupled
import Verif.Props.ProgramCoupled
import Verif.Props.Coupled
import Verif.Lemmas.Moved
import Verif.Props.CoupledRuns
import Verif.Spec.Rounding
import Verif.Lemmas.Rounding
import Verif.Model.Rounded
import Verif.Props.RoundedClock
import Verif.Props.RoundedRecord
import Verif.Model.MPI
import Verif.Model.Nodes
import Verif.Lemmas.MPI
import Verif.Lemmas.Nodes
import Verif.Props.Schedules
import Verif.Spec.Motion
import Verif.Lemmas.Taylor
import Verif.Lemmas.Converge
import Verif.Lemmas.Gronwall
import Verif.Props.Convergence
import Verif.Spec.Radiation
import Verif.Lemmas.FunAlg
import Verif.Lemmas.Signal
import Verif.Lemmas.Radiate
import Verif.Props.RadiationConvergence
import Verif.Spec.Charges
import Verif.Props.ProgramConvergence
import Verif.Model.Main
import Verif.Props.Main
import Verif.Props.SnapshotConvergence
import Verif.Props.SnapshotFiles
import Verif.Props.Frame
import Verif.Props.Plane
import Verif.Props.PlaneFiles
import Verif.Spec.Energy
import Verif.Props.Energy
import Verif.Model.RoundedVay
import Verif.Lemmas.Appr
import Verif.Lemmas.RoundedVay
import Verif.Spec.Computed
import Verif.Lemmas.RoundedRun
import Verif.Props.RoundedTrack
import Verif.Props.SourceFiles
import Verif.Spec.Requests
import Verif.Props.Passive
import Verif.Spec.Shares
import Verif.Lemmas.Shares
import Verif.Props.Shares
import Verif.Lemmas.LipDiff
import Verif.Spec.Undulator
import Verif.Lemmas.Undulator
import Verif.Props.UndulatorMotion
import Verif.Props.Resonance
import Verif.Spec.Wave
import Verif.Props.FELWave
import Verif.Spec.Reversal
import Verif.Spec.Helix
import Verif.Lemmas.Turn
import Verif.Props.TimeReversal
import Verif.Props.Homogeneous
import Verif.Props.HomogeneousRuns
import Verif.Spec.Paraxial
import Verif.Model.Reports
import Verif.Model.MeshReports
import Verif.Props.GaussianBeam
import Verif.Props.Reports
import Verif.Lemmas.Wiechert
import Verif.Lemmas.WiechertField
import Verif.Props.RadiatedField
import Verif.Spec.Uniform
import Verif.Props.UniformField
import Verif.Props.UndulatorOffset
import Verif.Model.RoundedSum
import Verif.Spec.RoundedSum
import Verif.Props.RoundedSum
import Verif.Spec.Lienard
import Verif.Lemmas.Lienard
import Verif.Props.Lienard
import Verif.Props.Existence
import Verif.Lemmas.RadiateLip
import Verif.Props.Kinks
import Verif.Props.Edges
import Verif.Props.EdgeFiles
import Verif.Props.EdgeRadiation
import Verif.Props.ProgramProbe
import Verif.Props.ProbeConvergence
import Verif.Model.Crash
import Verif.Spec.Crash
import Verif.Lemmas.Crash
import Verif.Lemmas.CrashMid
import Verif.Props.Crash
import Verif.Props.FaultsMore
import Verif.Spec.LongerRun
import Verif.Lemmas.LongerRun
import Verif.Props.LongerRun
import Verif.Spec.Parts
import Verif.Lemmas.Parts
import Verif.Props.Parts
import Verif.Lemmas.Order
import Verif.Props.Order
import Verif.Spec.Order
import Verif.Props.GradientKick
import Verif.Lemmas.Recharge
import Verif.Spec.Recharge
import Verif.Props.Recharge
import Verif.Spec.Scaling
import Verif.Lemmas.Scaling
import Verif.Props.Scaling
import Verif.Model.RoundedElements
import Verif.Spec.MathLib
import Verif.Lemmas.RoundedElements
import Verif.Props.RoundedFields
import Verif.Props.RoundedRegular
import Verif.Model.RoundedDipole
import Verif.Props.RoundedDipole
import Verif.Props.RoundedMagnetic
import Verif.Props.RoundedSpeed
import Verif.Spec.MirrorImage
import Verif.Props.RoundedMirror
import Verif.Props.RoundedMacro
