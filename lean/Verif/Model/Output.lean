import Verif.Model.Hybrid

/-!
# Output objects of the tracking loop

Models the use of loggers and watch points in `src/teufel_hybrid.cpp` and the contents of the watch point files
(`src/beam.cpp:222-431`).  The HDF5 and SDDS libraries are not modelled: a file is the list of values handed to
them; failures to create or write a file are not modelled.
-/

namespace Teufel
open Vec

/-- `WatchType`, src/global.h:101 -/
inductive WatchType where
  | hdf5
  | sdds
  deriving DecidableEq, Repr

/-- `watch_t`, src/global.h:102-106 -/
structure Watch where
  step : Int
  filename : String
  type : WatchType
  deriving DecidableEq, Repr

/-- one row of the table written by `Beam::WriteWatchPointSDDS`, src/beam.cpp:386-406; the two slopes are
undefined for a vanishing longitudinal momentum -/
structure SddsRow where
  t : ℝ
  x : ℝ
  y : ℝ
  z : ℝ
  px : ℝ
  py : ℝ
  pz : ℝ
  p : ℝ
  xp : Except Err ℝ
  yp : Except Err ℝ
  gamma : ℝ

/-- contents of a watch point file; src/beam.cpp:222-431 -/
inductive WatchData where
  /-- dataset "electrons" with `nop` rows of six columns, src/beam.cpp:246-273 -/
  | hdf5 (nop : Nat) (buffer : List ℝ)
  /-- parameters "NumberOfParticles" and "Charge" and the table, src/beam.cpp:358-413 -/
  | sdds (nop : Nat) (charge : ℝ) (rows : List SddsRow)

/-- slope of a particle, src/beam.cpp:402-403 -/
noncomputable def slope (a b : ℝ) : Except Err ℝ := if b = 0 then .error .nan else .ok (a / b)

/-- the row of one particle, src/beam.cpp:386-404 -/
noncomputable def sddsRow (p : Particle) : SddsRow :=
  ⟨p.tCur, p.XCur.x, p.XCur.y, p.XCur.z, p.PCur.x, p.PCur.y, p.PCur.z, Vec.norm p.PCur,
    slope p.PCur.x p.PCur.z, slope p.PCur.y p.PCur.z, Real.sqrt (1 + Vec.abs2nd p.PCur)⟩

/-- one bunch in `WriteWatchPointHDF5`, src/beam.cpp:230-234: `rem` is the remaining capacity -/
def hdf5Step (nop : Nat) (acc : List ℝ × Nat) (bu : Bunch) : Except Err (List ℝ × Nat) :=
  (bu.bufferCoordinates acc.2).map (fun vals => (acc.1 ++ vals, nop - (acc.1 ++ vals).length / 6))

/-- `WriteWatchPointHDF5`, src/beam.cpp:222-316; only the first `nop*6` entries of the buffer exist -/
def Beam.watchHDF5 (b : Beam) : Except Err WatchData := do
  let nop ← b.getNOP
  let bs ← visited b.NOB b.B
  let acc ← bs.foldlM (hdf5Step nop) ([], nop)
  if acc.1.length ≤ nop * 6 then return .hdf5 nop acc.1 else .error .ub

/-- `WriteWatchPointSDDS`, src/beam.cpp:318-431 -/
noncomputable def Beam.watchSDDS (b : Beam) : Except Err WatchData := do
  let nop ← b.getNOP
  let charge ← b.getTotalCharge
  let ps ← b.traverse
  return .sdds nop (ElementaryCharge * charge) (ps.map sddsRow)

/-- the file written for a watch point, src/teufel_hybrid.cpp:471-488 -/
noncomputable def Watch.write (w : Watch) (m : Beam) : Except Err WatchData :=
  match w.type with
  | .hdf5 => m.watchHDF5
  | .sdds => m.watchSDDS

/-- a logger in `listLoggers`, src/teufel_hybrid.cpp:214-228,425-434.  Loggers of bunches refer to a bunch of the
master beam, the probe logger to the tracked beam of rank 0. -/
inductive Logger where
  | param (bunch : Nat) (L : ParamLog)
  | traj (bunch : Nat) (L : TrajLog)
  | probe (L : ProbeLog)

/-- `stepsize` of a logger, src/logger.h:145, 242, 330 -/
def Logger.stepsize : Logger → Nat
  | .param _ L => L.stepsize
  | .traj _ L => L.stepsize
  | .probe L => L.stepsize

/-- `update()` of a logger; the `bunch` number refers to an existing bunch when the logger was created by the
parser, otherwise the pointer is invalid; src/logger.cpp:58-76, 238-246, 358-366 -/
noncomputable def Logger.update (junk : Nat → ℝ) (fuel : Nat) (m t : Beam) : Logger → Except Err Logger
  | .param i L => (Particle.vecAt m.B i).map (fun bu => .param i (L.update bu))
  | .traj i L => do
    let bu ← Particle.vecAt m.B i
    let L ← L.update junk bu
    return .traj i L
  | .probe L => (L.update fuel t).map (fun L => .probe L)

/-- `if (log_requested(k)) update()`, src/teufel_hybrid.cpp:547 -/
noncomputable def Logger.maybe (junk : Nat → ℝ) (fuel : Nat) (k : Nat) (m t : Beam) (l : Logger) : Except Err Logger := do
  let b ← logRequested l.stepsize k
  if b then l.update junk fuel m t else return l

/-- a file written by the program, with the watch point it was written for; src/teufel_hybrid.cpp:464-490, 551-577 -/
structure WatchFile where
  watch : Watch
  data : WatchData

/-- loggers, watch points and the files written so far, in order; src/teufel_hybrid.cpp:213-214, 260-280 -/
structure Output where
  loggers : List Logger
  watches : List Watch
  files : List WatchFile

/-- one pass of the loop over the watch points, src/teufel_hybrid.cpp:465-490, 552-577 -/
noncomputable def writeWatches (k : Int) (m : Beam) (o : Output) : Except Err Output := do
  let new ← (o.watches.filter (fun w => w.step = k)).mapM (fun w => (w.write m).map (fun d => (⟨w, d⟩ : WatchFile)))
  return { o with files := o.files ++ new }

/-- output before tracking, src/teufel_hybrid.cpp:464-495 -/
noncomputable def Output.start (junk : Nat → ℝ) (fuel : Nat) (m t : Beam) (o : Output) : Except Err Output := do
  let o ← writeWatches 0 m o
  let ls ← o.loggers.mapM (Logger.update junk fuel m t)
  return { o with loggers := ls }

/-- output after step `k`, src/teufel_hybrid.cpp:544-577 -/
noncomputable def Output.step (junk : Nat → ℝ) (fuel : Nat) (k : Nat) (m t : Beam) (o : Output) : Except Err Output := do
  let ls ← o.loggers.mapM (Logger.maybe junk fuel k m t)
  writeWatches k m { o with loggers := ls }

/-- creation of the probe logger, src/teufel_hybrid.cpp:424-434, before the first output.  It is appended to the list
of loggers of rank 0 and refers to the beam tracked by rank 0. -/
noncomputable def Output.startProbe (junk : Nat → ℝ) (fuel stepsize number : Nat) (m t : Beam) (o : Output) : Except Err Output := do
  let L ← ProbeLog.new t stepsize number
  Output.start junk fuel m t { o with loggers := o.loggers ++ [.probe L] }

/-- The output of a run is that of the output objects of `src/teufel_hybrid.cpp`; `probe` are the step size and the number of
particles of the probe logger, if one is requested by the input file. -/
def Run.Records {σ} (R : Run σ Output) (junk : Nat → ℝ) (fuel : Nat) (probe : Option (Nat × Nat)) : Prop :=
  R.stepOut = Output.step junk fuel ∧
  R.startOut = match probe with
    | none => Output.start junk fuel
    | some (stepsize, number) => Output.startProbe junk fuel stepsize number

/-- the program with the output objects of `src/teufel_hybrid.cpp` -/
noncomputable def Run.withOutput {σ} (R : Run σ Unit) (junk : Nat → ℝ) (fuel : Nat) : Run σ Output :=
  ⟨R.nodes, R.NOTS, R.lattice, R.initInter, R.stepInter, Output.start junk fuel, Output.step junk fuel, R.junk⟩

/-- the same with a probe logger requested by the input file; src/teufel_hybrid.cpp:424-434 -/
noncomputable def Run.withProbe {σ} (R : Run σ Unit) (junk : Nat → ℝ) (fuel stepsize number : Nat) : Run σ Output :=
  { R.withOutput junk fuel with startOut := Output.startProbe junk fuel stepsize number }

end Teufel
