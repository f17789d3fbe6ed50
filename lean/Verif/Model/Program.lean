import Verif.Model.Output
import Verif.Model.Parser
import Verif.Model.ObserverFiles

/-!
# The program `teufel` as a whole

Models `main` of `src/teufel_hybrid.cpp` from the parsed document to the list of files written, and the file output of the
loggers (`src/logger.cpp`).

Random numbers differ between the nodes, everything else the parser uses is the same on all nodes.  Not modelled: the check of the command
line and the reading of the XML text (lines 165-182), console output, timing, the memory report, releasing memory.
-/

namespace Teufel
open Vec

/-! ## Tracking with FEL interactions -/

section
variable {ω : Type}

/-- everything of a tracking run with FEL interactions except for the interactions themselves: the elements of the
lattice parsed before them, see `Run` for the others; src/teufel_hybrid.cpp:207-294 -/
structure FELProgram (ω : Type) where
  nodes : Nat
  NOTS : Nat
  ext : Lattice
  startOut : Beam → Beam → ω → Except Err ω
  stepOut : Nat → Beam → Beam → ω → Except Err ω
  junk : Nat → Nat → Nat → ℝ

/-- the tracking run of src/teufel_hybrid.cpp with FEL interactions: they are appended to the lattice
(src/parser.cpp:658-662), initialised (src/teufel_hybrid.cpp:498) and stepped (line 581) one after the other -/
noncomputable def FELProgram.run (P : FELProgram ω) : Run (List FEL) ω where
  nodes := P.nodes
  NOTS := P.NOTS
  lattice := fun s => Lattice.field (P.ext ++ s.map (fun f : FEL => InteractionField f.Field))
  initInter := fun b s => s.mapM (FEL.init b)
  stepInter := fun b s => s.mapM (FEL.step b)
  startOut := P.startOut
  stepOut := P.stepOut
  junk := P.junk

end

/-! ## Files written by loggers -/

/-- the SDDS file written by `ParameterLogger::WriteData`, src/logger.cpp:80-205: parameters and a table with the columns
`t, x_av, y_av, z_av, bgx_av, bgy_av, bgz_av, gamma, delta, x_rms, y_rms, z_rms, BF`; values may be NaN -/
structure ParamFile where
  NumberTimeSteps : Nat
  NumberParticles : Nat
  TotalCharge : ℝ
  BunchingFrequency : Option ℝ
  rows : List (List (Except Err ℝ))

/-- the components of a vector that may be NaN; src/logger.cpp:80-205, src/fel1d.cpp:359-499 -/
def nanComps (v : Except Err Vec) : List (Except Err ℝ) := [v.map Vec.x, v.map Vec.y, v.map Vec.z]

/-- one row of the table, src/logger.cpp:163-184 -/
noncomputable def ParamLog.fileRow (L : ParamLog) (i : Nat) : Except Err (List (Except Err ℝ)) := do
  let (t, x, bg, g, d, r, f) ← L.row i
  return [t] ++ nanComps x ++ nanComps bg ++ [g, d] ++ nanComps r ++ [f]

/-- `ParameterLogger::WriteData`, src/logger.cpp:80-205; `b` is the bunch of the master beam -/
noncomputable def ParamLog.writeData (L : ParamLog) (b : Bunch) : Except Err ParamFile := do
  let q ← b.getTotalCharge
  let rows ← (List.range L.NOTS).mapM L.fileRow
  return ⟨L.NOTS, b.getNOP, q, L.bunching, rows⟩

/-- `TrajectoryLogger::WriteData`, src/logger.cpp:248-328; the size of the buffer is computed with 32-bit unsigned numbers -/
noncomputable def TrajLog.writeData (L : TrajLog) : Except Err H5File := do
  let vals ← L.output
  let buffer ← fillBuffer (L.NOTS * L.NOP * 6 % 2 ^ 32) vals
  let dset ← h5write "Trajectories" [L.NOTS, L.NOP, 6] buffer [("NOTS", L.NOTS), ("NOP", L.NOP)] []
  return [dset]

/-- the values copied by `ProbeLogger::WriteData`, src/logger.cpp:386-392 -/
def ProbeLog.output (L : ProbeLog) : Except Err (List ℝ) := do
  let recs ← (List.range L.NOTS).mapM (fun i : Nat => do
    let src ← Particle.vecAt L.data i
    if L.NOD * L.NOP ≤ src.length then return src.take (L.NOD * L.NOP) else Except.error Err.ub)
  return recs.flatten

/-- `ProbeLogger::WriteData`, src/logger.cpp:369-460; the size of the buffer is computed with 32-bit unsigned numbers -/
noncomputable def ProbeLog.writeData (L : ProbeLog) : Except Err H5File := do
  let vals ← L.output
  let buffer ← fillBuffer (L.NOTS * L.NOP * L.NOD % 2 ^ 32) vals
  let dset ← h5write "Probe" [L.NOTS, L.NOP, L.NOD] buffer [("NOTS", L.NOTS), ("NOP", L.NOP), ("NOD", L.NOD)] []
  return [dset]

/-- contents of a file; src/teufel_hybrid.cpp:464-791 -/
inductive FileData where
  | watch (d : WatchData)
  | params (d : ParamFile)
  | hdf5 (d : H5File)
  | fel (d : FEL.OutputFile)
  | point (d : PointFile)
  | mesh (d : MeshFile)

/-- a file written by the program; src/teufel_hybrid.cpp:464-791 -/
structure OutFile where
  name : String
  data : FileData

/-- `WriteData` of a logger, src/teufel_hybrid.cpp:656-657; `m` is the master beam of rank 0 -/
noncomputable def Logger.writeData (m : Beam) : Logger → Except Err FileData
  | .param i L => do
    let bu ← Particle.vecAt m.B i
    (L.writeData bu).map .params
  | .traj _ L => L.writeData.map .hdf5
  | .probe L => L.writeData.map .hdf5

/-! ## From the parsed document to the objects of the program -/

/-- conversion of an `int` to an `unsigned int`; src/parser.cpp:488-511, src/logger.cpp:219, 338 -/
def toUnsigned (n : Int) : Nat := (n % 2 ^ 32).toNat

namespace Lib

/-- the libraries as seen by a node with other random numbers; every node parses the input itself, src/teufel_hybrid.cpp:160-285, drawing random numbers in src/bunch.cpp:72-84 -/
def withRandom (L : Lib) (r : (Nat → Nat → ℝ) × (Nat → Nat → Nat → ℝ)) : Lib := { L with uniform := r.1, normal := r.2 }

/-- name of the output file of a logger; src/logger.cpp:40-48, 219-228, 338-348 -/
def LogSpec.file : LogSpec → String
  | .param _ f _ _ => f
  | .traj _ f _ _ => f

/-- the logger constructed by the parser, src/parser.cpp:357-361, 488-491, 506-509; `m` is the beam parsed -/
def LogSpec.create (m : Beam) : LogSpec → Except Err Logger
  | .param i _ step bf => .ok (.param i (ParamLog.new (toUnsigned step) bf))
  | .traj i _ step number => (Particle.vecAt m.B i).map (fun bu => .traj i (TrajLog.new bu (toUnsigned step) (toUnsigned number)))

/-- the master beam of a node after parsing, src/parser.cpp:297-304, 348, 475, 566, 617-633.
Simplification: a bunch of which some numbers are not finite ends the program. -/
noncomputable def masterBeam (p : Parsed) : Except Err Beam := do
  let bs ← p.beam.bunches.mapM id
  return { bs.foldl Beam.Add Beam.empty with tracker := .vay, dt := p.tracking.timeStep, NOTS := p.tracking.NOTS }

/-- the names of the output files of the interactions, `none` without output, src/fel1d.cpp:100-113 -/
def felFiles (doc : Xml) : List (Option String) :=
  match (doc.child "teufel").bind (fun root => root.child "tracking") with
  | none => []
  | some track => (track.children.filter (fun c => c.name == "fel1d")).map (fun c => (c.child "log").bind (fun l => l.attr "file"))

/-- `write_output` of one interaction, src/fel1d.cpp:359-363 -/
noncomputable def felOutput (fn : FEL × Option String) : Except Err (List OutFile) :=
  match fn.2 with
  | none => .ok []
  | some name => fn.1.writeOutput.map (fun d => [⟨name, .fel d⟩])

/-- `generateOutput` of an observer; the mesh is the one read by the parser with the traces recorded by the
observer, src/mesh.h:183 -/
noncomputable def generateOutput (L : Lib) (file : String) : Observer → Except Err FileData
  | .screen s => s.writeFile.map .hdf5
  | .snapshot s => s.writeFile.map .hdf5
  | .point s => s.writeFile.map .point
  | .mesh s => do
    let f ← need (L.mesh file)
    let m ← Mesh.ofFile f
    ({ m with A := s.A }.writeFile).map .mesh

/-- the particles are stored in a snapshot of the beam, src/teufel_hybrid.cpp:766-772 -/
noncomputable def storeParticles (m : Beam) (src : SourceType) (o : Observer) : Except Err Observer :=
  match src, o with
  | .beam, .snapshot s => (s.storeParticlePositions m).map .snapshot
  | _, o => .ok o

/-- `generateOutput` with exceptions caught, src/teufel_hybrid.cpp:774-779: the file is then not (completely) written -/
def caught (name : String) : Except Err FileData → Except Err (List OutFile)
  | .ok d => .ok [⟨name, d⟩]
  | .error .io => .ok []
  | .error e => .error e

/-- the work for one observer, src/teufel_hybrid.cpp:692-791 -/
noncomputable def observeSpec (L : Lib) (w : World (List FEL) Output) (lattice : Lattice) (m : Beam) (spec : ObserverSpec) : Except Err (List OutFile) := do
  let o ← match spec.source with
    | .beam => observeBeam w spec.observer
    | .lattice => observeLattice w.nodes.length lattice spec.observer
  let o ← storeParticles m spec.source o
  caught spec.file (L.generateOutput spec.file o)

/-- what is indeterminate in a run: contents of uninitialised buffers for communication and in trajectory loggers,
and the number of iterations after which a loop writing probes is called divergent; src/teufel_hybrid.cpp:320-321, src/logger.cpp:219-246 -/
structure Indet where
  comm : Nat → Nat → Nat → ℝ
  traj : Nat → ℝ
  fuel : Nat

/-- the tracking part of the program, src/teufel_hybrid.cpp:304-613 -/
noncomputable def tracking (p : Parsed) (J : Indet) (nodes : Nat) : FELProgram Output where
  nodes := nodes
  NOTS := p.tracking.NOTS.toNat
  ext := p.lattice.lattice
  startOut := match p.beam.probe with
    | none => Output.start J.traj J.fuel
    | some pr => Output.startProbe J.traj J.fuel (toUnsigned pr.step) (toUnsigned pr.number)
  stepOut := Output.step J.traj J.fuel
  junk := J.comm

/-- names of the files of all loggers in the order of `listLoggers`; src/teufel_hybrid.cpp:214, 425-434 -/
def logFiles (p : Parsed) : List String :=
  p.beam.logs.map LogSpec.file ++ (p.beam.probe.map ProbeSpec.file).toList

/-- the interactions as elements of the lattice, src/teufel_hybrid.cpp:239 -/
noncomputable def interactionFields (s : List FEL) : Lattice := s.map (fun f : FEL => InteractionField f.Field)

/-- output and observation after the tracking, src/teufel_hybrid.cpp:653-791, in the order of writing -/
noncomputable def finish (L : Lib) (doc : Xml) (p : Parsed) (w : World (List FEL) Output) : Except Err (List OutFile) := do
  match w.nodes with
  | [] => .error .ub
  | root :: _ =>
    let logs ← (logFiles p |>.zip w.out.loggers).mapM (fun nl : String × Logger => (nl.2.writeData root.master).map (fun d => (⟨nl.1, d⟩ : OutFile)))
    let fels ← (root.inter.zip (felFiles doc)).mapM felOutput
    let lattice := p.lattice.lattice ++ interactionFields root.inter
    let lattice ← removeInteractions (2 * lattice.length + 1) 0 lattice
    let obs ← p.observers.observers.mapM (L.observeSpec w lattice root.master)
    return w.out.files.map (fun f => ⟨f.watch.filename, .watch f.data⟩) ++ logs ++ fels.flatten ++ obs.flatten

/-- The program on `nodes` nodes: all files written, in the order of writing.  `rnd` gives the random numbers drawn on each node.
An error on any node ends the program.
Apart from the bunches, what is parsed does not depend on the random numbers (`parse_random`), so the model takes it from rank 0.
Simplification: a negative number of steps is an error.  src/teufel_hybrid.cpp:74-829. -/
noncomputable def program (L : Lib) (rnd : Nat → (Nat → Nat → ℝ) × (Nat → Nat → Nat → ℝ)) (J : Indet) (nodes : Nat) (doc : Xml) : Except Err (List OutFile) := do
  let parsed ← (List.range nodes).mapM (fun r : Nat => (L.withRandom (rnd r)).parse doc)
  match parsed with
  | [] => .error .ub
  | p :: _ =>
    let masters ← parsed.mapM masterBeam
    let m ← masterBeam p
    if p.tracking.NOTS < 0 then .error .range
    let s ← p.tracking.state.interactions.mapM id
    let loggers ← p.beam.logs.mapM (LogSpec.create m)
    let w ← runAll (tracking p J nodes).run masters s ⟨loggers, p.tracking.state.watches, []⟩
    L.finish doc p w

end Lib
end Teufel
