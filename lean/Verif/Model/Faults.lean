import Verif.Model.Program

/-!
# The program with a file system on which some files cannot be created

`fine name` says whether a file of that name can be created.  Files which can be created can be written completely.
A stage of the program returns the files on the disk, or an exception together with the files then on the disk.
-/

namespace Teufel
namespace Lib

/-- result of a stage of the program: the files on the disk, possibly after an exception; src/teufel_hybrid.cpp:653-791 -/
abbrev DiskRes := Except (Err × List OutFile) (List OutFile)

/-- a file with computed contents; src/teufel_hybrid.cpp:653-791 -/
def addFile (disk : List OutFile) (name : String) : Except Err FileData → DiskRes
  | .ok d => .ok (disk ++ [⟨name, d⟩])
  | .error e => .error (e, disk)

/-- `WriteData` of a logger: the parameter logger returns an error code, which is ignored (src/logger.cpp:84-88, src/teufel_hybrid.cpp:657); the
others throw an exception (src/logger.cpp:256, 376) -/
noncomputable def writeLog (fine : String → Bool) (m : Beam) (disk : List OutFile) (nl : String × Logger) : DiskRes :=
  if fine nl.1 then addFile disk nl.1 (nl.2.writeData m)
  else match nl.2 with
    | .param _ _ => .ok disk
    | .traj _ _ => .error (.io, disk)
    | .probe _ => .error (.io, disk)

/-- `write_output` of an interaction, src/fel1d.cpp:359-368 -/
noncomputable def writeFel (fine : String → Bool) (disk : List OutFile) (fn : FEL × Option String) : DiskRes :=
  match fn.2 with
  | none => .ok disk
  | some name => if fine name then addFile disk name (fn.1.writeOutput.map .fel) else .error (.io, disk)

/-- one observer, src/teufel_hybrid.cpp:692-791: exceptions of `generateOutput` are caught (lines 774-779); files that cannot be created raise such an
exception (src/screen.cpp:305, src/snapshot.cpp, src/point_observer.cpp:126-127, src/mesh.cpp) -/
noncomputable def writeObserver (L : Lib) (fine : String → Bool) (w : World (List FEL) Output) (lattice : Lattice) (m : Beam) (disk : List OutFile) (spec : ObserverSpec) : DiskRes :=
  let o := do
    let o ← match spec.source with
      | .beam => observeBeam w spec.observer
      | .lattice => observeLattice w.nodes.length lattice spec.observer
    storeParticles m spec.source o
  match o with
  | .error e => .error (e, disk)
  | .ok o =>
    if fine spec.file then
      match caught spec.file (L.generateOutput spec.file o) with
      | .ok fs => .ok (disk ++ fs)
      | .error e => .error (e, disk)
    else .ok disk

/-- output and observation after the tracking, src/teufel_hybrid.cpp:653-791.  Watch points which cannot be written are reported only
(src/beam.cpp:241-245, 322-326; src/teufel_hybrid.cpp:473-485, 560-572), so that the run is not affected. -/
noncomputable def finishOn (L : Lib) (fine : String → Bool) (doc : Xml) (p : Parsed) (w : World (List FEL) Output) : DiskRes :=
  let disk := (w.out.files.map (fun f => (⟨f.watch.filename, .watch f.data⟩ : OutFile))).filter (fun f => fine f.name)
  match w.nodes with
  | [] => .error (.ub, disk)
  | root :: _ => do
    let disk ← (logFiles p |>.zip w.out.loggers).foldlM (writeLog fine root.master) disk
    let disk ← (root.inter.zip (felFiles doc)).foldlM (writeFel fine) disk
    let lattice := p.lattice.lattice ++ interactionFields root.inter
    match removeInteractions (2 * lattice.length + 1) 0 lattice with
    | .error e => .error (e, disk)
    | .ok lattice => p.observers.observers.foldlM (L.writeObserver fine w lattice root.master) disk

/-- the program up to the end of the tracking, src/teufel_hybrid.cpp:184-651, see `program` -/
noncomputable def track (L : Lib) (rnd : Nat → (Nat → Nat → ℝ) × (Nat → Nat → Nat → ℝ)) (J : Indet) (nodes : Nat) (doc : Xml) : Except Err (Parsed × World (List FEL) Output) := do
  let parsed ← (List.range nodes).mapM (fun r : Nat => (L.withRandom (rnd r)).parse doc)
  match parsed with
  | [] => .error .ub
  | p :: _ =>
    let masters ← parsed.mapM masterBeam
    let m ← masterBeam p
    if p.tracking.NOTS < 0 then .error .range
    let s ← p.tracking.state.interactions.mapM id
    let loggers ← p.beam.logs.mapM (LogSpec.create m)
    let w ← runAll (tracking p J nodes).run masters s ⟨loggers, p.tracking.state.watches, []⟩
    return (p, w)

/-- The program with a file system.  Simplification: watch points written before an error during the tracking are left out (they are in `Model/Crash`).  src/teufel_hybrid.cpp:184-829. -/
noncomputable def programOn (L : Lib) (fine : String → Bool) (rnd : Nat → (Nat → Nat → ℝ) × (Nat → Nat → Nat → ℝ)) (J : Indet) (nodes : Nat) (doc : Xml) : DiskRes :=
  match L.track rnd J nodes doc with
  | .error e => .error (e, [])
  | .ok pw => L.finishOn fine doc pw.1 pw.2

end Lib
end Teufel
