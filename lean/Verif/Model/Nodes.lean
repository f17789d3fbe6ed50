import Verif.Model.MPI

/-!
# The program of one node

Models `main` of `src/teufel_hybrid.cpp` as it is executed by one node, with all collective operations in their places.
The computations are the functions of the model of the lockstep program (Model/Hybrid, Model/Program).
-/

namespace Teufel
open Vec

/-- output by rank 0 during the tracking: loggers, and files of watch points as they are written, src/teufel_hybrid.cpp:464-495, 544-577;
the other nodes do nothing -/
noncomputable def rankOutput {σ : Type} (rank : Nat) (f : Beam → Beam → Output → Except Err Output) (n : Node σ) (o : Output) (next : Output → Proc) : Proc :=
  if rank = 0 then
    .eval (f n.master n.tracked o) (fun o' =>
      .writeAll ((o'.files.drop o.files.length).map (fun f => ⟨f.watch.filename, .watch f.data⟩)) (next o'))
  else next o

/-- the tracking loop on one node, src/teufel_hybrid.cpp:513-613 -/
noncomputable def trackLoop {σ : Type} (R : Run σ Output) (rank : Nat) (next : Node σ → Output → Proc) : List Nat → Node σ → Output → Proc
  | [], n, o => next n o
  | step :: rest, n, o =>
    .eval (n.advance R) (fun n =>
    .barrier (
    .eval (Node.contribution R step (n, rank)) (fun part =>
    .call (.allgather part) (fun buf =>
    .eval (n.receive step buf) (fun n =>
    .barrier (
    rankOutput rank (R.stepOut (step + 1)) n o (fun o =>
    .eval (n.interact R.stepInter) (fun n =>
    trackLoop R rank next rest n o))))))))

namespace Lib

/-- the loop writing the logged data, src/teufel_hybrid.cpp:656-657 -/
noncomputable def writeLogs (m : Beam) (next : Proc) : List (String × Logger) → Proc
  | [] => next
  | nl :: rest => .eval (nl.2.writeData m) (fun d => .write ⟨nl.1, d⟩ (writeLogs m next rest))

/-- the loop writing the output of the interactions, src/teufel_hybrid.cpp:659-660 -/
noncomputable def writeInteractions (next : Proc) : List (FEL × Option String) → Proc
  | [] => next
  | fn :: rest => .eval (felOutput fn) (fun fs => .writeAll fs (writeInteractions next rest))

/-- the loop over the observers on one node, src/teufel_hybrid.cpp:692-791; `t` is the tracked beam, `m` the master beam of this node.
Simplification: the buffer is filled before the barrier at line 716. -/
noncomputable def observeLoop (L : Lib) (rank : Nat) (lattice : Lattice) (m t : Beam) (next : Proc) : List ObserverSpec → Proc
  | [] => next
  | spec :: rest =>
    .barrier (
    .eval (nodeObserve spec.observer (match spec.source with | .beam => .beam t | .lattice => .lattice lattice.field)) (fun r =>
    .barriers 2 (
    .call (.reduce r.2.2) (fun sum =>
    .barrier (
    let tail : Proc := .barriers 2 (observeLoop L rank lattice m t next rest)
    if rank = 0 then
      .eval (do
        let o ← r.1.fromBuffer sum r.2.1
        let o ← storeParticles m spec.source o
        caught spec.file (L.generateOutput spec.file o)) (fun fs => .writeAll fs tail)
    else tail)))))

/-- what follows the tracking loop on one node, src/teufel_hybrid.cpp:615-829 -/
noncomputable def finishNode (L : Lib) (doc : Xml) (p : Parsed) (rank : Nat) (n : Node (List FEL)) (o : Output) : Proc :=
  let observation : Proc :=
    .barriers 2 (
    let lattice := p.lattice.lattice ++ interactionFields n.inter
    .eval (removeInteractions (2 * lattice.length + 1) 0 lattice) (fun lattice =>
    observeLoop L rank lattice n.master n.tracked (.barrier .done) p.observers.observers))
  .barriers 4 (
  if rank = 0 then
    writeLogs n.master (writeInteractions observation (n.inter.zip (felFiles doc))) ((logFiles p).zip o.loggers)
  else observation)

/-- what a node has when it enters the broadcast: master beam, interactions, loggers, and the contents of its buffer; src/teufel_hybrid.cpp:184-325 -/
structure Prepared where
  master : Beam
  inter : List FEL
  loggers : List Logger
  buf : List ℝ

/-- from the parsed document to the broadcast, src/teufel_hybrid.cpp:262, 304-325.
As in `program`, bunches and interactions of which some numbers are not finite end the program, so does a negative number of steps. -/
noncomputable def prepare (p : Parsed) (J : Indet) (nodes : Nat) : Except Err Prepared := do
  let m ← masterBeam p
  if p.tracking.NOTS < 0 then .error .range
  let s ← p.tracking.state.interactions.mapM id
  let loggers ← p.beam.logs.mapM (LogSpec.create m)
  let nop ← m.getNOP
  if trackingNOP nop nodes * nodes * 10 < nop * 10 then .error .io
  let vals ← m.bufferStep
  let buf ← intoBuffer (trackingNOP nop nodes * nodes * 10) (J.comm 0 0) vals
  return ⟨m, s, loggers, buf⟩

/-- what follows the parsing on one node, src/teufel_hybrid.cpp:262-829 -/
noncomputable def runNode (L : Lib) (J : Indet) (nodes : Nat) (doc : Xml) (rank : Nat) (p : Parsed) : Proc :=
  let R := (tracking p J nodes).run
  .eval (prepare p J nodes) (fun q =>
  .call (.bcast q.buf) (fun buf =>
  .eval (setupMaster q.master buf R.NOTS) (fun m =>
  .barriers 4 (
  .eval (setupNode R m q.inter rank) (fun n =>
  .barriers 2 (
  rankOutput rank R.startOut n ⟨q.loggers, p.tracking.state.watches, []⟩ (fun o =>
  .eval (n.interact R.initInter) (fun n =>
  trackLoop R rank (L.finishNode doc p rank) (List.range R.NOTS) n o))))))))

/-- The program executed by the node `rank`, src/teufel_hybrid.cpp:74-829.  `L` contains the random numbers of this node.
Objects made by the parser are made after it here (`prepare`), as in `program`. -/
noncomputable def nodeProgram (L : Lib) (J : Indet) (nodes : Nat) (doc : Xml) (rank : Nat) : Proc :=
  .barriers 3 (
  .eval (need (doc.child "teufel")) (fun root =>
  .eval (L.parseLattice root (L.start root) []) (fun lattice =>
  .barriers 2 (
  .eval (L.parseBeam root lattice.env) (fun beam =>
  .barriers 2 (
  .eval (L.parseTracking root beam.env) (fun tracking =>
  .barriers 2 (
  .eval (L.parseObservers root tracking.state.env) (fun observers =>
  .barriers 6 (
  runNode L J nodes doc rank ⟨lattice, beam, tracking, observers⟩))))))))))

end Lib
end Teufel
