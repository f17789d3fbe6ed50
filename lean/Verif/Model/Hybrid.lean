import Verif.Model.Logger

/-!
# The distributed tracking program

Models `src/teufel_hybrid.cpp:259-613`: distribution of the particles over the nodes, the tracking loop with its
collective communication, loggers, watch points and interaction fields.

The MPI collectives are modelled by their specification: `MPI_Bcast` hands the buffer of rank 0 to everybody,
`MPI_Allgather` hands the concatenation of all contributions in rank order to everybody.  An exception on any
node ends the run.  Console output, timing and memory statistics are not modelled.
-/

namespace Teufel
open Vec

/-- forget the state an object is left in when an exception was thrown; nothing in src/teufel_hybrid.cpp:304-613 uses such an object again -/
def dropState {α} : Except (Err × α) α → Except Err α
  | .ok a => .ok a
  | .error (e, _) => .error e

/-- everything the tracking loop needs besides beams.  `σ` is the joint state of all interaction fields, `ω` the
state of the output objects (loggers, watch point files) of rank 0.  src/teufel_hybrid.cpp:207-294. -/
structure Run (σ ω : Type) where
  /-- number of MPI nodes -/
  nodes : Nat
  /-- number of time steps to track, src/teufel_hybrid.cpp:262 -/
  NOTS : Nat
  /-- the field of the lattice including the interaction fields -/
  lattice : σ → FieldFn
  /-- `InteractionField::init` of all interactions, line 498 -/
  initInter : Beam → σ → Except Err σ
  /-- `InteractionField::step` of all interactions, line 584 -/
  stepInter : Beam → σ → Except Err σ
  /-- output before tracking: watch points of step 0 and the first logger update, lines 464-495;
  arguments are the master beam and the tracked beam of rank 0 -/
  startOut : Beam → Beam → ω → Except Err ω
  /-- output after step `k`: loggers and watch points, lines 547-580 -/
  stepOut : Nat → Beam → Beam → ω → Except Err ω
  /-- contents of uninitialised communication buffers (step, rank, index) -/
  junk : Nat → Nat → Nat → ℝ

/-- variables of one node; src/teufel_hybrid.cpp:212, 304-321, 379-422 -/
structure Node (σ : Type) where
  master : Beam
  tracked : Beam
  inter : σ

/-- all nodes, in rank order, and the output objects of rank 0; src/teufel_hybrid.cpp:304-613 -/
structure World (σ ω : Type) where
  nodes : List (Node σ)
  out : ω

/-- a communication buffer of `size` doubles after `bufferStep` has written `vals` into it; writing more than
`size` values is undefined behaviour; src/teufel_hybrid.cpp:312-324, 528 -/
def intoBuffer (size : Nat) (junk : Nat → ℝ) (vals : List ℝ) : Except Err (List ℝ) :=
  if vals.length ≤ size then .ok (vals ++ (List.range (size - vals.length)).map junk) else .error .ub

/-- `TRACKING_NOP`, src/teufel_hybrid.cpp:304-305 -/
def trackingNOP (masterNOP nodes : Nat) : Nat := (masterNOP + nodes - 1) / nodes

/-- update of the master beam from the broadcast buffer, src/teufel_hybrid.cpp:330-337 -/
noncomputable def setupMaster (m : Beam) (buf : List ℝ) (NOTS : Nat) : Except Err Beam := do
  let m ← dropState m.clearTrajectories
  let m ← dropState (m.preAllocate (NOTS + 1))
  let m ← m.setStepFromBuffer buf
  return { m with NOTS := 0 }

/-- state of the distribution loop, src/teufel_hybrid.cpp:379-382: the bunch of this node, the node to which
particles are assigned, the number of particles it already has -/
structure Deal where
  bunch : Bunch
  node : Nat
  cnt : Nat

/-- one particle in the distribution loop, src/teufel_hybrid.cpp:391-407 -/
noncomputable def dealStep (rank TN NOTS : Nat) (s : Deal) (p : Particle) : Deal :=
  let bunch := if rank = s.node then s.bunch.Add (p.copy.preAllocate (NOTS + 1)) else s.bunch
  if s.cnt + 1 = TN then ⟨bunch, s.node + 1, 0⟩ else ⟨bunch, s.node, s.cnt + 1⟩

/-- the particles of the beam in the order of the two nested loops, src/teufel_hybrid.cpp:384-391 -/
def Beam.traverse (b : Beam) : Except Err (List Particle) := do
  let bs ← visited b.NOB b.B
  let pss ← bs.mapM (fun bu : Bunch => visited bu.NOP bu.P)
  return pss.flatten

/-- the bunch assigned to one node, src/teufel_hybrid.cpp:376-409 -/
noncomputable def dealBunch (m : Beam) (rank TN NOTS : Nat) : Except Err Bunch := do
  let ps ← m.traverse
  return (ps.foldl (dealStep rank TN NOTS) ⟨Bunch.empty, 0, 0⟩).bunch

/-- the tracked beam of one node before the tracking is set up, src/teufel_hybrid.cpp:416-420 -/
noncomputable def trackedBeam (m : Beam) (bunch : Bunch) : Beam :=
  { Beam.empty.Add bunch with tracker := m.tracker, dt := m.dt }

/-- distribution and setup of one node, src/teufel_hybrid.cpp:376-422 -/
noncomputable def setupNode {σ ω} (R : Run σ ω) (m : Beam) (s : σ) (rank : Nat) : Except Err (Node σ) := do
  let nop ← m.getNOP
  let bunch ← dealBunch m rank (trackingNOP nop R.nodes) R.NOTS
  let tracked ← dropState ((trackedBeam m bunch).setupTracking (R.lattice s))
  return ⟨m, tracked, s⟩

/-- output of rank 0; src/teufel_hybrid.cpp:464-495, 544-577 -/
def rankZero {σ ω} (f : Beam → Beam → ω → Except Err ω) (nodes : List (Node σ)) (out : ω) : Except Err ω :=
  match nodes with
  | n :: _ => f n.master n.tracked out
  | [] => .ok out

/-- interaction initialisation or step on one node, src/teufel_hybrid.cpp:498, 581 -/
def Node.interact {σ} (f : Beam → σ → Except Err σ) (n : Node σ) : Except Err (Node σ) :=
  (f n.master n.inter).map (fun s => { n with inter := s })

/-- everything before the tracking loop, src/teufel_hybrid.cpp:304-498.  `ms` are the master beams parsed by the
nodes (they may differ in the random coordinates). -/
noncomputable def setupRun {σ ω} (R : Run σ ω) (ms : List Beam) (s : σ) (out : ω) : Except Err (World σ ω) := do
  match ms with
  | [] => .error .ub
  | m0 :: _ =>
    let nop ← m0.getNOP
    if trackingNOP nop R.nodes * R.nodes * 10 < nop * 10 then .error .io
    let vals ← m0.bufferStep
    let buf ← intoBuffer (trackingNOP nop R.nodes * R.nodes * 10) (R.junk 0 0) vals
    let masters ← ms.mapM (fun m : Beam => setupMaster m buf R.NOTS)
    let nodes ← masters.zipIdx.mapM (fun mr : Beam × Nat => setupNode R mr.1 s mr.2)
    let out ← rankZero R.startOut nodes out
    let nodes ← nodes.mapM (Node.interact R.initInter)
    return ⟨nodes, out⟩

/-- `doStep` on one node, src/teufel_hybrid.cpp:517 -/
noncomputable def Node.advance {σ ω} (R : Run σ ω) (n : Node σ) : Except Err (Node σ) :=
  (dropState (n.tracked.doStep (R.lattice n.inter))).map (fun t => { n with tracked := t })

/-- the contribution of one node to the gathering, src/teufel_hybrid.cpp:312-321,528 -/
def Node.contribution {σ ω} (R : Run σ ω) (step : Nat) (nr : Node σ × Nat) : Except Err (List ℝ) := do
  let nop ← nr.1.master.getNOP
  let vals ← nr.1.tracked.bufferStep
  intoBuffer (trackingNOP nop R.nodes * 10) (R.junk (step + 1) nr.2) vals

/-- update of the master beam and sanity check, src/teufel_hybrid.cpp:533-539 -/
def Node.receive {σ} (step : Nat) (buf : List ℝ) (n : Node σ) : Except Err (Node σ) := do
  let m ← n.master.setStepFromBuffer buf
  if m.NOTS ≠ step + 1 then .error .io else return { n with master := m }

/-- one iteration of the tracking loop, src/teufel_hybrid.cpp:513-581 -/
noncomputable def trackStep {σ ω} (R : Run σ ω) (w : World σ ω) (step : Nat) : Except Err (World σ ω) := do
  let nodes ← w.nodes.mapM (Node.advance R)
  let bufs ← nodes.zipIdx.mapM (Node.contribution R step)
  let nodes ← nodes.mapM (Node.receive step bufs.flatten)
  let out ← rankZero (R.stepOut (step + 1)) nodes w.out
  let nodes ← nodes.mapM (Node.interact R.stepInter)
  return ⟨nodes, out⟩

/-- the whole tracking part of the program after `k` iterations of the loop; src/teufel_hybrid.cpp:304-613 -/
noncomputable def runSteps {σ ω} (R : Run σ ω) (ms : List Beam) (s : σ) (out : ω) (k : Nat) : Except Err (World σ ω) := do
  let w ← setupRun R ms s out
  (List.range k).foldlM (trackStep R) w

/-- the whole tracking part of the program; src/teufel_hybrid.cpp:304-613 -/
noncomputable def runAll {σ ω} (R : Run σ ω) (ms : List Beam) (s : σ) (out : ω) : Except Err (World σ ω) :=
  runSteps R ms s out R.NOTS

end Teufel
