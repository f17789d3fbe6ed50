import Verif.Model.Program

/-!
# The program as a sequence of writes

What `program` computes, together with every file written on the way, also when the program ends by an error.  When the program is killed, the files
written so far are on the disk: an initial part of the list.  Simplifications: a file is written at once; all files can be created (see `Model/Faults` for
the other case); an error on one node ends all nodes before the next write (they are separated by collective operations, see `Model/Nodes`).
-/

namespace Teufel

/-- a part of the program: the files it has written, in order, and its result or error; src/teufel_hybrid.cpp:184-829 -/
structure Traced (α : Type) where
  written : List OutFile
  result : Except Err α

namespace Traced
variable {α β : Type}

/-- a calculation without output; src/teufel_hybrid.cpp:184-829 -/
def silent (r : Except Err α) : Traced α := ⟨[], r⟩

/-- one part after the other, unless the first one fails; src/teufel_hybrid.cpp:184-829 -/
def andThen (x : Traced α) (f : α → Traced β) : Traced β :=
  match x.result with
  | .error e => ⟨x.written, .error e⟩
  | .ok a => ⟨x.written ++ (f a).written, (f a).result⟩

/-- what is on the disk when the program is killed after `i` writes (it may have ended before): the writes so far, in order; a later one replaces an earlier one
with the same name; src/teufel_hybrid.cpp:184-829 -/
def killed (x : Traced α) (i : Nat) : List OutFile := x.written.take i

/-- a loop which does the same for all members of a list; src/teufel_hybrid.cpp:465-490, 552-577, 655-791 -/
def each (f : α → Traced β) : List α → Traced (List β)
  | [] => silent (.ok [])
  | a :: l => (f a).andThen (fun b => (each f l).andThen (fun bs => silent (.ok (b :: bs))))

/-- a loop with a state; src/teufel_hybrid.cpp:511-613 -/
def loop (f : β → α → Traced β) : β → List α → Traced β
  | b, [] => silent (.ok b)
  | b, a :: l => (f b a).andThen (fun b' => loop f b' l)

end Traced

open Traced

/-- a watch point is written, src/teufel_hybrid.cpp:470-489, 557-576 -/
noncomputable def Watch.writeT (m : Beam) (x : Watch) : Traced WatchFile :=
  match x.write m with
  | .error e => ⟨[], .error e⟩
  | .ok d => ⟨[⟨x.filename, .watch d⟩], .ok ⟨x, d⟩⟩

/-- one pass of the loop over the watch points, src/teufel_hybrid.cpp:465-490, 552-577 -/
noncomputable def writeWatchesT (k : Int) (m : Beam) (o : Output) : Traced Output :=
  (each (Watch.writeT m) (o.watches.filter (fun w => w.step = k))).andThen (fun new => silent (.ok { o with files := o.files ++ new }))

/-- output before tracking, src/teufel_hybrid.cpp:464-495 -/
noncomputable def Output.startT (junk : Nat → ℝ) (fuel : Nat) (m t : Beam) (o : Output) : Traced Output :=
  (writeWatchesT 0 m o).andThen (fun o => silent ((o.loggers.mapM (Logger.update junk fuel m t)).map (fun ls => { o with loggers := ls })))

/-- output after step `k`, src/teufel_hybrid.cpp:544-577 -/
noncomputable def Output.stepT (junk : Nat → ℝ) (fuel : Nat) (k : Nat) (m t : Beam) (o : Output) : Traced Output :=
  (silent (o.loggers.mapM (Logger.maybe junk fuel k m t))).andThen (fun ls => writeWatchesT k m { o with loggers := ls })

/-- output before tracking with a probe logger, src/teufel_hybrid.cpp:424-434, 464-495 -/
noncomputable def Output.startProbeT (junk : Nat → ℝ) (fuel stepsize number : Nat) (m t : Beam) (o : Output) : Traced Output :=
  (silent (ProbeLog.new t stepsize number)).andThen (fun L => Output.startT junk fuel m t { o with loggers := o.loggers ++ [.probe L] })

/-- output of rank 0; src/teufel_hybrid.cpp:464-495, 544-577 -/
def rankZeroT {σ ω} (f : Beam → Beam → ω → Traced ω) (nodes : List (Node σ)) (out : ω) : Traced ω :=
  match nodes with
  | n :: _ => f n.master n.tracked out
  | [] => silent (.ok out)

/-- the nodes before the first output; src/teufel_hybrid.cpp:304-460 -/
noncomputable def setupNodes {σ ω} (R : Run σ ω) (ms : List Beam) (s : σ) : Except Err (List (Node σ)) := do
  match ms with
  | [] => .error .ub
  | m0 :: _ =>
    let nop ← m0.getNOP
    if trackingNOP nop R.nodes * R.nodes * 10 < nop * 10 then .error .io
    let vals ← m0.bufferStep
    let buf ← intoBuffer (trackingNOP nop R.nodes * R.nodes * 10) (R.junk 0 0) vals
    let masters ← ms.mapM (fun m : Beam => setupMaster m buf R.NOTS)
    masters.zipIdx.mapM (fun mr : Beam × Nat => setupNode R mr.1 s mr.2)

/-- everything before the tracking loop, src/teufel_hybrid.cpp:304-498 -/
noncomputable def setupRunT {σ ω} (R : Run σ ω) (start : Beam → Beam → ω → Traced ω) (ms : List Beam) (s : σ) (out : ω) : Traced (World σ ω) :=
  (silent (setupNodes R ms s)).andThen (fun nodes =>
    (rankZeroT start nodes out).andThen (fun out => silent ((nodes.mapM (Node.interact R.initInter)).map (fun nodes => ⟨nodes, out⟩))))

/-- the nodes before the output of a step, src/teufel_hybrid.cpp:513-541 -/
noncomputable def stepNodes {σ ω} (R : Run σ ω) (nodes : List (Node σ)) (step : Nat) : Except Err (List (Node σ)) := do
  let nodes ← nodes.mapM (Node.advance R)
  let bufs ← nodes.zipIdx.mapM (Node.contribution R step)
  nodes.mapM (Node.receive step bufs.flatten)

/-- one iteration of the tracking loop, src/teufel_hybrid.cpp:513-581 -/
noncomputable def trackStepT {σ ω} (R : Run σ ω) (step' : Nat → Beam → Beam → ω → Traced ω) (w : World σ ω) (step : Nat) : Traced (World σ ω) :=
  (silent (stepNodes R w.nodes step)).andThen (fun nodes =>
    (rankZeroT (step' (step + 1)) nodes w.out).andThen (fun out => silent ((nodes.mapM (Node.interact R.stepInter)).map (fun nodes => ⟨nodes, out⟩))))

/-- the tracking part of the program after `k` iterations of the loop; src/teufel_hybrid.cpp:304-613 -/
noncomputable def runStepsT {σ ω} (R : Run σ ω) (start : Beam → Beam → ω → Traced ω) (step' : Nat → Beam → Beam → ω → Traced ω) (ms : List Beam) (s : σ) (out : ω) (k : Nat) :
    Traced (World σ ω) :=
  (setupRunT R start ms s out).andThen (fun w => loop (trackStepT R step') w (List.range k))

namespace Lib

/-- the output objects before tracking, src/teufel_hybrid.cpp:424-434, 464-495 -/
noncomputable def startOutT (p : Parsed) (J : Indet) : Beam → Beam → Output → Traced Output :=
  match p.beam.probe with
  | none => Output.startT J.traj J.fuel
  | some pr => Output.startProbeT J.traj J.fuel (toUnsigned pr.step) (toUnsigned pr.number)

/-- a file with computed contents; src/teufel_hybrid.cpp:653-791 -/
def fileT (r : Except Err (List OutFile)) : Traced (List OutFile) :=
  match r with
  | .error e => ⟨[], .error e⟩
  | .ok fs => ⟨fs, .ok fs⟩

/-- output and observation after the tracking, src/teufel_hybrid.cpp:653-791 -/
noncomputable def finishT (L : Lib) (doc : Xml) (p : Parsed) (w : World (List FEL) Output) : Traced Unit :=
  match w.nodes with
  | [] => silent (.error .ub)
  | root :: _ =>
    (each (fun nl : String × Logger => fileT ((nl.2.writeData root.master).map (fun d => [⟨nl.1, d⟩]))) (logFiles p |>.zip w.out.loggers)).andThen fun _ =>
    (each (fun fn => fileT (felOutput fn)) (root.inter.zip (felFiles doc))).andThen fun _ =>
    (silent (removeInteractions (2 * (p.lattice.lattice ++ interactionFields root.inter).length + 1) 0 (p.lattice.lattice ++ interactionFields root.inter))).andThen fun lattice =>
    (each (fun spec => fileT (L.observeSpec w lattice root.master spec)) p.observers.observers).andThen fun _ => silent (.ok ())

/-- what is known before the first particle is moved: the document as parsed, the beams of all nodes, the interactions and the loggers;
src/teufel_hybrid.cpp:184-303, see `program` -/
noncomputable def prelude (L : Lib) (rnd : Nat → (Nat → Nat → ℝ) × (Nat → Nat → Nat → ℝ)) (nodes : Nat) (doc : Xml) : Except Err (Parsed × List Beam × List FEL × List Logger) := do
  let parsed ← (List.range nodes).mapM (fun r : Nat => (L.withRandom (rnd r)).parse doc)
  match parsed with
  | [] => .error .ub
  | p :: _ =>
    let masters ← parsed.mapM masterBeam
    let m ← masterBeam p
    if p.tracking.NOTS < 0 then .error .range
    let s ← p.tracking.state.interactions.mapM id
    let loggers ← p.beam.logs.mapM (LogSpec.create m)
    return (p, masters, s, loggers)

/-- The program on `nodes` nodes as a sequence of writes; src/teufel_hybrid.cpp:74-829. -/
noncomputable def programT (L : Lib) (rnd : Nat → (Nat → Nat → ℝ) × (Nat → Nat → Nat → ℝ)) (J : Indet) (nodes : Nat) (doc : Xml) : Traced Unit :=
  (silent (L.prelude rnd nodes doc)).andThen fun (p, masters, s, loggers) =>
  (runStepsT (tracking p J nodes).run (startOutT p J) (Output.stepT J.traj J.fuel) masters s ⟨loggers, p.tracking.state.watches, []⟩ p.tracking.NOTS.toNat).andThen fun w =>
  L.finishT doc p w

end Lib
end Teufel
