import Verif.Model.Program
import Mathlib.Logic.Function.Basic

/-!
# Nodes running concurrently

The other parts of the model execute the nodes in lockstep: all nodes compute, then a collective operation takes place, then all
nodes go on.  Here every node is a program of its own (`Proc`) which computes, writes files and calls collective operations of MPI;
nodes run with arbitrary relative speed.  Model/Nodes gives the program of a node of `src/teufel_hybrid.cpp`.

Collective operations on `MPI_COMM_WORLD` are matched by the order in which each node calls them.  A node leaves an operation when
those nodes have entered it whose data it needs (the MPI standard does not promise more, except for the barrier):
* `MPI_Barrier`, `MPI_Allgather`: all nodes,
* `MPI_Bcast` with root 0: the root,
* `MPI_Reduce` with root 0: the root needs all nodes, the others need nobody.
-/

namespace Teufel

/-- a collective operation with the contribution of the calling node: `MPI_Barrier`, `MPI_Bcast` from rank 0 (the buffer of the
others is overwritten), `MPI_Allgather`, `MPI_Reduce` with `MPI_SUM` to rank 0; src/teufel_hybrid.cpp:101, 327, 530, 746 -/
inductive Call where
  | barrier
  | bcast (buf : List ℝ)
  | allgather (buf : List ℝ)
  | reduce (buf : List ℝ)

/-- the operation and the number of values, which have to be the same on all nodes; src/teufel_hybrid.cpp:101, 327, 530, 746 -/
inductive Call.Kind where
  | barrier
  | bcast (count : Nat)
  | allgather (count : Nat)
  | reduce (count : Nat)
  deriving DecidableEq

/-- operation and count of a call; src/teufel_hybrid.cpp:101, 327, 530, 746 -/
def Call.kind : Call → Call.Kind
  | .barrier => .barrier
  | .bcast buf => .bcast buf.length
  | .allgather buf => .allgather buf.length
  | .reduce buf => .reduce buf.length

/-- the values contributed; src/teufel_hybrid.cpp:327, 530, 746 -/
def Call.data : Call → List ℝ
  | .barrier => []
  | .bcast buf => buf
  | .allgather buf => buf
  | .reduce buf => buf

/-- the rest of the program of one node: finished, ended by an uncaught exception, a collective operation followed by what depends
on the values received, or a file written.  Computations between these are functions.  src/teufel_hybrid.cpp:74-829. -/
inductive Proc where
  | done
  | fail (e : Err)
  | call (c : Call) (next : List ℝ → Proc)
  | write (f : OutFile) (next : Proc)

/-- a computation that may end with an exception; src/teufel_hybrid.cpp:74-829 -/
def Proc.eval {α : Type} (x : Except Err α) (next : α → Proc) : Proc :=
  match x with
  | .ok a => next a
  | .error e => .fail e

/-- `MPI_Barrier`; src/teufel_hybrid.cpp:101, 153, 525, 540 and others -/
def Proc.barrier (next : Proc) : Proc := .call .barrier (fun _ => next)

/-- several barriers one after the other; src/teufel_hybrid.cpp:153-157, 226-230, 341-346 -/
def Proc.barriers : Nat → Proc → Proc
  | 0, next => next
  | n + 1, next => .barrier (.barriers n next)

/-- several files one after the other; src/teufel_hybrid.cpp:464-490, 656-661 -/
def Proc.writeAll (fs : List OutFile) (next : Proc) : Proc := fs.foldr Proc.write next

/-- a node during the run; a process started by `MPI_Init`, src/teufel_hybrid.cpp:77-82 -/
structure Rank where
  /-- what is still to be done; the first operation may have been entered already -/
  prog : Proc
  /-- the collective operations entered so far, in order -/
  posted : List Call
  /-- waiting in the last one -/
  inside : Bool
  /-- the files written so far, in order -/
  files : List OutFile

/-- all nodes; `MPI_COMM_WORLD`, src/teufel_hybrid.cpp:77-82 -/
abbrev Job (n : Nat) := Fin n → Rank

/-- the nodes at the start; src/teufel_hybrid.cpp:77-82 -/
def Job.start {n : Nat} (ps : Fin n → Proc) : Job n := fun i => ⟨ps i, [], false, []⟩

/-- node `i` cannot leave the operation before node `r` has entered it; src/teufel_hybrid.cpp:101, 327, 530, 746 -/
def Call.needs {n : Nat} (c : Call) (i r : Fin n) : Prop :=
  match c with
  | .barrier => True
  | .bcast _ => r.val = 0
  | .allgather _ => True
  | .reduce _ => i.val = 0

/-- the values node `i` receives if the nodes contribute `cs`.  The receive buffer of `MPI_Reduce` is not touched on nodes other than
the root, none of them reads it.  src/teufel_hybrid.cpp:327, 530, 746. -/
noncomputable def Call.deliver {n : Nat} (cs : Fin n → Call) (i : Fin n) : Call → List ℝ
  | .barrier => []
  | .bcast _ => (List.ofFn (fun r => (cs r).data)).headD []
  | .allgather _ => (List.ofFn (fun r => (cs r).data)).flatten
  | .reduce _ => if i.val = 0 then reduceSum (List.ofFn (fun r => (cs r).data)) else []

/-- the operation number `k` of all nodes, as far as entered; src/teufel_hybrid.cpp:101, 327, 530, 746 -/
def Job.round {n : Nat} (job : Job n) (k : Nat) : Fin n → Call := fun r => (job r).posted.getD k .barrier

/-- the next action of node `i`; src/teufel_hybrid.cpp:74-829 -/
inductive Job.Move {n : Nat} (job : Job n) (i : Fin n) : Rank → Prop
  | write {f p} (h : (job i).prog = .write f p) : Move job i { job i with prog := p, files := (job i).files ++ [f] }
  | enter {c next} (h : (job i).prog = .call c next) (out : (job i).inside = false) :
      Move job i { job i with posted := (job i).posted ++ [c], inside := true }
  | leave {c next k} (h : (job i).prog = .call c next) (inn : (job i).inside = true) (last : (job i).posted.length = k + 1)
      (ready : ∀ r, c.needs i r → k < (job r).posted.length) :
      Move job i { job i with prog := next (c.deliver (job.round k) i), inside := false }

/-- one of the nodes acts; src/teufel_hybrid.cpp:74-829 -/
def Job.Step {n : Nat} (job job' : Job n) : Prop := ∃ i r, job.Move i r ∧ job' = Function.update job i r

/-- `k` actions in any order; src/teufel_hybrid.cpp:74-829 -/
inductive Job.Steps {n : Nat} : Nat → Job n → Job n → Prop
  | zero (job) : Steps 0 job job
  | succ {k job job' job''} (h : Job.Step job job') (h' : Steps k job' job'') : Steps (k + 1) job job''

end Teufel
