import Verif.Model.Observers

/-!
# Parallel loops

The loops of the observers are executed by OpenMP threads.  A thread executes some of the loop iterations one after
the other, the iterations of different threads run concurrently.  This file describes all possible executions.

The iterations modify the shared counter with an atomic instruction (src/screen.cpp:126) and the trace of their own
cell.  All other data are only read; the times `now` and `print_time` are only used by one thread for console output
(not modelled).
-/

namespace Teufel

/-- one atomic step of a loop iteration; the loops of src/screen.cpp:118-145, src/snapshot.cpp:72-102, src/mesh.cpp:289-373 -/
inductive Event (κ τ : Type) where
  /-- `#pragma omp atomic counter++`, src/screen.cpp:126 -/
  | count
  /-- some part of the work on cell `k` -/
  | cell (k : κ) (f : τ → Except Err τ)

/-- `evs` is an interleaving of the step lists `ls`: at any time one of the lists makes its next step, until all
have ended.  (Executing some of the iterations in the same thread, or waiting at barriers, restricts the
interleavings.); parallel loops of src/screen.cpp:113-218, src/snapshot.cpp:72-102, src/mesh.cpp:289-373 -/
inductive Interleave {α : Type} : List (List α) → List α → Prop
  | done {ls} (h : ∀ l ∈ ls, l = []) : Interleave ls []
  | step {ls : List (List α)} {i : Nat} {a : α} {rest evs} (h : ls[i]? = some (a :: rest)) (h' : Interleave (ls.set i rest) evs) :
      Interleave ls (a :: evs)

/-- the effect of one step on a shared memory with the given access functions and on the counter; src/screen.cpp:113-218, src/snapshot.cpp:72-102, src/mesh.cpp:289-373 -/
def execEvent {S κ τ} (get : S → κ → Except Err τ) (put : S → κ → τ → S) (sn : S × Nat) : Event κ τ → Except Err (S × Nat)
  | .count => .ok (sn.1, sn.2 + 1)
  | .cell k f => do
    let v ← get sn.1 k
    let v ← f v
    return (put sn.1 k v, sn.2)

/-- the steps of one iteration whose work is done in the given parts, src/screen.cpp:125-129 -/
def iteration {κ τ} (k : κ) (parts : List (τ → Except Err τ)) : List (Event κ τ) :=
  .count :: parts.map (Event.cell k)

/-- `ScreenObserver::integrate`, src/screen.cpp:112-218, executed with schedule `evs` -/
noncomputable def Screen.runSchedule (s : Screen) (evs : List (Event (Nat × Nat) FieldTrace)) : Except Err (Screen × Nat) :=
  (evs.foldlM (execEvent (fun g (c : Nat × Nat) => gridAt g c.1 c.2) (fun g c => gridSet g c.1 c.2)) (s.Traces, 0)).map
    (fun r => ({ s with Traces := r.1 }, r.2))

/-- `SnapshotObserver::integrate`, src/snapshot.cpp:71-102, executed with schedule `evs` (there is no counter) -/
noncomputable def Snapshot.runSchedule (s : Snapshot) (evs : List (Event (Nat × Nat) EMField)) : Except Err Snapshot :=
  (evs.foldlM (execEvent (fun g (c : Nat × Nat) => gridAt g c.1 c.2) (fun g c => gridSet g c.1 c.2)) (s.FieldArray, 0)).map
    (fun r => { s with FieldArray := r.1 })

/-- `MeshedScreen::integrate`, src/mesh.cpp:288-373, executed with schedule `evs` -/
noncomputable def MeshObs.runSchedule (s : MeshObs) (evs : List (Event Nat FieldTrace)) : Except Err (MeshObs × Nat) :=
  (evs.foldlM (execEvent MeshObs.at' List.set) (s.A, 0)).map (fun r => ({ s with A := r.1 }, r.2))

end Teufel
