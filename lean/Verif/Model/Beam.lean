import Verif.Model.Bunch

/-!
# Beams and probe loggers

Models `src/beam.cpp` / `src/beam.h` (file output is in `Verif.Model.SDDS`).
-/

namespace Teufel
open Vec

/-- enum of tracking methods, src/beam.h:34 -/
inductive Tracker | none | euler | vay
  deriving DecidableEq

/-- class `Beam`, src/beam.h:48-311 -/
structure Beam where
  NOB : Nat
  B : List Bunch
  NOTS : Int
  dt : ℝ
  tracker : Tracker

/-- result of a mutating method; the exceptions of src/beam.cpp:106-183 -/
abbrev BeamRes := Except (Err × Beam) Beam

namespace Beam

/-- default constructor, src/beam.cpp:31-37 -/
noncomputable def empty : Beam := ⟨0, [], 0, 0, .none⟩

/-- wrap the bunch array of a beam; the methods of src/beam.cpp:61-184 forwarded to all bunches -/
def wrap (b : Beam) : Except (Err × List Bunch) (List Bunch) → BeamRes
  | .ok bs => .ok { b with B := bs }
  | .error (e, bs) => .error (e, { b with B := bs })

/-- `Add`, src/beam.cpp:45-49 -/
def Add (b : Beam) (bunch : Bunch) : Beam := { b with NOB := b.NOB + 1, B := b.B ++ [bunch] }

/-- `clear`, src/beam.cpp:51-59 -/
def clear (b : Beam) : Beam := { b with NOB := 0, NOTS := 0, B := [] }

/-- `clearTrajectories`, src/beam.cpp:61-66 -/
def clearTrajectories (b : Beam) : BeamRes :=
  { b with NOTS := 0 }.wrap (forEach Bunch.clearTrajectories b.NOB b.B)

/-- `preAllocate`, src/beam.cpp:68-72 -/
def preAllocate (b : Beam) (n : Int) : BeamRes := b.wrap (forEach (fun bu => bu.preAllocate n) b.NOB b.B)

/-- `getBunch`, src/beam.cpp:74-79 -/
def getBunch (b : Beam) (i : Int) : Except Err (Option Bunch) :=
  if i ≥ 0 ∧ i < b.NOB then (Particle.vecAt b.B i.toNat).map some else .ok none

/-- `getNOB`, src/beam.cpp:81-84 -/
def getNOB (b : Beam) : Nat := b.NOB

/-- `getNOP`, src/beam.cpp:86-94 -/
def getNOP (b : Beam) : Except Err Nat :=
  (visited b.NOB b.B).map (fun bs => bs.foldl (fun (n : Nat) (bu : Bunch) => n + bu.getNOP) 0)

/-- `getTotalCharge`, src/beam.cpp:96-104 -/
noncomputable def getTotalCharge (b : Beam) : Except Err ℝ := do
  let bs ← visited b.NOB b.B
  bs.foldlM (fun (c : ℝ) (bu : Bunch) => bu.getTotalCharge.map (fun q => c + q)) 0

/-- `InitVay`, src/beam.cpp:143-150 -/
noncomputable def InitVay (b : Beam) (field : FieldFn) : BeamRes :=
  { b with NOTS := 0 }.wrap (forEach (fun bu => bu.InitVay b.dt field) b.NOB b.B)

/-- `StepVay`, src/beam.cpp:152-158 -/
noncomputable def StepVay (b : Beam) (field : FieldFn) : BeamRes :=
  b.wrap (forEach (fun bu => bu.StepVay field) b.NOB b.B)

/-- `setupTracking`, src/beam.cpp:106-122 -/
noncomputable def setupTracking (b : Beam) (field : FieldFn) : BeamRes :=
  match b.tracker with
  | .none => .error (.io, b)
  | .euler => .error (.io, b)
  | .vay => b.InitVay field

/-- `doStep`, src/beam.cpp:124-141 -/
noncomputable def doStep (b : Beam) (field : FieldFn) : BeamRes :=
  let b := { b with NOTS := b.NOTS + 1 }
  match b.tracker with
  | .none => .error (.io, b)
  | .euler => .error (.io, b)
  | .vay => b.StepVay field

/-- `getStepBufferSize`, src/beam.cpp:160-163 -/
def getStepBufferSize (b : Beam) : Except Err Nat := b.getNOP.map (· * 10)

/-- `bufferStep`, src/beam.cpp:165-173: the values written, in order -/
def bufferStep (b : Beam) : Except Err (List ℝ) := do
  let bs ← visited b.NOB b.B
  let recs ← bs.mapM Bunch.bufferStep
  return recs.flatten

/-- the loop of `setStepFromBuffer`, src/beam.cpp:178-182 -/
def setLoop : Nat → List Bunch → List ℝ → Except Err (List Bunch × List ℝ)
  | 0, bs, buf => .ok (bs, buf)
  | n + 1, b :: bs, buf => do
    let (b', rest) ← b.setStepFromBuffer buf
    let (bs', rest') ← setLoop n bs rest
    return (b' :: bs', rest')
  | _ + 1, [], _ => .error .ub

/-- `setStepFromBuffer`, src/beam.cpp:175-184 -/
def setStepFromBuffer (b : Beam) (buf : List ℝ) : Except Err Beam := do
  let (bs, _) ← setLoop b.NOB b.B buf
  return { b with B := bs, NOTS := b.NOTS + 1 }

/-- `getProbeBufferSize`, src/beam.cpp:186-192 with src/particle.h `getProbeBufferSize` = 16 -/
def getProbeBufferSize (number : Nat) : Nat := number * 16

/-- the loop of `bufferProbe`, src/beam.cpp:200-218, with `k` particles still to be written.  The loop has no
bound of its own: `fuel` iterations are executed at most, `Err.diverge` reports that the loop is still running. -/
def probeLoop (b : Beam) : Nat → Nat → Nat → Nat → Except Err (List ℝ)
  | _, _, _, 0 => .ok []
  | 0, _, _, _ + 1 => .error .diverge
  | fuel + 1, ib, ii, k + 1 =>
    match b.B[ib]? with
    | none => .error .ub
    | some bu =>
      let ib' := if ib + 1 = b.NOB then 0 else ib + 1
      let ii' := if ib + 1 = b.NOB then ii + 1 else ii
      if ii < bu.getNOP then
        match bu.getParticle ii with
        | .ok (some p) => (probeLoop b fuel ib' ii' k).map (fun rest => p.bufferProbe ++ rest)
        | .ok none => .error .ub
        | .error e => .error e
      else probeLoop b fuel ib' ii' (k + 1)

/-- `bufferProbe`, src/beam.cpp:194-219: the values written -/
def bufferProbe (b : Beam) (number fuel : Nat) : Except Err (List ℝ) := b.probeLoop fuel 0 0 number

/-- `RetardedField`, src/beam.cpp:433-441 -/
noncomputable def RetardedField (b : Beam) (t : ℝ) (X : Vec) : Except Err EMField := do
  let bs ← visited b.NOB b.B
  bs.foldlM (fun (s : EMField) (bu : Bunch) => (bu.RetardedField t X).map (fun f => s + f)) 0

/-- `integrateFieldTrace`, src/beam.cpp:443-450 -/
noncomputable def integrateFieldTrace (b : Beam) (X : Vec) (tr : FieldTrace) : Except Err FieldTrace := do
  let bs ← visited b.NOB b.B
  bs.foldlM (fun (tr : FieldTrace) (bu : Bunch) => bu.integrateFieldTrace X tr) tr

end Beam
end Teufel
