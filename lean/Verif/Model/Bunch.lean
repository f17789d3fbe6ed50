import Verif.Model.Retarded
import Mathlib.Analysis.Complex.Exponential

/-!
# Phase space distributions and bunches

Models `src/bunch.cpp` / `src/bunch.h` (the SDDS file import and export are in `Verif.Model.SDDS`).
Simplifications: C `int`s are unbounded; a bunch owns its particles (pointers to particles are values, a
particle is never a member of two bunches).
-/

namespace Teufel
open Vec

/-- `l[i] = f(l[i])` on a raw array: writing outside is undefined behaviour; as in src/bunch.cpp:63-140 -/
def updateAt {α} (l : List α) (i : Nat) (f : α → α) : Except Err (List α) :=
  match l[i]? with
  | some a => .ok (l.set i (f a))
  | none => .error .ub

/-- class `Distribution`, src/bunch.h:52-138: `A` is the row-major array of `DIM*NOP` doubles -/
structure Distribution where
  DIM : Nat
  NOP : Nat
  A : List ℝ

namespace Distribution

/-- constructor, src/bunch.cpp:34-46.  `rnd i` is the i-th random number.
Simplification: negative arguments (which fail in `new`) are excluded by the types. -/
noncomputable def new (rnd : Nat → ℝ) (dim nop : Nat) : Distribution :=
  ⟨dim, nop, (List.range (dim * nop)).map rnd⟩

/-- the loop of `scale`, src/bunch.cpp:67-68, for the first `n` particles -/
noncomputable def scaleLoop (DIM dim : Nat) (factor : ℝ) (n : Nat) (A : List ℝ) : Except Err (List ℝ) :=
  (List.range n).foldlM (fun (A : List ℝ) (i : Nat) => updateAt A (i * DIM + dim) (· * factor)) A

/-- `scale`, src/bunch.cpp:63-70 -/
noncomputable def scale (d : Distribution) (dim : Int) (factor : ℝ) : Except Err Distribution :=
  if dim ≥ 0 ∧ dim < d.DIM then
    (scaleLoop d.DIM dim.toNat factor d.NOP d.A).map (fun A => { d with A := A })
  else .ok d

/-- `generateGaussian`, src/bunch.cpp:72-84; `rnd i` is the i-th number drawn -/
noncomputable def generateGaussian (rnd : Nat → ℝ) (d : Distribution) (dim : Int) : Except Err Distribution :=
  if dim ≥ 0 ∧ dim < d.DIM then
    ((List.range d.NOP).foldlM (fun (A : List ℝ) (i : Nat) => updateAt A (i * d.DIM + dim.toNat) (fun _ => rnd i)) d.A).map
      (fun A => { d with A := A })
  else .ok d

/-- body of the loop of `addCorrelation`, src/bunch.cpp:92 -/
noncomputable def corrBody (DIM ind dep : Nat) (factor : ℝ) (A : List ℝ) (i : Nat) : Except Err (List ℝ) := do
  let a ← Particle.vecAt A (i * DIM + ind)
  updateAt A (i * DIM + dep) (· + factor * a)

/-- `addCorrelation`, src/bunch.cpp:86-94 -/
noncomputable def addCorrelation (d : Distribution) (independent dependent : Int) (factor : ℝ) : Except Err Distribution :=
  if independent ≥ 0 ∧ independent < d.DIM ∧ dependent ≥ 0 ∧ dependent < d.DIM ∧ dependent ≠ independent then
    ((List.range d.NOP).foldlM (corrBody d.DIM independent.toNat dependent.toNat factor) d.A).map
      (fun A => { d with A := A })
  else .ok d

/-- `getCoordinate`, src/bunch.cpp:96-102 -/
noncomputable def getCoordinate (d : Distribution) (index dim : Int) : Except Err ℝ :=
  if dim ≥ 0 ∧ dim < d.DIM ∧ index ≥ 0 ∧ index < d.NOP then Particle.vecAt d.A (index.toNat * d.DIM + dim.toNat)
  else .ok 0

/-- `setCoordinate`, src/bunch.cpp:104-108 -/
noncomputable def setCoordinate (d : Distribution) (index dim : Int) (value : ℝ) : Except Err Distribution :=
  if dim ≥ 0 ∧ dim < d.DIM ∧ index ≥ 0 ∧ index < d.NOP then
    (updateAt d.A (index.toNat * d.DIM + dim.toNat) (fun _ => value)).map (fun A => { d with A := A })
  else .ok d

/-- `bufferData`, src/bunch.cpp:110-120: the values copied into a buffer of `bufsize` doubles -/
noncomputable def bufferData (d : Distribution) (bufsize : Int) : Except Err (List ℝ) :=
  if bufsize = ((d.DIM * d.NOP : Nat) : Int) then .ok d.A else .error .io

/-- `fromBuffer`, src/bunch.cpp:122-132; a buffer shorter than announced is undefined behaviour -/
noncomputable def fromBuffer (d : Distribution) (buffer : List ℝ) (bufsize : Int) : Except Err Distribution :=
  if bufsize = ((d.DIM * d.NOP : Nat) : Int) then
    if d.DIM * d.NOP ≤ buffer.length then .ok { d with A := buffer.take (d.DIM * d.NOP) } else .error .ub
  else .error .io

/-- body of the copy loop of `subDist`, src/bunch.cpp:140 -/
noncomputable def subBody (d : Distribution) (index : Int) (sub : Distribution) (ik : Nat × Nat) : Except Err Distribution := do
  let v ← d.getCoordinate (index + ik.1) ik.2
  sub.setCoordinate ik.1 ik.2 v

/-- `subDist`, src/bunch.cpp:134-143 (`number` non-negative) -/
noncomputable def subDist (rnd : Nat → ℝ) (d : Distribution) (index : Int) (number : Nat) : Except Err Distribution :=
  ((List.range number).flatMap (fun i : Nat => (List.range d.DIM).map (fun k : Nat => (i, k)))).foldlM
    (d.subBody index) (new rnd d.DIM number)

end Distribution

/-- class `Bunch`, src/bunch.h:156-416 -/
structure Bunch where
  NOP : Nat
  P : List Particle

/-- result of a mutating method: exceptions leave a partially modified object; as in src/bunch.cpp:363-536 -/
abbrev BRes := Except (Err × Bunch) Bunch

/-- loop `for (i=0; i<n; i++) f(P[i])` over an array of objects: stops at the first exception; an index
outside the vector is undefined behaviour; as in src/bunch.cpp:428-486 -/
def forEach {α} (f : α → Except (Err × α) α) : Nat → List α → Except (Err × List α) (List α)
  | 0, ps => .ok ps
  | _ + 1, [] => .error (.ub, [])
  | n + 1, p :: ps =>
    match f p with
    | .error (e, p') => .error (e, p' :: ps)
    | .ok p' =>
      match forEach f n ps with
      | .ok ps' => .ok (p' :: ps')
      | .error (e, ps') => .error (e, p' :: ps')

/-- the objects visited by a reading loop `for (i=0; i<n; i++) ... P[i] ...`; as in src/bunch.cpp:445-453, 538-631 -/
def visited {α} (n : Nat) (l : List α) : Except Err (List α) :=
  if n ≤ l.length then .ok (l.take n) else .error .ub

namespace Bunch

/-- wrap the particle array of a bunch; `std::vector<ChargedParticle*> P` of src/bunch.h:410-418 -/
def wrap (b : Bunch) : Except (Err × List Particle) (List Particle) → BRes
  | .ok ps => .ok { b with P := ps }
  | .error (e, ps) => .error (e, { b with P := ps })

/-- default constructor, src/bunch.cpp:145-148 -/
def empty : Bunch := ⟨0, []⟩

/-- constructor of `N` equal particles, src/bunch.cpp:150-157 (`N` non-negative) -/
noncomputable def ofCount (N : Nat) (charge mass : ℝ) : Bunch := ⟨N, List.replicate N (Particle.new charge mass)⟩

/-- copy constructor, src/bunch.cpp:159-166 -/
noncomputable def copy (o : Bunch) : Except Err Bunch :=
  (visited o.NOP o.P).map (fun ps => ⟨o.NOP, ps.map Particle.copy⟩)

/-- one particle created from a distribution, src/bunch.cpp:173-185 -/
noncomputable def distParticle (d : Distribution) (reftime : ℝ) (refpos refmom : Vec) (charge mass : ℝ) (i : Nat) :
    Except Err Particle := do
  let t ← d.getCoordinate i 6
  let x ← d.getCoordinate i 0
  let y ← d.getCoordinate i 1
  let z ← d.getCoordinate i 2
  let px ← d.getCoordinate i 3
  let py ← d.getCoordinate i 4
  let pz ← d.getCoordinate i 5
  return (Particle.new charge mass).initTrajectory (reftime + t) (refpos + ⟨x, y, z⟩) (refmom + ⟨px, py, pz⟩) 0

/-- constructor from a distribution, src/bunch.cpp:168-187 -/
noncomputable def ofDist (d : Distribution) (reftime : ℝ) (refpos refmom : Vec) (charge mass : ℝ) : Except Err Bunch :=
  ((List.range d.NOP).mapM (distParticle d reftime refpos refmom charge mass)).map (fun ps => ⟨d.NOP, ps⟩)

/-- `Add`, src/bunch.cpp:357-361 -/
def Add (b : Bunch) (p : Particle) : Bunch := ⟨b.NOP + 1, b.P ++ [p]⟩

/-- `getNOP`, src/bunch.cpp:440-443 -/
def getNOP (b : Bunch) : Nat := b.NOP

/-- `getParticle`, src/bunch.cpp:455-460: `none` is the NULL pointer -/
def getParticle (b : Bunch) (i : Int) : Except Err (Option Particle) :=
  if i ≥ 0 ∧ i < b.NOP then (Particle.vecAt b.P i.toNat).map some else .ok none

/-- `replaceParticle`, src/bunch.cpp:462-469 -/
def replaceParticle (b : Bunch) (i : Int) (p : Particle) : Except Err Bunch :=
  if i ≥ 0 ∧ i < b.NOP then (updateAt b.P i.toNat (fun _ => p)).map (fun ps => { b with P := ps }) else .ok b

/-- `getTotalCharge`, src/bunch.cpp:445-453 -/
noncomputable def getTotalCharge (b : Bunch) : Except Err ℝ :=
  (visited b.NOP b.P).map (fun ps => ps.foldl (fun (c : ℝ) (p : Particle) => c + p.getCharge) 0)

/-- the `switch` reading one of the six coordinates, src/bunch.cpp:375-383,395-412 (`ind = 0.0` before) -/
noncomputable def coord (k : Int) (X P : Vec) : ℝ :=
  if k = 0 then X.x else if k = 1 then X.y else if k = 2 then X.z
  else if k = 3 then P.x else if k = 4 then P.y else if k = 5 then P.z else 0

/-- the `switch` writing one of the six coordinates, src/bunch.cpp:414-422 -/
noncomputable def setCoord (k : Int) (X P : Vec) (v : ℝ) : Vec × Vec :=
  if k = 0 then ({ X with x := v }, P) else if k = 1 then ({ X with y := v }, P) else if k = 2 then ({ X with z := v }, P)
  else if k = 3 then (X, { P with x := v }) else if k = 4 then (X, { P with y := v })
  else if k = 5 then (X, { P with z := v }) else (X, P)

/-- one term of the mean, src/bunch.cpp:372-383 -/
noncomputable def corrTerm (independent : Int) (p : Particle) : Except Err ℝ := do
  let X0 ← p.TrajPoint 0
  let P0 ← p.TrajMomentum 0
  return coord independent X0 P0

/-- the second loop body of `addCorrelation`, src/bunch.cpp:388-423 -/
noncomputable def corrParticle (independent dependent : Int) (factor mean : ℝ) (p : Particle) : PRes :=
  match p.TrajTime 0, p.TrajPoint 0, p.TrajMomentum 0, p.TrajAccel 0 with
  | .ok t0, .ok X0, .ok P0, .ok A0 =>
    let XP := setCoord dependent X0 P0 (coord dependent X0 P0 + factor * (coord independent X0 P0 - mean))
    .ok (p.initTrajectory t0 XP.1 XP.2 A0)
  | .error e, _, _, _ => .error (e, p)
  | _, .error e, _, _ => .error (e, p)
  | _, _, .error e, _ => .error (e, p)
  | _, _, _, .error e => .error (e, p)

/-- mean of one coordinate over the bunch, src/bunch.cpp:369-385.  For an empty bunch this is 0/0, but then
the value is not used. -/
noncomputable def corrMean (b : Bunch) (independent : Int) : Except Err ℝ := do
  let ps ← visited b.NOP b.P
  let terms ← ps.mapM (corrTerm independent)
  return terms.sum / b.NOP

/-- `addCorrelation`, src/bunch.cpp:363-426 -/
noncomputable def addCorrelation (b : Bunch) (independent dependent : Int) (factor : ℝ) : BRes :=
  if independent ≥ 0 ∧ independent < 6 ∧ dependent ≥ 0 ∧ dependent < 6 ∧ dependent ≠ independent then
    match b.corrMean independent with
    | .error e => .error (e, b)
    | .ok mean => b.wrap (forEach (corrParticle independent dependent factor mean) b.NOP b.P)
  else .ok b

/-- `clearTrajectories`, src/bunch.cpp:428-432 -/
def clearTrajectories (b : Bunch) : BRes := b.wrap (forEach (fun p => .ok p.clearTrajectory) b.NOP b.P)

/-- `preAllocate`, src/bunch.cpp:434-438 -/
def preAllocate (b : Bunch) (n : Int) : BRes := b.wrap (forEach (fun p => .ok (p.preAllocate n)) b.NOP b.P)

/-- `InitVay`, src/bunch.cpp:471-478 -/
noncomputable def InitVay (b : Bunch) (tstep : ℝ) (field : FieldFn) : BRes :=
  b.wrap (forEach (fun p => p.InitVay tstep field) b.NOP b.P)

/-- `StepVay`, src/bunch.cpp:480-486 -/
noncomputable def StepVay (b : Bunch) (field : FieldFn) : BRes :=
  b.wrap (forEach (fun p => p.StepVay field) b.NOP b.P)

/-- the ten values written per particle, src/bunch.cpp:494-507 -/
def stepRecord (p : Particle) : List ℝ :=
  [p.tCur] ++ Particle.comps p.XCur ++ Particle.comps p.PCur ++ Particle.comps p.ACur

/-- `bufferStep`, src/bunch.cpp:488-510: the values written, in order -/
def bufferStep (b : Bunch) : Except Err (List ℝ) := (visited b.NOP b.P).map (fun ps => ps.flatMap stepRecord)

/-- the loop of `setStepFromBuffer`, src/bunch.cpp:518-534: updated particles and the rest of the buffer.
Reading past the end of the buffer is undefined behaviour. -/
def setLoop : Nat → List Particle → List ℝ → Except Err (List Particle × List ℝ)
  | 0, ps, buf => .ok (ps, buf)
  | n + 1, p :: ps, t :: x :: y :: z :: px :: py :: pz :: ax :: ay :: az :: rest => do
    let (ps', rest') ← setLoop n ps rest
    return (((p.setCurrentPoint t ⟨x, y, z⟩ ⟨px, py, pz⟩ ⟨ax, ay, az⟩).storeTrajectoryPoint
      t ⟨x, y, z⟩ ⟨px, py, pz⟩ ⟨ax, ay, az⟩) :: ps', rest')
  | _ + 1, _, _ => .error .ub

/-- `setStepFromBuffer`, src/bunch.cpp:512-536: the updated bunch and the unread rest of the buffer -/
def setStepFromBuffer (b : Bunch) (buf : List ℝ) : Except Err (Bunch × List ℝ) := do
  let (ps, rest) ← setLoop b.NOP b.P buf
  return ({ b with P := ps }, rest)

/-- the mean computed by all statistics below; `NOP = 0` divides by zero; src/bunch.cpp:538-612 -/
noncomputable def mean (b : Bunch) (f : Particle → ℝ) : Except Err ℝ := do
  let ps ← visited b.NOP b.P
  if b.NOP = 0 then .error .nan
  else return (ps.foldl (fun (s : ℝ) (p : Particle) => s + f p) 0) / b.NOP

/-- vector valued mean; src/bunch.cpp:545-571 -/
noncomputable def meanVec (b : Bunch) (f : Particle → Vec) : Except Err Vec := do
  let ps ← visited b.NOP b.P
  if b.NOP = 0 then .error .nan
  else return (ps.foldl (fun (s : Vec) (p : Particle) => s + f p) (0 : Vec)) * (1 / (b.NOP : ℝ))

/-- `avgTime`, src/bunch.cpp:538-543 -/
noncomputable def avgTime (b : Bunch) : Except Err ℝ := b.mean (fun p => p.tCur)

/-- `avgPosition`, src/bunch.cpp:545-550 -/
noncomputable def avgPosition (b : Bunch) : Except Err Vec := b.meanVec (fun p => p.XCur)

/-- `rmsPosition`, src/bunch.cpp:552-563 (the division by `NOP` is written as multiplication with `1/NOP`) -/
noncomputable def rmsPosition (b : Bunch) : Except Err Vec := do
  let m ← b.avgPosition
  (b.meanVec (fun p => (p.XCur - m).square)).map Vec.root

/-- `avgMomentum`, src/bunch.cpp:565-571 -/
noncomputable def avgMomentum (b : Bunch) : Except Err Vec := b.meanVec (fun p => p.PCur)

/-- `avgGamma`, src/bunch.cpp:573-584 -/
noncomputable def avgGamma (b : Bunch) : Except Err ℝ :=
  b.mean (fun p => Real.sqrt (p.PCur.norm * p.PCur.norm + 1))

open Classical in
/-- `delta`, src/bunch.cpp:586-599; a bunch at rest divides by zero -/
noncomputable def delta (b : Bunch) : Except Err ℝ := do
  let avg ← b.mean (fun p => p.PCur.norm)
  let s ← b.mean (fun p => (p.PCur.norm - avg) * (p.PCur.norm - avg))
  if avg = 0 then .error .nan else return Real.sqrt s / avg

/-- `BunchingFactor`, src/bunch.cpp:601-612 -/
noncomputable def BunchingFactor (b : Bunch) (freq : ℝ) : Except Err ℂ := do
  let ps ← visited b.NOP b.P
  if b.NOP = 0 then .error .nan
  else return (1 / (b.NOP : ℂ)) * (ps.foldl (fun (s : ℂ) (p : Particle) => s +
    Complex.exp (2 * (Pi : ℂ) * Complex.I * freq * p.XCur.z / SpeedOfLight)) 0)

/-- `bufferCoordinates`, src/bunch.cpp:614-631: the values written for a buffer holding `size` particles.
Simplification: `size` is non-negative (a negative size writes nothing). -/
def bufferCoordinates (b : Bunch) (size : Nat) : Except Err (List ℝ) :=
  (visited (if b.NOP > size then size else b.NOP) b.P).map
    (fun ps => ps.flatMap (fun p => Particle.comps p.XCur ++ Particle.comps p.PCur))

/-- `RetardedField`, src/bunch.cpp:729-737 -/
noncomputable def RetardedField (b : Bunch) (t : ℝ) (X : Vec) : Except Err EMField := do
  let ps ← visited b.NOP b.P
  ps.foldlM (fun (s : EMField) (p : Particle) => (p.RetardedFieldAt t X).map (fun f => s + f)) 0

/-- `integrateFieldTrace`, src/bunch.cpp:739-745 -/
noncomputable def integrateFieldTrace (b : Bunch) (X : Vec) (tr : FieldTrace) : Except Err FieldTrace := do
  let ps ← visited b.NOP b.P
  ps.foldlM (fun (tr : FieldTrace) (p : Particle) => p.integrateFieldTrace X tr) tr

end Bunch
end Teufel
