import Verif.Model.SourceScreen

/-!
# Meshed screens: files, geometry, energy

Models `src/mesh.cpp` / `src/mesh.h` except for the recording of fields (`MeshObs` in `Verif.Model.Observers`).
-/

namespace Teufel

open Vec

/-- `tri_ref`, src/mesh.h:35-39 -/
structure Tri where
  p1 : Int
  p2 : Int
  p3 : Int
  deriving DecidableEq, Repr

/-- the dataset `ObservationTime` with its attributes, src/mesh.h:88-92 -/
structure MeshTiming where
  Nt : Option Nat
  dt : Option ℝ
  t0 : List ℝ

/-- Contents of an HDF5 file of a mesh, src/mesh.h:72-97.  A missing attribute or dataset is `none`; a missing
dataset of corner points or positions is a missing attribute.  The numbers are read as `int`; the model assumes that
they are not negative (allocating a negative number of objects throws). -/
structure MeshFile where
  Ncp : Option Nat
  corners : List Vec
  Np : Option Nat
  points : List Vec
  triangles : Option (List Tri)
  time : Option MeshTiming
  field : Option (List EMField)

/-- class `MeshedScreen`, src/mesh.h:222-262, without the results of `init` -/
structure Mesh where
  Ncp : Nat
  Np : Nat
  Nt : Nat
  dt : ℝ
  corners : List Vec
  triangles : List Tri
  points : List Vec
  A : List FieldTrace

/-- the results of `init`, src/mesh.h:248-257.  A vector obtained by normalising the null vector is NaN. -/
structure MeshGeometry where
  area : List ℝ
  totalArea : ℝ
  normal : List (Except Err Vec)
  xi : List (Except Err Vec)
  eta : List (Except Err Vec)

namespace Mesh

/-- `H5Dread` of a whole dataset into an array of `n` objects that are zero before, src/mesh.cpp:51-60, 79-88,
195-204: more data than that are written behind the end of the array -/
def readInto {α : Type} (zero : α) (n : Nat) (data : List α) : Except Err (List α) :=
  if data.length ≤ n then .ok (data ++ List.replicate (n - data.length) zero) else .error .ub

/-- `H5Dread` of a whole dataset into an uninitialised array of `n` numbers, src/mesh.cpp:98-107, 154-163: in the
case of less data the rest of the array is indeterminate -/
def readRaw {α : Type} (n : Nat) (data : List α) : Except Err (List α) :=
  if data.length = n then .ok data else .error .ub

/-- the traces created by the constructor, src/mesh.cpp:122-181: number of samples, time step, traces -/
noncomputable def readTiming (Np : Nat) (time : Option MeshTiming) : Except Err (Nat × ℝ × List FieldTrace) :=
  match time with
  | none => .ok (0, 0, List.replicate Np (FieldTrace.new 0 0 0))
  | some tm => do
    let Nt ← SourceScreen.required tm.Nt
    let dt ← SourceScreen.required tm.dt
    let t0s ← readRaw Np tm.t0
    return (Nt, dt, t0s.map (fun t0 => FieldTrace.new t0 dt Nt))

/-- the field dataset, src/mesh.cpp:183-215; the pointer `buf` is written as an offset.  The number of fields is
computed as `int`. -/
noncomputable def readFields (Np Nt : Nat) (A : List FieldTrace) (field : Option (List EMField)) : Except Err (List FieldTrace) :=
  match field with
  | none => .ok A
  | some data => do
    if Np * Nt ≥ 2 ^ 31 then throw .ub
    let buf ← readInto (0 : EMField) (Np * Nt) data
    A.zipIdx.mapM (fun ti : FieldTrace × Nat => ti.1.setBuffer (buf.drop (ti.2 * Nt)) Nt)

/-- constructor, src/mesh.cpp:30-221 -/
noncomputable def ofFile (f : MeshFile) : Except Err Mesh := do
  let Ncp ← SourceScreen.required f.Ncp
  let corners ← readInto (0 : Vec) Ncp f.corners
  let Np ← SourceScreen.required f.Np
  let points ← readInto (0 : Vec) Np f.points
  let tris ← SourceScreen.required f.triangles
  let triangles ← readRaw Np tris
  let tm ← readTiming Np f.time
  let A ← readFields Np tm.1 tm.2.2 f.field
  return { Ncp := Ncp, Np := Np, Nt := tm.1, dt := tm.2.1, corners := corners, triangles := triangles, points := points, A := A }

/-- `writeFile`, src/mesh.cpp:427-736.  The buffer for the fields has room for `Np*Nt*6` numbers; the file gets exactly
that many.  Not modelled: the attribute `Ntri`, which no one reads, and failures of single HDF5 calls. -/
def writeFile (m : Mesh) : Except Err MeshFile := do
  let corners ← (List.range m.Ncp).mapM (fun i : Nat => Particle.vecAt m.corners i)
  let points ← (List.range m.Np).mapM (fun i : Nat => Particle.vecAt m.points i)
  let tris ← (List.range m.Np).mapM (fun i : Nat => Particle.vecAt m.triangles i)
  let traces ← (List.range m.Np).mapM (fun i : Nat => Particle.vecAt m.A i)
  if m.Np * m.Nt * 6 ≥ 2 ^ 31 then throw .ub
  let fs ← traces.mapM (fun tr => (List.range tr.N).mapM tr.getField)
  if fs.flatten.length ≠ m.Np * m.Nt then throw .ub
  return { Ncp := some m.Ncp, corners := corners, Np := some m.Np, points := points, triangles := some tris,
           time := some { Nt := some m.Nt, dt := some m.dt, t0 := traces.map (fun tr => tr.t0) },
           field := some fs.flatten }

/-- `zero`, src/mesh.cpp:281-286 -/
noncomputable def zero (m : Mesh) : Mesh := { m with A := m.A.map FieldTrace.zero }

/-- `get_dt`, src/mesh.h:127: the time step is converted to `int`.
Simplification: no overflow of the conversion. -/
noncomputable def getDt (m : Mesh) : Int := if 0 ≤ m.dt then ⌊m.dt⌋ else ⌈m.dt⌉

/-- `get_trace`, src/mesh.h:145 -/
def getTrace (m : Mesh) (ip : Nat) : Except Err FieldTrace := Particle.vecAt m.A ip

/-- `set_trace`, src/mesh.h:149, with `operator=` of the traces -/
noncomputable def setTrace (m : Mesh) (ip : Nat) (tr : FieldTrace) : Except Err Mesh := do
  let old ← Particle.vecAt m.A ip
  let new ← old.assign tr
  return { m with A := m.A.set ip new }

/-- an index operation on `triangle_points`, src/mesh.cpp:238-240 -/
def corner (m : Mesh) (i : Int) : Except Err Vec := if 0 ≤ i then Particle.vecAt m.corners i.toNat else .error .ub

/-- the vector `n` before normalisation, src/mesh.cpp:237-241 -/
noncomputable def edgeCross (m : Mesh) (ip : Nat) : Except Err Vec := do
  let tri ← Particle.vecAt m.triangles ip
  let p1 ← m.corner tri.p1
  let p2 ← m.corner tri.p2
  let p3 ← m.corner tri.p3
  return cross (p3 - p1) (p2 - p1)

/-- average normal, src/mesh.cpp:246-248 -/
noncomputable def avgNormal (normal : List (Except Err Vec)) : Except Err Vec := do
  let sum ← normal.foldlM (fun (s : Vec) n => n.map (fun v => s + v)) 0
  normalizeE sum

open Classical in
/-- `avg_normal.y < 0.7`, src/mesh.cpp:256; comparisons with NaN are false -/
noncomputable def offY (avg : Except Err Vec) : Bool :=
  match avg with
  | .ok v => decide (v.y < 0.7)
  | .error _ => false

/-- `xi` and `eta` of one cell if the normals are far off the y direction, src/mesh.cpp:262-265 -/
noncomputable def frameXZ (n : Vec) : Except Err Vec × Except Err Vec :=
  let xi := normalizeE (cross ⟨0, 1, 0⟩ n)
  let eta := xi.bind (fun x => normalizeE (cross n x))
  (xi, eta)

/-- `xi` and `eta` of one cell otherwise, src/mesh.cpp:273-276 -/
noncomputable def frameYZ (n : Vec) : Except Err Vec × Except Err Vec :=
  let eta := normalizeE (cross n ⟨1, 0, 0⟩)
  let xi := eta.bind (fun e => normalizeE (cross e n))
  (xi, eta)

/-- the local axes of one cell; a normal that is not a number gives axes that are not numbers; src/mesh.cpp:255-278 -/
noncomputable def axes (off : Bool) (normal : Except Err Vec) : Except Err Vec × Except Err Vec :=
  match normal with
  | .ok n => if off then frameXZ n else frameYZ n
  | .error e => (.error e, .error e)

/-- `init`, src/mesh.cpp:226-279 -/
noncomputable def init (m : Mesh) : Except Err MeshGeometry := do
  let ns ← (List.range m.Np).mapM m.edgeCross
  let normal := ns.map normalizeE
  let off := offY (avgNormal normal)
  return { area := ns.map (fun n => n.norm * 0.5), totalArea := (ns.map (fun n => n.norm * 0.5)).foldl (· + ·) 0,
           normal := normal, xi := normal.map (fun n => (axes off n).1), eta := normal.map (fun n => (axes off n).2) }

/-- one summand of `totalEnergy` subtracted from the total, src/mesh.cpp:750-751 -/
noncomputable def energyStep (m : Mesh) (g : MeshGeometry) (total : ℝ) (ip : Nat) : Except Err ℝ := do
  let tr ← Particle.vecAt m.A ip
  let a ← Particle.vecAt g.area ip
  let n ← Particle.vecAt g.normal ip
  let n ← n
  return total - a * dot tr.poynting n

/-- `totalEnergy`, src/mesh.cpp:743-754 -/
noncomputable def totalEnergy (m : Mesh) (g : MeshGeometry) : Except Err ℝ := (List.range m.Np).foldlM (m.energyStep g) 0

/-- the nine comparisons, src/mesh.cpp:772-774 -/
def common (t u : Tri) : Bool :=
  t.p1 == u.p1 || t.p1 == u.p2 || t.p1 == u.p3 ||
  t.p2 == u.p1 || t.p2 == u.p2 || t.p2 == u.p3 ||
  t.p3 == u.p1 || t.p3 == u.p2 || t.p3 == u.p3

/-- body of the loop of `get_Neighbourhood`, src/mesh.cpp:764-778: the indices written so far -/
def nbhStep (m : Mesh) (u : Tri) (buf : List Nat) (i : Nat) : Except Err (List Nat) := do
  let t ← Particle.vecAt m.triangles i
  return if common t u then buf ++ [i] else buf

/-- `get_Neighbourhood`, src/mesh.cpp:756-780: the indices written to a buffer of `room` elements; the returned count
is their number.  Writing more than that is undefined behaviour. -/
def getNeighbourhood (m : Mesh) (index room : Nat) : Except Err (List Nat) := do
  let u ← Particle.vecAt m.triangles index
  let buf ← (List.range m.Np).foldlM (m.nbhStep u) []
  if buf.length ≤ room then return buf else .error .ub

/-- the part of the mesh used for recording fields; members of src/mesh.h:222-262 -/
def toObs (m : Mesh) : MeshObs := ⟨m.Np, m.Nt, m.points, m.A⟩

end Mesh

end Teufel
