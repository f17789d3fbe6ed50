import Verif.Model.Hybrid

/-!
# Observers and the observation phase

Models `src/screen.cpp`, `src/snapshot.cpp`, `src/point_observer.cpp`, the recording part of `src/mesh.cpp`, and
the part of `src/teufel_hybrid.cpp` that runs after the tracking (lines 675-791).

File output and console output are not modelled.  Loops annotated with OpenMP pragmas are given here in their
sequential order; the schedules of the parallel execution are in `Verif/Model/Parallel.lean`.
-/

namespace Teufel
open Vec

/-- what `setSource` may hand to an observer, src/observer.h:132 (`Observer<Beam>`, `Observer<Bunch>`,
`Observer<Lattice>`) -/
inductive RadSource where
  | beam (b : Beam)
  | bunch (b : Bunch)
  | lattice (f : FieldFn)

/-- six consecutive doubles of a field buffer, e.g. src/screen.cpp:262-267 -/
def EMField.comps (f : EMField) : List ℝ := [f.E.x, f.E.y, f.E.z, f.B.x, f.B.y, f.B.z]

/-- reading six doubles through the moving pointer `bp`, e.g. src/screen.cpp:282-288: the field and the rest of
the buffer.  Reading beyond the end is undefined. -/
def readField : List ℝ → Except Err (EMField × List ℝ)
  | ex :: ey :: ez :: bx :: «by» :: bz :: rest => .ok (⟨⟨ex, ey, ez⟩, ⟨bx, «by», bz⟩⟩, rest)
  | _ => .error .ub

/-- a freshly allocated buffer of `size` doubles into which `vals` are written through a moving pointer.
Writing behind the end is undefined.  (All observers write at least `size` values.); `getBuffer` of src/screen.cpp:249-271, src/snapshot.cpp:178-199, src/point_observer.cpp:82-92, src/mesh.cpp:376-399 -/
def fillBuffer (size : Nat) (vals : List ℝ) : Except Err (List ℝ) := intoBuffer size (fun _ => 0) vals

/-- `trace->add(it, source->Field(time(it), pos))` for all samples, src/point_observer.cpp:76-80,
src/mesh.cpp:352-356, src/screen.cpp:198-202 -/
noncomputable def recordField (f : FieldFn) (time : Nat → Except Err ℝ) (pos : Vec) (n : Nat) (tr : FieldTrace) : Except Err FieldTrace :=
  (List.range n).foldlM (fun (tr : FieldTrace) (it : Nat) => do
    let t ← time it
    let F ← f t pos
    tr.addAt it F) tr

/-- the element of a vector of vectors; `TimeDomainField[ix][iy]` of src/screen.cpp:113-295, `FieldArray[ix][iy]` of src/snapshot.cpp:72-223 -/
def gridAt {α} (g : List (List α)) (ix iy : Nat) : Except Err α :=
  match g[ix]? with
  | none => .error .ub
  | some row => match row[iy]? with
    | none => .error .ub
    | some a => .ok a

/-- replace an element of a vector of vectors; src/screen.cpp:113-295, src/snapshot.cpp:72-223 -/
def gridSet {α} (g : List (List α)) (ix iy : Nat) (a : α) : List (List α) :=
  match g[ix]? with
  | none => g
  | some row => g.set ix (row.set iy a)

/-- the index pairs of two nested loops `for ix<Nx for iy<Ny`; src/screen.cpp:256-258, 282-284, src/snapshot.cpp:185-187, 210-212 -/
def cells (Nx Ny : Nat) : List (Nat × Nat) :=
  (List.range Nx).flatMap (fun ix : Nat => (List.range Ny).map (fun iy : Nat => (ix, iy)))

/-! ## ScreenObserver -/

/-- class `ScreenObserver`, src/screen.h:233-279.  `Nx`, `Ny`, `NOTS` are 32-bit unsigned numbers; the model
assumes that they are below `2^31`, so that the conversion to `int` in `CellPosition` is exact. -/
structure Screen where
  Origin : Vec
  dX : Vec
  dY : Vec
  normal : Vec
  Nx : Nat
  Ny : Nat
  NOTS : Nat
  t0 : ℝ
  dt : ℝ
  dtx : ℝ
  dty : ℝ
  Traces : List (List FieldTrace)

namespace Screen

/-- `CellPosition`, src/screen.cpp:99-103 -/
noncomputable def CellPosition (s : Screen) (ix iy : Nat) : Vec :=
  s.Origin + s.dX * ((((ix : Int) - (s.Nx : Int) / 2 : Int)) : ℝ) + s.dY * ((((iy : Int) - (s.Ny : Int) / 2 : Int)) : ℝ)

/-- `CellTimeZero`, src/screen.cpp:106-110 -/
noncomputable def CellTimeZero (s : Screen) (ix iy : Nat) : ℝ :=
  s.t0 + s.dtx * ((((ix : Int) - (s.Nx : Int) / 2 : Int)) : ℝ) + s.dty * ((((iy : Int) - (s.Ny : Int) / 2 : Int)) : ℝ)

/-- constructor, src/screen.cpp:34-88.  For parallel pitch vectors `normal.normalize()` divides by zero; the normal
of the C++ object is then not a number (see `Vec.normalize`). -/
noncomputable def new (position dx dy : Vec) (nx ny : Nat) (t0 dt dtx dty : ℝ) (nots : Nat) : Screen :=
  let s : Screen := ⟨position, dx, dy, Vec.normalize (cross dx dy * (-1 : ℝ)), nx, ny, nots, t0, dt, dtx, dty, []⟩
  { s with Traces := (List.range nx).map (fun ix : Nat => (List.range ny).map (fun iy : Nat => FieldTrace.new (s.CellTimeZero ix iy) dt nots)) }

/-- the body of the loops of `integrate`, src/screen.cpp:129, 164, 198-202 -/
noncomputable def cellTask (s : Screen) (src : RadSource) (c : Nat × Nat) (tr : FieldTrace) : Except Err FieldTrace :=
  match src with
  | .beam b => b.integrateFieldTrace (s.CellPosition c.1 c.2) tr
  | .bunch b => b.integrateFieldTrace (s.CellPosition c.1 c.2) tr
  | .lattice f => recordField f (fun it => .ok (s.CellTimeZero c.1 c.2 + (it : ℝ) * s.dt)) (s.CellPosition c.1 c.2) s.NOTS tr

/-- one iteration of the loops of `integrate`; src/screen.cpp:113-218 -/
noncomputable def updateCell (s : Screen) (src : RadSource) (g : List (List FieldTrace)) (c : Nat × Nat) : Except Err (List (List FieldTrace)) := do
  let tr ← gridAt g c.1 c.2
  let tr ← s.cellTask src c tr
  return gridSet g c.1 c.2 tr

/-- `integrate`, src/screen.cpp:112-218 -/
noncomputable def integrate (s : Screen) (src : RadSource) : Except Err Screen := do
  let g ← (cells s.Nx s.Ny).foldlM (s.updateCell src) s.Traces
  return { s with Traces := g }

/-- `getField`, src/screen.cpp:220-233 -/
def getField (s : Screen) (ix iy it : Nat) : Except Err EMField :=
  if ix < s.Nx ∧ iy < s.Ny ∧ it < s.NOTS then do
    let tr ← gridAt s.Traces ix iy
    tr.getField it
  else .error .io

/-- `setField`, src/screen.cpp:235-246 -/
def setField (s : Screen) (ix iy it : Nat) (f : EMField) : Except Err Screen :=
  if ix < s.Nx ∧ iy < s.Ny ∧ it < s.NOTS then do
    let tr ← gridAt s.Traces ix iy
    let tr ← tr.setField it f
    return { s with Traces := gridSet s.Traces ix iy tr }
  else .error .io

/-- `getBufferSize`, src/screen.h:153: the product is computed with 32-bit unsigned numbers -/
def getBufferSize (s : Screen) : Nat := (s.Nx * s.Ny * s.NOTS * 6) % 2 ^ 32

/-- the indices of the three nested loops, src/screen.cpp:258-260 -/
def samples (s : Screen) : List ((Nat × Nat) × Nat) :=
  (cells s.Nx s.Ny).flatMap (fun c : Nat × Nat => (List.range s.NOTS).map (fun it : Nat => (c, it)))

/-- `getBuffer`, src/screen.cpp:248-271 -/
def getBuffer (s : Screen) : Except Err (List ℝ) := do
  let fs ← s.samples.mapM (fun i : (Nat × Nat) × Nat => s.getField i.1.1 i.1.2 i.2)
  fillBuffer s.getBufferSize (fs.flatMap EMField.comps)

/-- one iteration of the loops of `fromBuffer`; src/screen.cpp:274-295 -/
def readSample (sb : Screen × List ℝ) (i : (Nat × Nat) × Nat) : Except Err (Screen × List ℝ) := do
  let fr ← readField sb.2
  let s ← sb.1.setField i.1.1 i.1.2 i.2 fr.1
  return (s, fr.2)

/-- `fromBuffer`, src/screen.cpp:273-295 -/
def fromBuffer (s : Screen) (buf : List ℝ) (size : Nat) : Except Err Screen :=
  if size = (s.Nx * s.Ny * s.NOTS * 6) % 2 ^ 32 then (s.samples.foldlM readSample (s, buf)).map Prod.fst
  else .error .io

end Screen

/-! ## SnapshotObserver -/

/-- class `SnapshotObserver`, src/snapshot.h:190-223 -/
structure Snapshot where
  O : Vec
  dX : Vec
  dY : Vec
  Nx : Nat
  Ny : Nat
  tObs : ℝ
  FieldArray : List (List EMField)
  /-- `particleBuffer` and `particlesStored` -/
  particleBuffer : List ℝ
  particlesStored : Nat

namespace Snapshot

/-- constructor, src/snapshot.cpp:34-62 -/
noncomputable def new (position dx dy : Vec) (nx ny : Nat) (t : ℝ) : Snapshot :=
  ⟨position, dx, dy, nx, ny, t, List.replicate nx (List.replicate ny 0), [], 0⟩

/-- `CellPosition`, src/snapshot.cpp:405-408 -/
noncomputable def CellPosition (s : Snapshot) (ix iy : Nat) : Vec :=
  s.O + s.dX * ((ix : ℝ) - 1 / 2 * ((s.Nx : ℝ) - 1)) + s.dY * ((iy : ℝ) - 1 / 2 * ((s.Ny : ℝ) - 1))

/-- right hand side of the assignment in the loops of `integrate`, src/snapshot.cpp:77, 88, 99 -/
noncomputable def cellTask (s : Snapshot) (src : RadSource) (c : Nat × Nat) : Except Err EMField :=
  match src with
  | .beam b => b.RetardedField s.tObs (s.CellPosition c.1 c.2)
  | .bunch b => b.RetardedField s.tObs (s.CellPosition c.1 c.2)
  | .lattice f => f s.tObs (s.CellPosition c.1 c.2)

/-- one iteration of the loops of `integrate`: the old contents are replaced; src/snapshot.cpp:72-102 -/
noncomputable def updateCell (s : Snapshot) (src : RadSource) (g : List (List EMField)) (c : Nat × Nat) : Except Err (List (List EMField)) := do
  let _ ← gridAt g c.1 c.2
  let f ← s.cellTask src c
  return gridSet g c.1 c.2 f

/-- `integrate`, src/snapshot.cpp:71-102 -/
noncomputable def integrate (s : Snapshot) (src : RadSource) : Except Err Snapshot := do
  let g ← (cells s.Nx s.Ny).foldlM (s.updateCell src) s.FieldArray
  return { s with FieldArray := g }

/-- `storeParticlePositions`, src/snapshot.cpp:104-149, with the beam set as source -/
noncomputable def storeParticlePositions (s : Snapshot) (b : Beam) : Except Err Snapshot := do
  let nop ← b.getNOP
  let ps ← b.traverse
  let xs ← ps.mapM (fun p : Particle => p.CoordinatesAtTime s.tObs)
  let buf ← fillBuffer (6 * nop) (xs.flatMap (fun xp : Vec × Vec => Particle.comps xp.1 ++ Particle.comps xp.2))
  return { s with particleBuffer := buf, particlesStored := nop }

/-- `getField`, src/snapshot.cpp:151-163 -/
def getField (s : Snapshot) (ix iy : Nat) : Except Err EMField :=
  if ix < s.Nx ∧ iy < s.Ny then gridAt s.FieldArray ix iy else .error .io

/-- `setField`, src/snapshot.cpp:165-175 -/
def setField (s : Snapshot) (ix iy : Nat) (f : EMField) : Except Err Snapshot :=
  if ix < s.Nx ∧ iy < s.Ny then do
    let _ ← gridAt s.FieldArray ix iy
    return { s with FieldArray := gridSet s.FieldArray ix iy f }
  else .error .io

/-- `getBufferSize`, src/snapshot.h:134: the product is computed with 32-bit unsigned numbers -/
def getBufferSize (s : Snapshot) : Nat := (s.Nx * s.Ny * 6) % 2 ^ 32

/-- `getBuffer`, src/snapshot.cpp:177-199 -/
def getBuffer (s : Snapshot) : Except Err (List ℝ) := do
  let fs ← (cells s.Nx s.Ny).mapM (fun c : Nat × Nat => s.getField c.1 c.2)
  fillBuffer s.getBufferSize (fs.flatMap EMField.comps)

/-- one iteration of the loops of `fromBuffer`; src/snapshot.cpp:202-223 -/
def readSample (sb : Snapshot × List ℝ) (c : Nat × Nat) : Except Err (Snapshot × List ℝ) := do
  let fr ← readField sb.2
  let s ← sb.1.setField c.1 c.2 fr.1
  return (s, fr.2)

/-- `fromBuffer`, src/snapshot.cpp:201-223 -/
def fromBuffer (s : Snapshot) (buf : List ℝ) (size : Nat) : Except Err Snapshot :=
  if size = (s.Nx * s.Ny * 6) % 2 ^ 32 then ((cells s.Nx s.Ny).foldlM readSample (s, buf)).map Prod.fst
  else .error .io

end Snapshot

/-! ## PointObserver -/

/-- class `PointObserver`, src/point_observer.h:120-140 -/
structure PointObs where
  Pos : Vec
  trace : FieldTrace

namespace PointObs

/-- constructor, src/point_observer.cpp:33-54 -/
noncomputable def new (position : Vec) (t0 dt : ℝ) (nots : Nat) : PointObs := ⟨position, FieldTrace.new t0 dt nots⟩

/-- `integrate`, src/point_observer.cpp:62-80 -/
noncomputable def integrate (s : PointObs) (src : RadSource) : Except Err PointObs := do
  let tr ← match src with
    | .beam b => b.integrateFieldTrace s.Pos s.trace
    | .bunch b => b.integrateFieldTrace s.Pos s.trace
    | .lattice f => recordField f (fun it => s.trace.getTime it) s.Pos s.trace.N s.trace
  return { s with trace := tr }

/-- `getBufferSize`, src/point_observer.h:103 -/
def getBufferSize (s : PointObs) : Nat := 6 * s.trace.N

/-- `getBuffer`, src/point_observer.cpp:82-93: the trace is copied as an array of `ElMagField` -/
def getBuffer (s : PointObs) : Except Err (List ℝ) := do
  let fs ← s.trace.getBuffer s.trace.N
  fillBuffer (6 * s.trace.N) (fs.flatMap EMField.comps)

/-- one iteration of the loop of `fromBuffer`; src/point_observer.cpp:95-117 -/
def readSample (sb : FieldTrace × List ℝ) (it : Nat) : Except Err (FieldTrace × List ℝ) := do
  let fr ← readField sb.2
  let tr ← sb.1.setField it fr.1
  return (tr, fr.2)

/-- `fromBuffer`, src/point_observer.cpp:95-117 -/
def fromBuffer (s : PointObs) (buf : List ℝ) (size : Nat) : Except Err PointObs :=
  if size = 6 * s.trace.N then
    ((List.range s.trace.N).foldlM readSample (s.trace, buf)).map (fun sb => { s with trace := sb.1 })
  else .error .io

end PointObs

/-! ## MeshedScreen -/

/-- recording part of class `MeshedScreen`, src/mesh.h:222-262: number of cells and samples (`int`), the observation
points and the traces -/
structure MeshObs where
  Np : Nat
  Nt : Nat
  points : List Vec
  A : List FieldTrace

namespace MeshObs

/-- element of a vector; src/mesh.cpp:289-425 -/
def at' {α} (l : List α) (i : Nat) : Except Err α :=
  match l[i]? with
  | none => .error .ub
  | some a => .ok a

/-- the mesh as constructed from a file with start times `t0s` followed by `zero()`, src/mesh.cpp:133-175,282-286 -/
noncomputable def new (points : List Vec) (t0s : List ℝ) (dt : ℝ) (nt : Nat) : MeshObs :=
  ⟨points.length, nt, points, t0s.map (fun t0 => FieldTrace.new t0 dt nt)⟩

/-- the body of the loops of `integrate`, src/mesh.cpp:301, 328, 349-356 -/
noncomputable def cellTask (s : MeshObs) (src : RadSource) (i : Nat) (tr : FieldTrace) : Except Err FieldTrace := do
  let pos ← at' s.points i
  match src with
  | .beam b => b.integrateFieldTrace pos tr
  | .bunch b => b.integrateFieldTrace pos tr
  | .lattice f => recordField f (fun it => tr.getTime it) pos s.Nt tr

/-- one iteration of the loop of `integrate`; src/mesh.cpp:289-373 -/
noncomputable def updateCell (s : MeshObs) (src : RadSource) (A : List FieldTrace) (i : Nat) : Except Err (List FieldTrace) := do
  let tr ← at' A i
  let tr ← s.cellTask src i tr
  return A.set i tr

/-- `integrate`, src/mesh.cpp:288-373 -/
noncomputable def integrate (s : MeshObs) (src : RadSource) : Except Err MeshObs := do
  let A ← (List.range s.Np).foldlM (s.updateCell src) s.A
  return { s with A := A }

/-- `getBufferSize`, src/mesh.h:165: the product of signed numbers overflows from `2^31` on -/
def getBufferSize (s : MeshObs) : Except Err Nat := if s.Np * s.Nt * 6 < 2 ^ 31 then .ok (s.Np * s.Nt * 6) else .error .ub

/-- the fields of one cell in the loops of `getBuffer`; src/mesh.cpp:376-399 -/
def cellFields (s : MeshObs) (i : Nat) : Except Err (List EMField) := do
  let tr ← at' s.A i
  (List.range tr.N).mapM tr.getField

/-- `getBuffer`, src/mesh.cpp:375-398 -/
def getBuffer (s : MeshObs) : Except Err (List ℝ) := do
  let n ← s.getBufferSize
  let fs ← (List.range s.Np).mapM s.cellFields
  fillBuffer n (fs.flatten.flatMap EMField.comps)

/-- one cell in the loop of `fromBuffer`; src/mesh.cpp:402-425 -/
def readCell (sb : List FieldTrace × List ℝ) (i : Nat) : Except Err (List FieldTrace × List ℝ) := do
  let tr ← at' sb.1 i
  let r ← (List.range tr.N).foldlM PointObs.readSample (tr, sb.2)
  return (sb.1.set i r.1, r.2)

/-- `fromBuffer`, src/mesh.cpp:400-425 -/
def fromBuffer (s : MeshObs) (buf : List ℝ) (size : Nat) : Except Err MeshObs := do
  let n ← s.getBufferSize
  if size = n then
    ((List.range s.Np).foldlM readCell (s.A, buf)).map (fun sb => { s with A := sb.1 })
  else .error .io

end MeshObs

/-! ## The observation phase -/

/-- class `BaseObserver` with its implementations, src/observer.h:43-95 -/
inductive Observer where
  | screen (s : Screen)
  | snapshot (s : Snapshot)
  | point (s : PointObs)
  | mesh (s : MeshObs)

namespace Observer

/-- virtual method `integrate`; src/observer.h:55 -/
noncomputable def integrate (src : RadSource) : Observer → Except Err Observer
  | .screen s => (s.integrate src).map .screen
  | .snapshot s => (s.integrate src).map .snapshot
  | .point s => (s.integrate src).map .point
  | .mesh s => (s.integrate src).map .mesh

/-- virtual method `getBufferSize`; src/observer.h:69 -/
def getBufferSize : Observer → Except Err Nat
  | .screen s => .ok s.getBufferSize
  | .snapshot s => .ok s.getBufferSize
  | .point s => .ok s.getBufferSize
  | .mesh s => s.getBufferSize

/-- virtual method `getBuffer`; src/observer.h:77 -/
def getBuffer : Observer → Except Err (List ℝ)
  | .screen s => s.getBuffer
  | .snapshot s => s.getBuffer
  | .point s => s.getBuffer
  | .mesh s => s.getBuffer

/-- virtual method `fromBuffer`; src/observer.h:84 -/
def fromBuffer (buf : List ℝ) (size : Nat) : Observer → Except Err Observer
  | .screen s => (s.fromBuffer buf size).map .screen
  | .snapshot s => (s.fromBuffer buf size).map .snapshot
  | .point s => (s.fromBuffer buf size).map .point
  | .mesh s => (s.fromBuffer buf size).map .mesh

end Observer

/-- integration on one node and its contribution to the reduction, src/teufel_hybrid.cpp:708-737: the number of
values is stored in an `unsigned int`, and handed to MPI as an `int` -/
noncomputable def nodeObserve (o : Observer) (src : RadSource) : Except Err (Observer × Nat × List ℝ) := do
  let o ← o.integrate src
  let size ← o.getBufferSize
  let count := size % 2 ^ 32
  let buf ← o.getBuffer
  if count ≥ 2 ^ 31 then .error .io
  if buf.length < count then .error .ub
  return (o, count, buf.take count)

/-- `MPI_Reduce` with `MPI_SUM`, src/teufel_hybrid.cpp:749-757: element-wise sum of the contributions of all nodes -/
noncomputable def reduceSum (bufs : List (List ℝ)) : List ℝ :=
  match bufs with
  | [] => []
  | b :: bs => bs.foldl (List.zipWith (fun x y : ℝ => x + y)) b

/-- the observation by one observer, src/teufel_hybrid.cpp:692-767.  `srcs` are the sources the nodes have, `o` is
the observer, of which every node has its own copy.  The result is the observer of rank 0. -/
noncomputable def observe (o : Observer) (srcs : List RadSource) : Except Err Observer := do
  let rs ← srcs.mapM (nodeObserve o)
  match rs with
  | [] => .error .ub
  | (o0, count, _) :: _ => o0.fromBuffer (reduceSum (rs.map (fun r => r.2.2))) count

/-- the loop removing the interaction fields, src/teufel_hybrid.cpp:677-689 -/
def removeInteractions (fuel : Nat) (i : Int) (L : Lattice) : Except Err Lattice :=
  match fuel with
  | 0 => .error .diverge
  | fuel + 1 =>
    if i < L.count then do
      let e ← L.elemAt i
      if !e.isExternal then do
        let L ← L.remove i
        removeInteractions fuel i L
      else removeInteractions fuel (i + 1) L
    else .ok L

/-- the beam observers: source is the tracked beam of each node, src/teufel_hybrid.cpp:709-713 -/
noncomputable def observeBeam {σ ω} (w : World σ ω) (o : Observer) : Except Err Observer :=
  observe o (w.nodes.map (fun n => RadSource.beam n.tracked))

/-- the lattice observers: source is the lattice, on each node, src/teufel_hybrid.cpp:714-718 -/
noncomputable def observeLattice (nodes : Nat) (L : Lattice) (o : Observer) : Except Err Observer :=
  observe o (List.replicate nodes (RadSource.lattice L.field))

end Teufel
