import Verif.Model.SourceScreen

/-!
# The files written by observers

Models the output functions of `src/screen.cpp`, `src/snapshot.cpp` and `src/point_observer.cpp`, and the first part of
the constructor of `SourceScreen` (`src/source_screen.cpp`), which opens such a file.  The file of a mesh is modelled in
`Verif/Model/Mesh.lean`.

An HDF5 file is a list of datasets.  Failures of single HDF5 and SDDS calls and console output are not modelled.
-/

namespace Teufel
open Vec

/-- a dataset of an HDF5 file with its scalar attributes; the numbers are stored in row-major order; as written by src/screen.cpp:298-558, src/snapshot.cpp:226-396, src/mesh.cpp:428-736 -/
structure H5Dataset where
  name : String
  dims : List Nat
  data : List ℝ
  ints : List (String × Nat)
  reals : List (String × ℝ)

/-- an HDF5 file; as written by src/screen.cpp:298-558, src/snapshot.cpp:226-396, src/mesh.cpp:428-736 -/
abbrev H5File := List H5Dataset

/-- `H5Dwrite` of an array in memory to a dataset with the given extent, e.g. src/screen.cpp:339-345: the number of
elements is that of the dataset.  Reading behind the end of the array is undefined. -/
def h5write (name : String) (dims : List Nat) (buf : List ℝ) (ints : List (String × Nat)) (reals : List (String × ℝ)) : Except Err H5Dataset :=
  if buf.length < dims.prod then .error .ub else .ok ⟨name, dims, buf.take dims.prod, ints, reals⟩

/-! ## ScreenObserver -/

namespace Screen

/-- the array with the positions of the cells, src/screen.cpp:318-327; its size is computed with 32-bit unsigned numbers -/
noncomputable def positionBuffer (s : Screen) : Except Err (List ℝ) :=
  fillBuffer (s.Nx * s.Ny * 3 % 2 ^ 32) ((cells s.Nx s.Ny).flatMap (fun c : Nat × Nat => Particle.comps (s.CellPosition c.1 c.2)))

/-- `WriteTimeDomainFieldHDF5`, src/screen.cpp:297-559.  The unsigned numbers `Nx`, `Ny`, `NOTS` are written as signed
ones; the model assumes that they are below `2^31`. -/
noncomputable def writeFile (s : Screen) : Except Err H5File := do
  let pbuffer ← s.positionBuffer
  let pset ← h5write "ObservationPosition" [s.Nx, s.Ny, 3] pbuffer [("Nx", s.Nx), ("Ny", s.Ny)] []
  let sset ← h5write "Screen" [4, 3] (Particle.comps s.Origin ++ Particle.comps s.normal ++ Particle.comps s.dX ++ Particle.comps s.dY)
    [("Nx", s.Nx), ("Ny", s.Ny), ("NOTS", s.NOTS)] [("t0", s.t0), ("dt", s.dt), ("dtx", s.dtx), ("dty", s.dty)]
  let buffer ← s.getBuffer
  let dset ← h5write "ElMagField" [s.Nx, s.Ny, s.NOTS, 6] buffer [("NOTS", s.NOTS)] [("t0", s.t0), ("dt", s.dt)]
  return [pset, sset, dset]

end Screen

/-! ## SnapshotObserver -/

namespace Snapshot

/-- the array with the positions of the cells, src/snapshot.cpp:243-252; its size is computed with 32-bit unsigned numbers -/
noncomputable def positionBuffer (s : Snapshot) : Except Err (List ℝ) :=
  fillBuffer (s.Nx * s.Ny * 3 % 2 ^ 32) ((cells s.Nx s.Ny).flatMap (fun c : Nat × Nat => Particle.comps (s.CellPosition c.1 c.2)))

/-- the dataset with the particle coordinates, src/snapshot.cpp:344-390; it is written only if particles were stored -/
def particleSet (s : Snapshot) : Except Err (List H5Dataset) :=
  if s.particlesStored > 0 then
    (h5write "ParticleCoordinates" [s.particlesStored, 6] s.particleBuffer [("N_particles", s.particlesStored)] []).map (fun d => [d])
  else .ok []

/-- `WriteFieldHDF5`, src/snapshot.cpp:225-397 -/
noncomputable def writeFile (s : Snapshot) : Except Err H5File := do
  let buffer ← s.positionBuffer
  let pset ← h5write "ObservationPosition" [s.Nx, s.Ny, 3] buffer [("Nx", s.Nx), ("Ny", s.Ny)] []
  let buffer ← s.getBuffer
  let dset ← h5write "ElMagField" [s.Nx, s.Ny, 6] buffer [] [("t0", s.tObs)]
  let cset ← s.particleSet
  return [pset, dset] ++ cset

end Snapshot

/-! ## PointObserver -/

/-- the SDDS file written by `PointObserver`, src/point_observer.cpp:127-145: three parameters and the rows of seven
columns `t, Ex, Ey, Ez, Bx, By, Bz` -/
structure PointFile where
  NumberTimeSteps : Nat
  t0 : ℝ
  dt : ℝ
  rows : List (List ℝ)

namespace PointObs

/-- `SDDS_SetRowValues`, src/point_observer.cpp:163-176; `get_field` checks the index -/
noncomputable def fileRow (s : PointObs) (i : Nat) : Except Err (List ℝ) := do
  let f ← s.trace.getField i
  return [s.trace.t0 + (i : ℝ) * s.trace.dt, f.E.x, f.E.y, f.E.z, f.B.x, f.B.y, f.B.z]

/-- `WriteTimeDomainFieldSDDS`, src/point_observer.cpp:118-185: the number of samples is converted to a 32-bit
unsigned number, and the number of rows of the page to a signed one; a negative number of rows is an error here. -/
noncomputable def writeFile (s : PointObs) : Except Err PointFile := do
  let NOTS := s.trace.N % 2 ^ 32
  if NOTS ≥ 2 ^ 31 then throw .io
  let rows ← (List.range NOTS).mapM s.fileRow
  return ⟨NOTS, s.trace.t0, s.trace.dt, rows⟩

end PointObs

/-! ## SourceScreen: reading the file -/

/-- open a dataset by name, src/source_screen.cpp:46, 151 -/
def H5File.dataset (f : H5File) (name : String) : Option H5Dataset := f.find? (fun d => d.name == name)

/-- an integer attribute of a dataset, src/source_screen.cpp:48-65 -/
def H5Dataset.int (d : H5Dataset) (name : String) : Option Nat := d.ints.lookup name

/-- a real attribute of a dataset, src/source_screen.cpp:68-96 -/
def H5Dataset.real (d : H5Dataset) (name : String) : Option ℝ := d.reals.lookup name

/-- an array of doubles read as an array of `ElMagField`, src/source_screen.cpp:150, 168-173 -/
def asFields : List ℝ → List EMField
  | ex :: ey :: ez :: bx :: «by» :: bz :: rest => ⟨⟨ex, ey, ez⟩, ⟨bx, «by», bz⟩⟩ :: asFields rest
  | _ => []

/-- the part of the constructor of `SourceScreen` that reads the dataset `Screen` and opens the dataset `ElMagField`,
src/source_screen.cpp:45-151.  The twelve numbers are read into an array of that size; a dataset with more numbers
overwrites the memory behind it, one with less leaves vectors undefined. -/
def ScreenFile.read (f : H5File) : Except Err ScreenFile := do
  let scr ← SourceScreen.required (f.dataset "Screen")
  let Nx ← SourceScreen.required (scr.int "Nx")
  let Ny ← SourceScreen.required (scr.int "Ny")
  let NOTS ← SourceScreen.required (scr.int "NOTS")
  let dt ← SourceScreen.required (scr.real "dt")
  match scr.data with
  | [ox, oy, oz, nx, ny, nz, xx, xy, xz, yx, yy, yz] =>
    return { Nx := some Nx, Ny := some Ny, NOTS := some NOTS, dt := some dt, dtx := scr.real "dtx", dty := scr.real "dty",
             origin := ⟨ox, oy, oz⟩, normal := ⟨nx, ny, nz⟩, dX := ⟨xx, xy, xz⟩, dY := ⟨yx, yy, yz⟩,
             dims := ((f.dataset "ElMagField").map H5Dataset.dims).getD [],
             fields := asFields (((f.dataset "ElMagField").map H5Dataset.data).getD []) }
  | _ => throw .ub

/-- the constructor of `SourceScreen` for a file, src/source_screen.cpp:30-226 -/
noncomputable def SourceScreen.open (f : H5File) (position : Vec) (time : ℝ) : Except Err SourceScreen := do
  let sf ← ScreenFile.read f
  SourceScreen.ofFile sf position time

end Teufel
