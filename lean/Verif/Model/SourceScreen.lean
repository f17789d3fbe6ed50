import Verif.Model.Observers

/-!
# Screen as a source of radiation

Models `src/source_screen.cpp` / `src/source_screen.h`.
-/

namespace Teufel

open Vec

/-- What the constructor reads from the HDF5 file, src/source_screen.cpp:47-176: the attributes and the four vectors
of the dataset `Screen` and the extent and content of the dataset `ElMagField`.  A missing attribute is `none`,
a missing dataset `ElMagField` has the empty list of dimensions (`H5Sget_simple_extent_ndims` returns -1).
The numbers are read as `int` into an `unsigned int`; the model assumes that they are not negative. -/
structure ScreenFile where
  Nx : Option Nat
  Ny : Option Nat
  NOTS : Option Nat
  dt : Option ℝ
  dtx : Option ℝ
  dty : Option ℝ
  origin : Vec
  normal : Vec
  dX : Vec
  dY : Vec
  dims : List Nat
  fields : List EMField

/-- the members of class `SourceScreen` that describe its grid, src/source_screen.h:167-189 -/
structure ScreenAxes where
  normal : Vec
  dX : Vec
  dx : ℝ
  ex : Vec
  dY : Vec
  dy : ℝ
  ey : Vec

/-- "coax the grid vectors to form an orthogonal system", src/source_screen.cpp:117-130.
`normalize` of a null vector divides by zero. -/
noncomputable def ScreenAxes.coax (n0 dX0 dY0 : Vec) : Except Err ScreenAxes := do
  let normal ← normalizeE n0
  let dx := dX0.norm
  let ex ← normalizeE (dX0 - normal * dot dX0 normal)
  let dX := ex * dx
  let dy := dY0.norm
  let dY1 := dY0 - normal * dot dY0 normal
  let dY2 := dY1 - dX * dot dY1 dX
  let ey ← normalizeE dY2
  let dY := ey * dy
  return { normal := normal, dX := dX, dx := dx, ex := ex, dY := dY, dy := dy, ey := ey }

/-- class `SourceScreen`, src/source_screen.h:75-215, with the members of its base class `LocalizedField` -/
structure SourceScreen where
  t0 : ℝ
  origin : Vec
  Nx : Nat
  Ny : Nat
  NOTS : Nat
  dt : ℝ
  dtx : ℝ
  dty : ℝ
  axes : ScreenAxes
  Traces : List (List FieldTrace)
  dtTraces : List (List FieldTrace)

namespace SourceScreen

/-- a required attribute, src/source_screen.cpp:49-78 -/
def required {α : Type} (o : Option α) : Except Err α :=
  match o with
  | some a => .ok a
  | none => .error .io

/-- `(int)ix-(int)Nx/2`, src/source_screen.cpp:242, 249 -/
def centered (i n : Nat) : Int := (i : Int) - (n : Int) / 2

/-- `CellPosition`, src/source_screen.cpp:238-243 -/
noncomputable def CellPosition (a : ScreenAxes) (Nx Ny ix iy : Nat) : Vec :=
  a.dX * (centered ix Nx : ℝ) + a.dY * (centered iy Ny : ℝ)

/-- `CellTimeZero`, src/source_screen.cpp:245-250 -/
noncomputable def CellTimeZero (dtx dty : ℝ) (Nx Ny ix iy : Nat) : ℝ :=
  dtx * (centered ix Nx : ℝ) + dty * (centered iy Ny : ℝ)

/-- one trace, src/source_screen.cpp:185-194.  The pointer `b` that is advanced by `NOTS` for every cell is written as
an offset from the start of the buffer. -/
noncomputable def loadCell (a : ScreenAxes) (tz dt : ℝ) (NOTS : Nat) (fields : List EMField) (offset : Nat) : Except Err FieldTrace := do
  let tr ← (FieldTrace.new tz dt NOTS).setBuffer (fields.drop offset) NOTS
  return (tr.transform a.ex a.ey a.normal).cancelLongFields ⟨0, 0, 1⟩

/-- the checks of the extent of the dataset, src/source_screen.cpp:154-164 -/
def checkDims (Nx Ny NOTS : Nat) (dims : List Nat) : Except Err Unit :=
  match dims with
  | [a, b, c, d] =>
    if a ≠ Nx then .error .io
    else if b ≠ Ny then .error .io
    else if c ≠ NOTS then .error .io
    else if d ≠ 6 then .error .io
    else .ok ()
  | _ => .error .io

/-- `getBufferSize`, src/source_screen.h:107: the product of unsigned integers wraps around -/
def getBufferSize (Nx Ny NOTS : Nat) : Nat := (Nx * Ny * NOTS * 6) % 2 ^ 32

open Classical in
/-- constructor, src/source_screen.cpp:30-226.  The buffer is an array of `getBufferSize()` fields; reading more
fields than that from the file overwrites memory behind it.  The time derivative divides by `dt`.
Normalising a null vector (lines 117-130) does not stop the constructor, so it comes after the checks in the model.
Not modelled here: messages, failures of single HDF5 calls; the two files written at the end are in `Model/SourceFiles`. -/
noncomputable def ofFile (f : ScreenFile) (position : Vec) (time : ℝ) : Except Err SourceScreen := do
  let Nx ← required f.Nx
  let Ny ← required f.Ny
  let NOTS ← required f.NOTS
  let dt ← required f.dt
  let dtx := f.dtx.getD 0
  let dty := f.dty.getD 0
  checkDims Nx Ny NOTS f.dims
  if getBufferSize Nx Ny NOTS < Nx * Ny * NOTS then throw .ub
  let a ← ScreenAxes.coax f.normal f.dX f.dY
  let tr ← (List.range Nx).mapM (fun ix : Nat => (List.range Ny).mapM (fun iy : Nat =>
    loadCell a (CellTimeZero dtx dty Nx Ny ix iy) dt NOTS f.fields ((ix * Ny + iy) * NOTS)))
  if dt = 0 ∧ Nx * Ny ≠ 0 then throw .nan
  let dtr ← tr.mapM (fun row => row.mapM FieldTrace.derivative)
  return { t0 := time, origin := position, Nx := Nx, Ny := Ny, NOTS := NOTS, dt := dt, dtx := dtx, dty := dty,
           axes := a, Traces := tr, dtTraces := dtr }

open Classical in
/-- the contribution of one cell, src/source_screen.cpp:259-273 -/
noncomputable def contribution (s : SourceScreen) (t : ℝ) (X : Vec) (c : Nat × Nat) : Except Err EMField := do
  let source_pos := CellPosition s.axes s.Nx s.Ny c.1 c.2
  let tr ← gridAt s.Traces c.1 c.2
  let RVec := X - source_pos
  let R := RVec.norm
  let source_t := t - R / SpeedOfLight
  let last ← tr.getLastTime
  if source_t ≥ tr.t0 ∧ source_t ≤ last then
    let dtr ← gridAt s.dtTraces c.1 c.2
    if R = 0 then throw .nan
    let R2 := R * R
    let R3 := R2 * R
    let c1 := tr.fieldAtTime source_t * (-dot RVec s.axes.normal / R3)
    let c2 := dtr.fieldAtTime source_t * (1 - dot RVec s.axes.normal / R) / (R * SpeedOfLight)
    return c1 + c2
  else return 0

/-- `LocalField`, src/source_screen.cpp:252-276 -/
noncomputable def LocalField (s : SourceScreen) : FieldFn := fun t X => do
  let total ← (cells s.Nx s.Ny).foldlM (fun (total : EMField) c => (s.contribution t X c).map (fun f => total + f)) 0
  return total * s.axes.dx * s.axes.dy / (4 * Pi)

/-- the screen as an element of the lattice (class `LocalizedField`, src/fields.cpp:173-183) -/
noncomputable def asField (s : SourceScreen) : GeneralField := LocalizedField s.LocalField s.t0 s.origin

/-- `totalEnergy`, src/source_screen.cpp:278-288 -/
noncomputable def totalEnergy (s : SourceScreen) : Except Err ℝ :=
  (cells s.Nx s.Ny).foldlM (fun (total : ℝ) c =>
    (gridAt s.Traces c.1 c.2).map (fun tr => total - dot tr.poynting s.axes.normal * s.axes.dX.norm * s.axes.dY.norm)) 0

end SourceScreen

end Teufel
