import Verif.Model.Output

/-!
# SDDS files

Models the import of a bunch from an SDDS file, `src/bunch.cpp:190-349`, and the names under which
`Beam::WriteWatchPointSDDS` stores its data.  The SDDS library is replaced by what it returns.
-/

namespace Teufel
open Vec

/-- An SDDS file as the library presents its first page: what `SDDS_GetParameterAsLong`, `SDDS_GetParameterAsDouble`
and `SDDS_GetColumnInDoubles` return for a name (`none` is the NULL pointer).  Entries of a column may be NaN.  src/bunch.cpp:189-300. -/
structure SddsFile where
  long : String → Option Int
  double : String → Option ℝ
  column : String → Option (List (Except Err ℝ))

/-- `data[i]` for an array returned by the library: reading behind its end is undefined behaviour; src/bunch.cpp:222-345 -/
def sddsEntry (l : List (Except Err ℝ)) (i : Nat) : Except Err ℝ :=
  match l[i]? with
  | some v => v
  | none => .error .ub

/-- the data the constructor reads before it creates particles, src/bunch.cpp:221-299 -/
structure SddsData where
  nop : Int
  charge : ℝ
  x : List (Except Err ℝ)
  xp : List (Except Err ℝ)
  y : List (Except Err ℝ)
  yp : List (Except Err ℝ)
  p : List (Except Err ℝ)
  t : List (Except Err ℝ)

/-- reading of the parameters and columns, src/bunch.cpp:221-299: the constructor returns when one is missing -/
def SddsFile.data (f : SddsFile) : Option SddsData := do
  let nop ← f.long "Particles"
  let charge ← f.double "Charge"
  let x ← f.column "x"
  let xp ← f.column "xp"
  let y ← f.column "y"
  let yp ← f.column "yp"
  let p ← f.column "p"
  let t ← f.column "t"
  return ⟨nop, charge, x, xp, y, yp, p, t⟩

/-- the coordinate system of the imported bunch: `e_x`, `e_y`, `e_s`; src/bunch.cpp:312-323 -/
structure SddsFrame where
  ex : Vec
  ey : Vec
  es : Vec

open Classical in
/-- computation of the coordinate system, src/bunch.cpp:312-324 -/
noncomputable def SddsFrame.of (dir : Vec) : Except Err SddsFrame := do
  let es ← normalizeE dir
  let e0 : Vec := if 8 / 10 < |dot es ⟨1, 0, 0⟩| then ⟨0, 0, 1⟩ else ⟨1, 0, 0⟩
  let ex ← normalizeE (e0 - es * dot e0 es)
  return ⟨ex, cross ex es, es⟩

/-- the particle created from one row, src/bunch.cpp:332-346 -/
noncomputable def SddsData.particle (d : SddsData) (fr : SddsFrame) (t0 numElectrons : ℝ) (i : Nat) : Except Err Particle := do
  let bg ← sddsEntry d.p i
  let beta := Real.sqrt (bg * bg / (bg * bg + 1))
  let xp ← sddsEntry d.xp i
  let yp ← sddsEntry d.yp i
  let direction ← normalizeE (fr.ex * xp + fr.ey * yp + fr.es)
  let v := direction * beta
  let x ← sddsEntry d.x i
  let y ← sddsEntry d.y i
  let t ← sddsEntry d.t i
  let X0 := fr.ex * x + fr.ey * y + v * (t0 - t) * SpeedOfLight
  return (Particle.new (-numElectrons) numElectrons).initTrajectory 0 X0 (direction * bg) 0

/-- mean arrival time, src/bunch.cpp:304-306 -/
noncomputable def SddsData.meanTime (d : SddsData) (n : Nat) : Except Err ℝ := do
  let ts ← (List.range n).mapM (sddsEntry d.t)
  return ts.sum / n

/-- constructor `Bunch(const char *filename, Vector dir)`, src/bunch.cpp:190-349.  `file` is the file found under the
name, `none` if it cannot be opened.  A file without particles gives an empty bunch; the divisions by zero
(lines 306, 308) have no effect then.  Not modelled: a bunch claiming a negative number of particles, which results
from a negative parameter `Particles` (`Err.range` in the model); names of more than 98 characters, which overflow the
copy made in line 196. -/
noncomputable def Bunch.ofSDDS (file : Option SddsFile) (dir : Vec) : Except Err Bunch :=
  match file.bind SddsFile.data with
  | none => .ok Bunch.empty
  | some d =>
    if d.nop < 0 then .error .range
    else if d.nop = 0 then .ok Bunch.empty
    else do
      let n := d.nop.toNat
      let t0 ← d.meanTime n
      let numElectrons := d.charge / ElementaryCharge / n
      let fr ← SddsFrame.of dir
      let ps ← (List.range n).mapM (d.particle fr t0 numElectrons)
      return ⟨n, ps⟩

/-- the columns of a table of particles, src/beam.cpp:334-346 and src/bunch.cpp:647-659 -/
noncomputable def sddsColumn (rows : List SddsRow) (n : String) : Option (List (Except Err ℝ)) :=
  if n = "t" then some (rows.map (fun r => .ok r.t))
  else if n = "x" then some (rows.map (fun r => .ok r.x))
  else if n = "y" then some (rows.map (fun r => .ok r.y))
  else if n = "z" then some (rows.map (fun r => .ok r.z))
  else if n = "px" then some (rows.map (fun r => .ok r.px))
  else if n = "py" then some (rows.map (fun r => .ok r.py))
  else if n = "pz" then some (rows.map (fun r => .ok r.pz))
  else if n = "p" then some (rows.map (fun r => .ok r.p))
  else if n = "xp" then some (rows.map (fun r => r.xp))
  else if n = "yp" then some (rows.map (fun r => r.yp))
  else if n = "gamma" then some (rows.map (fun r => .ok r.gamma))
  else none

/-- the SDDS file holding the data of a watch point, with the names given to them by `Beam::WriteWatchPointSDDS`,
src/beam.cpp:327-346, 367-413 -/
noncomputable def WatchData.sddsFile : WatchData → Option SddsFile
  | .hdf5 _ _ => none
  | .sdds nop charge rows => some
    { long := fun n => if n = "NumberOfParticles" then some nop else none
      double := fun n => if n = "Charge" then some charge else if n = "NumberOfParticles" then some nop else none
      column := sddsColumn rows }

/-- contents of the file written by `Bunch::WriteWatchPointSDDS`: the parameter "NumberOfParticles" and the table, src/bunch.cpp:642-646, 681-711 -/
structure BunchFile where
  nop : Nat
  rows : List SddsRow

/-- `Bunch::WriteWatchPointSDDS`, src/bunch.cpp:633-727, provided the file can be written; the program itself exports whole beams only -/
noncomputable def Bunch.watchSDDS (b : Bunch) : Except Err BunchFile :=
  (visited b.NOP b.P).map (fun ps => ⟨b.NOP, ps.map sddsRow⟩)

/-- the SDDS file with the names given by `Bunch::WriteWatchPointSDDS`, src/bunch.cpp:642-659, 681-711 -/
noncomputable def BunchFile.sddsFile (f : BunchFile) : SddsFile :=
  { long := fun n => if n = "NumberOfParticles" then some f.nop else none
    double := fun n => if n = "NumberOfParticles" then some f.nop else none
    column := sddsColumn f.rows }

end Teufel
