import Verif.Model.ObserverFiles

/-!
# The files written by a source screen

Models the last lines of the constructor of `SourceScreen`, `SourceScreen::WriteField` and `SourceScreen::getBuffer`
(`src/source_screen.cpp`).
-/

namespace Teufel
open Vec

namespace SourceScreen

/-- the indices of the three nested loops, src/source_screen.cpp:495-497 -/
def samples (s : SourceScreen) : List ((Nat × Nat) × Nat) :=
  (cells s.Nx s.Ny).flatMap (fun c : Nat × Nat => (List.range s.NOTS).map (fun it : Nat => (c, it)))

/-- `getBuffer`, src/source_screen.cpp:484-511.  The values are collected first; writing more of them than `getBufferSize()` overwrites memory. -/
noncomputable def getBuffer (s : SourceScreen) (Field : List (List FieldTrace)) : Except Err (List ℝ) := do
  let vals ← s.samples.mapM (fun k => do
    let trace ← gridAt Field k.1.1 k.1.2
    trace.getField k.2)
  fillBuffer (getBufferSize s.Nx s.Ny s.NOTS) (vals.flatMap EMField.comps)

/-- `WriteField`, src/source_screen.cpp:290-482, for a file that can be created.  Failures of other HDF5 calls are not modelled. -/
noncomputable def WriteField (s : SourceScreen) (Field : List (List FieldTrace)) : Except Err H5File := do
  let t0_src := 0.0
  let sset ← h5write "Screen" [4, 3] (Particle.comps s.origin ++ Particle.comps s.axes.normal ++ Particle.comps s.axes.dX ++ Particle.comps s.axes.dY)
    [("Nx", s.Nx), ("Ny", s.Ny), ("NOTS", s.NOTS)] [("t0", t0_src), ("dt", s.dt), ("dtx", s.dtx), ("dty", s.dty)]
  let buffer ← s.getBuffer Field
  let dset ← h5write "ElMagField" [s.Nx, s.Ny, s.NOTS, 6] buffer [("NOTS", s.NOTS)] [("t0", t0_src), ("dt", s.dt)]
  return [sset, dset]

/-- The constructor including the files it writes at its end, src/source_screen.cpp:30-226.  `creatable` says which files can be created; an exception of
`H5Fcreate` (line 298) leaves the constructor. The names of the files are fixed, they do not depend on the input. -/
noncomputable def openIn (creatable : String → Bool) (f : H5File) (position : Vec) (time : ℝ) : Except Err (SourceScreen × List (String × H5File)) := do
  let s ← SourceScreen.open f position time
  if ¬ creatable "SourceScreenTraces_DEBUG.h5" then throw .io
  let a ← s.WriteField s.Traces
  if ¬ creatable "SourceScreenTimeDerivative_DEBUG.h5" then throw .io
  let b ← s.WriteField s.dtTraces
  return (s, [("SourceScreenTraces_DEBUG.h5", a), ("SourceScreenTimeDerivative_DEBUG.h5", b)])

end SourceScreen
end Teufel
