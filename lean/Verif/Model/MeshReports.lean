import Verif.Model.Mesh

/-!
# Reports on meshed screens

The numbers which `MeshedScreen::writeReport` (`src/mesh.cpp`) and the programs `propagate` and `reflection` print about a screen.
-/

namespace Teufel
open Vec

namespace Mesh

/-- the variables `peak_index`, `Sp` and `peak` of `writeReport`, src/mesh.cpp:796-798; the index -1 is `none` -/
structure Peak where
  index : Option Nat
  Sp : Vec
  peak : ℝ

open Classical in
/-- body of the search for the peak, src/mesh.cpp:799-808 -/
noncomputable def peakStep (m : Mesh) (s : Peak) (ip : Nat) : Except Err Peak := do
  let tr ← Particle.vecAt m.A ip
  let p := tr.poynting
  return if p.norm > s.peak then ⟨some ip, p, p.norm⟩ else s

/-- the lines about the peak, src/mesh.cpp:812-817: index, position (m), energy density (J/m²), Poynting vector (J/m²), start time (ns) and time step (ns) -/
structure PeakReport where
  index : Nat
  position : Vec
  density : ℝ
  S : Vec
  t0 : ℝ
  dt : ℝ

/-- what `writeReport` prints, src/mesh.cpp:786-819: numbers of cells and time steps, area (cm²), energy (µJ), and the peak if there is one -/
structure Report where
  Np : Nat
  Nt : Nat
  area : ℝ
  energy : Except Err ℝ
  peak : Option PeakReport

/-- `writeReport`, src/mesh.cpp:783-820.  The energy is not a number if there is a degenerate cell; the report goes on. -/
noncomputable def report (m : Mesh) (g : MeshGeometry) : Except Err Report := do
  let s ← (List.range m.Np).foldlM m.peakStep ⟨none, ⟨0, 0, 0⟩, 0⟩
  let peak ← match s.index with
    | none => .ok none
    | some ip => do
      let p ← Particle.vecAt m.points ip
      let tr ← Particle.vecAt m.A ip
      .ok (some (⟨ip, p, s.peak, s.Sp, tr.t0 * 1e9, m.dt * 1e9⟩ : PeakReport))
  return { Np := m.Np, Nt := m.Nt, area := g.totalArea * 1e4, energy := (m.totalEnergy g).map (fun e => e * 1e6), peak := peak }

/-- the box `bbx1 … bbt2`, src/reflection.cpp:96-103, 395-402 -/
structure Box where
  x1 : ℝ
  x2 : ℝ
  y1 : ℝ
  y2 : ℝ
  z1 : ℝ
  z2 : ℝ
  t1 : ℝ
  t2 : ℝ

open Classical in
/-- body of the loop, src/reflection.cpp:104-117, 403-416; `get_dt()` is an `int` -/
noncomputable def boxStep (m : Mesh) (b : Box) (ip : Nat) : Except Err Box := do
  let p ← Particle.vecAt m.points ip
  let tr ← Particle.vecAt m.A ip
  let t0 := tr.t0
  let tmax : ℝ := t0 + ((m.Nt : Int) * m.getDt : Int)
  return { x1 := if p.x < b.x1 then p.x else b.x1, x2 := if p.x > b.x2 then p.x else b.x2
           y1 := if p.y < b.y1 then p.y else b.y1, y2 := if p.y > b.y2 then p.y else b.y2
           z1 := if p.z < b.z1 then p.z else b.z1, z2 := if p.z > b.z2 then p.z else b.z2
           t1 := if t0 < b.t1 then t0 else b.t1, t2 := if tmax > b.t2 then tmax else b.t2 }

/-- the bounding box printed by `reflection`, src/reflection.cpp:95-122, 394-421 (there the times are printed in ns).
Simplification: the product of two `int` in line 115 does not overflow. -/
noncomputable def boundingBox (m : Mesh) : Except Err Box :=
  (List.range m.Np).foldlM m.boxStep ⟨1e30, -1e30, 1e30, -1e30, 1e30, -1e30, 1e30, -1e30⟩

/-- body of the loop, src/reflection.cpp:131-132, 178-179 -/
noncomputable def flowStep (m : Mesh) (g : MeshGeometry) (S : Vec) (ip : Nat) : Except Err Vec := do
  let tr ← Particle.vecAt m.A ip
  let a ← Particle.vecAt g.area ip
  return S + tr.poynting * a

/-- the total energy flow vector printed by `reflection`, src/reflection.cpp:130-133, 177-180 -/
noncomputable def energyFlow (m : Mesh) (g : MeshGeometry) : Except Err Vec := (List.range m.Np).foldlM (m.flowStep g) ⟨0, 0, 0⟩

end Mesh
end Teufel
