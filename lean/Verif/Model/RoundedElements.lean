import Verif.Model.Elements
import Verif.Model.RoundedVay
import Verif.Model.Rounded

/-!
# Fields of lattice elements with rounded numbers

The fields of planar and transverse gradient undulators, soft-edge dipoles and homogeneous fields, and their sum over the lattice, a second time: every
result of an arithmetic operation is rounded by a function `rnd` (see Spec/Rounding), and `sin`, `cos`, `sinh`, `cosh` and `atan` are the functions of a
mathematical library.  With `rnd = id` and the exact functions the definitions agree with Model/Elements (`C129_exact`).

Simplification: as in Model/Rounded there are no fused multiply-add instructions, no overflow and no underflow; the number of periods is exact as `double`.
-/

namespace Teufel
open Vec

/-- the functions of `<math.h>` used in src/undulator.cpp:117-119,230-236 and src/dipole.cpp:224-225 -/
structure MathLib where
  sin : ℝ → ℝ
  cos : ℝ → ℝ
  sinh : ℝ → ℝ
  cosh : ℝ → ℝ
  atan : ℝ → ℝ

namespace Rounded

/-- `kz`, src/undulator.cpp:79 = 190; the literal `Pi` of src/global.h:41 is rounded, too -/
noncomputable def waveNumber (rnd : ℝ → ℝ) (lambda : ℝ) : ℝ := rnd (rnd (2.0 * rnd Pi) / lambda)

/-- `z1`, src/undulator.cpp:112 = 224 -/
noncomputable def zStart (rnd : ℝ → ℝ) (lambda : ℝ) (N : Int) : ℝ := rnd (rnd (-((N : ℝ) + 1) * lambda) / 2.0)

/-- `z2`, src/undulator.cpp:113 = 225 -/
noncomputable def zEnd (rnd : ℝ → ℝ) (lambda : ℝ) (N : Int) : ℝ := rnd (rnd (((N : ℝ) + 1) * lambda) / 2.0)

/-- the two ramps, src/undulator.cpp:120-123 = 237-240 -/
noncomputable def rampField (rnd : ℝ → ℝ) (z z1 z2 lambda : ℝ) (B : Vec) : Vec :=
  let B := if z < rnd (z1 + lambda) then vmul rnd B (rnd (rnd (z - z1) / lambda)) else B
  if rnd (z2 - lambda) ≤ z then vmul rnd B (rnd (rnd (z2 - z) / lambda)) else B

open Classical in
/-- the part common to src/undulator.cpp:112-125 and 224-242: nothing outside the undulator, ramps inside -/
noncomputable def undulatorB (rnd : ℝ → ℝ) (lambda : ℝ) (N : Int) (z : ℝ) (core : Vec) : Vec :=
  if zStart rnd lambda N ≤ z ∧ z < zEnd rnd lambda N then rampField rnd z (zStart rnd lambda N) (zEnd rnd lambda N) lambda core else 0

/-- `B.x`, `B.y` and `B.z` before the ramps, src/undulator.cpp:117-119 -/
noncomputable def planarCore (rnd : ℝ → ℝ) (M : MathLib) (B lambda : ℝ) (X : Vec) : Vec :=
  let kz := waveNumber rnd lambda
  ⟨0, rnd (rnd (B * M.sin (rnd (kz * X.z))) * M.cosh (rnd (kz * X.y))), rnd (rnd (B * M.cos (rnd (kz * X.z))) * M.sinh (rnd (kz * X.y)))⟩

/-- `PlanarUndulator::LocalField` after `Setup(B, lambda, N)`, src/undulator.cpp:66-80 and 107-126 -/
noncomputable def planarField (rnd : ℝ → ℝ) (M : MathLib) (B lambda : ℝ) (N : Int) : FieldFn := fun _ X =>
  .ok ⟨0, undulatorB rnd lambda N X.z (planarCore rnd M B lambda X)⟩

/-- `ky`, src/undulator.cpp:191 -/
noncomputable def gradientKy (rnd : ℝ → ℝ) (kx lambda : ℝ) : ℝ :=
  let kz := waveNumber rnd lambda
  rnd (Real.sqrt (rnd (rnd (kz * kz) + rnd (kx * kx))))

/-- `BPeak * (1.0+Modulation*sin(kz*X.z))`, src/undulator.cpp:231-236 -/
noncomputable def gradientPeak (rnd : ℝ → ℝ) (M : MathLib) (B modu lambda : ℝ) (X : Vec) : ℝ :=
  rnd (B * rnd (1.0 + rnd (modu * M.sin (rnd (waveNumber rnd lambda * X.z)))))

/-- `B.x`, `B.y` and `B.z` before the ramps, src/undulator.cpp:229-236 -/
noncomputable def gradientCore (rnd : ℝ → ℝ) (M : MathLib) (B kx modu lambda : ℝ) (X : Vec) : Vec :=
  let kz := waveNumber rnd lambda
  let ky := gradientKy rnd kx lambda
  let b := gradientPeak rnd M B modu lambda X
  ⟨rnd (0 + rnd (rnd (rnd (rnd (rnd (b * kx) / ky) * M.cos (rnd (kx * X.x))) * M.sinh (rnd (ky * X.y))) * M.sin (rnd (kz * X.z)))),
   rnd (rnd (rnd (b * M.sin (rnd (kz * X.z))) * M.cosh (rnd (kz * X.y)))
     + rnd (rnd (rnd (b * M.sin (rnd (kx * X.x))) * M.cosh (rnd (ky * X.y))) * M.sin (rnd (kz * X.z)))),
   rnd (rnd (rnd (b * M.cos (rnd (kz * X.z))) * M.sinh (rnd (kz * X.y)))
     + rnd (rnd (rnd (rnd (rnd (b * kz) / ky) * M.sin (rnd (kx * X.x))) * M.sinh (rnd (ky * X.y))) * M.cos (rnd (kz * X.z))))⟩

/-- `TransverseGradientUndulator::LocalField` after `Setup(B, kx, modu, lambda, N)`, src/undulator.cpp:171-192 and 219-243 -/
noncomputable def gradientField (rnd : ℝ → ℝ) (M : MathLib) (B kx modu lambda : ℝ) (N : Int) : FieldFn := fun _ X =>
  .ok ⟨0, undulatorB rnd lambda N X.z (gradientCore rnd M B kx modu lambda X)⟩

/-- `scal`, src/dipole.cpp:221-226 -/
noncomputable def softEdgeScale (rnd : ℝ → ℝ) (M : MathLib) (d : SoftEdgeDipole) (X : Vec) : ℝ :=
  let d1 := rdot rnd (vsub rnd X d.p_1) d.n_1
  let d2 := rdot rnd (vsub rnd X d.p_2) d.n_2
  let at1 := M.atan (rnd (rnd (2.0 * d1) / d.t_1))
  let at2 := M.atan (rnd (rnd (2.0 * d2) / d.t_2))
  rnd (rnd (1.0 - rnd (rnd (at1 / rnd Pi) + 0.5)) - rnd (rnd (at2 / rnd Pi) + 0.5))

open Classical in
/-- `SoftEdgeDipole::LocalField`, src/dipole.cpp:216-229.  A zero transition length is a division by zero. -/
noncomputable def softEdgeField (rnd : ℝ → ℝ) (M : MathLib) (d : SoftEdgeDipole) : FieldFn := fun _ X =>
  if d.t_1 = 0 ∨ d.t_2 = 0 then .error .nan else .ok ⟨0, vmul rnd d.B_val (softEdgeScale rnd M d X)⟩

/-- `LocalizedField::Field`, src/fields.cpp:180-183 -/
noncomputable def localized (rnd : ℝ → ℝ) (localField : FieldFn) (t0 : ℝ) (origin : Vec) : FieldFn := fun t X =>
  localField (rnd (t - t0)) (vsub rnd X origin)

end Rounded

/-- the lattice elements modelled here, with the arguments of their constructors: src/fields.h:190-220, src/undulator.h, src/dipole.h:100-145 -/
inductive Magnet where
  | homogeneous (E B : Vec)
  | planar (B lambda : ℝ) (N : Int) (t0 : ℝ) (origin : Vec)
  | gradient (B kx modu lambda : ℝ) (N : Int) (t0 : ℝ) (origin : Vec)
  | softEdge (d : SoftEdgeDipole) (t0 : ℝ) (origin : Vec)

/-- the element as in Model/Elements: src/fields.cpp:155-183, src/undulator.cpp, src/dipole.cpp:216-229, in exact arithmetic -/
noncomputable def Magnet.exact : Magnet → GeneralField
  | .homogeneous E B => HomogeneousField E B
  | .planar B l N t0 o => LocalizedField (PlanarUndulator.Setup B l N).LocalField t0 o
  | .gradient B kx m l N t0 o => LocalizedField (TransverseGradientUndulator.Setup B kx m l N).LocalField t0 o
  | .softEdge d t0 o => LocalizedField d.LocalField t0 o

/-- the same with rounded numbers: src/fields.cpp:155-183, src/undulator.cpp, src/dipole.cpp:216-229 -/
noncomputable def Magnet.computed (rnd : ℝ → ℝ) (M : MathLib) : Magnet → FieldFn
  | .homogeneous E B => fun _ _ => .ok ⟨E, B⟩
  | .planar B l N t0 o => Rounded.localized rnd (Rounded.planarField rnd M B l N) t0 o
  | .gradient B kx m l N t0 o => Rounded.localized rnd (Rounded.gradientField rnd M B kx m l N) t0 o
  | .softEdge d t0 o => Rounded.localized rnd (Rounded.softEdgeField rnd M d) t0 o

/-- `Lattice::Field`, src/fields.cpp:229-239, with the rounded `operator+=` of src/fields.cpp:58-63 -/
noncomputable def Rounded.latticeField (rnd : ℝ → ℝ) (M : MathLib) (lat : List Magnet) : FieldFn := fun t X =>
  lat.foldlM (fun total e => (e.computed rnd M t X).map fun f => ⟨Rounded.vadd rnd total.E f.E, Rounded.vadd rnd total.B f.B⟩) 0

end Teufel
