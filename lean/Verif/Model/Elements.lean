import Verif.Model.Fields
import Mathlib.Analysis.SpecialFunctions.Trigonometric.Arctan
import Mathlib.Analysis.Complex.Trigonometric

/-!
# Lattice elements: dipoles, undulators and waves

Models `src/dipole.cpp`, `src/undulator.cpp`, `src/wave.cpp`.  The XML constructors are part of the parser model.
-/

namespace Teufel
open Vec

/-- members of `HardEdgeDipole`, src/dipole.h:75-79 -/
structure HardEdgeDipole where
  B_val : Vec
  p_1 : Vec
  n_1 : Vec
  p_2 : Vec
  n_2 : Vec

/-- default constructor, src/dipole.cpp:27-35 -/
noncomputable def HardEdgeDipole.default : HardEdgeDipole :=
  { B_val := 0, p_1 := 0, n_1 := ⟨1, 0, 0⟩, p_2 := 0, n_2 := ⟨-1, 0, 0⟩ }

open Classical in
/-- `HardEdgeDipole::LocalField`, src/dipole.cpp:108-118 -/
noncomputable def HardEdgeDipole.LocalField (d : HardEdgeDipole) : FieldFn := fun _ X =>
  let d1 := dot (X - d.p_1) d.n_1
  let d2 := dot (X - d.p_2) d.n_2
  .ok ⟨0, if d1 < 0 ∧ d2 < 0 then d.B_val else 0⟩

/-- members of `SoftEdgeDipole`, src/dipole.h:136-142 -/
structure SoftEdgeDipole where
  B_val : Vec
  p_1 : Vec
  n_1 : Vec
  t_1 : ℝ
  p_2 : Vec
  n_2 : Vec
  t_2 : ℝ

open Classical in
/-- `SoftEdgeDipole::LocalField`, src/dipole.cpp:216-229.  A zero transition length is a division by zero. -/
noncomputable def SoftEdgeDipole.LocalField (d : SoftEdgeDipole) : FieldFn := fun _ X =>
  let d1 := dot (X - d.p_1) d.n_1
  let d2 := dot (X - d.p_2) d.n_2
  if d.t_1 = 0 ∨ d.t_2 = 0 then .error .nan
  else
    let at1 := Real.arctan (2 * d1 / d.t_1)
    let at2 := Real.arctan (2 * d2 / d.t_2)
    let scal := 1 - (at1 / Pi + 1 / 2) - (at2 / Pi + 1 / 2)
    .ok ⟨0, d.B_val * scal⟩

/-- members of `PlanarUndulator`, src/undulator.h: set by `Setup`, src/undulator.cpp:66-80 -/
structure PlanarUndulator where
  BPeak : ℝ
  LambdaU : ℝ
  NPeriods : Int
  Krms : ℝ
  ky : ℝ
  kz : ℝ

/-- `PlanarUndulator::Setup`, src/undulator.cpp:66-80 -/
noncomputable def PlanarUndulator.Setup (B lambda : ℝ) (N : Int) : PlanarUndulator :=
  { BPeak := B, LambdaU := lambda, NPeriods := N
    Krms := lambda * SpeedOfLight * B / (2 * Pi * mecsquared) / Real.sqrt 2
    ky := 2 * Pi / lambda, kz := 2 * Pi / lambda }

/-- `PlanarUndulator::GetKrms`, src/undulator.cpp:102-105 -/
def PlanarUndulator.GetKrms (u : PlanarUndulator) : ℝ := u.Krms

/-- `PlanarUndulator::GetKpeak`, src/undulator.cpp:97-100 -/
noncomputable def PlanarUndulator.GetKpeak (u : PlanarUndulator) : ℝ := u.Krms * Real.sqrt 2

/-- the two ramps applied in src/undulator.cpp:119-123 and 236-240, in program order -/
noncomputable def rampField (z z1 z2 lambda : ℝ) (B : Vec) : Vec :=
  let B := if z < z1 + lambda then B * ((z - z1) / lambda) else B
  if z2 - lambda ≤ z then B * ((z2 - z) / lambda) else B

open Classical in
/-- `PlanarUndulator::LocalField`, src/undulator.cpp:107-126.
For a zero period the support is empty, so no division by zero is reached. -/
noncomputable def PlanarUndulator.LocalField (u : PlanarUndulator) : FieldFn := fun _ X =>
  let z1 := -((u.NPeriods : ℝ) + 1) * u.LambdaU / 2
  let z2 := ((u.NPeriods : ℝ) + 1) * u.LambdaU / 2
  .ok ⟨0, if z1 ≤ X.z ∧ X.z < z2 then
      rampField X.z z1 z2 u.LambdaU
        ⟨0, u.BPeak * Real.sin (u.kz * X.z) * Real.cosh (u.kz * X.y),
          u.BPeak * Real.cos (u.kz * X.z) * Real.sinh (u.kz * X.y)⟩
    else 0⟩

/-- members of `TransverseGradientUndulator`, src/undulator.h -/
structure TransverseGradientUndulator where
  BPeak : ℝ
  kx : ℝ
  Modulation : ℝ
  LambdaU : ℝ
  NPeriods : Int
  Krms : ℝ
  kz : ℝ
  ky : ℝ

/-- `TransverseGradientUndulator::Setup`, src/undulator.cpp:171-194 -/
noncomputable def TransverseGradientUndulator.Setup (B grad modu lambda : ℝ) (N : Int) : TransverseGradientUndulator :=
  { BPeak := B, kx := grad, Modulation := modu, LambdaU := lambda, NPeriods := N
    Krms := lambda * SpeedOfLight * B / (2 * Pi * mecsquared) / Real.sqrt 2
    kz := 2 * Pi / lambda
    ky := Real.sqrt (2 * Pi / lambda * (2 * Pi / lambda) + grad * grad) }

/-- `TransverseGradientUndulator::GetKrms`, src/undulator.cpp:214-217 -/
def TransverseGradientUndulator.GetKrms (u : TransverseGradientUndulator) : ℝ := u.Krms

/-- `TransverseGradientUndulator::GetKpeak`, src/undulator.cpp:209-212 -/
noncomputable def TransverseGradientUndulator.GetKpeak (u : TransverseGradientUndulator) : ℝ := u.Krms * Real.sqrt 2

/-- the field between lines 226 and 235 of src/undulator.cpp: planar part plus gradient part, before ramping -/
noncomputable def TransverseGradientUndulator.core (u : TransverseGradientUndulator) (X : Vec) : Vec :=
  let m := 1 + u.Modulation * Real.sin (u.kz * X.z)
  ⟨0 + u.BPeak * m * u.kx / u.ky * Real.cos (u.kx * X.x) * Real.sinh (u.ky * X.y) * Real.sin (u.kz * X.z),
   u.BPeak * m * Real.sin (u.kz * X.z) * Real.cosh (u.kz * X.y)
     + u.BPeak * m * Real.sin (u.kx * X.x) * Real.cosh (u.ky * X.y) * Real.sin (u.kz * X.z),
   u.BPeak * m * Real.cos (u.kz * X.z) * Real.sinh (u.kz * X.y)
     + u.BPeak * m * u.kz / u.ky * Real.sin (u.kx * X.x) * Real.sinh (u.ky * X.y) * Real.cos (u.kz * X.z)⟩

open Classical in
/-- `TransverseGradientUndulator::LocalField`, src/undulator.cpp:221-243 -/
noncomputable def TransverseGradientUndulator.LocalField (u : TransverseGradientUndulator) : FieldFn := fun _ X =>
  let z1 := -((u.NPeriods : ℝ) + 1) * u.LambdaU / 2
  let z2 := ((u.NPeriods : ℝ) + 1) * u.LambdaU / 2
  .ok ⟨0, if z1 ≤ X.z ∧ X.z < z2 then rampField X.z z1 z2 u.LambdaU (u.core X) else 0⟩

/-- members of `GaussianWave`, src/wave.h: set by `Setup`, src/wave.cpp:67-83 -/
structure GaussianWave where
  lambda : ℝ
  k : ℝ
  omega : ℝ
  A : ℂ
  zR : ℝ
  w0 : ℝ

/-- `GaussianWave::Setup`, src/wave.cpp:67-83 (and the same assignments in the packet, 146-170) -/
noncomputable def GaussianWave.Setup (lda : ℝ) (amplitude : ℂ) (range : ℝ) : GaussianWave :=
  { lambda := lda, k := 2 * Pi / lda, omega := 2 * Pi / lda * SpeedOfLight, A := amplitude, zR := range
    w0 := Real.sqrt (lda * range / Pi) }

open Classical in
/-- phase retardation by the wave front curvature, `Pi*r*r/lambda/R` with `R = z + zR*zR/z`, src/wave.cpp:93,96.
At `z = 0` IEEE arithmetic yields `R = inf` and a vanishing phase; this is modelled by the case distinction. -/
noncomputable def GaussianWave.curvPhase (g : GaussianWave) (z r : ℝ) : ℝ :=
  if z = 0 then 0 else Pi * r * r / g.lambda / (z + g.zR * g.zR / z)

open Classical in
/-- `GaussianWave::LocalField`, src/wave.cpp:85-102.
Wavelength and Rayleigh length must have a positive product, otherwise the mode size is zero or NaN. -/
noncomputable def GaussianWave.LocalField (g : GaussianWave) : FieldFn := fun t X =>
  let z := X.z
  let r := Vec.norm ⟨X.x, X.y, 0⟩
  let w := g.w0 * Real.sqrt (1 + (z / g.zR) ^ 2)
  let dens : ℂ := ((g.w0 / w : ℝ) : ℂ) * Complex.exp ⟨-(r / w) ^ 2, g.omega * t - g.k * z - g.curvPhase z r⟩
  if ¬ 0 < g.lambda * g.zR then .error .nan
  else .ok ⟨⟨(g.A * dens).re, 0, 0⟩, ⟨0, (g.A * dens).re / SpeedOfLight, 0⟩⟩

open Classical in
/-- `GaussianWavePacket::LocalField`, src/wave.cpp:172-190, with the additional member `tau` -/
noncomputable def GaussianWave.PacketField (g : GaussianWave) (tau : ℝ) : FieldFn := fun t X =>
  let z := X.z
  let r := Vec.norm ⟨X.x, X.y, 0⟩
  let w := g.w0 * Real.sqrt (1 + (z / g.zR) ^ 2)
  let dens : ℂ := ((g.w0 / w : ℝ) : ℂ) *
    Complex.exp ⟨-(r / w) ^ 2 - ((t - z / SpeedOfLight) / tau) ^ 2, g.omega * t - g.k * z - g.curvPhase z r⟩
  if ¬ 0 < g.lambda * g.zR ∨ tau = 0 then .error .nan
  else .ok ⟨⟨(g.A * dens).re, 0, 0⟩, ⟨0, (g.A * dens).re / SpeedOfLight, 0⟩⟩

end Teufel
