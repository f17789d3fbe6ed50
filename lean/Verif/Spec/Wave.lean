import Verif.Spec.FEL
import Verif.Spec.LW

/-!
# Specification: the wave equation in one dimension

The transverse electric field radiated by a transverse current density `J` obeys
`∂²E/∂t² - c² ∂²E/∂z² = - μ₀ c² ∂J/∂t`.
-/

namespace Teufel
open Vec

namespace FEL

/-- The field strength after `k` calls at a distance of `s` grid spacings from the initial position of the head of the grid, in
the direction of propagation.  Cell `i` of the grid is `i` spacings behind the head, and the head moves by one spacing per call.
Zero outside the grid. -/
noncomputable def fieldAtPlace (h : Nat → FEL) (k : Nat) (s : Int) : ℝ :=
  if s ≤ k then ((h k).E[((k : Int) - s).toNat]?).getD 0 else 0

/-- `∂²u/∂t² - c² ∂²u/∂z²` by central differences on a grid with a spacing of `c dt` -/
noncomputable def waveOperator (dt : ℝ) (u : Nat → Int → ℝ) (k : Nat) (s : Int) : ℝ :=
  (u (k + 1) s - 2 * u k s + u (k - 1) s) / dt ^ 2 - (u k (s + 1) - 2 * u k s + u k (s - 1)) / dt ^ 2

/-- `∂J/∂t` caused by one particle, `x` grid spacings behind the head: the charge times the time derivative of its velocity in the
direction of polarisation, spread over the area of the optical mode and, in the direction of propagation, over a Gaussian of an rms
width of two grid spacings -/
noncomputable def currentRate (f : FEL) (x : ℝ) (p : Particle) : ℝ :=
  let w := f.w0 * Real.sqrt (1 + ((f.steps * f.ds - f.zw) / f.zR) ^ 2)
  p.getCharge * (SpeedOfLight * dot (betaDotOf p.PCur p.ACur) f.ex) / (Real.pi * w ^ 2 / 2) *
    (Real.exp (-(x - f.cellsBehindHead p) ^ 2 / (2 * 2 ^ 2)) / (2 * f.ds * Real.sqrt (2 * Real.pi)))

/-- the sum over the particles of a beam of what each deposits in cell `i`: its `Contribution` times a Gaussian, cut off ten cells
from the cell next to the particle -/
noncomputable def deposited (f : FEL) (b : Beam) (i : Nat) : ℝ :=
  match b.traverse with
  | .ok ps => (ps.map fun p => if i < f.N ∧ |(i : Int) - crint (f.cellsBehindHead p)| ≤ 10 then
      f.Contribution p * (Real.exp (-(i - f.cellsBehindHead p) ^ 2 / 8) / (2 * Real.sqrt (2 * Real.pi))) else 0).sum
  | .error _ => 0

/-- The field of the interaction obeys the wave equation driven by the beam (everywhere inside the grid, to an accuracy of one half
of the source). -/
def WaveEquation : Prop :=
  ∀ (h : Nat → FEL) (b : Nat → Beam) (n : Nat), Course h b n → (h 0).Sane → ∀ (k : Nat) (s : Int) (ps : List Particle),
    1 ≤ k → k < n → (b k).traverse = .ok ps → 1 ≤ (k : Int) - s → (k : Int) - s + 2 ≤ (h 0).N →
    |waveOperator (h 0).dt (fieldAtPlace h) k s + MuNull * SpeedOfLight ^ 2 * (ps.map (currentRate (h k) ((k : Int) - s : Int))).sum| ≤
      1 / 2 * (MuNull * SpeedOfLight ^ 2 * (ps.map (fun p => |currentRate (h k) ((k : Int) - s : Int) p|)).sum)

end FEL
end Teufel
