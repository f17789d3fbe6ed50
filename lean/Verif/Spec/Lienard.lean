import Verif.Spec.Uniform
import Verif.Spec.LW

/-!
# The power radiated by an accelerated charge

Energy flux through a large sphere, and Liénard's formula.
-/

namespace Teufel
open Vec

/-- Energy that flows through the sphere of radius `R` around the place `x`, per unit of the time in which it was emitted there: `F` is the
field on the sphere when the signal emitted at `x` arrives, `cross E B / MuNull` is the energy flux.  A signal emitted during `dt` by a
charge with the velocity `β` (units of c) passes in the direction `n` during `(1 - n·β) dt`.  The directions are described by spherical
coordinates about the axis `ez`. -/
noncomputable def emittedPower (F : Vec → EMField) (x β ex ey ez : Vec) (R : ℝ) : ℝ :=
  ∫ θ in (0 : ℝ)..Real.pi, ∫ φ in (0 : ℝ)..(2 * Real.pi),
    dot (cross (F (x + direction ex ey ez θ φ * R)).E (F (x + direction ex ey ez θ φ * R)).B / MuNull) (direction ex ey ez θ φ) *
      (1 - dot (direction ex ey ez θ φ) β) * (R ^ 2 * Real.sin θ)

/-- Liénard's formula for the power radiated by the charge `q` (Coulomb) with the velocity `β` (units of c) and its time derivative `w`:
`P = q² γ⁶ (w² - (β × w)²) / (6 π ε₀ c)` -/
noncomputable def lienardPower (q : ℝ) (β w : Vec) : ℝ :=
  q ^ 2 * lorentz β ^ 6 * (w.abs2nd - (cross β w).abs2nd) / (6 * Real.pi * EpsNull * SpeedOfLight)

end Teufel
