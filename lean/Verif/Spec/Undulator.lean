import Verif.Spec.Energy
import Mathlib.Analysis.SpecialFunctions.Trigonometric.Basic

/-!
# The motion of electrons in a planar undulator

Independent of the program: textbook formulas.
-/

namespace Teufel

/-- the undulator parameter `e B λ / (2 π m c)` for the peak field `B` (T) and the period `l` (m) -/
noncomputable def undulatorK (B l : ℝ) : ℝ := SI.e * B * l / (2 * Real.pi * SI.me * SI.c)

/-- The shape of the oscillation of the horizontal momentum at the distance `z` from the centre of an undulator of `N` periods of length `l`, of which
the first and the last are matching sections: the momentum follows the cosine in the inner `N - 1` periods, is not deflected outside of the `N + 1`
periods covered by the field, and changes from one to the other in between. -/
noncomputable def swing (N : ℤ) (l z : ℝ) : ℝ :=
  if |z| ≤ ((N : ℝ) - 1) * l / 2 then Real.cos (2 * Real.pi / l * z)
  else if |z| < ((N : ℝ) + 1) * l / 2 then
    (((N : ℝ) + 1) / 2 - |z| / l) * Real.cos (2 * Real.pi / l * z) + Real.sin (2 * Real.pi / l * |z|) / (2 * Real.pi)
  else 0

/-- The wavelength `λ / (2 γ²) (1 + K² / 2 + γ² θ²)` of the radiation of an undulator: `K` is the amplitude of the oscillation of the horizontal momentum and
`p` its mean, `γ θ`, both in units of m c. -/
noncomputable def resonantWavelength (l γ K p : ℝ) : ℝ := l / (2 * γ ^ 2) * (1 + K ^ 2 / 2 + p ^ 2)

/-- The integral of `1 + (p + K cos(2 π z / l))²` from 0 to `z` -/
noncomputable def slip (l K p z : ℝ) : ℝ :=
  (1 + K ^ 2 / 2 + p ^ 2) * z + 2 * p * K * (Real.sin (2 * Real.pi / l * z) / (2 * Real.pi / l)) + K ^ 2 * (Real.sin (2 * (2 * Real.pi / l) * z) / (4 * (2 * Real.pi / l)))

end Teufel
