import Verif.Spec.Energy
import Mathlib.Analysis.Complex.Trigonometric
import Mathlib.MeasureTheory.Integral.IntervalIntegral.Basic
import Mathlib.MeasureTheory.Integral.Bochner.Basic
import Mathlib.MeasureTheory.Measure.Lebesgue.Basic

/-!
# Beams of light

Textbook description of a beam of monochromatic light that runs along `z`, independent of the program.
-/

namespace Teufel

/-- The component `E t x y z` of a field oscillates with the wave number `k`; it is a wave that runs along `z`, with the complex amplitude `u`. -/
def Envelope (k : ℝ) (E : ℝ → ℝ → ℝ → ℝ → ℝ) (u : ℝ → ℝ → ℝ → ℂ) : Prop :=
  ∀ t x y z, E t x y z = (u x y z * Complex.exp (Complex.I * ((k * (SI.c * t - z) : ℝ) : ℂ))).re

/-- The paraxial wave equation `∂²u/∂x² + ∂²u/∂y² = 2ik ∂u/∂z` for the amplitude of a wave that runs along `z`. -/
def Paraxial (k : ℝ) (u : ℝ → ℝ → ℝ → ℂ) : Prop :=
  ∀ x y z, ∃ (ux uy : ℝ → ℂ) (uxx uyy uz : ℂ),
    (∀ ξ, HasDerivAt (fun s => u s y z) (ux ξ) ξ) ∧ HasDerivAt ux uxx x ∧
    (∀ η, HasDerivAt (fun s => u x s z) (uy η) η) ∧ HasDerivAt uy uyy y ∧
    HasDerivAt (fun s => u x y s) uz z ∧ uxx + uyy = 2 * Complex.I * k * uz

/-- The power (W) that passes the plane at `z`: the energy flow `S t x y z` (W/m²) along `z`, averaged over the period `T` from `t` on and
integrated over the plane. -/
noncomputable def powerThrough (S : ℝ → ℝ → ℝ → ℝ → ℝ) (t T z : ℝ) : ℝ := ∫ x, ∫ y, 1 / T * ∫ s in t..(t + T), S s x y z

/-- energy flow along `z` (W/m²) of an electromagnetic field -/
noncomputable def flowZ (F : EMField) : ℝ := (F.E.x * F.B.y - F.E.y * F.B.x) / SI.mu0

end Teufel
