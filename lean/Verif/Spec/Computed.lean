import Verif.Spec.Motion

/-!
# Fields computed with rounding errors
-/

namespace Teufel
open Vec

/-- Near the path `x` (in space and time, up to the distance `r`) the computed field `fieldR` differs from `field` by at most `F` times the sum of the unit
roundoff `u` and the error of the time it is asked for. -/
structure ComputesNear (field fieldR : FieldFn) (x : ℝ → Vec) (t0 T r F u : ℝ) : Prop where
  near : ∀ t, t0 ≤ t → t ≤ t0 + T → ∀ t', |t' - t| ≤ r → ∀ X, (X - x t).norm ≤ r → ∀ EB, field t X = .ok EB →
    ∃ EB', fieldR t' X = .ok EB' ∧ (EB'.E - EB.E).norm ≤ F * (u + |t' - t|) ∧ (EB'.B - EB.B).norm ≤ F * (u + |t' - t|)

end Teufel
