import Verif.Model.Vec
import Mathlib.Analysis.SpecialFunctions.Trigonometric.Deriv

/-!
# Rotation about an axis
-/

namespace Teufel
open Vec

/-- the vector `v` turned by the angle `α` about the axis `e` (a unit vector), right-handed -/
noncomputable def turn (e : Vec) (α : ℝ) (v : Vec) : Vec :=
  v * Real.cos α + cross e v * Real.sin α + e * (dot e v * (1 - Real.cos α))

end Teufel
