import Mathlib.Analysis.Real.Sqrt
import Mathlib.Analysis.SpecialFunctions.Trigonometric.Basic
import Mathlib.Tactic.Ring
import Mathlib.Tactic.Linarith
import Mathlib.Tactic.Positivity
import Mathlib.Tactic.FieldSimp

/-!
# Errors and natural constants

Models `src/global.h`.  Simplification: `double` is `ℝ` throughout the numerical model.
-/

namespace Teufel

/-- Abnormal outcomes of a modelled C++ function.
`io` and `range` are the two exception classes of `src/global.h:78-96` (the message is dropped),
`ub` is undefined behaviour of the C++ program, `diverge` a loop that does not terminate. -/
inductive Err where
  | io
  | range
  | ub
  | diverge
  /-- the C++ code performs a floating point division by zero here: the result is inf or NaN -/
  | nan
  deriving DecidableEq, Repr

/-- `SpeedOfLight`, src/global.h:39 -/
noncomputable def SpeedOfLight : ℝ := 2.99792458e8

/-- `ElementaryCharge`, src/global.h:37 -/
noncomputable def ElementaryCharge : ℝ := 1.6021766208e-19

/-- `mecsquared`, src/global.h:38 -/
noncomputable def mecsquared : ℝ := 0.5109989461e6

/-- `EpsNull`, src/global.h:42 -/
noncomputable def EpsNull : ℝ := 8.854187817e-12

/-- `Pi`, src/global.h:41.  Simplification: the literal is replaced by the exact number π. -/
noncomputable def Pi : ℝ := Real.pi

/-- `MuNull`, src/global.h:43 -/
noncomputable def MuNull : ℝ := 4 * Pi * 1e-7

/-- `InvRestMass`, src/global.h:44 -/
noncomputable def InvRestMass : ℝ := 1.758820025e11

theorem SpeedOfLight_pos : 0 < SpeedOfLight := by unfold SpeedOfLight; norm_num
theorem SpeedOfLight_ne : SpeedOfLight ≠ 0 := SpeedOfLight_pos.ne'
theorem ElementaryCharge_pos : 0 < ElementaryCharge := by unfold ElementaryCharge; norm_num
theorem mecsquared_pos : 0 < mecsquared := by unfold mecsquared; norm_num
theorem EpsNull_pos : 0 < EpsNull := by unfold EpsNull; norm_num
theorem Pi_pos : 0 < Pi := Real.pi_pos
theorem MuNull_pos : 0 < MuNull := by
  unfold MuNull; have := Pi_pos; positivity
theorem InvRestMass_pos : 0 < InvRestMass := by unfold InvRestMass; norm_num

end Teufel
