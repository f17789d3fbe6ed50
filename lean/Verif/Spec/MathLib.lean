import Verif.Model.RoundedElements
import Mathlib.Analysis.SpecialFunctions.Trigonometric.Arctan

/-!
# Accuracy of the mathematical library
-/

namespace Teufel

/-- `g` computes `f` with an error of at most `K` units of roundoff, relative to the result or absolute -/
def Accurate (f g : ℝ → ℝ) (K u : ℝ) : Prop := ∀ x, |g x - f x| ≤ K * u * (1 + |f x|)

/-- all functions of the library have this accuracy -/
structure MathLib.IsAccurate (M : MathLib) (K u : ℝ) : Prop where
  sin : Accurate Real.sin M.sin K u
  cos : Accurate Real.cos M.cos K u
  sinh : Accurate Real.sinh M.sinh K u
  cosh : Accurate Real.cosh M.cosh K u
  atan : Accurate Real.arctan M.atan K u

/-- the exact functions -/
noncomputable def MathLib.exact : MathLib := ⟨Real.sin, Real.cos, Real.sinh, Real.cosh, Real.arctan⟩

/-- undulators with a positive period and at least one half period, soft-edge dipoles with transition lengths other than zero -/
def Magnet.Proper : Magnet → Prop
  | .homogeneous _ _ => True
  | .planar _ l N _ _ => 0 < l ∧ 0 ≤ N
  | .gradient _ _ _ l N _ _ => 0 < l ∧ 0 ≤ N
  | .softEdge d _ _ => d.t_1 ≠ 0 ∧ d.t_2 ≠ 0

end Teufel
