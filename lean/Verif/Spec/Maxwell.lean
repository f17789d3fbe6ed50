import Verif.Model.Vec
import Mathlib.Analysis.Calculus.Deriv.Basic

/-! Specification: static Maxwell equations of a source-free magnetic field -/

namespace Teufel

/-- `g` is the gradient of `f` at `X` (partial derivatives) -/
def HasGrad (f : Vec → ℝ) (X g : Vec) : Prop :=
  HasDerivAt (fun s => f ⟨s, X.y, X.z⟩) g.x X.x ∧
  HasDerivAt (fun s => f ⟨X.x, s, X.z⟩) g.y X.y ∧
  HasDerivAt (fun s => f ⟨X.x, X.y, s⟩) g.z X.z

/-- divergence and curl of `B` exist and vanish at `X` -/
def StaticMaxwell (B : Vec → Vec) (X : Vec) : Prop :=
  ∃ gx gy gz : Vec, HasGrad (fun Y => (B Y).x) X gx ∧ HasGrad (fun Y => (B Y).y) X gy ∧ HasGrad (fun Y => (B Y).z) X gz ∧
    gx.x + gy.y + gz.z = 0 ∧
    gz.y - gy.z = 0 ∧ gx.z - gz.x = 0 ∧ gy.x - gx.y = 0

end Teufel
