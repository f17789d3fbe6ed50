import Verif.Model.Particle

/-! # Specification: other charges in other fields -/

namespace Teufel

/-- a particle in the same state with the same mass and `c` times the charge, which sees `1/c` times the field -/
noncomputable def Particle.recharge (c : ℝ) (p : Particle) : Particle :=
  { p with Charge := c * p.Charge, qm := c * p.qm, qmt2 := c * p.qmt2, ECur := p.ECur * c⁻¹, BCur := p.BCur * c⁻¹ }

/-- `g` is `1/c` times `f`, at all times and places -/
def Weakened (c : ℝ) (f g : FieldFn) : Prop := ∀ t X F, f t X = .ok F → g t X = .ok (F * c⁻¹)

end Teufel
