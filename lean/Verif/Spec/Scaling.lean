import Verif.Model.FEL1D
import Verif.Spec.Recharge
import Verif.Spec.Shares

/-! # Specification: scaled beams and interactions -/

namespace Teufel

/-- an interaction in the same state, with `1/c` times the field and current density, present and recorded, and an optical mode of `a` times the width -/
noncomputable def FEL.rescale (c a : ℝ) (f : FEL) : FEL :=
  { f with E := f.E.map (· * c⁻¹), prev := f.prev.map (· * c⁻¹), fields := f.fields.map (List.map (· * c⁻¹)), currents := f.currents.map (List.map (· * c⁻¹)), w0 := a * f.w0 }

/-- a particle in the same state with `k c` times the charge and `k` times the mass, which sees `1/c` times the field -/
noncomputable def Particle.rescale (c k : ℝ) (p : Particle) : Particle := (p.recharge c).weigh k

end Teufel
