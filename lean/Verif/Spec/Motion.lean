import Verif.Model.Fields
import Mathlib.Analysis.Calculus.Deriv.Basic
import Mathlib.Topology.MetricSpace.Lipschitz

/-!
# The motion of a charged particle in given fields

The equation of motion, independent of any numerical method.  Momenta are in units of `m c`.
-/

namespace Teufel
open Vec

/-- `v` is the derivative of `f` at the time `t`, component by component -/
def HasVelocity (f : ℝ → Vec) (v : Vec) (t : ℝ) : Prop :=
  HasDerivAt (fun s => (f s).x) v.x t ∧ HasDerivAt (fun s => (f s).y) v.y t ∧ HasDerivAt (fun s => (f s).z) v.z t

/-- `n` times differentiable, with an `n`-th derivative that is Lipschitz continuous in a neighbourhood of every point.  This is slightly
weaker than `n + 1` times continuously differentiable: it admits corners of the `n`-th derivative. -/
def LipDiff : ℕ → (ℝ → ℝ) → Prop
  | 0, f => LocallyLipschitz f
  | n + 1, f => Differentiable ℝ f ∧ LipDiff n (deriv f)

/-- all components are twice differentiable with a locally Lipschitz continuous second derivative -/
def Smooth (f : ℝ → Vec) : Prop :=
  LipDiff 2 (fun s => (f s).x) ∧ LipDiff 2 (fun s => (f s).y) ∧ LipDiff 2 (fun s => (f s).z)

/-- velocity in units of the speed of light of a particle with momentum `p` -/
noncomputable def velOf (p : Vec) : Vec := p / Real.sqrt (1 + p.abs2nd)

/-- Position `x` and momentum `p` of a particle with the ratio `qm` of charge and mass (C/kg) obey the relativistic equation of motion
with the Lorentz force during the time from `t0` to `t0 + T`. -/
structure Motion (qm : ℝ) (field : FieldFn) (x p : ℝ → Vec) (t0 T : ℝ) : Prop where
  position : ∀ t, t0 ≤ t → t ≤ t0 + T → HasVelocity x (velOf (p t) * SpeedOfLight) t
  momentum : ∀ t, t0 ≤ t → t ≤ t0 + T → ∃ EB, field t (x t) = .ok EB ∧
    HasVelocity p ((EB.E + cross (velOf (p t) * SpeedOfLight) EB.B) * (qm / SpeedOfLight)) t

/-- Within the distance `r` from the path `x` the field is defined and differs from that on the path by at most `L` times the distance;
the magnetic field on the path does not exceed `Bm`. -/
structure TameNear (field : FieldFn) (x : ℝ → Vec) (t0 T r L Bm : ℝ) : Prop where
  magnetic : ∀ t, t0 ≤ t → t ≤ t0 + T → ∀ EB, field t (x t) = .ok EB → EB.B.norm ≤ Bm
  near : ∀ t, t0 ≤ t → t ≤ t0 + T → ∀ EB, field t (x t) = .ok EB → ∀ X, (X - x t).norm ≤ r →
    ∃ EB', field t X = .ok EB' ∧ (EB'.E - EB.E).norm ≤ L * (X - x t).norm ∧ (EB'.B - EB.B).norm ≤ L * (X - x t).norm

end Teufel
