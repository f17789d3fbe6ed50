import Verif.Spec.Motion

/-!
# Energy of charged particles

Independent of the constants and of the numerical method of the program.  Charges are in units of the elementary charge, masses in units of the
mass of the electron.
-/

namespace Teufel
open Vec

/-- speed of light (m/s), by definition of the metre -/
noncomputable def SI.c : ℝ := 299792458

/-- elementary charge (C), by definition of the ampere -/
noncomputable def SI.e : ℝ := 1.602176634e-19

/-- mass of the electron (kg), CODATA 2018 -/
noncomputable def SI.me : ℝ := 9.1093837015e-31

/-- vacuum permittivity (As/Vm), CODATA 2018 -/
noncomputable def SI.eps0 : ℝ := 8.8541878128e-12

/-- vacuum permeability (Vs/Am), CODATA 2018 -/
noncomputable def SI.mu0 : ℝ := 1.25663706212e-6

/-- the values agree up to a relative difference `ε` -/
def AgreeWithin (ε a b : ℝ) : Prop := |a - b| ≤ ε * |b|

/-- energy (J), rest energy included, of a particle with the momentum `p` (in units of m c) -/
noncomputable def energyJ (mass : ℝ) (p : Vec) : ℝ := mass * SI.me * SI.c ^ 2 * Real.sqrt (1 + p.abs2nd)

/-- the electric field does not depend on time and has the potential `φ` (V): along any path the potential falls at the rate given by the
electric field and the velocity -/
def Potential (field : FieldFn) (φ : Vec → ℝ) : Prop :=
  ∀ (y : ℝ → Vec) (v : Vec) (s : ℝ), HasVelocity y v s → ∀ t EB, field t (y s) = .ok EB →
    HasDerivAt (fun u => φ (y u)) (-dot EB.E v) s

/-- `w` is the work (J per C) which the electric field does along the path `x` from the time `t0` to `t0 + T` -/
def Work (field : FieldFn) (x : ℝ → Vec) (t0 T : ℝ) (w : ℝ → ℝ) : Prop :=
  w t0 = 0 ∧ ∀ t, t0 ≤ t → t ≤ t0 + T → ∀ v, HasVelocity x v t → ∀ EB, field t (x t) = .ok EB → HasDerivAt w (dot EB.E v) t

end Teufel
