import Verif.Spec.LW
import Verif.Spec.Motion

/-!
# The field of a moving charge at an observer

What a charge radiates at the time `t` arrives at the observer at the time `arrival x obs t`.
-/

namespace Teufel
open Vec

/-- time of arrival at `obs` of the signal which the charge on the path `x` sends at the time `t` -/
noncomputable def arrival (x : ℝ → Vec) (obs : Vec) (t : ℝ) : ℝ := t + Vec.norm (obs - x t) / SpeedOfLight

/-- `S θ` is the Liénard-Wiechert field at `obs`, at the time `θ`, of the charge `q` (Coulomb) with position `x` and momentum `p` (units of m c):
whenever `θ` is the arrival time of the signal sent at a time `t` between `t0` and `t0 + T` -/
def Seen (q : ℝ) (x p : ℝ → Vec) (obs : Vec) (t0 T : ℝ) (S : ℝ → EMField) : Prop :=
  ∀ t, t0 ≤ t → t ≤ t0 + T → ∀ w, HasVelocity (fun s => betaOf (p s)) w t → S (arrival x obs t) = LW q (x t) (betaOf (p t)) w obs

/-- the field of a charge in all of space and time: whatever was sent at the time `t`, `t0 ≤ t ≤ t0 + T`, is seen at every place when it arrives there -/
def SeenEverywhere (q : ℝ) (x p : ℝ → Vec) (t0 T : ℝ) (S : ℝ → Vec → EMField) : Prop := ∀ obs, Seen q x p obs t0 T (fun t => S t obs)

end Teufel
