import Verif.Spec.Recharge
import Verif.Lemmas.Shares
import Verif.Props.HybridSerial
import Verif.Lemmas.Moved

/-! # Lemmas on other charges in other fields -/

namespace Teufel
open Vec
namespace Particle

variable {c : ℝ} (hc : c ≠ 0)
include hc

theorem force_recharge (q : ℝ) (v : Vec) : v * c⁻¹ * (c * q) = v * q := by
  ext <;> simp <;> field_simp

theorem eforce_recharge (q : ℝ) (E : Vec) : E * c⁻¹ / SpeedOfLight * (c * q) = E / SpeedOfLight * q := by
  ext <;> simp <;> field_simp

theorem vayGamma_recharge (q : ℝ) (P E B : Vec) : vayGamma (c * q) P (E * c⁻¹) (B * c⁻¹) = vayGamma q P E B := by
  unfold vayGamma
  rw [eforce_recharge hc, force_recharge hc]

theorem vayMomentum_recharge (q : ℝ) (P E B : Vec) : vayMomentum (c * q) P (E * c⁻¹) (B * c⁻¹) = vayMomentum q P E B := by
  unfold vayMomentum
  rw [eforce_recharge hc, force_recharge hc, vayGamma_recharge hc]

theorem vayAccel_recharge (q : ℝ) (P E B : Vec) : vayAccel (c * q) P (E * c⁻¹) (B * c⁻¹) = vayAccel q P E B := by
  unfold vayAccel
  ext <;> simp [cross] <;> field_simp

theorem kick_recharge (q : ℝ) (b E B : Vec) : (E * c⁻¹ / SpeedOfLight + cross b (B * c⁻¹)) * (c * q) = (E / SpeedOfLight + cross b B) * q := by
  ext <;> simp [cross] <;> field_simp

theorem step_recharge {f g : FieldFn} (h : Weakened c f g) (p q : Particle) (hq : p.StepVay f = .ok q) : (p.recharge c).StepVay g = .ok (q.recharge c) := by
  unfold StepVay at hq ⊢
  simp only [recharge] at hq ⊢
  cases hf : f (p.tCur + p.dt) (p.XCur + p.VYp / p.VYgamma * SpeedOfLight * p.dt) with
  | error e => rw [hf] at hq; cases hq
  | ok EB =>
    rw [hf] at hq
    rw [h _ _ _ hf]
    simp only [Except.ok.injEq] at hq ⊢
    subst hq
    have e1 : (EB * c⁻¹).E = EB.E * c⁻¹ := rfl
    have e2 : (EB * c⁻¹).B = EB.B * c⁻¹ := rfl
    rw [e1, e2, kick_recharge hc, vayAccel_recharge hc, vayGamma_recharge hc, vayMomentum_recharge hc]
    rfl

theorem init_recharge {f g : FieldFn} (h : Weakened c f g) (p q : Particle) (dt : ℝ) (hq : p.InitVay dt f = .ok q) : (p.recharge c).InitVay dt g = .ok (q.recharge c) := by
  have hqm : c * p.Charge / p.Mass * InvRestMass = c * (p.Charge / p.Mass * InvRestMass) := by ring
  have hqt : c * (p.Charge / p.Mass * InvRestMass) * 0.5 * dt = c * (p.Charge / p.Mass * InvRestMass * 0.5 * dt) := by ring
  unfold InitVay at hq ⊢
  simp only [recharge, hqm, hqt] at hq ⊢
  split at hq
  · cases hq
  split at hq
  · cases hq
  rename_i h1 h2
  rw [if_neg h1, if_neg h2]
  cases ht : p.Time.getLast? with
  | none => rw [ht] at hq; cases hq
  | some t =>
  cases hx : p.X.getLast? with
  | none => rw [ht, hx] at hq; cases hq
  | some x =>
  cases hm : p.P.getLast? with
  | none => rw [ht, hx, hm] at hq; cases hq
  | some pm =>
    rw [ht, hx, hm] at hq
    simp only at hq ⊢
    cases hf : f t x with
    | error e => rw [hf] at hq; cases hq
    | ok EB =>
      rw [hf] at hq
      rw [h _ _ _ hf]
      simp only at hq ⊢
      have e1 : (EB * c⁻¹).E = EB.E * c⁻¹ := rfl
      have e2 : (EB * c⁻¹).B = EB.B * c⁻¹ := rfl
      rw [e1, e2, vayAccel_recharge hc, vayGamma_recharge hc, vayMomentum_recharge hc]
      split at hq
      · cases hq
      · rename_i h3
        rw [if_neg h3]
        cases hq
        rfl

theorem alone_recharge {f g : FieldFn} (h : Weakened c f g) (dt : ℝ) (p a : Particle) (n : Nat) (ha : trackAlone dt f p n = .ok a) :
    trackAlone dt g (p.recharge c) n = .ok (a.recharge c) := by
  induction n generalizing a with
  | zero =>
    unfold trackAlone at ha ⊢
    cases hi : dropState ((p.initTrajectory p.tCur p.XCur p.PCur p.ACur).InitVay dt f) with
    | error e => rw [hi] at ha; cases ha
    | ok b =>
      rw [hi] at ha
      cases ha
      have := init_recharge hc h _ _ dt (dropState_ok hi)
      show (dropState (((p.initTrajectory p.tCur p.XCur p.PCur p.ACur).recharge c).InitVay dt g)).bind _ = _
      rw [this]
      rfl
  | succ n ih =>
    rw [trackAlone_succ] at ha ⊢
    cases hb : trackAlone dt f p n with
    | error e => rw [hb] at ha; cases ha
    | ok b =>
      rw [hb] at ha
      have ha' : dropState (b.StepVay f) = .ok a := ha
      rw [ih b hb]
      show dropState ((b.recharge c).StepVay g) = _
      rw [step_recharge hc h _ _ (dropState_ok ha')]
      rfl

omit hc in
/-- an observer does not see the mass of a particle -/
theorem sample_mass (o : Observer) (key : Observer.Key) (p : Particle) : o.particleSample key (p.recharge c) = o.particleSample key (p.weigh c) := by
  cases o <;> rfl

end Particle
end Teufel
