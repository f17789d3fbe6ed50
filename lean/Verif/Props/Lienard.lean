import Verif.Lemmas.Lienard
import Verif.Props.RetardedField
import Verif.Props.UniformField
import Verif.Props.Energy

/-!
# C117: the radiated power
-/

namespace Teufel
namespace Lienard
open Vec

theorem cross_cross_dot (n E : Vec) : dot (cross E (cross n E)) n = dot E E * dot n n - dot E n ^ 2 := by
  simp [dot, cross]; ring

theorem bac_cab (n u w : Vec) : cross n (cross u w) = u * dot n w - w * dot n u := by
  ext <;> simp [dot, cross] <;> ring

/-- energy flux in the direction `n`, per time of emission -/
theorem flux_density (q : ℝ) (x β w n : Vec) (hn : dot n n = 1) (hk : 1 - dot n β ≠ 0) (R : ℝ) (hR : 0 < R) :
    dot (cross (LW q x β w (x + n * R)).E (LW q x β w (x + n * R)).B / MuNull) n * (1 - dot n β) * R ^ 2 =
      (q / (4 * Real.pi * EpsNull)) ^ 2 / (MuNull * SpeedOfLight ^ 3) / (1 - dot n β) ^ 5 *
        ((1 - dot n β) ^ 2 * dot w w + 2 * (1 - dot n β) * dot n w * dot β w - (1 - dot β β) * dot n w ^ 2 +
          2 * SpeedOfLight * (1 - dot β β) * ((dot β β - dot n β) * dot n w + (1 - dot n β) * dot β w) / R +
          SpeedOfLight ^ 2 * (1 - dot β β) ^ 2 * (dot β β - dot n β ^ 2) / R ^ 2) := by
  have hc := SpeedOfLight_pos
  have hm := MuNull_pos
  have e0 : x + n * R - x = n * R := by ext <;> simp
  have e1 : Vec.norm (n * R) = R := by
    rw [Vec.norm_mul, abs_of_pos hR, Vec.norm_def, ← dot_self, hn, Real.sqrt_one, one_mul]
  have e2 : (n * R) / R = n := by ext <;> simp [hR.ne']
  obtain ⟨g, hg⟩ : ∃ g, g = q / (4 * Real.pi * EpsNull) := ⟨_, rfl⟩
  obtain ⟨k, hkd⟩ : ∃ k, k = 1 - dot n β := ⟨_, rfl⟩
  obtain ⟨A1, hA1⟩ : ∃ A1, A1 = (1 - dot β β) / (k ^ 3 * R ^ 2) := ⟨_, rfl⟩
  obtain ⟨A2, hA2⟩ : ∃ A2, A2 = 1 / (SpeedOfLight * k ^ 3 * R) := ⟨_, rfl⟩
  have hnu : dot n (n - β) = k := by rw [dot_comm, dot_sub_left, hn, hkd, dot_comm β n]
  have hE : LWE q x β w (x + n * R) = ((n - β) * A1 + ((n - β) * dot n w - w * k) * A2) * g := by
    simp only [LWE, e0, e1, e2]
    rw [bac_cab, hnu, ← hg, ← hkd, ← hA1, ← hA2]
  have hLW : LW q x β w (x + n * R) = ⟨LWE q x β w (x + n * R), cross n (LWE q x β w (x + n * R)) / SpeedOfLight⟩ := by
    simp only [LW, e0, e1, e2]
  have hS : dot (cross (LW q x β w (x + n * R)).E (LW q x β w (x + n * R)).B / MuNull) n =
      (dot (LWE q x β w (x + n * R)) (LWE q x β w (x + n * R)) - dot (LWE q x β w (x + n * R)) n ^ 2) / (MuNull * SpeedOfLight) := by
    rw [hLW]
    simp only
    generalize LWE q x β w (x + n * R) = E
    have h := cross_cross_dot n E
    rw [hn, mul_one] at h
    rw [← h]
    simp [dot, cross]
    field_simp
  have hEE : dot (LWE q x β w (x + n * R)) (LWE q x β w (x + n * R)) - dot (LWE q x β w (x + n * R)) n ^ 2 =
      g ^ 2 * (A1 ^ 2 * (dot β β - dot n β ^ 2) + 2 * A1 * A2 * ((dot β β - dot n β) * dot n w + k * dot β w) +
        A2 ^ 2 * (k ^ 2 * dot w w + 2 * k * dot n w * dot β w - (1 - dot β β) * dot n w ^ 2)) := by
    rw [hE, hkd]
    have hn' : n.x * n.x + n.y * n.y + n.z * n.z = 1 := hn
    have expand : ∀ (P Q T : ℝ), dot ((n * P + β * Q + w * T) * g) ((n * P + β * Q + w * T) * g) - dot ((n * P + β * Q + w * T) * g) n ^ 2 =
        g ^ 2 * (P ^ 2 * dot n n + Q ^ 2 * dot β β + T ^ 2 * dot w w + 2 * P * Q * dot n β + 2 * P * T * dot n w + 2 * Q * T * dot β w
          - (P * dot n n + Q * dot n β + T * dot n w) ^ 2) := by
      intro P Q T
      simp [dot]; ring
    have e : ((n - β) * A1 + ((n - β) * dot n w - w * (1 - dot n β)) * A2) * g =
        (n * (A1 + dot n w * A2) + β * (-(A1 + dot n w * A2)) + w * (-((1 - dot n β) * A2))) * g := by
      ext <;> simp only [mul_x, mul_y, mul_z, add_x, add_y, add_z, sub_x, sub_y, sub_z] <;> ring
    rw [e, expand, hn]
    ring
  rw [hS, hEE, ← hg, ← hkd, hA1, hA2]
  rw [← hkd] at hk
  field_simp
  ring

/-- components of a direction -/
theorem direction_dots (ex ey ez : Vec) (θ φ : ℝ) (v : Vec) :
    dot (direction ex ey ez θ φ) v = Real.sin θ * Real.cos φ * dot ex v + Real.sin θ * Real.sin φ * dot ey v + Real.cos θ * dot ez v := by
  unfold direction
  simp [dot]; ring

/-- the power radiated through a sphere of finite radius -/
theorem power_finite (q : ℝ) (x w ex ey ez : Vec) (hf : Frame3 ex ey ez) (b : ℝ) (hb : b ^ 2 < 1) :
    ∃ I1 I2 : ℝ, ∀ R, 0 < R → ∀ F : Vec → EMField, (∀ n : Vec, dot n n = 1 → F (x + n * R) = LW q x (ez * b) w (x + n * R)) →
      emittedPower F x (ez * b) ex ey ez R =
        (q / (4 * Real.pi * EpsNull)) ^ 2 / (MuNull * SpeedOfLight ^ 3) * (8 / 3 * Real.pi * (1 / (1 - b ^ 2)) ^ 3 * (dot w w - b ^ 2 * (dot ex w ^ 2 + dot ey w ^ 2))) + I1 / R + I2 / R ^ 2 := by
  obtain ⟨K, hK⟩ : ∃ K, K = (q / (4 * Real.pi * EpsNull)) ^ 2 / (MuNull * SpeedOfLight ^ 3) := ⟨_, rfl⟩
  obtain ⟨h11, h22, h33, h12, h23, h31⟩ := id hf
  obtain ⟨a1, ha1⟩ : ∃ a, a = dot ex w := ⟨_, rfl⟩
  obtain ⟨a2, ha2⟩ : ∃ a, a = dot ey w := ⟨_, rfl⟩
  obtain ⟨a3, ha3⟩ : ∃ a, a = dot ez w := ⟨_, rfl⟩
  obtain ⟨A, hA⟩ : ∃ A, A = dot w w := ⟨_, rfl⟩
  have hAs : A = (a1 ^ 2 + a2 ^ 2) + a3 ^ 2 := by
    have h := congrArg (fun v => dot v w) (orthonormal_complete hf w)
    simp only [dot_add_left, dot_mul_left] at h
    rw [dot_comm w ex, dot_comm w ey, dot_comm w ez, ← ha1, ← ha2, ← ha3, ← hA] at h
    rw [← h]; ring
  have hkpos : ∀ θ : ℝ, 0 < 1 - b * Real.cos θ := by
    intro θ
    have h1 := Real.cos_le_one θ
    have h2 := Real.neg_one_le_cos θ
    have h3 : |b| < 1 := by rw [← sq_lt_one_iff_abs_lt_one]; exact hb
    have h4 : |b * Real.cos θ| < 1 := by
      rw [abs_mul]
      have : |Real.cos θ| ≤ 1 := Real.abs_cos_le_one θ
      nlinarith [abs_nonneg b, abs_nonneg (Real.cos θ)]
    linarith [(abs_lt.mp h4).2]
  obtain ⟨g0, hg0⟩ : ∃ g : ℝ → ℝ, g = fun μ => (2 * ((1 - b * μ) ^ 2 * A + 2 * (1 - b * μ) * (a3 * μ) * (b * a3) - (1 - b ^ 2) * (a3 * μ) ^ 2) -
      (1 - b ^ 2) * ((1 - μ ^ 2) * (a1 ^ 2 + a2 ^ 2))) / (1 - b * μ) ^ 5 := ⟨_, rfl⟩
  obtain ⟨g1, hg1⟩ : ∃ g : ℝ → ℝ, g = fun μ => 4 * SpeedOfLight * (1 - b ^ 2) * ((b ^ 2 - b * μ) * (a3 * μ) + (1 - b * μ) * (b * a3)) / (1 - b * μ) ^ 5 := ⟨_, rfl⟩
  obtain ⟨g2, hg2⟩ : ∃ g : ℝ → ℝ, g = fun μ => 2 * SpeedOfLight ^ 2 * (1 - b ^ 2) ^ 2 * (b ^ 2 - (b * μ) ^ 2) / (1 - b * μ) ^ 5 := ⟨_, rfl⟩
  have hne : ∀ θ : ℝ, (1 - b * Real.cos θ) ^ 5 ≠ 0 := fun θ => pow_ne_zero 5 (hkpos θ).ne'
  have c0 : Continuous (fun θ : ℝ => g0 (Real.cos θ) * Real.sin θ) := by
    rw [hg0]; exact (Continuous.div (by fun_prop) (by fun_prop) hne).mul Real.continuous_sin
  have c1 : Continuous (fun θ : ℝ => g1 (Real.cos θ) * Real.sin θ) := by
    rw [hg1]; exact (Continuous.div (by fun_prop) (by fun_prop) hne).mul Real.continuous_sin
  have c2 : Continuous (fun θ : ℝ => g2 (Real.cos θ) * Real.sin θ) := by
    rw [hg2]; exact (Continuous.div (by fun_prop) (by fun_prop) hne).mul Real.continuous_sin
  -- the integral over the polar angle
  have i0 : ∫ θ in (0 : ℝ)..Real.pi, g0 (Real.cos θ) * Real.sin θ = 8 / 3 * (1 / (1 - b ^ 2)) ^ 3 * (A - b ^ 2 * (a1 ^ 2 + a2 ^ 2)) := by
    have hd : ∀ θ ∈ Set.uIcc (0 : ℝ) Real.pi, HasDerivAt (fun θ => -prim b A (b * a3) a3 (a1 ^ 2 + a2 ^ 2) (Real.cos θ)) (g0 (Real.cos θ) * Real.sin θ) θ := by
      intro θ _
      have h := ((prim_deriv b A (b * a3) a3 (a1 ^ 2 + a2 ^ 2) (Real.cos θ) (hkpos θ).ne').comp θ (Real.hasDerivAt_cos θ)).fun_neg
      refine h.congr_deriv ?_
      rw [hg0]
      ring
    rw [intervalIntegral.integral_eq_sub_of_hasDerivAt hd (c0.intervalIntegrable _ _), Real.cos_pi, Real.cos_zero]
    rw [← prim_diff b A (b * a3) a3 (a1 ^ 2 + a2 ^ 2) hb rfl hAs]
    ring
  refine ⟨K * Real.pi * ∫ θ in (0 : ℝ)..Real.pi, g1 (Real.cos θ) * Real.sin θ, K * Real.pi * ∫ θ in (0 : ℝ)..Real.pi, g2 (Real.cos θ) * Real.sin θ, ?_⟩
  intro R hR F hF
  unfold emittedPower
  have inner : ∀ θ : ℝ, (∫ φ in (0 : ℝ)..(2 * Real.pi),
      dot (cross (F (x + direction ex ey ez θ φ * R)).E (F (x + direction ex ey ez θ φ * R)).B / MuNull) (direction ex ey ez θ φ) *
      (1 - dot (direction ex ey ez θ φ) (ez * b)) * (R ^ 2 * Real.sin θ)) =
      K * Real.pi * (g0 (Real.cos θ) * Real.sin θ) + K * Real.pi / R * (g1 (Real.cos θ) * Real.sin θ) + K * Real.pi / R ^ 2 * (g2 (Real.cos θ) * Real.sin θ) := by
    intro θ
    obtain ⟨μ, hμ⟩ : ∃ μ, μ = Real.cos θ := ⟨_, rfl⟩
    obtain ⟨s, hs⟩ : ∃ s, s = Real.sin θ := ⟨_, rfl⟩
    have hk : 1 - b * μ ≠ 0 := by rw [hμ]; exact (hkpos θ).ne'
    have hss : s ^ 2 = 1 - μ ^ 2 := by rw [hs, hμ, Real.sin_sq]
    obtain ⟨L, hL⟩ : ∃ L, L = K / (1 - b * μ) ^ 5 * s := ⟨_, rfl⟩
    obtain ⟨e, he⟩ : ∃ e, e = 2 * (1 - b * μ) * (b * a3) + 2 * SpeedOfLight * (1 - b ^ 2) * (b ^ 2 - b * μ) / R := ⟨_, rfl⟩
    have hint : ∀ φ : ℝ, dot (cross (F (x + direction ex ey ez θ φ * R)).E (F (x + direction ex ey ez θ φ * R)).B / MuNull) (direction ex ey ez θ φ) *
      (1 - dot (direction ex ey ez θ φ) (ez * b)) * (R ^ 2 * Real.sin θ) =
        L * ((1 - b * μ) ^ 2 * A + e * (a3 * μ) - (1 - b ^ 2) * (a3 * μ) ^ 2 + 2 * SpeedOfLight * (1 - b ^ 2) * ((1 - b * μ) * (b * a3)) / R +
          SpeedOfLight ^ 2 * (1 - b ^ 2) ^ 2 * (b ^ 2 - (b * μ) ^ 2) / R ^ 2) +
        L * (s * a1 * (e - 2 * (1 - b ^ 2) * (a3 * μ))) * Real.cos φ + L * (s * a2 * (e - 2 * (1 - b ^ 2) * (a3 * μ))) * Real.sin φ +
        L * (-(1 - b ^ 2) * (s * a1) ^ 2) * Real.cos φ ^ 2 + L * (-(1 - b ^ 2) * (s * a2) ^ 2) * Real.sin φ ^ 2 +
        L * (-2 * (1 - b ^ 2) * s ^ 2 * a1 * a2) * (Real.sin φ * Real.cos φ) := by
      intro φ
      have hn : dot (direction ex ey ez θ φ) (direction ex ey ez θ φ) = 1 := (direction_facts hf θ φ).1
      have hnb : dot (direction ex ey ez θ φ) (ez * b) = b * μ := by
        rw [dot_comm, dot_mul_left, dot_comm, (direction_facts hf θ φ).2, hμ]; ring
      have hbb : dot (ez * b) (ez * b) = b ^ 2 := by
        rw [dot_mul_left, dot_comm, dot_mul_left, h33]; ring
      have hbw : dot (ez * b) w = b * a3 := by rw [dot_mul_left, ha3]; ring
      have hnw : dot (direction ex ey ez θ φ) w = s * Real.cos φ * a1 + s * Real.sin φ * a2 + μ * a3 := by
        rw [direction_dots, ha1, ha2, ha3, hs, hμ]
      have h := flux_density q x (ez * b) w (direction ex ey ez θ φ) hn (by rw [hnb]; exact hk) R hR
      rw [hF _ hn, ← mul_assoc (_ * _) (R ^ 2), h, hnb, hbb, hbw, hnw, ← hK, ← hA, ← hs, hL, he]
      ring
    simp only [hint]
    rw [azimuth, hg0, hg1, hg2, ← hμ, ← hs, hL, he]
    have e1 : (s * a1) ^ 2 = (1 - μ ^ 2) * a1 ^ 2 := by rw [mul_pow, hss]
    have e2 : (s * a2) ^ 2 = (1 - μ ^ 2) * a2 ^ 2 := by rw [mul_pow, hss]
    rw [e1, e2]
    field_simp
    ring
  simp only [inner]
  have hi : ∀ (f : ℝ → ℝ) (k : ℝ), Continuous f → IntervalIntegrable (fun θ => k * f θ) MeasureTheory.volume 0 Real.pi :=
    fun f k hf => (continuous_const.mul hf).intervalIntegrable _ _
  rw [intervalIntegral.integral_add ((hi _ _ c0).add (hi _ _ c1)) (hi _ _ c2), intervalIntegral.integral_add (hi _ _ c0) (hi _ _ c1)]
  simp only [intervalIntegral.integral_const_mul]
  rw [i0, ← ha1, ← ha2, ← hA, ← hK]
  ring

end Lienard

open Lienard Vec Filter

theorem lorentz_six {β : Vec} (h : β.abs2nd < 1) : lorentz β ^ 6 = (1 / (1 - β.abs2nd)) ^ 3 := by
  unfold lorentz
  rw [show (6 : Nat) = 2 * 3 by norm_num, pow_mul, div_pow, one_pow, Real.sq_sqrt (by linarith)]

/-- a field which is the Liénard-Wiechert field on all spheres -/
theorem power_limit (q : ℝ) (x w ex ey ez : Vec) (hf : Frame3 ex ey ez) (b : ℝ) (hb : b ^ 2 < 1) (F : Vec → EMField)
    (hF : ∀ obs, obs ≠ x → F obs = LW q x (ez * b) w obs) :
    Tendsto (emittedPower F x (ez * b) ex ey ez) atTop (nhds (lienardPower q (ez * b) w / (EpsNull * MuNull * SpeedOfLight ^ 2))) := by
  obtain ⟨I1, I2, h⟩ := power_finite q x w ex ey ez hf b hb
  have hc := SpeedOfLight_pos
  have he := EpsNull_pos
  have hm := MuNull_pos
  have hpi := Real.pi_pos
  have hbb : (ez * b).abs2nd = b ^ 2 := by rw [← dot_self, dot_mul_left, dot_comm, dot_mul_left, hf.2.2.1]; ring
  have hcr : (cross (ez * b) w).abs2nd = b ^ 2 * (dot ex w ^ 2 + dot ey w ^ 2) := by
    have h1 : (cross (ez * b) w).abs2nd = b ^ 2 * (dot ez ez * dot w w - dot ez w ^ 2) := by simp [dot, cross, abs2nd]; ring
    have h2 := congrArg (fun v => dot v w) (orthonormal_complete hf w)
    simp only [dot_add_left, dot_mul_left] at h2
    rw [dot_comm w ex, dot_comm w ey, dot_comm w ez] at h2
    rw [h1, hf.2.2.1, ← h2]; ring
  have hval : lienardPower q (ez * b) w / (EpsNull * MuNull * SpeedOfLight ^ 2) = (q / (4 * Real.pi * EpsNull)) ^ 2 / (MuNull * SpeedOfLight ^ 3) *
      (8 / 3 * Real.pi * (1 / (1 - b ^ 2)) ^ 3 * (dot w w - b ^ 2 * (dot ex w ^ 2 + dot ey w ^ 2))) := by
    unfold lienardPower
    rw [lorentz_six (by rw [hbb]; exact hb), hbb, hcr, dot_self]
    have h1 : 1 - b ^ 2 ≠ 0 := by linarith
    field_simp
    ring
  rw [hval]
  have hlim : Tendsto (fun R : ℝ => (q / (4 * Real.pi * EpsNull)) ^ 2 / (MuNull * SpeedOfLight ^ 3) *
      (8 / 3 * Real.pi * (1 / (1 - b ^ 2)) ^ 3 * (dot w w - b ^ 2 * (dot ex w ^ 2 + dot ey w ^ 2))) + I1 / R + I2 / R ^ 2) atTop
      (nhds ((q / (4 * Real.pi * EpsNull)) ^ 2 / (MuNull * SpeedOfLight ^ 3) *
      (8 / 3 * Real.pi * (1 / (1 - b ^ 2)) ^ 3 * (dot w w - b ^ 2 * (dot ex w ^ 2 + dot ey w ^ 2))) + 0 + 0)) :=
    (tendsto_const_nhds.add (tendsto_id.const_div_atTop I1)).add ((tendsto_pow_atTop (two_ne_zero)).const_div_atTop I2)
  rw [add_zero, add_zero] at hlim
  refine hlim.congr' ?_
  filter_upwards [eventually_gt_atTop 0] with R hR
  refine (h R hR F (fun n hn => hF _ ?_)).symm
  intro e
  have : dot (x + n * R - x) n = 0 := by rw [e]; simp [dot]
  have e2 : x + n * R - x = n * R := by ext <;> simp
  rw [e2, dot_mul_left, hn, one_mul] at this
  exact hR.ne' this

theorem betaOf_abs2nd_lt (m : Vec) : (betaOf m).abs2nd < 1 := by
  rw [← Vec.norm_sq]
  have h1 := betaOf_norm_lt m
  have h2 := Vec.norm_nonneg (betaOf m)
  nlinarith

/-- C117 (partial): the power of the field reported for a trajectory point, through spheres of growing radius and per unit of emission time, is given by
Liénard's formula for the velocity `β = m / γ` and the acceleration `a / γ`.  Missing: `a / γ` is the derivative of the
velocity only if the acceleration is transverse, see `C117_transverse`, `C117_longitudinal` and `C117_full_statement_false`.  The divisor
`ε₀ μ₀ c²` is one within 1e-9 (`C117_constants`). -/
theorem C117_power_partial (p : Particle) (i : Nat) (x m a : Vec) (hx : p.TrajPoint i = .ok x) (hm : p.TrajMomentum i = .ok m) (ha : p.TrajAccel i = .ok a)
    (ex ey ez : Vec) (hf : Frame3 ex ey ez) (b : ℝ) (hb : betaOf m = ez * b) (F : Vec → EMField) (hF : ∀ X G, p.RetardedFieldIdx i X = .ok G → F X = G) :
    Tendsto (emittedPower F x (betaOf m) ex ey ez) atTop
      (nhds (lienardPower p.getCharge (betaOf m) (a / Real.sqrt (1 + Vec.norm m ^ 2)) / (EpsNull * MuNull * SpeedOfLight ^ 2))) := by
  have hbb : (ez * b).abs2nd = b ^ 2 := by rw [← dot_self, dot_mul_left, dot_comm, dot_mul_left, hf.2.2.1]; ring
  have hb1 : b ^ 2 < 1 := by rw [← hbb, ← hb]; exact betaOf_abs2nd_lt m
  rw [hb]
  refine power_limit _ x _ ex ey ez hf b hb1 F (fun obs hne => ?_)
  rw [← hb]
  exact hF _ _ ((C12_lienard_wiechert p i x m a hx hm ha obs).1 hne)

/-- C117: the constants of the program fulfil `ε₀ μ₀ c² = 1` to nine digits. -/
theorem C117_constants : AgreeWithin 1e-9 (EpsNull * MuNull * SpeedOfLight ^ 2) 1 := C100_constants.2.2.2.2.2.2.1

/-- C117 (transverse acceleration): Liénard's formula for the true derivative of the velocity, if the stored acceleration is perpendicular to the momentum. -/
theorem C117_transverse (p : Particle) (i : Nat) (x m a : Vec) (hx : p.TrajPoint i = .ok x) (hm : p.TrajMomentum i = .ok m) (ha : p.TrajAccel i = .ok a)
    (hperp : dot m a = 0) (ex ey ez : Vec) (hf : Frame3 ex ey ez) (b : ℝ) (hb : betaOf m = ez * b) (F : Vec → EMField)
    (hF : ∀ X G, p.RetardedFieldIdx i X = .ok G → F X = G) :
    Tendsto (emittedPower F x (betaOf m) ex ey ez) atTop (nhds (lienardPower p.getCharge (betaOf m) (betaDotOf m a) / (EpsNull * MuNull * SpeedOfLight ^ 2))) := by
  have e : betaDotOf m a = a / Real.sqrt (1 + Vec.norm m ^ 2) := by
    simp only [betaDotOf]
    have : dot (betaOf m) a = 0 := by simp only [betaOf]; rw [dot_div_left, hperp, zero_div]
    rw [this]; congr 1; ext <;> simp
  rw [e]
  exact C117_power_partial p i x m a hx hm ha ex ey ez hf b hb F hF

/-- C117 (tracking): every point of a run through magnetic fields radiates the power given by Liénard's formula. -/
theorem C117_magnetic_tracking (p p1 p2 : Particle) (hp : p.Reachable) (dt : ℝ) (f0 : FieldFn) (fs : List FieldFn)
    (h1 : p.InitVay dt f0 = .ok p1) (h2 : p1.steps fs = .ok p2)
    (hE : ∀ f ∈ f0 :: fs, ∀ t x EB, f t x = .ok EB → EB.E = 0) (k : Nat) (hk : k ≤ fs.length) :
    ∃ x m a, p2.TrajPoint (p.getNP - 1 + k : Nat) = .ok x ∧ p2.TrajMomentum (p.getNP - 1 + k : Nat) = .ok m ∧ p2.TrajAccel (p.getNP - 1 + k : Nat) = .ok a ∧
      ∀ (ex ey ez : Vec), Frame3 ex ey ez → ∀ b : ℝ, betaOf m = ez * b → ∀ F : Vec → EMField, (∀ X G, p2.RetardedFieldIdx (p.getNP - 1 + k : Nat) X = .ok G → F X = G) →
        Tendsto (emittedPower F x (betaOf m) ex ey ez) atTop (nhds (lienardPower p2.getCharge (betaOf m) (betaDotOf m a) / (EpsNull * MuNull * SpeedOfLight ^ 2))) := by
  obtain ⟨x, m, a, hx, hm, ha, hLW⟩ := C68_magnetic_tracking p p1 p2 hp dt f0 fs h1 h2 hE k hk
  refine ⟨x, m, a, hx, hm, ha, fun ex ey ez hf b hb F hF => ?_⟩
  have hbb : (ez * b).abs2nd = b ^ 2 := by rw [← dot_self, dot_mul_left, dot_comm, dot_mul_left, hf.2.2.1]; ring
  have hb1 : b ^ 2 < 1 := by rw [← hbb, ← hb]; exact betaOf_abs2nd_lt m
  rw [hb]
  refine power_limit _ x _ ex ey ez hf b hb1 F (fun obs hne => ?_)
  rw [← hb]
  exact hF _ _ (hLW obs hne)

/-- C117 (longitudinal acceleration): if the stored acceleration is along the momentum, the power of the reported field is too large by the fourth
power of the Lorentz factor. -/
theorem C117_longitudinal (p : Particle) (i : Nat) (x m a : Vec) (hx : p.TrajPoint i = .ok x) (hm : p.TrajMomentum i = .ok m) (ha : p.TrajAccel i = .ok a)
    (k : ℝ) (hpar : a = m * k) (ex ey ez : Vec) (hf : Frame3 ex ey ez) (b : ℝ) (hb : betaOf m = ez * b) (F : Vec → EMField)
    (hF : ∀ X G, p.RetardedFieldIdx i X = .ok G → F X = G) :
    Tendsto (emittedPower F x (betaOf m) ex ey ez) atTop
      (nhds ((1 + Vec.norm m ^ 2) ^ 2 * lienardPower p.getCharge (betaOf m) (betaDotOf m a) / (EpsNull * MuNull * SpeedOfLight ^ 2))) := by
  have h := C117_power_partial p i x m a hx hm ha ex ey ez hf b hb F hF
  have hg : 0 < 1 + Vec.norm m ^ 2 := by positivity
  have hs : 0 < Real.sqrt (1 + Vec.norm m ^ 2) := Real.sqrt_pos.mpr hg
  have hsq : Real.sqrt (1 + Vec.norm m ^ 2) ^ 2 = 1 + Vec.norm m ^ 2 := Real.sq_sqrt hg.le
  have e : a / Real.sqrt (1 + Vec.norm m ^ 2) = betaDotOf m a * (1 + Vec.norm m ^ 2) := by
    simp only [betaDotOf, betaOf]
    rw [dot_div_left, hpar]
    have h2 : dot m (m * k) = Vec.norm m ^ 2 * k := by rw [dot_comm, dot_mul_left, dot_self, Vec.norm_sq]
    rw [h2]
    obtain ⟨s, hsd⟩ : ∃ s, s = Real.sqrt (1 + Vec.norm m ^ 2) := ⟨_, rfl⟩
    rw [← hsd] at hs hsq ⊢
    rw [← hsq]
    have hn : Vec.norm m ^ 2 = s ^ 2 - 1 := by linarith
    rw [hn]
    have hs0 := hs.ne'
    ext <;> simp only [div_x, div_y, div_z, mul_x, mul_y, mul_z, sub_x, sub_y, sub_z] <;> field_simp <;> ring
  rw [e] at h
  have e2 : lienardPower p.getCharge (betaOf m) (betaDotOf m a * (1 + Vec.norm m ^ 2)) = (1 + Vec.norm m ^ 2) ^ 2 * lienardPower p.getCharge (betaOf m) (betaDotOf m a) := by
    unfold lienardPower
    generalize betaDotOf m a = v
    generalize betaOf m = β
    generalize 1 + Vec.norm m ^ 2 = r
    have : (v * r).abs2nd - (cross β (v * r)).abs2nd = r ^ 2 * (v.abs2nd - (cross β v).abs2nd) := by simp [abs2nd, cross]; ring
    rw [this]; ring
  rwa [e2] at h

/-- C117: the full statement (Liénard's formula for the true derivative of the velocity at every trajectory point) is false: the power of the field
reported for a particle accelerated along its velocity is another one. -/
theorem C117_full_statement_false :
    ∃ (p : Particle) (x m a ex ey ez : Vec) (b : ℝ) (F : Vec → EMField), p.Reachable ∧ p.TrajPoint (0 : Nat) = .ok x ∧ p.TrajMomentum (0 : Nat) = .ok m ∧ p.TrajAccel (0 : Nat) = .ok a ∧
      Frame3 ex ey ez ∧ betaOf m = ez * b ∧ (∀ X G, p.RetardedFieldIdx (0 : Nat) X = .ok G → F X = G) ∧
      ¬ Tendsto (emittedPower F x (betaOf m) ex ey ez) atTop (nhds (lienardPower p.getCharge (betaOf m) (betaDotOf m a) / (EpsNull * MuNull * SpeedOfLight ^ 2))) := by
  obtain ⟨p, hpd⟩ : ∃ p, p = [POp.init 0 0 ⟨0, 0, 3/4⟩ ⟨0, 0, 1⟩].foldl POp.exec Particle.default := ⟨_, rfl⟩
  have hp : p.Reachable := ⟨_, _, Or.inr (Or.inr (Or.inl rfl)), hpd⟩
  have hx : p.TrajPoint (0 : Nat) = .ok 0 := by rw [hpd]; rfl
  have hm : p.TrajMomentum (0 : Nat) = .ok ⟨0, 0, 3/4⟩ := by rw [hpd]; rfl
  have ha : p.TrajAccel (0 : Nat) = .ok ⟨0, 0, 1⟩ := by rw [hpd]; rfl
  have hq : p.getCharge = -ElementaryCharge := by rw [hpd]; show -1 * ElementaryCharge = _; ring
  have hf : Frame3 ⟨1, 0, 0⟩ ⟨0, 1, 0⟩ ⟨0, 0, 1⟩ := by unfold Frame3; simp [dot]
  have hn2 : Vec.norm (⟨0, 0, 3/4⟩ : Vec) ^ 2 = 9 / 16 := by rw [Vec.norm_sq]; simp only [abs2nd]; norm_num
  have hg : Real.sqrt (1 + Vec.norm (⟨0, 0, 3/4⟩ : Vec) ^ 2) = 5/4 := by
    rw [hn2, show (1 + 9 / 16 : ℝ) = (5/4) ^ 2 by norm_num, Real.sqrt_sq (by norm_num)]
  have hbeta : betaOf ⟨0, 0, 3/4⟩ = (⟨0, 0, 1⟩ : Vec) * (3 / 5 : ℝ) := by
    unfold betaOf
    rw [hg]
    ext <;> simp
    norm_num
  obtain ⟨F, hF⟩ : ∃ F : Vec → EMField, ∀ X G, p.RetardedFieldIdx (0 : Nat) X = .ok G → F X = G := by
    refine ⟨fun X => match p.RetardedFieldIdx (0 : Nat) X with | .ok G => G | .error _ => 0, fun X G h => ?_⟩
    simp only [h]
  refine ⟨p, 0, ⟨0, 0, 3/4⟩, ⟨0, 0, 1⟩, ⟨1, 0, 0⟩, ⟨0, 1, 0⟩, ⟨0, 0, 1⟩, 3 / 5, F, hp, hx, hm, ha, hf, hbeta, hF, fun h => ?_⟩
  have h' := C117_longitudinal p 0 _ _ _ hx hm ha (4 / 3) (by ext <;> simp) _ _ _ hf _ hbeta F hF
  have hu := tendsto_nhds_unique h h'
  have hc := SpeedOfLight_pos
  have he := EpsNull_pos
  have hmu := MuNull_pos
  have hpi := Real.pi_pos
  have hel := ElementaryCharge_pos
  have hL : 0 < lienardPower p.getCharge (betaOf ⟨0, 0, 3/4⟩) (betaDotOf ⟨0, 0, 3/4⟩ ⟨0, 0, 1⟩) := by
    unfold lienardPower
    have h1 : (betaDotOf ⟨0, 0, 3/4⟩ ⟨0, 0, 1⟩) = (⟨0, 0, 64 / 125⟩ : Vec) := by
      unfold betaDotOf
      rw [hg, hbeta]
      ext <;> simp [dot]
      norm_num
    have h2 : lorentz (betaOf ⟨0, 0, 3/4⟩) ^ 6 = (25 / 16) ^ 3 := by
      rw [lorentz_six (betaOf_abs2nd_lt _), hbeta]
      simp [abs2nd]
      norm_num
    rw [h1, h2, hq, hbeta]
    have h3 : (⟨0, 0, 64 / 125⟩ : Vec).abs2nd - (cross ((⟨0, 0, 1⟩ : Vec) * (3 / 5 : ℝ)) ⟨0, 0, 64 / 125⟩).abs2nd = (64 / 125) ^ 2 := by
      simp [abs2nd, cross]; norm_num
    rw [h3, neg_sq]
    positivity
  rw [hn2] at hu
  have hd : 0 < EpsNull * MuNull * SpeedOfLight ^ 2 := by positivity
  rw [div_left_inj' hd.ne'] at hu
  nlinarith

/-- non-vacuity: a particle with a transverse acceleration -/
example : ∃ (p : Particle) (x m a ex ey ez : Vec) (b : ℝ), p.Reachable ∧ p.TrajPoint (0 : Nat) = .ok x ∧ p.TrajMomentum (0 : Nat) = .ok m ∧ p.TrajAccel (0 : Nat) = .ok a ∧
    dot m a = 0 ∧ a ≠ 0 ∧ Frame3 ex ey ez ∧ betaOf m = ez * b := by
  refine ⟨[POp.init 0 0 ⟨0, 0, 3/4⟩ ⟨1, 0, 0⟩].foldl POp.exec Particle.default, 0, ⟨0, 0, 3/4⟩, ⟨1, 0, 0⟩, ⟨1, 0, 0⟩, ⟨0, 1, 0⟩, ⟨0, 0, 1⟩, (3 / 4) / Real.sqrt (1 + Vec.norm (⟨0, 0, 3/4⟩ : Vec) ^ 2),
    ⟨_, _, Or.inr (Or.inr (Or.inl rfl)), rfl⟩, rfl, rfl, rfl, by simp [dot], ?_, by unfold Frame3; simp [dot], ?_⟩
  · intro h
    have := congrArg Vec.x h
    simp at this
  · unfold betaOf
    ext <;> simp

end Teufel
