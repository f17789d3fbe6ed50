import Verif.Props.UndulatorOffset

/-!
# C27: the field integrals of transverse gradient undulators
-/

namespace Teufel
open Vec Und

/-- the envelope along the rear ramp -/
theorem envelope_rear {N : ℤ} (hN : 1 ≤ N) {l : ℝ} (hl : 0 < l) {z : ℝ} (h1 : ((N : ℝ) - 1) * l / 2 ≤ z) (h2 : z ≤ ((N : ℝ) + 1) * l / 2) :
    envelope N l z = (((N : ℝ) + 1) * l / 2 - z) / l := by
  have hN' : (1 : ℝ) ≤ N := by exact_mod_cast hN
  have h0 : 0 ≤ ((N : ℝ) - 1) * l / 2 := by
    have : 0 ≤ (N : ℝ) - 1 := by linarith
    positivity
  rw [envelope_hinges hN hl, hinge_ge (by nlinarith), hinge_ge (by linarith), hinge_ge h1, hinge_le h2]
  ring

/-- an odd function has no integral over a symmetric interval -/
theorem sine_integral (N : ℤ) (l k L : ℝ) : ∫ z in (-L)..L, Real.sin (k * z) * envelope N l z = 0 := by
  have h := intervalIntegral.integral_comp_neg (a := -L) (b := L) (fun z => Real.sin (k * z) * envelope N l z)
  simp only [neg_neg, mul_neg, Real.sin_neg, envelope_symm, neg_mul, intervalIntegral.integral_neg] at h
  linarith

theorem sine_sq_integral {N : ℤ} (hN : 1 ≤ N) {l : ℝ} (hl : 0 < l) {L : ℝ} (hL : ((N : ℝ) + 1) * l / 2 ≤ L) :
    ∫ z in (-L)..L, Real.sin (2 * Real.pi / l * z) ^ 2 * envelope N l z = N * l / 2 := by
  have hN' : (1 : ℝ) ≤ N := by exact_mod_cast hN
  have hpi := Real.pi_pos
  obtain ⟨k, hk⟩ : ∃ k, k = 2 * Real.pi / l := ⟨_, rfl⟩
  rw [← hk]
  have hc := envelope_continuous N l
  have hcont : Continuous (fun z => Real.sin (k * z) ^ 2 * envelope N l z) := by fun_prop
  have hi : ∀ a b, IntervalIntegrable (fun z => Real.sin (k * z) ^ 2 * envelope N l z) MeasureTheory.volume a b := fun a b => hcont.intervalIntegrable a b
  have hk0 : k ≠ 0 := by rw [hk]; positivity
  have hkl : k * l = 2 * Real.pi := by rw [hk]; field_simp
  obtain ⟨a, ha⟩ : ∃ a, a = ((N : ℝ) - 1) * l / 2 := ⟨_, rfl⟩
  obtain ⟨b, hb⟩ : ∃ b, b = ((N : ℝ) + 1) * l / 2 := ⟨_, rfl⟩
  have ha0 : 0 ≤ a := by
    rw [ha]
    have : 0 ≤ (N : ℝ) - 1 := by linarith
    positivity
  have hab : a < b := by rw [ha, hb]; nlinarith
  have hbl : b - a = l := by rw [ha, hb]; ring
  have hka : k * a = ((N - 1 : ℤ) : ℝ) * Real.pi := by
    rw [ha]; push_cast; linear_combination ((N : ℝ) - 1) / 2 * hkl
  have hkb : k * b = k * a + 2 * Real.pi := by
    rw [ha, hb]; linear_combination hkl
  have hsa : Real.sin (k * a) = 0 := by rw [hka, Real.sin_int_mul_pi]
  have hsb : Real.sin (k * b) = 0 := by rw [hkb, Real.sin_add_two_pi, hsa]
  have hcb : Real.cos (k * b) = Real.cos (k * a) := by rw [hkb, Real.cos_add_two_pi]
  have hP : ∀ z : ℝ, HasDerivAt (fun z => z / 2 - Real.sin (k * z) * Real.cos (k * z) / (2 * k)) (Real.sin (k * z) ^ 2) z := by
    intro z
    have h1 : HasDerivAt (fun z => k * z) k z := by simpa using (hasDerivAt_id z).const_mul k
    refine (((hasDerivAt_id z).div_const 2).fun_sub ((h1.sin.fun_mul h1.cos).div_const (2 * k))).congr_deriv ?_
    have := Real.sin_sq_add_cos_sq (k * z)
    field_simp
    linarith
  rw [← hb] at hL
  have half : ∫ z in (0 : ℝ)..L, Real.sin (k * z) ^ 2 * envelope N l z = N * l / 4 := by
    rw [← intervalIntegral.integral_add_adjacent_intervals (hi 0 a) (hi a L), ← intervalIntegral.integral_add_adjacent_intervals (hi a b) (hi b L)]
    have e1 : ∫ z in (0 : ℝ)..a, Real.sin (k * z) ^ 2 * envelope N l z = a / 2 := by
      have : ∫ z in (0 : ℝ)..a, Real.sin (k * z) ^ 2 * envelope N l z = ∫ z in (0 : ℝ)..a, Real.sin (k * z) ^ 2 := by
        apply intervalIntegral.integral_congr
        intro z hz
        rw [Set.uIcc_of_le ha0] at hz
        simp only
        rw [envelope_flat N l hl z (by rw [abs_of_nonneg hz.1, ← ha]; exact hz.2), mul_one]
      rw [this, intervalIntegral.integral_eq_sub_of_hasDerivAt (fun z _ => hP z) ((by fun_prop : Continuous fun z => Real.sin (k * z) ^ 2).intervalIntegrable _ _)]
      simp [hsa]
    have e2 : ∫ z in a..b, Real.sin (k * z) ^ 2 * envelope N l z = l / 4 := by
      have : ∫ z in a..b, Real.sin (k * z) ^ 2 * envelope N l z = ∫ z in a..b, (b - z) / l * Real.sin (k * z) ^ 2 := by
        apply intervalIntegral.integral_congr
        intro z hz
        rw [Set.uIcc_of_le hab.le] at hz
        simp only
        rw [envelope_rear hN hl (by rw [← ha]; exact hz.1) (by rw [← hb]; exact hz.2), ← hb, mul_comm]
      rw [this, intervalIntegral.integral_eq_sub_of_hasDerivAt
        (f := fun z => (b - z) / l * (z / 2 - Real.sin (k * z) * Real.cos (k * z) / (2 * k)) + (z ^ 2 / 4 - Real.sin (k * z) ^ 2 / (4 * k ^ 2)) / l)]
      · simp only [hsa, hsb]
        have : b = a + l := by linarith
        rw [this]
        field_simp
        ring
      · intro z _
        have h1 : HasDerivAt (fun z => k * z) k z := by simpa using (hasDerivAt_id z).const_mul k
        have h2 : HasDerivAt (fun z => (b - z) / l) (-1 / l) z := ((hasDerivAt_id z).const_sub b).div_const _
        have h3 : HasDerivAt (fun z : ℝ => z ^ 2 / 4) (2 * z / 4) z := by simpa using (hasDerivAt_pow 2 z).div_const 4
        refine ((h2.fun_mul (hP z)).fun_add ((h3.fun_sub ((h1.sin.fun_pow 2).div_const (4 * k ^ 2))).div_const l)).congr_deriv ?_
        simp only [Nat.cast_ofNat, Nat.add_one_sub_one, pow_one]
        field_simp
        ring
      · exact (by fun_prop : Continuous fun z => (b - z) / l * Real.sin (k * z) ^ 2).intervalIntegrable _ _
    have e3 : ∫ z in b..L, Real.sin (k * z) ^ 2 * envelope N l z = 0 := by
      have : ∫ z in b..L, Real.sin (k * z) ^ 2 * envelope N l z = ∫ z in b..L, (0 : ℝ) := by
        apply intervalIntegral.integral_congr
        intro z hz
        rw [Set.uIcc_of_le hL] at hz
        simp only
        rw [envelope_outside N l hl z (by rw [abs_of_nonneg (by linarith [hz.1]), ← hb]; exact hz.1), mul_zero]
      rw [this, intervalIntegral.integral_zero]
    rw [e1, e2, e3, ha]; ring
  rw [← intervalIntegral.integral_add_adjacent_intervals (hi (-L) 0) (hi 0 L), half]
  have h := intervalIntegral.integral_comp_neg (a := -L) (b := 0) (fun z => Real.sin (k * z) ^ 2 * envelope N l z)
  simp only [neg_neg, neg_zero, mul_neg, Real.sin_neg, envelope_symm, neg_sq] at h
  rw [h, half]
  ring

/-- C27: the field integrals along a line parallel to the axis.  The deflection in both directions is proportional to the modulation and to the number of periods. -/
theorem C27_kick (B g m l : ℝ) (N : Int) (hN : 1 ≤ N) (hl : 0 < l) (t x y : ℝ) : ∃ F : Vec → EMField,
    (∀ Y, (TransverseGradientUndulator.Setup B g m l N).LocalField t Y = .ok (F Y)) ∧
    ∀ L : ℝ, ((N : ℝ) + 1) * l / 2 ≤ L →
      let k := 2 * Real.pi / l
      let ky := Real.sqrt (k ^ 2 + g ^ 2)
      ∫ z in (-L)..L, (F ⟨x, y, z⟩).B.y = m * (N * l / 2) * (B * (Real.cosh (k * y) + Real.sin (g * x) * Real.cosh (ky * y))) ∧
      ∫ z in (-L)..L, (F ⟨x, y, z⟩).B.x = m * (N * l / 2) * (B * (g / ky) * Real.cos (g * x) * Real.sinh (ky * y)) := by
  refine ⟨_, fun Y => tgu_field B g m l N (by omega) hl t Y, ?_⟩
  intro L hL k ky
  have hc := envelope_continuous N l
  have key : ∀ c : ℝ, ∫ z in (-L)..L, (c * (Real.sin (k * z) * envelope N l z) + c * m * (Real.sin (k * z) ^ 2 * envelope N l z)) = m * (N * l / 2) * c := by
    intro c
    rw [intervalIntegral.integral_add ((by fun_prop : Continuous fun z => c * (Real.sin (k * z) * envelope N l z)).intervalIntegrable _ _)
      ((by fun_prop : Continuous fun z => c * m * (Real.sin (k * z) ^ 2 * envelope N l z)).intervalIntegrable _ _),
      intervalIntegral.integral_const_mul, intervalIntegral.integral_const_mul, sine_integral, sine_sq_integral hN hl hL]
    ring
  have hky : Real.sqrt (k * k + g * g) = ky := by
    show _ = Real.sqrt (k ^ 2 + g ^ 2)
    rw [sq, sq]
  have hkz : 2 * Pi / l = k := rfl
  clear_value ky k
  constructor
  · rw [← key]
    congr 1
    funext z
    simp only [TransverseGradientUndulator.core, TransverseGradientUndulator.Setup, Vec.mul_y, hkz, hky]
    ring
  · rw [← key]
    congr 1
    funext z
    simp only [TransverseGradientUndulator.core, TransverseGradientUndulator.Setup, Vec.mul_x, hkz, hky]
    ring

/-- C27: without modulation the undulator neither deflects nor displaces, whatever the gradient and the offset. -/
theorem C27_no_net_offset (B g l : ℝ) (N : Int) (hN : 1 ≤ N) (hl : 0 < l) (t x y : ℝ) : ∃ F : Vec → EMField,
    (∀ Y, (TransverseGradientUndulator.Setup B g 0 l N).LocalField t Y = .ok (F Y)) ∧
    ∀ L : ℝ, ((N : ℝ) + 1) * l / 2 ≤ L →
      (∫ z in (-L)..L, (F ⟨x, y, z⟩).B.x = 0 ∧ ∫ z in (-L)..L, (F ⟨x, y, z⟩).B.y = 0) ∧
      ∫ z in (-L)..L, ∫ z' in (-L)..z, (F ⟨x, y, z'⟩).B.x = 0 ∧ ∫ z in (-L)..L, ∫ z' in (-L)..z, (F ⟨x, y, z'⟩).B.y = 0 := by
  refine ⟨_, fun Y => tgu_field B g 0 l N (by omega) hl t Y, ?_⟩
  intro L hL
  have hpi := Real.pi_pos
  have hN' : (1 : ℝ) ≤ N := by exact_mod_cast hN
  have hL0 : 0 ≤ L := le_trans (by positivity) hL
  have hc := envelope_continuous N l
  have inner : ∀ c z : ℝ, ∫ z' in (-L)..z, c * (Real.sin (2 * Real.pi / l * z') * envelope N l z') = -(c * (l / (2 * Real.pi))) * swing N l z := by
    intro c z
    have hd : ∀ z', HasDerivAt (fun z' => -(c * (l / (2 * Real.pi))) * swing N l z') (c * (Real.sin (2 * Real.pi / l * z') * envelope N l z')) z' := by
      intro z'
      refine ((swing_deriv hN hl z').const_mul _).congr_deriv ?_
      field_simp
    rw [intervalIntegral.integral_eq_sub_of_hasDerivAt (fun z' _ => hd z')]
    · have : swing N l (-L) = 0 := (C105_shape N l hl (-L)).2.1 (by rw [abs_neg, abs_of_nonneg hL0]; exact hL)
      rw [this]; ring
    · exact Continuous.intervalIntegrable (by fun_prop) _ _
  obtain ⟨cx, hx⟩ : ∃ c : ℝ, ∀ z, ((TransverseGradientUndulator.Setup B g 0 l N).core ⟨x, y, z⟩ * envelope N l z).x = c * (Real.sin (2 * Real.pi / l * z) * envelope N l z) := by
    refine ⟨B * g / Real.sqrt (2 * Pi / l * (2 * Pi / l) + g * g) * Real.cos (g * x) * Real.sinh (Real.sqrt (2 * Pi / l * (2 * Pi / l) + g * g) * y), fun z => ?_⟩
    simp only [TransverseGradientUndulator.core, TransverseGradientUndulator.Setup, Vec.mul_x, Pi]
    ring
  obtain ⟨cy, hy⟩ : ∃ c : ℝ, ∀ z, ((TransverseGradientUndulator.Setup B g 0 l N).core ⟨x, y, z⟩ * envelope N l z).y = c * (Real.sin (2 * Real.pi / l * z) * envelope N l z) := by
    refine ⟨B * (Real.cosh (2 * Pi / l * y) + Real.sin (g * x) * Real.cosh (Real.sqrt (2 * Pi / l * (2 * Pi / l) + g * g) * y)), fun z => ?_⟩
    simp only [TransverseGradientUndulator.core, TransverseGradientUndulator.Setup, Vec.mul_y, Pi]
    ring
  have hsw : swing N l L = 0 := (C105_shape N l hl L).2.1 (by rw [abs_of_nonneg hL0]; exact hL)
  simp only [hx, hy, inner, hsw, intervalIntegral.integral_const_mul, swing_integral hN hl hL, mul_zero, and_self]

/-- non-vacuity: ten periods of 5 cm; with a modulation of 1% and a peak field of 1 T they deflect on the axis by 2.5 T mm -/
example : (1 : ℤ) ≤ 10 ∧ (0 : ℝ) < 5 / 100 ∧ (((10 : ℤ) : ℝ) + 1) * (5 / 100) / 2 ≤ 1 ∧
    (1 / 100 : ℝ) * (((10 : ℤ) : ℝ) * (5 / 100) / 2) * (1 * (Real.cosh (2 * Real.pi / (5 / 100) * 0) + Real.sin (1 * 0) * Real.cosh (Real.sqrt ((2 * Real.pi / (5 / 100)) ^ 2 + 1 ^ 2) * 0))) = 25 / 10000 := by
  norm_num

end Teufel
