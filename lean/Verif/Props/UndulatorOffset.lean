import Verif.Props.UndulatorMotion
import Mathlib.Analysis.SpecialFunctions.Integrals.Basic

/-!
# C26: the second field integral of planar undulators
-/

namespace Teufel
open Vec Und

theorem swing_even (N : ℤ) (l z : ℝ) : swing N l (-z) = swing N l z := by
  unfold swing
  simp only [abs_neg, mul_neg, Real.cos_neg]

theorem swing_integral {N : ℤ} (hN : 1 ≤ N) {l : ℝ} (hl : 0 < l) {L : ℝ} (hL : ((N : ℝ) + 1) * l / 2 ≤ L) : ∫ z in (-L)..L, swing N l z = 0 := by
  have hN' : (1 : ℝ) ≤ N := by exact_mod_cast hN
  have hpi := Real.pi_pos
  have hcont : Continuous (swing N l) := continuous_iff_continuousAt.mpr fun z => (swing_deriv hN hl z).continuousAt
  have hi : ∀ a b, IntervalIntegrable (swing N l) MeasureTheory.volume a b := fun a b => hcont.intervalIntegrable a b
  obtain ⟨k, hk⟩ : ∃ k, k = 2 * Real.pi / l := ⟨_, rfl⟩
  have hk0 : k ≠ 0 := by rw [hk]; positivity
  have hkl : k * l = 2 * Real.pi := by rw [hk]; field_simp
  obtain ⟨a, ha⟩ : ∃ a, a = ((N : ℝ) - 1) * l / 2 := ⟨_, rfl⟩
  obtain ⟨b, hb⟩ : ∃ b, b = ((N : ℝ) + 1) * l / 2 := ⟨_, rfl⟩
  have ha0 : 0 ≤ a := by rw [ha]; have : 0 ≤ (N : ℝ) - 1 := by linarith
                         positivity
  have hab : a < b := by rw [ha, hb]; nlinarith
  have hka : k * a = ((N - 1 : ℤ) : ℝ) * Real.pi := by
    rw [ha]; push_cast; linear_combination ((N : ℝ) - 1) / 2 * hkl
  have hkb : k * b = k * a + 2 * Real.pi := by
    rw [ha, hb]; linear_combination hkl
  have hsa : Real.sin (k * a) = 0 := by rw [hka, Real.sin_int_mul_pi]
  have hcb : Real.cos (k * b) = Real.cos (k * a) := by rw [hkb, Real.cos_add_two_pi]
  rw [← hb] at hL
  have half : ∫ z in (0 : ℝ)..L, swing N l z = 0 := by
    rw [← intervalIntegral.integral_add_adjacent_intervals (hi 0 a) (hi a L), ← intervalIntegral.integral_add_adjacent_intervals (hi a b) (hi b L)]
    have e1 : ∫ z in (0 : ℝ)..a, swing N l z = 0 := by
      have : ∫ z in (0 : ℝ)..a, swing N l z = ∫ z in (0 : ℝ)..a, Real.cos (k * z) := by
        apply intervalIntegral.integral_congr
        intro z hz
        rw [Set.uIcc_of_le ha0] at hz
        simp only [swing]
        rw [if_pos (by rw [abs_of_nonneg hz.1, ← ha]; exact hz.2), hk]
      rw [this, intervalIntegral.integral_comp_mul_left (fun z => Real.cos z) hk0]
      simp [integral_cos, hsa]
    have e2 : ∫ z in a..b, swing N l z = 0 := by
      have : ∫ z in a..b, swing N l z = ∫ z in a..b, ((b - z) / l * Real.cos (k * z) + Real.sin (k * z) / (2 * Real.pi)) := by
        apply intervalIntegral.integral_congr
        intro z hz
        rw [Set.uIcc_of_le hab.le] at hz
        have hz0 : |z| = z := abs_of_nonneg (by linarith [hz.1])
        have hl1 : b - a = l := by rw [ha, hb]; ring
        simp only [swing, ← ha, ← hb, ← hk, hz0]
        rcases hz.1.eq_or_lt with h | h
        · rw [← h, if_pos (le_refl _), hsa, hl1]; field_simp; ring
        · rw [if_neg (by linarith)]
          rcases hz.2.eq_or_lt with h' | h'
          · have hsb : Real.sin (k * b) = 0 := by rw [hkb, Real.sin_add_two_pi, hsa]
            rw [h', if_neg (by linarith), hsb]; simp
          · rw [if_pos h', show ((N : ℝ) + 1) / 2 - z / l = (b - z) / l by rw [hb]; field_simp]
      rw [this, intervalIntegral.integral_eq_sub_of_hasDerivAt (f := fun z => (b - z) / (l * k) * Real.sin (k * z) - 2 * Real.cos (k * z) / (k ^ 2 * l))]
      · simp only [sub_self, zero_div, zero_mul, hcb, hsa, mul_zero]
      · intro z _
        have h1 : HasDerivAt (fun z => k * z) k z := by simpa using (hasDerivAt_id z).const_mul k
        have h2 : HasDerivAt (fun z => (b - z) / (l * k)) (-1 / (l * k)) z := ((hasDerivAt_id z).const_sub b).div_const _
        refine ((h2.fun_mul h1.sin).fun_sub ((h1.cos.const_mul 2).div_const (k ^ 2 * l))).congr_deriv ?_
        rw [← hkl]
        field_simp
        ring
      · exact (by fun_prop : Continuous fun z => (b - z) / l * Real.cos (k * z) + Real.sin (k * z) / (2 * Real.pi)).intervalIntegrable _ _
    have e3 : ∫ z in b..L, swing N l z = 0 := by
      have : ∫ z in b..L, swing N l z = ∫ z in b..L, (0 : ℝ) := by
        apply intervalIntegral.integral_congr
        intro z hz
        rw [Set.uIcc_of_le hL] at hz
        exact (C105_shape N l hl z).2.1 (by rw [abs_of_nonneg (by linarith [hz.1]), ← hb]; exact hz.1)
      rw [this, intervalIntegral.integral_zero]
    rw [e1, e2, e3]; ring
  rw [← intervalIntegral.integral_add_adjacent_intervals (hi (-L) 0) (hi 0 L), half, add_zero]
  have h := intervalIntegral.integral_comp_neg (a := -L) (b := 0) (fun z => swing N l z)
  simp only [neg_neg, neg_zero, swing_even] at h
  rw [h, half]

/-- C26: no net offset: the second field integral through the whole undulator vanishes, too. -/
theorem C26_no_net_offset (B l : ℝ) (N : Int) (hN : 1 ≤ N) (hl : 0 < l) (t x y : ℝ) : ∃ F : Vec → EMField,
    (∀ Y, (PlanarUndulator.Setup B l N).LocalField t Y = .ok (F Y)) ∧
    ∀ L : ℝ, ((N : ℝ) + 1) * l / 2 ≤ L → ∫ z in (-L)..L, ∫ z' in (-L)..z, (F ⟨x, y, z'⟩).B.y = 0 := by
  refine ⟨_, fun Y => planar_field B l N (by omega) hl t Y, ?_⟩
  intro L hL
  have hpi := Real.pi_pos
  have hN' : (1 : ℝ) ≤ N := by exact_mod_cast hN
  have hL0 : 0 ≤ L := le_trans (by positivity) hL
  have inner : ∀ z, ∫ z' in (-L)..z, (planarB B l N ⟨x, y, z'⟩).y = -(B * Real.cosh (2 * Real.pi / l * y) * (l / (2 * Real.pi))) * swing N l z := by
    intro z
    have hd : ∀ z', HasDerivAt (fun z' => -(B * Real.cosh (2 * Real.pi / l * y) * (l / (2 * Real.pi))) * swing N l z') ((planarB B l N ⟨x, y, z'⟩).y) z' := by
      intro z'
      refine ((swing_deriv hN hl z').const_mul _).congr_deriv ?_
      simp only [planarB]
      field_simp
    rw [intervalIntegral.integral_eq_sub_of_hasDerivAt (fun z' _ => hd z')]
    · have : swing N l (-L) = 0 := (C105_shape N l hl (-L)).2.1 (by rw [abs_neg, abs_of_nonneg hL0]; exact hL)
      rw [this]; ring
    · have hc := envelope_continuous N l
      refine Continuous.intervalIntegrable ?_ _ _
      simp only [planarB]
      fun_prop
  simp only [inner, intervalIntegral.integral_const_mul, swing_integral hN hl hL, mul_zero]

/-- non-vacuity: ten periods of 5 cm -/
example : (1 : ℤ) ≤ 10 ∧ (0 : ℝ) < 5 / 100 ∧ (((10 : ℤ) : ℝ) + 1) * (5 / 100) / 2 ≤ 1 := by norm_num

end Teufel
