import Verif.Spec.Lienard
import Verif.Lemmas.Vec
import Verif.Props.Vector
import Mathlib.Analysis.SpecialFunctions.Integrals.Basic
import Mathlib.Analysis.SpecialFunctions.Trigonometric.Deriv

/-!
# Integrals over all directions of the radiated energy
-/

namespace Teufel
namespace Lienard
open Vec

/-- integrals over the azimuth -/
theorem azimuth (c0 c1 c2 c3 c4 c5 : ℝ) :
    ∫ φ in (0 : ℝ)..(2 * Real.pi), (c0 + c1 * Real.cos φ + c2 * Real.sin φ + c3 * Real.cos φ ^ 2 + c4 * Real.sin φ ^ 2 + c5 * (Real.sin φ * Real.cos φ)) =
      2 * Real.pi * c0 + Real.pi * c3 + Real.pi * c4 := by
  have h : ∀ f : ℝ → ℝ, Continuous f → IntervalIntegrable f MeasureTheory.volume 0 (2 * Real.pi) := fun f hf => hf.intervalIntegrable _ _
  rw [intervalIntegral.integral_add (h _ (by fun_prop)) (h _ (by fun_prop)), intervalIntegral.integral_add (h _ (by fun_prop)) (h _ (by fun_prop)),
    intervalIntegral.integral_add (h _ (by fun_prop)) (h _ (by fun_prop)), intervalIntegral.integral_add (h _ (by fun_prop)) (h _ (by fun_prop)),
    intervalIntegral.integral_add (h _ (by fun_prop)) (h _ (by fun_prop))]
  simp only [intervalIntegral.integral_const_mul, intervalIntegral.integral_const, integral_cos, integral_sin, integral_cos_sq, integral_sin_sq, integral_sin_mul_cos₁]
  simp [Real.sin_two_pi, Real.cos_two_pi]
  ring

/-- primitive of the energy radiated per polar angle, as function of the cosine `μ` -/
noncomputable def prim (b A D a3 ap μ : ℝ) : ℝ :=
  2 * A * ((μ - b * μ ^ 2 / 2) / (1 - b * μ) ^ 2) + 4 * a3 * D * (μ ^ 2 * (3 - b * μ) / (6 * (1 - b * μ) ^ 3)) -
    (1 - b ^ 2) * ap * ((4 * μ - 6 * b * μ ^ 2 + 4 * b ^ 2 * μ ^ 3 - b ^ 3 * μ ^ 4) / (4 * (1 - b * μ) ^ 4)) -
    (1 - b ^ 2) * (2 * a3 ^ 2 - ap) * (μ ^ 3 * (4 - b * μ) / (12 * (1 - b * μ) ^ 4))

theorem prim_deriv (b A D a3 ap μ : ℝ) (h : 1 - b * μ ≠ 0) :
    HasDerivAt (prim b A D a3 ap) ((2 * ((1 - b * μ) ^ 2 * A + 2 * (1 - b * μ) * (a3 * μ) * D - (1 - b ^ 2) * (a3 * μ) ^ 2) -
      (1 - b ^ 2) * ((1 - μ ^ 2) * ap)) / (1 - b * μ) ^ 5) μ := by
  have hk : HasDerivAt (fun μ : ℝ => 1 - b * μ) (-b) μ := by
    have := ((hasDerivAt_id μ).const_mul b).const_sub 1
    simpa using this
  have h1 : HasDerivAt (fun μ : ℝ => μ) 1 μ := hasDerivAt_id μ
  have t1 := ((h1.fun_sub (((h1.fun_pow 2).const_mul b).div_const 2)).fun_div (hk.fun_pow 2) (pow_ne_zero 2 h)).const_mul (2 * A)
  have t2 := (((h1.fun_pow 2).fun_mul (((h1.const_mul b)).const_sub 3)).fun_div ((hk.fun_pow 3).const_mul 6) (mul_ne_zero (by norm_num) (pow_ne_zero 3 h))).const_mul (4 * a3 * D)
  have t3 := (((((h1.const_mul 4).fun_sub ((h1.fun_pow 2).const_mul (6 * b))).fun_add ((h1.fun_pow 3).const_mul (4 * b ^ 2))).fun_sub ((h1.fun_pow 4).const_mul (b ^ 3))).fun_div
    ((hk.fun_pow 4).const_mul 4) (mul_ne_zero (by norm_num) (pow_ne_zero 4 h))).const_mul ((1 - b ^ 2) * ap)
  have t4 := (((h1.fun_pow 3).fun_mul (((h1.const_mul b)).const_sub 4)).fun_div ((hk.fun_pow 4).const_mul 12) (mul_ne_zero (by norm_num) (pow_ne_zero 4 h))).const_mul ((1 - b ^ 2) * (2 * a3 ^ 2 - ap))
  refine (((t1.fun_add t2).fun_sub t3).fun_sub t4).congr_deriv ?_
  simp only [Nat.cast_ofNat, Nat.add_one_sub_one, pow_one, mul_one]
  field_simp
  ring

theorem prim_diff (b A D a3 ap : ℝ) (hb : b ^ 2 < 1) (hD : D = b * a3) (hA : A = ap + a3 ^ 2) :
    prim b A D a3 ap 1 - prim b A D a3 ap (-1) = 8 / 3 * (1 / (1 - b ^ 2)) ^ 3 * (A - b ^ 2 * ap) := by
  have h1 : 0 < 1 - b := by nlinarith
  have h2 : 0 < 1 + b := by nlinarith
  have e : 1 - b ^ 2 = (1 - b) * (1 + b) := by ring
  unfold prim
  rw [e, hD, hA]
  have e1 : 1 - b * 1 = 1 - b := by ring
  have e2 : 1 - b * -1 = 1 + b := by ring
  rw [e1, e2]
  have n1 := h1.ne'
  have n2 := h2.ne'
  field_simp
  ring

end Lienard
end Teufel
