import Mathlib.Analysis.SpecialFunctions.Gaussian.PoissonSummation
import Mathlib.Analysis.Complex.ExponentialBounds
import Mathlib.Analysis.Real.Pi.Bounds

/-!
# Sums of Gaussian weights
-/

namespace Teufel
open Complex

theorem gauss_le {n : ℤ} {δ : ℝ} (hd : |δ| ≤ 1 / 2) : ((n.natAbs : ℝ)) - 3 / 4 ≤ ((n : ℝ) - δ) ^ 2 := by
  have h1 : |(n : ℝ)| = n.natAbs := by rw [← Int.cast_abs, Int.abs_eq_natAbs]; simp
  have h2 : |(n : ℝ)| - 1 / 2 ≤ |(n : ℝ) - δ| := by
    have := abs_sub_abs_le_abs_sub (n : ℝ) δ
    linarith
  rw [← h1, ← sq_abs ((n : ℝ) - δ)]
  have h3 := abs_nonneg ((n : ℝ) - δ)
  rcases le_total (|(n : ℝ)|) (1/2) with h | h
  · nlinarith
  · nlinarith [sq_nonneg (|(n : ℝ)| - 1)]

/-- a function on the integers with a geometric bound is summable -/
theorem summable_geometric_int {f : ℤ → ℝ} {C r : ℝ} (hr0 : 0 ≤ r) (hr1 : r < 1) (h0 : ∀ n, 0 ≤ f n) (h : ∀ n, f n ≤ C * r ^ n.natAbs) :
    Summable f := by
  have hg : Summable (fun n : ℕ => C * r ^ n) := (summable_geometric_of_lt_one hr0 hr1).mul_left C
  rw [summable_int_iff_summable_nat_and_neg]
  constructor
  · exact Summable.of_nonneg_of_le (fun n => h0 _) (fun n => by simpa using h n) hg
  · exact Summable.of_nonneg_of_le (fun n => h0 _) (fun n => by simpa using h (-n)) hg

theorem summable_gauss {δ : ℝ} (hd : |δ| ≤ 1 / 2) : Summable (fun n : ℤ => Real.exp (-((n : ℝ) - δ) ^ 2 / 8)) := by
  refine summable_geometric_int (C := Real.exp (3 / 32)) (r := Real.exp (-1 / 8)) (Real.exp_pos _).le
    (by rw [Real.exp_lt_one_iff]; norm_num) (fun n => (Real.exp_pos _).le) (fun n => ?_)
  rw [← Real.exp_nat_mul, ← Real.exp_add]
  apply Real.exp_le_exp.2
  have := gauss_le (n := n) hd
  nlinarith

/-- a sum over the integers whose terms other than that at 0 have a geometric bound -/
theorem tsum_near_one {f : ℤ → ℂ} {r : ℝ} (hr0 : 0 ≤ r) (hr1 : r < 1) (h0 : f 0 = 1) (h : ∀ n, n ≠ 0 → ‖f n‖ ≤ r ^ n.natAbs) :
    ‖∑' n, f n - 1‖ ≤ 2 * (r / (1 - r)) := by
  have hg : HasSum (fun n : ℕ => r ^ (n + 1)) (r / (1 - r)) := by
    have := (hasSum_geometric_of_lt_one hr0 hr1).mul_left r
    simpa [pow_succ, mul_comm, div_eq_mul_inv] using this
  have hp : ∀ n : ℕ, ‖f ((n : ℤ) + 1)‖ ≤ r ^ (n + 1) := fun n => by
    have := h ((n : ℤ) + 1) (by omega)
    rwa [show ((n : ℤ) + 1).natAbs = n + 1 by omega] at this
  have hm : ∀ n : ℕ, ‖f (-((n : ℤ) + 1))‖ ≤ r ^ (n + 1) := fun n => by
    have := h (-((n : ℤ) + 1)) (by omega)
    rwa [show (-((n : ℤ) + 1)).natAbs = n + 1 by omega] at this
  have sp : Summable (fun n : ℕ => f ((n : ℤ) + 1)) := Summable.of_norm_bounded hg.summable hp
  have sm : Summable (fun n : ℕ => f (-((n : ℤ) + 1))) := Summable.of_norm_bounded hg.summable hm
  have sp' : HasSum (fun n : ℕ => f (n : ℤ)) (1 + ∑' n : ℕ, f ((n : ℤ) + 1)) := by
    rw [← hasSum_nat_add_iff' 1]
    simpa [h0] using sp.hasSum
  have hs := HasSum.of_nat_of_neg_add_one sp' sm.hasSum
  rw [hs.tsum_eq]
  have e : 1 + ∑' n : ℕ, f ((n : ℤ) + 1) + ∑' n : ℕ, f (-((n : ℤ) + 1)) - 1 = ∑' n : ℕ, f ((n : ℤ) + 1) + ∑' n : ℕ, f (-((n : ℤ) + 1)) := by ring
  rw [e, two_mul]
  exact (norm_add_le _ _).trans (add_le_add (tsum_of_norm_bounded hg hp) (tsum_of_norm_bounded hg hm))

theorem exp_small : Real.exp (-(8 * Real.pi ^ 2)) ≤ 1 / 10 ^ 8 := by
  have h1 : (27 : ℝ) ≤ 8 * Real.pi ^ 2 := by nlinarith [Real.pi_gt_three]
  have h2 : Real.exp (-(8 * Real.pi ^ 2)) ≤ Real.exp (-27) := Real.exp_le_exp.2 (by linarith)
  refine h2.trans ?_
  rw [Real.exp_neg, inv_le_comm₀ (Real.exp_pos _) (by norm_num)]
  have h3 : Real.exp 27 = Real.exp 1 ^ 27 := by rw [← Real.exp_nat_mul]; norm_num
  rw [h3]
  have h4 := Real.exp_one_gt_d9
  calc ((1 : ℝ) / 10 ^ 8)⁻¹ ≤ (2 : ℝ) ^ 27 := by norm_num
    _ ≤ Real.exp 1 ^ 27 := pow_le_pow_left₀ (by norm_num) (by linarith) 27

/-- Gaussian weights on a grid add up to one, irrespective of the position in the grid (Poisson summation) -/
theorem gauss_sum {δ : ℝ} (hd : |δ| ≤ 1 / 2) :
    |(∑' n : ℤ, Real.exp (-((n : ℝ) - δ) ^ 2 / 8)) / (2 * Real.sqrt (2 * Real.pi)) - 1| ≤ 3 / 10 ^ 8 := by
  have hpi := Real.pi_pos
  have hP := Complex.tsum_exp_neg_quadratic (a := ((8 * Real.pi : ℝ) : ℂ)) (by rw [Complex.ofReal_re]; positivity) (I * δ)
  have hroot : ((8 * Real.pi : ℝ) : ℂ) ^ (1 / 2 : ℂ) = ((2 * Real.sqrt (2 * Real.pi) : ℝ) : ℂ) := by
    rw [show (1 / 2 : ℂ) = ((1 / 2 : ℝ) : ℂ) by norm_num, ← Complex.ofReal_cpow (by positivity), ← Real.sqrt_eq_rpow]
    congr 1
    rw [show 8 * Real.pi = 2 ^ 2 * (2 * Real.pi) by ring, Real.sqrt_mul (by norm_num), Real.sqrt_sq (by norm_num)]
  have hright : (∑' n : ℤ, cexp (-Real.pi / ((8 * Real.pi : ℝ) : ℂ) * ((n : ℂ) + I * (I * δ)) ^ 2)) =
      ((∑' n : ℤ, Real.exp (-((n : ℝ) - δ) ^ 2 / 8) : ℝ) : ℂ) := by
    rw [Complex.ofReal_tsum]
    congr 1
    funext n
    rw [Complex.ofReal_exp]
    congr 1
    have : I * (I * (δ : ℂ)) = -δ := by rw [← mul_assoc, I_mul_I]; ring
    rw [this]
    have hp : (Real.pi : ℂ) ≠ 0 := by exact_mod_cast hpi.ne'
    push_cast
    field_simp
    ring
  rw [hroot, hright] at hP
  have hl : ‖(∑' n : ℤ, cexp (-Real.pi * ((8 * Real.pi : ℝ) : ℂ) * (n : ℂ) ^ 2 + 2 * Real.pi * (I * δ) * n)) - 1‖ ≤
      2 * (Real.exp (-(8 * Real.pi ^ 2)) / (1 - Real.exp (-(8 * Real.pi ^ 2)))) := by
    apply tsum_near_one (Real.exp_pos _).le
    · rw [Real.exp_lt_one_iff]; nlinarith [sq_nonneg Real.pi]
    · simp
    · intro n hn
      rw [Complex.norm_exp, ← Real.exp_nat_mul]
      apply Real.exp_le_exp.2
      have e : (-Real.pi * ((8 * Real.pi : ℝ) : ℂ) * (n : ℂ) ^ 2 + 2 * Real.pi * (I * δ) * n).re = -(8 * Real.pi ^ 2) * (n : ℝ) ^ 2 := by
        have : (-Real.pi * ((8 * Real.pi : ℝ) : ℂ) * (n : ℂ) ^ 2 + 2 * Real.pi * (I * δ) * n) =
            ((-(8 * Real.pi ^ 2) * (n : ℝ) ^ 2 : ℝ) : ℂ) + ((2 * Real.pi * δ * n : ℝ) : ℂ) * I := by push_cast; ring
        rw [this, Complex.add_re, Complex.re_ofReal_mul, Complex.I_re, mul_zero, add_zero, Complex.ofReal_re]
      rw [e]
      have h1 : (1 : ℝ) ≤ n.natAbs := by
        have : 1 ≤ n.natAbs := by omega
        exact_mod_cast this
      have h2 : (n : ℝ) ^ 2 = (n.natAbs : ℝ) ^ 2 := by
        have : |(n : ℝ)| = n.natAbs := by rw [← Int.cast_abs, Int.abs_eq_natAbs]; simp
        rw [← this, sq_abs]
      rw [h2]
      have h3 : 0 < 8 * Real.pi ^ 2 := by positivity
      nlinarith [mul_nonneg h3.le (mul_nonneg (by linarith : (0 : ℝ) ≤ n.natAbs) (by linarith : (0 : ℝ) ≤ (n.natAbs : ℝ) - 1))]
  rw [hP] at hl
  have hreal : (1 : ℂ) / ((2 * Real.sqrt (2 * Real.pi) : ℝ) : ℂ) * ((∑' n : ℤ, Real.exp (-((n : ℝ) - δ) ^ 2 / 8) : ℝ) : ℂ) - 1 =
      (((∑' n : ℤ, Real.exp (-((n : ℝ) - δ) ^ 2 / 8)) / (2 * Real.sqrt (2 * Real.pi)) - 1 : ℝ) : ℂ) := by
    push_cast
    ring
  rw [hreal, Complex.norm_real, Real.norm_eq_abs] at hl
  refine hl.trans ?_
  have hs := exp_small
  have hs0 := Real.exp_pos (-(8 * Real.pi ^ 2))
  have hden : 0 < 1 - Real.exp (-(8 * Real.pi ^ 2)) := by linarith
  rw [← mul_div_assoc, div_le_iff₀ hden]
  linarith

theorem exp_tail : Real.exp (-(441 / 32)) ≤ 12 / 10 ^ 7 := by
  have h1 : Real.exp (-(441 / 32)) ≤ Real.exp (-(13 + 3 / 4)) := Real.exp_le_exp.2 (by norm_num)
  refine h1.trans ?_
  rw [Real.exp_neg, inv_le_comm₀ (Real.exp_pos _) (by norm_num), Real.exp_add]
  have h3 : Real.exp 13 = Real.exp 1 ^ 13 := by rw [← Real.exp_nat_mul]; norm_num
  have h4 : (2.031 : ℝ) ≤ Real.exp (3 / 4) := by
    have := Real.quadratic_le_exp_of_nonneg (x := 3 / 4) (by norm_num)
    linarith
  have h5 : (2.718 : ℝ) ^ 13 ≤ Real.exp 13 := by
    rw [h3]
    exact pow_le_pow_left₀ (by norm_num) (by linarith [Real.exp_one_gt_d9]) 13
  calc ((12 : ℝ) / 10 ^ 7)⁻¹ ≤ (2.718 : ℝ) ^ 13 * 2.031 := by norm_num
    _ ≤ Real.exp 13 * Real.exp (3 / 4) := mul_le_mul h5 h4 (by norm_num) (Real.exp_pos _).le

/-- the weights further than ten cells away -/
theorem gauss_tail {δ : ℝ} (hd : |δ| ≤ 1 / 2) (s : ℤ) (hs : s = 1 ∨ s = -1) :
    Summable (fun n : ℕ => Real.exp (-(((s * (n + 11) : ℤ) : ℝ) - δ) ^ 2 / 8)) ∧
    ∑' n : ℕ, Real.exp (-(((s * (n + 11) : ℤ) : ℝ) - δ) ^ 2 / 8) ≤ 14 / 10 ^ 7 := by
  have hr1 : Real.exp (-(21 / 8)) ≤ 1 / 7 := by
    rw [Real.exp_neg, inv_le_comm₀ (Real.exp_pos _) (by norm_num)]
    have h1 : Real.exp 2 ≤ Real.exp (21 / 8) := Real.exp_le_exp.2 (by norm_num)
    have h2 : Real.exp 2 = Real.exp 1 ^ 2 := by rw [← Real.exp_nat_mul]; norm_num
    have h3 := Real.exp_one_gt_d9
    norm_num
    nlinarith
  have hr0 := Real.exp_pos (-(21 / 8))
  have hg := (hasSum_geometric_of_lt_one hr0.le (by linarith)).mul_left (Real.exp (-(441 / 32)))
  have hb : ∀ n : ℕ, Real.exp (-(((s * (n + 11) : ℤ) : ℝ) - δ) ^ 2 / 8) ≤ Real.exp (-(441 / 32)) * Real.exp (-(21 / 8)) ^ n := by
    intro n
    rw [← Real.exp_nat_mul, ← Real.exp_add]
    apply Real.exp_le_exp.2
    obtain ⟨d1, d2⟩ := abs_le.1 hd
    have hn : (0 : ℝ) ≤ n := Nat.cast_nonneg n
    have key : ((n : ℝ) + 21 / 2) ^ 2 ≤ (((s * (n + 11) : ℤ) : ℝ) - δ) ^ 2 := by
      rcases hs with rfl | rfl
      · push_cast
        nlinarith
      · push_cast
        nlinarith
    nlinarith [sq_nonneg (n : ℝ)]
  have hsum : Summable (fun n : ℕ => Real.exp (-(((s * (n + 11) : ℤ) : ℝ) - δ) ^ 2 / 8)) :=
    Summable.of_nonneg_of_le (fun n => (Real.exp_pos _).le) hb hg.summable
  refine ⟨hsum, ?_⟩
  refine (hsum.tsum_le_tsum hb hg.summable).trans ?_
  rw [hg.tsum_eq]
  have h1 : (1 - Real.exp (-(21 / 8)))⁻¹ ≤ 7 / 6 := by
    rw [inv_le_comm₀ (by linarith) (by norm_num)]
    linarith
  calc Real.exp (-(441 / 32)) * (1 - Real.exp (-(21 / 8)))⁻¹ ≤ 12 / 10 ^ 7 * (7 / 6) :=
        mul_le_mul exp_tail h1 (inv_nonneg.2 (by linarith)) (by norm_num)
    _ ≤ 14 / 10 ^ 7 := by norm_num

/-- **the weights of the 21 cells around a particle add up to one** up to a part in a million -/
theorem gauss_window {δ : ℝ} (hd : |δ| ≤ 1 / 2) :
    |(∑ k ∈ Finset.range 21, Real.exp (-(((k : ℝ) - 10) - δ) ^ 2 / 8)) / (2 * Real.sqrt (2 * Real.pi)) - 1| ≤ 1 / 10 ^ 6 := by
  set f : ℤ → ℝ := fun n => Real.exp (-((n : ℝ) - δ) ^ 2 / 8) with hf
  obtain ⟨s1, t1⟩ := gauss_tail hd 1 (.inl rfl)
  obtain ⟨s2, t2⟩ := gauss_tail hd (-1) (.inr rfl)
  set T1 := ∑' n : ℕ, Real.exp (-(((1 * (n + 11) : ℤ) : ℝ) - δ) ^ 2 / 8) with hT1
  set T2 := ∑' n : ℕ, Real.exp (-(((-1 * (n + 11) : ℤ) : ℝ) - δ) ^ 2 / 8) with hT2
  have p1 : 0 ≤ T1 := tsum_nonneg (fun n => (Real.exp_pos _).le)
  have p2 : 0 ≤ T2 := tsum_nonneg (fun n => (Real.exp_pos _).le)
  have a1 : HasSum (fun n : ℕ => f (n : ℤ)) (∑ i ∈ Finset.range 11, f (i : ℤ) + T1) := by
    rw [← hasSum_nat_add_iff' 11, add_sub_cancel_left]
    have e : (fun n : ℕ => f ((n + 11 : ℕ) : ℤ)) = fun n : ℕ => Real.exp (-(((1 * (n + 11) : ℤ) : ℝ) - δ) ^ 2 / 8) := by
      funext n
      rw [hf]; push_cast; ring_nf
    rw [e]
    exact s1.hasSum
  have a2 : HasSum (fun n : ℕ => f (-((n : ℤ) + 1))) (∑ i ∈ Finset.range 10, f (-((i : ℤ) + 1)) + T2) := by
    rw [← hasSum_nat_add_iff' 10, add_sub_cancel_left]
    have e : (fun n : ℕ => f (-(((n + 10 : ℕ) : ℤ) + 1))) = fun n : ℕ => Real.exp (-(((-1 * (n + 11) : ℤ) : ℝ) - δ) ^ 2 / 8) := by
      funext n
      rw [hf]; push_cast; ring_nf
    rw [e]
    exact s2.hasSum
  have hS := (HasSum.of_nat_of_neg_add_one a1 a2).tsum_eq
  have hw : ∑ k ∈ Finset.range 21, Real.exp (-(((k : ℝ) - 10) - δ) ^ 2 / 8) =
      ∑ i ∈ Finset.range 11, f (i : ℤ) + ∑ i ∈ Finset.range 10, f (-((i : ℤ) + 1)) := by
    rw [Finset.sum_range_add (fun k : ℕ => Real.exp (-(((k : ℝ) - 10) - δ) ^ 2 / 8)) 10 11, add_comm]
    congr 1
    · refine Finset.sum_congr rfl (fun i _ => ?_)
      rw [hf]; push_cast; ring_nf
    · rw [← Finset.sum_range_reflect]
      refine Finset.sum_congr rfl (fun i hi => ?_)
      have hi' := Finset.mem_range.1 hi
      rw [hf]
      dsimp only
      have e : (((10 - 1 - i : ℕ) : ℝ)) - 10 = ((-((i : ℤ) + 1) : ℤ) : ℝ) := by
        rw [Nat.cast_sub (by omega)]; push_cast; ring
      rw [e]
  have hmain := gauss_sum hd
  have hS' : ∑' n : ℤ, Real.exp (-((n : ℝ) - δ) ^ 2 / 8) =
      ∑ k ∈ Finset.range 21, Real.exp (-(((k : ℝ) - 10) - δ) ^ 2 / 8) + (T1 + T2) := by
    rw [hw, ← add_add_add_comm]; exact hS
  rw [hS'] at hmain
  have hD : (5 : ℝ) ≤ 2 * Real.sqrt (2 * Real.pi) := by
    have : (5 / 2 : ℝ) ≤ Real.sqrt (2 * Real.pi) := by
      apply Real.le_sqrt_of_sq_le
      nlinarith [Real.pi_gt_d2]
    linarith
  rw [add_div] at hmain
  have hT : (T1 + T2) / (2 * Real.sqrt (2 * Real.pi)) ≤ 6 / 10 ^ 7 := by
    rw [div_le_iff₀ (by linarith)]
    nlinarith
  have hT0 : 0 ≤ (T1 + T2) / (2 * Real.sqrt (2 * Real.pi)) := div_nonneg (by linarith) (by linarith)
  obtain ⟨m1, m2⟩ := abs_le.1 hmain
  rw [abs_le]
  constructor <;> linarith

end Teufel
