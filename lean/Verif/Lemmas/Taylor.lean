import Mathlib.Analysis.Calculus.MeanValue
import Mathlib.Analysis.Calculus.ContDiff.Basic
import Mathlib.Analysis.Calculus.ContDiff.Deriv
import Mathlib.Analysis.Calculus.Deriv.Shift

/-! # Finite differences of smooth functions -/

namespace Teufel
namespace Taylor

/-- the mean value inequality -/
theorem mvt {f f' : ℝ → ℝ} {a b C : ℝ} (h : ∀ t ∈ Set.Icc a b, HasDerivAt f (f' t) t) (hb : ∀ t ∈ Set.Icc a b, |f' t| ≤ C) {s t : ℝ}
    (hs : s ∈ Set.Icc a b) (ht : t ∈ Set.Icc a b) : |f t - f s| ≤ C * |t - s| :=
  Convex.norm_image_sub_le_of_norm_hasDerivWithin_le (fun x hx => (h x hx).hasDerivWithinAt) hb (convex_Icc a b) hs ht

/-- second difference -/
theorem second {g g' : ℝ → ℝ} {t s M : ℝ} (hs : 0 ≤ s) (hM0 : 0 ≤ M) (h1 : ∀ r ∈ Set.Icc (t - s) (t + s), HasDerivAt g (g' r) r)
    (h2 : ∀ q ∈ Set.Icc (t - s) (t + s), ∀ r ∈ Set.Icc (t - s) (t + s), |g' r - g' q| ≤ M * |r - q|) :
    |g (t + s) + g (t - s) - 2 * g t| ≤ 2 * M * s ^ 2 := by
  have hd : ∀ r ∈ Set.Icc 0 s, HasDerivAt (fun r => g (t + r) + g (t - r)) (g' (t + r) - g' (t - r)) r := by
    intro r hr
    have a := (h1 (t + r) ⟨by linarith [hr.1], by linarith [hr.2]⟩).comp_const_add t r
    have b := (h1 (t - r) ⟨by linarith [hr.2], by linarith [hr.1]⟩).comp_const_sub t r
    have := a.add b
    rw [← sub_eq_add_neg] at this
    exact this
  have hb : ∀ r ∈ Set.Icc 0 s, |g' (t + r) - g' (t - r)| ≤ 2 * M * s := by
    intro r hr
    have := h2 (t - r) ⟨by linarith [hr.2], by linarith [hr.1]⟩ (t + r) ⟨by linarith [hr.1], by linarith [hr.2]⟩
    have e : |t + r - (t - r)| = 2 * r := by rw [show t + r - (t - r) = 2 * r by ring, abs_of_nonneg (by linarith [hr.1])]
    rw [e] at this
    nlinarith [hr.2]
  have := mvt hd hb (s := 0) (t := s) ⟨le_refl _, hs⟩ ⟨hs, le_refl _⟩
  simp only [add_zero, sub_zero] at this
  rw [abs_of_nonneg hs] at this
  calc |g (t + s) + g (t - s) - 2 * g t| = |g (t + s) + g (t - s) - (g t + g t)| := by ring_nf
    _ ≤ 2 * M * s * s := this
    _ = _ := by ring

/-- central difference -/
theorem central {f g g' : ℝ → ℝ} {t s M : ℝ} (hs : 0 ≤ s) (hM0 : 0 ≤ M) (h0 : ∀ r ∈ Set.Icc (t - s) (t + s), HasDerivAt f (g r) r)
    (h1 : ∀ r ∈ Set.Icc (t - s) (t + s), HasDerivAt g (g' r) r)
    (h2 : ∀ q ∈ Set.Icc (t - s) (t + s), ∀ r ∈ Set.Icc (t - s) (t + s), |g' r - g' q| ≤ M * |r - q|) :
    |f (t + s) - f (t - s) - g t * (2 * s)| ≤ 2 * M * s ^ 3 := by
  have hd : ∀ r ∈ Set.Icc 0 s, HasDerivAt (fun r => f (t + r) - f (t - r) - g t * (2 * r)) (g (t + r) + g (t - r) - 2 * g t) r := by
    intro r hr
    have a := (h0 (t + r) ⟨by linarith [hr.1], by linarith [hr.2]⟩).comp_const_add t r
    have b := (h0 (t - r) ⟨by linarith [hr.2], by linarith [hr.1]⟩).comp_const_sub t r
    have c := ((hasDerivAt_id r).const_mul 2).const_mul (g t)
    have := (a.sub b).sub c
    have e : g (t + r) - -g (t - r) - g t * (2 * 1) = g (t + r) + g (t - r) - 2 * g t := by ring
    rw [e] at this
    exact this
  have hb : ∀ r ∈ Set.Icc 0 s, |g (t + r) + g (t - r) - 2 * g t| ≤ 2 * M * s ^ 2 := by
    intro r hr
    have sub : ∀ q ∈ Set.Icc (t - r) (t + r), q ∈ Set.Icc (t - s) (t + s) := fun q hq => ⟨by linarith [hq.1, hr.2], by linarith [hq.2, hr.2]⟩
    have := second hr.1 hM0 (fun q hq => h1 q (sub q hq)) (fun q hq r hr => h2 q (sub q hq) r (sub r hr))
    have h3 : r ^ 2 ≤ s ^ 2 := pow_le_pow_left₀ hr.1 hr.2 2
    nlinarith
  have := mvt hd hb (s := 0) (t := s) ⟨le_refl _, hs⟩ ⟨hs, le_refl _⟩
  simp only [add_zero, sub_zero, mul_zero, sub_self] at this
  rw [abs_of_nonneg hs] at this
  calc _ ≤ 2 * M * s ^ 2 * s := this
    _ = _ := by ring

/-- one-sided difference, forward or backward -/
theorem first {f f' f'' : ℝ → ℝ} {t s M : ℝ} (h0 : ∀ r ∈ Set.Icc (t - |s|) (t + |s|), HasDerivAt f (f' r) r)
    (h1 : ∀ r ∈ Set.Icc (t - |s|) (t + |s|), HasDerivAt f' (f'' r) r) (hM : ∀ r ∈ Set.Icc (t - |s|) (t + |s|), |f'' r| ≤ M) :
    |f (t + s) - f t - f' t * s| ≤ M * s ^ 2 := by
  have hs0 := abs_nonneg s
  have hM0 : 0 ≤ M := (abs_nonneg _).trans (hM t ⟨by linarith, by linarith⟩)
  have hd : ∀ r ∈ Set.Icc (t - |s|) (t + |s|), HasDerivAt (fun r => f r - f' t * r) (f' r - f' t) r := by
    intro r hr
    have c := (hasDerivAt_id r).const_mul (f' t)
    have := (h0 r hr).sub c
    rw [mul_one] at this
    exact this
  have ht : t ∈ Set.Icc (t - |s|) (t + |s|) := ⟨by linarith, by linarith⟩
  have hb : ∀ r ∈ Set.Icc (t - |s|) (t + |s|), |f' r - f' t| ≤ M * |s| := by
    intro r hr
    have := mvt h1 hM ht hr
    have h3 : |r - t| ≤ |s| := abs_le.mpr ⟨by linarith [hr.1], by linarith [hr.2]⟩
    nlinarith
  have := mvt hd hb ht (t := t + s) ⟨by linarith [neg_abs_le s], by linarith [le_abs_self s]⟩
  rw [show t + s - t = s by ring] at this
  calc |f (t + s) - f t - f' t * s| = |f (t + s) - f' t * (t + s) - (f t - f' t * t)| := by ring_nf
    _ ≤ M * |s| * |s| := this
    _ = _ := by rw [mul_assoc, abs_mul_abs_self]; ring

end Taylor
end Teufel
