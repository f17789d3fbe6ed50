import Verif.Spec.Propagate
import Verif.Spec.Radiation
import Verif.Model.Vec
import Mathlib.Analysis.Calculus.Deriv.Add
import Mathlib.Analysis.Calculus.Deriv.Mul
import Mathlib.Analysis.Calculus.Deriv.Inv
import Mathlib.Analysis.Calculus.Deriv.Pow
import Mathlib.Tactic.FieldSimp
import Mathlib.Tactic.LinearCombination

/-!
# Maxwell's equations for the Liénard-Wiechert field: the algebra

With the vector `r` from the retarded position to the observer, its length `R`, the velocity `β`, its first two derivatives `a`, `j` (with respect to `c t`)
and `s = R - r·β`, `κ = 1 - β² + r·a` the field is `E = N/s³`, `c B = -M/s³` with `N = (r - Rβ) κ - a R s` and `M = r × (β κ + a s)`.
-/

namespace Teufel
open Vec

theorem HasVelocity.sub {f g : ℝ → Vec} {v w : Vec} {t : ℝ} (hf : HasVelocity f v t) (hg : HasVelocity g w t) : HasVelocity (fun s => f s - g s) (v - w) t :=
  ⟨hf.1.sub hg.1, hf.2.1.sub hg.2.1, hf.2.2.sub hg.2.2⟩

theorem HasVelocity.add {f g : ℝ → Vec} {v w : Vec} {t : ℝ} (hf : HasVelocity f v t) (hg : HasVelocity g w t) : HasVelocity (fun s => f s + g s) (v + w) t :=
  ⟨hf.1.add hg.1, hf.2.1.add hg.2.1, hf.2.2.add hg.2.2⟩

theorem HasVelocity.mul {f : ℝ → Vec} {g : ℝ → ℝ} {v : Vec} {d t : ℝ} (hf : HasVelocity f v t) (hg : HasDerivAt g d t) :
    HasVelocity (fun s => f s * g s) (v * g t + f t * d) t :=
  ⟨hf.1.mul hg, hf.2.1.mul hg, hf.2.2.mul hg⟩

theorem HasVelocity.dot {f g : ℝ → Vec} {v w : Vec} {t : ℝ} (hf : HasVelocity f v t) (hg : HasVelocity g w t) :
    HasDerivAt (fun s => Vec.dot (f s) (g s)) (Vec.dot v (g t) + Vec.dot (f t) w) t := by
  refine (((hf.1.mul hg.1).add (hf.2.1.mul hg.2.1)).add (hf.2.2.mul hg.2.2)).congr_deriv ?_
  simp [Vec.dot]
  ring

theorem HasVelocity.cross {f g : ℝ → Vec} {v w : Vec} {t : ℝ} (hf : HasVelocity f v t) (hg : HasVelocity g w t) :
    HasVelocity (fun s => Vec.cross (f s) (g s)) (Vec.cross v (g t) + Vec.cross (f t) w) t := by
  refine ⟨((hf.2.1.mul hg.2.2).sub (hf.2.2.mul hg.2.1)).congr_deriv ?_, ((hf.2.2.mul hg.1).sub (hf.1.mul hg.2.2)).congr_deriv ?_, ((hf.1.mul hg.2.1).sub (hf.2.1.mul hg.1)).congr_deriv ?_⟩
  all_goals simp; ring

theorem HasVelocity.congr {f : ℝ → Vec} {v w : Vec} {t : ℝ} (hf : HasVelocity f v t) (h : v = w) : HasVelocity f w t := h ▸ hf

namespace Wiechert

/-- numerator of the electric field -/
noncomputable def N (r b a : Vec) (R : ℝ) : Vec := (r - b * R) * (1 - Vec.dot b b + Vec.dot r a) - a * (R * (R - Vec.dot r b))

/-- numerator of the magnetic field, except for the sign -/
noncomputable def M (r b a : Vec) (R : ℝ) : Vec := cross r (b * (1 - Vec.dot b b + Vec.dot r a) + a * (R - Vec.dot r b))

/-- rate of change of the numerator of the electric field, if the observer moves with `v`, the time (times `c`) with `w` and the retarded time (times `c`) with `T` -/
noncomputable def dN (r b a j : Vec) (R : ℝ) (v : Vec) (w T : ℝ) : Vec :=
  let κ := 1 - Vec.dot b b + Vec.dot r a
  let s := R - Vec.dot r b
  let l := Vec.dot r j - 3 * Vec.dot b a
  v * κ - b * (w * κ) + (r - b * R) * (Vec.dot v a + T * l) - j * (R * s * T) - a * (s * (w - T)) - a * (R * (w - Vec.dot v b))

/-- rate of change of the numerator of the magnetic field -/
noncomputable def dM (r b a j : Vec) (R : ℝ) (v : Vec) (w T : ℝ) : Vec :=
  let κ := 1 - Vec.dot b b + Vec.dot r a
  let s := R - Vec.dot r b
  let l := Vec.dot r j - 3 * Vec.dot b a
  cross v (b * κ + a * s) - cross b a * (T * s) + cross r (b * (Vec.dot v a + T * l) + j * (T * s) + a * (w - Vec.dot v b))

/-- rate of change of the denominator -/
noncomputable def ds (r b a : Vec) (v : Vec) (w T : ℝ) : ℝ := w - Vec.dot v b - (1 - Vec.dot b b + Vec.dot r a) * T

variable {r b a : ℝ → Vec} {R : ℝ → ℝ} {j v : Vec} {w T : ℝ} {t : ℝ}

theorem deriv_s (hr : HasVelocity r (v - b t * T) t) (hb : HasVelocity b (a t * T) t) (hR : HasDerivAt R (w - T) t) :
    HasDerivAt (fun s => R s - Vec.dot (r s) (b s)) (ds (r t) (b t) (a t) v w T) t := by
  refine (hR.sub (hr.dot hb)).congr_deriv ?_
  simp [ds, Vec.dot]
  ring

theorem deriv_k (hr : HasVelocity r (v - b t * T) t) (hb : HasVelocity b (a t * T) t) (ha : HasVelocity a (j * T) t) :
    HasDerivAt (fun s => 1 - Vec.dot (b s) (b s) + Vec.dot (r s) (a s)) (Vec.dot v (a t) + T * (Vec.dot (r t) j - 3 * Vec.dot (b t) (a t))) t := by
  refine (((hb.dot hb).const_sub 1).add (hr.dot ha)).congr_deriv ?_
  simp [Vec.dot]
  ring

theorem deriv_N (hr : HasVelocity r (v - b t * T) t) (hb : HasVelocity b (a t * T) t) (ha : HasVelocity a (j * T) t) (hR : HasDerivAt R (w - T) t) :
    HasVelocity (fun s => N (r s) (b s) (a s) (R s)) (dN (r t) (b t) (a t) j (R t) v w T) t := by
  refine (((hr.sub (hb.mul hR)).mul (deriv_k hr hb ha)).sub (ha.mul (hR.mul (deriv_s hr hb hR)))).congr ?_
  ext <;> simp [dN, ds] <;> ring

theorem deriv_M (hr : HasVelocity r (v - b t * T) t) (hb : HasVelocity b (a t * T) t) (ha : HasVelocity a (j * T) t) (hR : HasDerivAt R (w - T) t) :
    HasVelocity (fun s => M (r s) (b s) (a s) (R s)) (dM (r t) (b t) (a t) j (R t) v w T) t := by
  refine (hr.cross ((hb.mul (deriv_k hr hb ha)).add (ha.mul (deriv_s hr hb hR)))).congr ?_
  ext <;> simp [dM, ds, Vec.dot] <;> ring

/-- rate of change of `X k / s³` -/
theorem deriv_quot {X : ℝ → Vec} {s : ℝ → ℝ} {dX : Vec} {d : ℝ} (hX : HasVelocity X dX t) (hs : HasDerivAt s d t) (h0 : s t ≠ 0) (k : ℝ) :
    HasVelocity (fun σ => X σ * (k / s σ ^ 3)) ((dX * (s t)⁻¹ ^ 3 - X t * (3 * d * (s t)⁻¹ ^ 4)) * k) t := by
  have h : HasDerivAt (fun σ => k / s σ ^ 3) (-(3 * d * (s t)⁻¹ ^ 4) * k) t := by
    have := ((hs.fun_pow 3).fun_inv (pow_ne_zero 3 h0)).const_mul k
    refine (this.congr_deriv ?_)
    field_simp
    norm_num
    ring
  refine (hX.mul h).congr ?_
  ext <;> simp <;> field_simp <;> ring


/-- rate of the retarded time (times c) -/
noncomputable def rate (r b : Vec) (R : ℝ) (v : Vec) (w : ℝ) : ℝ := (w * R - Vec.dot r v) / (R - Vec.dot r b)

/-- derivative of `N/s³` -/
noncomputable def dE (r b a j : Vec) (R : ℝ) (v : Vec) (w : ℝ) : Vec :=
  dN r b a j R v w (rate r b R v w) * (R - Vec.dot r b)⁻¹ ^ 3 - N r b a R * (3 * ds r b a v w (rate r b R v w) * (R - Vec.dot r b)⁻¹ ^ 4)

/-- derivative of `M/s³` -/
noncomputable def dB (r b a j : Vec) (R : ℝ) (v : Vec) (w : ℝ) : Vec :=
  dM r b a j R v w (rate r b R v w) * (R - Vec.dot r b)⁻¹ ^ 3 - M r b a R * (3 * ds r b a v w (rate r b R v w) * (R - Vec.dot r b)⁻¹ ^ 4)

theorem dE_linear (r b a j : Vec) (R : ℝ) (v : Vec) :
    dE r b a j R v 0 = dE r b a j R ⟨1, 0, 0⟩ 0 * v.x + dE r b a j R ⟨0, 1, 0⟩ 0 * v.y + dE r b a j R ⟨0, 0, 1⟩ 0 * v.z := by
  ext <;> simp [dE, dN, N, ds, rate, Vec.dot] <;> ring

theorem dB_linear (r b a j : Vec) (R : ℝ) (v : Vec) :
    dB r b a j R v 0 = dB r b a j R ⟨1, 0, 0⟩ 0 * v.x + dB r b a j R ⟨0, 1, 0⟩ 0 * v.y + dB r b a j R ⟨0, 0, 1⟩ 0 * v.z := by
  ext <;> simp [dB, dM, M, ds, rate, Vec.dot] <;> ring

variable (r b a j : Vec) (R : ℝ)

theorem div_B (hs : R - Vec.dot r b ≠ 0) :
    (dB r b a j R ⟨1, 0, 0⟩ 0).x + (dB r b a j R ⟨0, 1, 0⟩ 0).y + (dB r b a j R ⟨0, 0, 1⟩ 0).z = 0 := by
  obtain ⟨s, rfl⟩ : ∃ s, R = s + Vec.dot r b := ⟨R - Vec.dot r b, by ring⟩
  simp only [add_sub_cancel_right] at hs
  simp only [dB, dM, M, ds, rate, add_sub_cancel_right]
  simp [Vec.dot]
  field_simp
  ring

theorem curl_E (hs : R - Vec.dot r b ≠ 0) :
    (⟨(dE r b a j R ⟨0, 1, 0⟩ 0).z - (dE r b a j R ⟨0, 0, 1⟩ 0).y, (dE r b a j R ⟨0, 0, 1⟩ 0).x - (dE r b a j R ⟨1, 0, 0⟩ 0).z,
      (dE r b a j R ⟨1, 0, 0⟩ 0).y - (dE r b a j R ⟨0, 1, 0⟩ 0).x⟩ : Vec) = dB r b a j R 0 1 := by
  obtain ⟨s, rfl⟩ : ∃ s, R = s + Vec.dot r b := ⟨R - Vec.dot r b, by ring⟩
  simp only [add_sub_cancel_right] at hs
  simp only [dE, dN, N, dB, dM, M, ds, rate, add_sub_cancel_right]
  ext
  all_goals
    simp [Vec.dot]
    field_simp
    ring

theorem div_E (hs : R - Vec.dot r b ≠ 0) (hR : Vec.dot r r = R ^ 2) :
    (dE r b a j R ⟨1, 0, 0⟩ 0).x + (dE r b a j R ⟨0, 1, 0⟩ 0).y + (dE r b a j R ⟨0, 0, 1⟩ 0).z = 0 := by
  obtain ⟨s, rfl⟩ : ∃ s, R = s + Vec.dot r b := ⟨R - Vec.dot r b, by ring⟩
  simp only [add_sub_cancel_right] at hs
  simp only [dE, dN, N, ds, rate, add_sub_cancel_right]
  simp only [Vec.dot] at hR ⊢
  linear_combination (norm := skip) (-(Vec.dot r j - 3 * Vec.dot b a) / s ^ 4 - 3 * (1 - Vec.dot b b + Vec.dot r a) ^ 2 / s ^ 5) * hR
  simp [Vec.dot]
  field_simp
  ring

theorem curl_B (hs : R - Vec.dot r b ≠ 0) (hR : Vec.dot r r = R ^ 2) :
    (⟨(dB r b a j R ⟨0, 1, 0⟩ 0).z - (dB r b a j R ⟨0, 0, 1⟩ 0).y, (dB r b a j R ⟨0, 0, 1⟩ 0).x - (dB r b a j R ⟨1, 0, 0⟩ 0).z,
      (dB r b a j R ⟨1, 0, 0⟩ 0).y - (dB r b a j R ⟨0, 1, 0⟩ 0).x⟩ : Vec) = -dE r b a j R 0 1 := by
  obtain ⟨s, rfl⟩ : ∃ s, R = s + Vec.dot r b := ⟨R - Vec.dot r b, by ring⟩
  simp only [add_sub_cancel_right] at hs
  simp only [dE, dN, N, dB, dM, M, ds, rate, add_sub_cancel_right]
  simp only [Vec.dot] at hR ⊢
  ext
  · linear_combination (norm := skip) ((Vec.dot r j - 3 * Vec.dot b a) / s ^ 4 * b.x + j.x / s ^ 3 + 3 * (1 - Vec.dot b b + Vec.dot r a) / s ^ 5 *
      (b.x * (1 - Vec.dot b b + Vec.dot r a) + a.x * s)) * hR
    simp [Vec.dot]
    field_simp
    ring
  · linear_combination (norm := skip) ((Vec.dot r j - 3 * Vec.dot b a) / s ^ 4 * b.y + j.y / s ^ 3 + 3 * (1 - Vec.dot b b + Vec.dot r a) / s ^ 5 *
      (b.y * (1 - Vec.dot b b + Vec.dot r a) + a.y * s)) * hR
    simp [Vec.dot]
    field_simp
    ring
  · linear_combination (norm := skip) ((Vec.dot r j - 3 * Vec.dot b a) / s ^ 4 * b.z + j.z / s ^ 3 + 3 * (1 - Vec.dot b b + Vec.dot r a) / s ^ 5 *
      (b.z * (1 - Vec.dot b b + Vec.dot r a) + a.z * s)) * hR
    simp [Vec.dot]
    field_simp
    ring

end Wiechert
end Teufel
