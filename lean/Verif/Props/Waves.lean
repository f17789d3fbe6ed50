import Verif.Model.Elements
import Verif.Lemmas.Vec
import Mathlib.MeasureTheory.Integral.Gamma
import Mathlib.Analysis.SpecialFunctions.Gaussian.GaussianIntegral

/-! # C28: Gaussian waves and wave packets -/

namespace Teufel
open Vec

/-- specification: mode size at distance `z` from the waist -/
noncomputable def modeSize (w0 zR z : ℝ) : ℝ := w0 * Real.sqrt (1 + (z / zR) ^ 2)

/-- specification: the amplitude profile of a Gaussian mode of wavelength `l` and Rayleigh length `zR` -/
noncomputable def modeProfile (l zR z r : ℝ) : ℝ :=
  let w0 := Real.sqrt (l * zR / Real.pi)
  w0 / modeSize w0 zR z * Real.exp (-(r / modeSize w0 zR z) ^ 2)

/-- distance from the axis -/
noncomputable def radius (X : Vec) : ℝ := Vec.norm ⟨X.x, X.y, 0⟩

theorem re_mul_exp (A : ℂ) (a x y : ℝ) : (A * ((a : ℂ) * Complex.exp ⟨x, y⟩)).re
    = a * Real.exp x * (A.re * Real.cos y - A.im * Real.sin y) := by
  have h : Complex.exp ⟨x, y⟩ = ⟨Real.exp x * Real.cos y, Real.exp x * Real.sin y⟩ := by
    apply Complex.ext
    · simp [Complex.exp_re]
    · simp [Complex.exp_im]
  rw [h]
  simp [Complex.mul_re, Complex.mul_im]
  ring

theorem wave_bound (A : ℂ) (y : ℝ) : |A.re * Real.cos y - A.im * Real.sin y| ≤ ‖A‖ := by
  have h : (A.re * Real.cos y - A.im * Real.sin y) = (A * Complex.exp (y * Complex.I)).re := by
    rw [Complex.mul_re, Complex.exp_ofReal_mul_I_re, Complex.exp_ofReal_mul_I_im]
  rw [h]
  refine le_trans (Complex.abs_re_le_norm _) ?_
  rw [_root_.norm_mul, Complex.norm_exp_ofReal_mul_I, mul_one]

/-- phase of the wave -/
noncomputable def wavePhase (l zR t : ℝ) (X : Vec) : ℝ :=
  2 * Real.pi / l * SpeedOfLight * t - 2 * Real.pi / l * X.z -
    (if X.z = 0 then 0 else Real.pi * radius X * radius X / l / (X.z + zR * zR / X.z))

theorem wave_field (l zR : ℝ) (A : ℂ) (h : 0 < l * zR) (t : ℝ) (X : Vec) :
    let e := modeProfile l zR X.z (radius X) * (A.re * Real.cos (wavePhase l zR t X) - A.im * Real.sin (wavePhase l zR t X))
    (GaussianWave.Setup l A zR).LocalField t X = .ok ⟨⟨e, 0, 0⟩, ⟨0, e / SpeedOfLight, 0⟩⟩ := by
  have h' : 0 < (GaussianWave.Setup l A zR).lambda * (GaussianWave.Setup l A zR).zR := h
  simp only [GaussianWave.LocalField]
  rw [if_neg (not_not.mpr h'), re_mul_exp]
  simp only [modeProfile, modeSize, GaussianWave.Setup, wavePhase, GaussianWave.curvPhase, Pi, radius]

theorem packet_field (l zR tau : ℝ) (A : ℂ) (h : 0 < l * zR) (ht : tau ≠ 0) (t : ℝ) (X : Vec) :
    let e := modeProfile l zR X.z (radius X) * Real.exp (-((t - X.z / SpeedOfLight) / tau) ^ 2)
      * (A.re * Real.cos (wavePhase l zR t X) - A.im * Real.sin (wavePhase l zR t X))
    (GaussianWave.Setup l A zR).PacketField tau t X = .ok ⟨⟨e, 0, 0⟩, ⟨0, e / SpeedOfLight, 0⟩⟩ := by
  have h' : 0 < (GaussianWave.Setup l A zR).lambda * (GaussianWave.Setup l A zR).zR := h
  simp only [GaussianWave.PacketField]
  rw [if_neg (by rintro (q | q); exacts [q h', ht q]), re_mul_exp, sub_eq_add_neg, Real.exp_add]
  simp only [modeProfile, modeSize, GaussianWave.Setup, wavePhase, GaussianWave.curvPhase, Pi, radius]
  congr 2 <;> ext <;> simp only [] <;> ring

theorem modeProfile_nonneg (l zR z r : ℝ) : 0 ≤ modeProfile l zR z r := by
  unfold modeProfile modeSize; positivity

theorem waist_pos {l zR : ℝ} (h : 0 < l * zR) : 0 < Real.sqrt (l * zR / Real.pi) :=
  Real.sqrt_pos.mpr (div_pos h Real.pi_pos)

/-- the profile never exceeds the ratio of the mode sizes, which is at most one -/
theorem modeProfile_le (l zR z r : ℝ) (h : 0 < l * zR) : modeProfile l zR z r ≤ 1 / Real.sqrt (1 + (z / zR) ^ 2) := by
  have hw := waist_pos h
  have hs : 0 < Real.sqrt (1 + (z / zR) ^ 2) := Real.sqrt_pos.mpr (by positivity)
  simp only [modeProfile]
  have e : Real.sqrt (l * zR / Real.pi) / modeSize (Real.sqrt (l * zR / Real.pi)) zR z = 1 / Real.sqrt (1 + (z / zR) ^ 2) := by
    unfold modeSize; field_simp
  rw [e]
  have : Real.exp (-(r / modeSize (Real.sqrt (l * zR / Real.pi)) zR z) ^ 2) ≤ 1 := by
    rw [Real.exp_le_one_iff]; nlinarith [sq_nonneg (r / modeSize (Real.sqrt (l * zR / Real.pi)) zR z)]
  have h1 : 0 ≤ 1 / Real.sqrt (1 + (z / zR) ^ 2) := by positivity
  nlinarith

/-- C28: transversality of the wave: `E` along x, `B` along y with `B = E/c`, energy flow along +z (never backwards);
the field never exceeds the amplitude times `w0/w` (times the Gaussian profile). -/
theorem C28_wave (l zR : ℝ) (A : ℂ) (h : 0 < l * zR) (t : ℝ) (X : Vec) :
    ∃ e : ℝ, (GaussianWave.Setup l A zR).LocalField t X = .ok ⟨⟨e, 0, 0⟩, ⟨0, e / SpeedOfLight, 0⟩⟩ ∧
      (EMField.Poynting ⟨⟨e, 0, 0⟩, ⟨0, e / SpeedOfLight, 0⟩⟩) = ⟨0, 0, e ^ 2 / (SpeedOfLight * MuNull)⟩ ∧
      0 ≤ e ^ 2 / (SpeedOfLight * MuNull) ∧
      |e| ≤ ‖A‖ * modeProfile l zR X.z (radius X) ∧ |e| ≤ ‖A‖ / Real.sqrt (1 + (X.z / zR) ^ 2) := by
  have hc := SpeedOfLight_pos
  have hm := MuNull_pos
  refine ⟨_, wave_field l zR A h t X, ?_, by positivity, ?_, ?_⟩
  · simp only [EMField.Poynting, cross]
    ext <;> simp
    field_simp
  · rw [abs_mul, abs_of_nonneg (modeProfile_nonneg _ _ _ _), mul_comm]
    exact mul_le_mul_of_nonneg_right (wave_bound _ _) (modeProfile_nonneg _ _ _ _)
  · rw [abs_mul, abs_of_nonneg (modeProfile_nonneg _ _ _ _), mul_comm, div_eq_mul_one_div]
    exact mul_le_mul (wave_bound _ _) (modeProfile_le _ _ _ _ h) (modeProfile_nonneg _ _ _ _) (by positivity)

/-- C28: the real part of the amplitude is the cosine, the imaginary part (up to sign) the sine part of the
oscillation at the waist. -/
theorem C28_waist_phase (l zR : ℝ) (A : ℂ) (h : 0 < l * zR) (t : ℝ) :
    ∃ F, (GaussianWave.Setup l A zR).LocalField t 0 = .ok F ∧
      F.E.x = A.re * Real.cos (2 * Real.pi * SpeedOfLight / l * t) - A.im * Real.sin (2 * Real.pi * SpeedOfLight / l * t) := by
  refine ⟨_, wave_field l zR A h t 0, ?_⟩
  have hr : radius 0 = 0 := by simp [radius, Vec.norm]
  have hw := waist_pos h
  have hph : wavePhase l zR t 0 = 2 * Real.pi * SpeedOfLight / l * t := by simp only [wavePhase, zero_z, if_true]; ring
  have hp : modeProfile l zR (0 : Vec).z (radius 0) = 1 := by
    rw [hr]; simp [modeProfile, modeSize]; exact hw.ne'
  simp only [hph, hp, one_mul]

/-- C28: on its axis the wave travels with the speed of light, attenuated by the growth of the mode only. -/
theorem C28_speed_of_light (l zR : ℝ) (A : ℂ) (h : 0 < l * zR) (t z : ℝ) :
    ∃ F G, (GaussianWave.Setup l A zR).LocalField t 0 = .ok F ∧
      (GaussianWave.Setup l A zR).LocalField (t + z / SpeedOfLight) ⟨0, 0, z⟩ = .ok G ∧
      G.E.x * Real.sqrt (1 + (z / zR) ^ 2) = F.E.x := by
  have hl : l ≠ 0 := by rintro rfl; simp at h
  have hw := waist_pos h
  have hc := SpeedOfLight_ne
  have hs : 0 < Real.sqrt (1 + (z / zR) ^ 2) := Real.sqrt_pos.mpr (by positivity)
  refine ⟨_, _, wave_field l zR A h t 0, wave_field l zR A h _ _, ?_⟩
  have hr : radius 0 = 0 := by simp [radius, Vec.norm]
  have hr' : radius ⟨0, 0, z⟩ = 0 := by simp [radius, Vec.norm]
  have hph : wavePhase l zR (t + z / SpeedOfLight) ⟨0, 0, z⟩ = wavePhase l zR t 0 := by
    simp only [wavePhase, hr, hr']
    simp only [mul_zero, zero_div, ite_self, sub_zero, zero_z]
    field_simp; ring
  have hp : modeProfile l zR (0 : Vec).z (radius 0) = 1 := by
    rw [hr]; simp [modeProfile, modeSize]; exact hw.ne'
  have hp' : modeProfile l zR z (radius ⟨0, 0, z⟩) * Real.sqrt (1 + (z / zR) ^ 2) = 1 := by
    rw [hr']; simp only [modeProfile, modeSize]; simp; field_simp
  simp only [hph, hp, one_mul]
  rw [mul_right_comm, hp', one_mul]

/-- C28: the power transported through any plane is the same: the intensity profile integrates to `w0^2/4` (times the
common factor) at every distance from the waist. -/
theorem C28_power_conserved (l zR : ℝ) (h : 0 < l * zR) (z : ℝ) :
    ∫ r in Set.Ioi (0 : ℝ), r * (modeProfile l zR z r) ^ 2 = l * zR / Real.pi / 4 := by
  have hw := waist_pos h
  have hs : 0 < Real.sqrt (1 + (z / zR) ^ 2) := Real.sqrt_pos.mpr (by positivity)
  obtain ⟨w0, hw0⟩ : ∃ w, w = Real.sqrt (l * zR / Real.pi) := ⟨_, rfl⟩
  have hw2 : w0 ^ 2 = l * zR / Real.pi := by rw [hw0]; exact Real.sq_sqrt (div_pos h Real.pi_pos).le
  rw [← hw0] at hw
  obtain ⟨w, hwd⟩ : ∃ w, w = modeSize w0 zR z := ⟨_, rfl⟩
  have hwp : 0 < w := by rw [hwd]; exact mul_pos hw hs
  have e : ∀ r : ℝ, r * (modeProfile l zR z r) ^ 2 = (w0 / w) ^ 2 * (r ^ (1 : ℝ) * Real.exp (-(2 / w ^ 2) * r ^ (2 : ℝ))) := by
    intro r
    simp only [modeProfile, ← hw0, ← hwd]
    rw [mul_pow, ← Real.exp_nat_mul, Real.rpow_one, Real.rpow_two]
    have : ((2 : ℕ) : ℝ) * -(r / w) ^ 2 = -(2 / w ^ 2) * r ^ 2 := by push_cast; field_simp
    rw [this]; ring
  simp only [e]
  rw [MeasureTheory.integral_const_mul, integral_rpow_mul_exp_neg_mul_rpow (by norm_num) (by norm_num) (by positivity)]
  have g : ((1 : ℝ) + 1) / 2 = 1 := by norm_num
  rw [g, Real.Gamma_one]
  have r1 : (2 / w ^ 2) ^ (-((1 : ℝ))) = w ^ 2 / 2 := by
    rw [Real.rpow_neg (by positivity), Real.rpow_one]; field_simp
  rw [show -((1 : ℝ) + 1) / 2 = -1 by norm_num] at *
  rw [r1, ← hw2]
  field_simp
  norm_num

/-- C28: the wave packet has the same structure, with a Gaussian time envelope centred at the arrival time `z/c`. -/
theorem C28_packet (l zR tau : ℝ) (A : ℂ) (h : 0 < l * zR) (ht : tau ≠ 0) (t : ℝ) (X : Vec) :
    ∃ e : ℝ, (GaussianWave.Setup l A zR).PacketField tau t X = .ok ⟨⟨e, 0, 0⟩, ⟨0, e / SpeedOfLight, 0⟩⟩ ∧
      (EMField.Poynting ⟨⟨e, 0, 0⟩, ⟨0, e / SpeedOfLight, 0⟩⟩) = ⟨0, 0, e ^ 2 / (SpeedOfLight * MuNull)⟩ ∧
      0 ≤ e ^ 2 / (SpeedOfLight * MuNull) ∧
      |e| ≤ ‖A‖ / Real.sqrt (1 + (X.z / zR) ^ 2) * Real.exp (-((t - X.z / SpeedOfLight) / tau) ^ 2) := by
  have hc := SpeedOfLight_pos
  have hm := MuNull_pos
  refine ⟨_, packet_field l zR tau A h ht t X, ?_, by positivity, ?_⟩
  · simp only [EMField.Poynting, cross]
    ext <;> simp
    field_simp
  · rw [abs_mul, abs_mul, abs_of_nonneg (modeProfile_nonneg _ _ _ _), Real.abs_exp]
    have h1 := modeProfile_le l zR X.z (radius X) h
    have h0 := modeProfile_nonneg l zR X.z (radius X)
    have h2 := wave_bound A (wavePhase l zR t X)
    calc modeProfile l zR X.z (radius X) * Real.exp (-((t - X.z / SpeedOfLight) / tau) ^ 2) * |A.re * Real.cos (wavePhase l zR t X) - A.im * Real.sin (wavePhase l zR t X)|
        ≤ (1 / Real.sqrt (1 + (X.z / zR) ^ 2)) * Real.exp (-((t - X.z / SpeedOfLight) / tau) ^ 2) * ‖A‖ := by
          apply mul_le_mul _ h2 (abs_nonneg _) (by positivity)
          exact mul_le_mul_of_nonneg_right h1 (Real.exp_pos _).le
      _ = _ := by ring

/-- C28: placed at `origin` with time `t0` the packet reaches its full amplitude at the waist at time `t0`, and at
the waist the field is below the amplitude by the Gaussian envelope at every other time. -/
theorem C28_packet_peak (l zR tau : ℝ) (A : ℂ) (h : 0 < l * zR) (ht : tau ≠ 0) (t0 : ℝ) (origin : Vec) :
    let W := LocalizedField ((GaussianWave.Setup l A zR).PacketField tau) t0 origin
    (∃ F, W.field t0 origin = .ok F ∧ F.E.x = A.re) ∧
    ∀ t, ∃ F, W.field t origin = .ok F ∧ |F.E.x| ≤ ‖A‖ * Real.exp (-((t - t0) / tau) ^ 2) := by
  constructor
  · simp only [LocalizedField, sub_self]
    refine ⟨_, packet_field l zR tau A h ht 0 0, ?_⟩
    have hr : radius 0 = 0 := by simp [radius, Vec.norm]
    have hw := waist_pos h
    have hph : wavePhase l zR 0 0 = 0 := by simp [wavePhase]
    have hp : modeProfile l zR (0 : Vec).z (radius 0) = 1 := by
      rw [hr]; simp [modeProfile, modeSize]; exact hw.ne'
    simp only [hph, hp, one_mul]
    simp
  · intro t
    simp only [LocalizedField, sub_self]
    obtain ⟨e, he, -, -, hb⟩ := C28_packet l zR tau A h ht (t - t0) 0
    refine ⟨_, he, ?_⟩
    simpa using hb

/-- C28, non-vacuity -/
example : (0 : ℝ) < 1e-4 * 0.5 := by norm_num

end Teufel
