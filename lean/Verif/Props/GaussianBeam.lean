import Verif.Model.Reports
import Verif.Spec.Paraxial
import Verif.Props.Waves
import Verif.Props.Energy
import Mathlib.Analysis.SpecialFunctions.Integrals.Basic
import Mathlib.Analysis.SpecialFunctions.Complex.Arg

/-! # Properties C110 and C111: power and propagation of Gaussian waves -/

namespace Teufel
open Vec

/-- average of the square of an oscillation over a period -/
theorem mean_square (a b ω φ t : ℝ) (hω : ω ≠ 0) :
    ∫ s in t..(t + 2 * Real.pi / ω), (a * Real.cos (ω * s + φ) - b * Real.sin (ω * s + φ)) ^ 2 = 2 * Real.pi / ω * ((a ^ 2 + b ^ 2) / 2) := by
  have hd : ∀ s ∈ Set.uIcc t (t + 2 * Real.pi / ω), HasDerivAt (fun s => (a ^ 2 + b ^ 2) / 2 * s + (a ^ 2 - b ^ 2) / (4 * ω) * Real.sin (2 * (ω * s + φ)) + a * b / (2 * ω) * Real.cos (2 * (ω * s + φ)))
      ((a * Real.cos (ω * s + φ) - b * Real.sin (ω * s + φ)) ^ 2) s := by
    intro s _
    have h0 : HasDerivAt (fun s => 2 * (ω * s + φ)) (2 * ω) s := by
      simpa using (((hasDerivAt_id s).const_mul ω).add_const φ).const_mul 2
    refine ((((hasDerivAt_id s).const_mul ((a ^ 2 + b ^ 2) / 2)).add (h0.sin.const_mul ((a ^ 2 - b ^ 2) / (4 * ω)))).add (h0.cos.const_mul (a * b / (2 * ω)))).congr_deriv ?_
    rw [Real.cos_two_mul, Real.sin_two_mul]
    have := Real.sin_sq_add_cos_sq (ω * s + φ)
    field_simp
    linear_combination (-8 * b ^ 2) * this
  rw [intervalIntegral.integral_eq_sub_of_hasDerivAt hd (by apply Continuous.intervalIntegrable; fun_prop)]
  have e : 2 * (ω * (t + 2 * Real.pi / ω) + φ) = 2 * (ω * t + φ) + 2 * Real.pi + 2 * Real.pi := by field_simp; ring
  simp only [e, Real.sin_add_two_pi, Real.cos_add_two_pi]
  ring

/-- the electric field of a wave at a place relative to its waist -/
noncomputable def beamE (l zR : ℝ) (A : ℂ) (t : ℝ) (X : Vec) : ℝ :=
  modeProfile l zR X.z (radius X) * (A.re * Real.cos (wavePhase l zR t X) - A.im * Real.sin (wavePhase l zR t X))

theorem flow_beam (e : ℝ) : flowZ ⟨⟨e, 0, 0⟩, ⟨0, e / SpeedOfLight, 0⟩⟩ = e ^ 2 / (SI.c * SI.mu0) := by
  have h : SpeedOfLight = SI.c := C100_constants.1
  unfold flowZ
  rw [h]
  simp only [zero_mul, sub_zero]
  rw [div_eq_div_iff (by norm_num [SI.mu0]) (by norm_num [SI.mu0, SI.c])]
  have : SI.c ≠ 0 := by norm_num [SI.c]
  field_simp

/-- mean square of the field over a period -/
theorem beam_mean (l zR : ℝ) (A : ℂ) (hl : 0 < l) (t t0 : ℝ) (X : Vec) :
    1 / (l / SI.c) * ∫ s in t..(t + l / SI.c), beamE l zR A (s - t0) X ^ 2 / (SI.c * SI.mu0) =
      modeProfile l zR X.z (radius X) ^ 2 * (Complex.normSq A / 2 / (SI.c * SI.mu0)) := by
  obtain ⟨c, hc⟩ : ∃ c, c = SI.c := ⟨_, rfl⟩
  have hc0 : 0 < c := by rw [hc]; norm_num [SI.c]
  have hcs : SpeedOfLight = c := by rw [hc]; exact C100_constants.1
  rw [← hc]
  have hω : 2 * Real.pi / l * c ≠ 0 := by have := Real.pi_pos; positivity
  obtain ⟨φ, hφ⟩ : ∃ φ, ∀ s, wavePhase l zR (s - t0) X = 2 * Real.pi / l * c * s + φ :=
    ⟨wavePhase l zR (-t0) X, fun s => by unfold wavePhase; rw [hcs]; ring⟩
  have hm := mean_square A.re A.im _ φ t hω
  have hT : 2 * Real.pi / (2 * Real.pi / l * c) = l / c := by have := Real.pi_pos; field_simp
  rw [hT] at hm
  have e : ∀ s, beamE l zR A (s - t0) X ^ 2 / (c * SI.mu0) = modeProfile l zR X.z (radius X) ^ 2 / (c * SI.mu0) * (A.re * Real.cos (2 * Real.pi / l * c * s + φ) - A.im * Real.sin (2 * Real.pi / l * c * s + φ)) ^ 2 := by
    intro s
    unfold beamE
    rw [hφ]
    ring
  simp only [e]
  rw [intervalIntegral.integral_const_mul, hm, Complex.normSq_apply]
  field_simp

/-- the intensity integrated over a plane -/
theorem beam_plane (l zR : ℝ) (hl : 0 < l) (hz : 0 < zR) (origin : Vec) (z : ℝ) :
    ∫ x, ∫ y, modeProfile l zR (z - origin.z) (radius ((⟨x, y, z⟩ : Vec) - origin)) ^ 2 = l * zR / 2 := by
  have hw := waist_pos (mul_pos hl hz)
  obtain ⟨w0, hw0⟩ : ∃ w, w = Real.sqrt (l * zR / Real.pi) := ⟨_, rfl⟩
  have hw2 : w0 ^ 2 = l * zR / Real.pi := by rw [hw0]; exact Real.sq_sqrt (div_pos (mul_pos hl hz) Real.pi_pos).le
  rw [← hw0] at hw
  obtain ⟨w, hwd⟩ : ∃ w, w = modeSize w0 zR (z - origin.z) := ⟨_, rfl⟩
  have hwp : 0 < w := by rw [hwd]; exact mul_pos hw (Real.sqrt_pos.mpr (by positivity))
  have e : ∀ x y : ℝ, modeProfile l zR (z - origin.z) (radius ((⟨x, y, z⟩ : Vec) - origin)) ^ 2 =
      (w0 / w) ^ 2 * (Real.exp (-(2 / w ^ 2) * (x - origin.x) ^ 2)) * Real.exp (-(2 / w ^ 2) * (y - origin.y) ^ 2) := by
    intro x y
    have hr : radius ((⟨x, y, z⟩ : Vec) - origin) ^ 2 = (x - origin.x) ^ 2 + (y - origin.y) ^ 2 := by
      unfold radius Vec.norm
      rw [Real.sq_sqrt (by simp only; nlinarith [mul_self_nonneg (x - origin.x), mul_self_nonneg (y - origin.y)])]
      simp
      ring
    simp only [modeProfile, ← hw0, ← hwd]
    rw [mul_pow, ← Real.exp_nat_mul, mul_assoc, ← Real.exp_add]
    congr 2
    rw [div_pow, hr]
    push_cast
    field_simp
    ring
  simp only [e]
  have g := integral_gaussian (2 / w ^ 2)
  have g1 : ∀ a : ℝ, ∫ x, Real.exp (-(2 / w ^ 2) * (x - a) ^ 2) = Real.sqrt (Real.pi / (2 / w ^ 2)) := by
    intro a
    rw [← g]
    exact MeasureTheory.integral_sub_right_eq_self (fun x => Real.exp (-(2 / w ^ 2) * x ^ 2)) a
  have h1 : ∀ x : ℝ, ∫ y, (w0 / w) ^ 2 * Real.exp (-(2 / w ^ 2) * (x - origin.x) ^ 2) * Real.exp (-(2 / w ^ 2) * (y - origin.y) ^ 2) =
      (w0 / w) ^ 2 * Real.sqrt (Real.pi / (2 / w ^ 2)) * Real.exp (-(2 / w ^ 2) * (x - origin.x) ^ 2) := by
    intro x
    rw [MeasureTheory.integral_const_mul, g1]
    ring
  simp only [h1]
  rw [MeasureTheory.integral_const_mul, g1, mul_assoc, Real.mul_self_sqrt (by have := Real.pi_pos; positivity), div_pow, hw2]
  have := Real.pi_pos
  field_simp

theorem beam_power (l zR : ℝ) (A : ℂ) (hl : 0 < l) (hz : 0 < zR) (t0 : ℝ) (origin : Vec) (t z : ℝ) :
    powerThrough (fun t x y z => flowZ ⟨⟨beamE l zR A (t - t0) (⟨x, y, z⟩ - origin), 0, 0⟩, ⟨0, beamE l zR A (t - t0) (⟨x, y, z⟩ - origin) / SpeedOfLight, 0⟩⟩) t (l / SI.c) z =
      l * zR / 2 * (Complex.normSq A / 2 / (SI.c * SI.mu0)) := by
  unfold powerThrough
  simp only [flow_beam, beam_mean l zR A hl]
  simp only [MeasureTheory.integral_mul_const]
  congr 1
  exact beam_plane l zR hl hz origin z

/-- **C110.** The numbers reported for a Gaussian wave are true of the field it exerts.  The field never exceeds the reported peak field, which is reached in the waist
if the phase is right.  The mean power through any plane, at any time, is the reported power up to 10⁻⁹.  At the reported distance from the axis the amplitude in the
waist has fallen to 1/e. -/
theorem C110_reported (l zR : ℝ) (A : ℂ) (hl : 0 < l) (hz : 0 < zR) (t0 : ℝ) (origin : Vec) :
    ∃ F : ℝ → Vec → EMField, (∀ t X, (LocalizedField (GaussianWave.Setup l A zR).LocalField t0 origin).field t X = .ok (F t X)) ∧
      (∀ t X, (F t X).E.norm ≤ (GaussianWave.Setup l A zR).report.E0) ∧ (∃ t, (F t origin).E.norm = (GaussianWave.Setup l A zR).report.E0) ∧
      (∀ t X, X.z = origin.z → (X - origin).norm = (GaussianWave.Setup l A zR).report.w0 → (F t X).E.norm = Real.exp (-1) * (F t origin).E.norm) ∧
      ∀ t z, AgreeWithin 1e-9 (GaussianWave.Setup l A zR).report.Ptot (powerThrough (fun t x y z => flowZ (F t ⟨x, y, z⟩)) t (l / SI.c) z) := by
  have h : 0 < l * zR := mul_pos hl hz
  have hE0 : (GaussianWave.Setup l A zR).report.E0 = ‖A‖ := by
    show Real.sqrt (Complex.normSq A) = ‖A‖
    rw [← Complex.sq_norm, Real.sqrt_sq (_root_.norm_nonneg A)]
  have hn : ∀ e : ℝ, Vec.norm ⟨e, 0, 0⟩ = |e| := fun e => by simp [Vec.norm, Real.sqrt_mul_self_eq_abs]
  have hw := waist_pos h
  have h00 : ∀ t, beamE l zR A t 0 = A.re * Real.cos (2 * Real.pi / l * SpeedOfLight * t) - A.im * Real.sin (2 * Real.pi / l * SpeedOfLight * t) := by
    intro t
    have hr : radius 0 = 0 := by simp [radius, Vec.norm]
    have hph : wavePhase l zR t 0 = 2 * Real.pi / l * SpeedOfLight * t := by simp [wavePhase]
    have hp : modeProfile l zR (0 : Vec).z (radius 0) = 1 := by
      rw [hr]; simp [modeProfile, modeSize]; exact hw.ne'
    unfold beamE
    rw [hph, hp, one_mul]
  refine ⟨fun t X => ⟨⟨beamE l zR A (t - t0) (X - origin), 0, 0⟩, ⟨0, beamE l zR A (t - t0) (X - origin) / SpeedOfLight, 0⟩⟩, ?_, ?_, ?_, ?_, ?_⟩
  · intro t X
    exact wave_field l zR A h (t - t0) (X - origin)
  · intro t X
    rw [hE0, hn]
    unfold beamE
    rw [abs_mul, abs_of_nonneg (modeProfile_nonneg _ _ _ _)]
    have h1 := modeProfile_le l zR (X - origin).z (radius (X - origin)) h
    have h2 : 1 / Real.sqrt (1 + ((X - origin).z / zR) ^ 2) ≤ 1 := by
      rw [div_le_one (Real.sqrt_pos.mpr (by positivity))]
      exact Real.one_le_sqrt.mpr (by nlinarith [sq_nonneg ((X - origin).z / zR)])
    calc _ ≤ 1 * ‖A‖ := mul_le_mul (h1.trans h2) (wave_bound A _) (abs_nonneg _) zero_le_one
      _ = ‖A‖ := one_mul _
  · have hω : 2 * Real.pi / l * SpeedOfLight ≠ 0 := by have := Real.pi_pos; have := SpeedOfLight_pos; positivity
    refine ⟨t0 + -Complex.arg A / (2 * Real.pi / l * SpeedOfLight), ?_⟩
    rw [hE0, hn, sub_self, h00]
    have e1 : 2 * Real.pi / l * SpeedOfLight * (t0 + -Complex.arg A / (2 * Real.pi / l * SpeedOfLight) - t0) = -Complex.arg A := by rw [add_sub_cancel_left, mul_div_cancel₀ _ hω]
    rw [e1, Real.cos_neg, Real.sin_neg]
    have e2 := Complex.norm_mul_cos_arg A
    have e3 := Complex.norm_mul_sin_arg A
    have e4 : A.re * Real.cos (Complex.arg A) - A.im * -Real.sin (Complex.arg A) = ‖A‖ := by
      rw [← e2, ← e3]
      have := Real.sin_sq_add_cos_sq (Complex.arg A)
      rw [e2, e3]
      linear_combination ‖A‖ * this - Real.cos (Complex.arg A) * e2 - Real.sin (Complex.arg A) * e3
    rw [e4, abs_of_nonneg (_root_.norm_nonneg A)]
  · intro t X hX hr
    rw [hn, hn, sub_self, h00]
    have hz0 : (X - origin).z = 0 := by simp [hX]
    have hrad : radius (X - origin) = Real.sqrt (l * zR / Real.pi) := by
      have : (⟨(X - origin).x, (X - origin).y, 0⟩ : Vec) = X - origin := by ext <;> simp [hX]
      unfold radius
      rw [this, hr]
      rfl
    have hph : wavePhase l zR (t - t0) (X - origin) = 2 * Real.pi / l * SpeedOfLight * (t - t0) := by simp only [wavePhase, hz0, if_true]; ring
    have hp : modeProfile l zR (X - origin).z (radius (X - origin)) = Real.exp (-1) := by
      rw [hrad, hz0]
      simp only [modeProfile, modeSize]
      simp
      rw [div_self hw.ne']
      simp
    unfold beamE
    rw [hph, hp, abs_mul, abs_of_pos (Real.exp_pos _)]
  · intro t z
    have hb := beam_power l zR A hl hz t0 origin t z
    rw [hb]
    have hP : (GaussianWave.Setup l A zR).report.Ptot = l * zR / 2 * (Complex.normSq A / 2 / (SI.c * SI.mu0)) * (EpsNull * SI.mu0 * SI.c ^ 2) := by
      have hw2 : Real.sqrt (l * zR / Real.pi) * Real.sqrt (l * zR / Real.pi) = l * zR / Real.pi := Real.mul_self_sqrt (div_pos h Real.pi_pos).le
      show Pi / 2.0 * (Complex.normSq A / 2.0 * EpsNull * SpeedOfLight) * Real.sqrt (l * zR / Pi) * Real.sqrt (l * zR / Pi) = _
      unfold Pi
      rw [mul_assoc _ (Real.sqrt _), hw2]
      have : SpeedOfLight = SI.c := C100_constants.1
      rw [this]
      have h1 : SI.c ≠ 0 := by norm_num [SI.c]
      have h2 : SI.mu0 ≠ 0 := by norm_num [SI.mu0]
      have := Real.pi_pos
      norm_num
      field_simp
    rw [hP]
    unfold AgreeWithin
    have h0 : 0 ≤ l * zR / 2 * (Complex.normSq A / 2 / (SI.c * SI.mu0)) := by
      have := Complex.normSq_nonneg A
      have h1 : 0 < SI.c * SI.mu0 := by norm_num [SI.c, SI.mu0]
      positivity
    have e : ∀ a k : ℝ, a * k - a = a * (k - 1) := fun a k => by ring
    rw [e, abs_mul, mul_comm (1e-9 : ℝ)]
    refine mul_le_mul_of_nonneg_left ?_ (abs_nonneg _)
    rw [abs_le]
    constructor <;> norm_num [EpsNull, SI.mu0, SI.c]


/-- the complex beam parameter: the amplitude `zR/(zR - iz) exp(-k r²/(2 (zR - iz)))` of the textbook -/
noncomputable def textbookBeam (k zR : ℝ) (A : ℂ) (x y z : ℝ) : ℂ :=
  A * (zR * ((zR - Complex.I * z)⁻¹ * Complex.exp (-(k / 2 * ((x : ℂ) ^ 2 + (y : ℂ) ^ 2)) * (zR - Complex.I * z)⁻¹)))

theorem beam_q_ne {zR : ℝ} (hz : 0 < zR) (z : ℝ) : ((zR : ℂ) - Complex.I * z) ≠ 0 := by
  intro h
  have := congrArg Complex.re h
  simp at this
  exact hz.ne' this

/-- the textbook beam obeys the paraxial wave equation -/
theorem textbook_paraxial (k zR : ℝ) (A : ℂ) (hz : 0 < zR) : Paraxial k (textbookBeam k zR A) := by
  intro x y z
  have hq := beam_q_ne hz z
  obtain ⟨q, hqd⟩ : ∃ q : ℂ, q = zR - Complex.I * z := ⟨_, rfl⟩
  rw [← hqd] at hq
  have hsq : ∀ ξ : ℝ, HasDerivAt (fun s : ℝ => (s : ℂ) ^ 2) (2 * ξ) ξ := fun ξ => by
    have := (Complex.ofRealCLM.hasDerivAt (x := ξ)).fun_pow 2
    simpa using this
  have hx : ∀ ξ, HasDerivAt (fun s => textbookBeam k zR A s y z) (-(k * ξ / q) * textbookBeam k zR A ξ y z) ξ := by
    intro ξ
    unfold textbookBeam
    rw [← hqd]
    refine (((((((hsq ξ).add_const ((y : ℂ) ^ 2)).const_mul (k / 2 : ℂ)).fun_neg.mul_const q⁻¹).cexp.const_mul q⁻¹).const_mul (zR : ℂ)).const_mul A).congr_deriv ?_
    field_simp
  have hy : ∀ η, HasDerivAt (fun s => textbookBeam k zR A x s z) (-(k * η / q) * textbookBeam k zR A x η z) η := by
    intro η
    unfold textbookBeam
    rw [← hqd]
    refine (((((((hsq η).const_add ((x : ℂ) ^ 2)).const_mul (k / 2 : ℂ)).fun_neg.mul_const q⁻¹).cexp.const_mul q⁻¹).const_mul (zR : ℂ)).const_mul A).congr_deriv ?_
    field_simp
  have hlin : ∀ ξ : ℝ, HasDerivAt (fun s : ℝ => -(k * (s : ℂ) / q)) (-(k / q)) ξ := fun ξ => by
    have := (((Complex.ofRealCLM.hasDerivAt (x := ξ)).const_mul (k : ℂ)).div_const q).fun_neg
    simpa using this
  have hqz : HasDerivAt (fun s : ℝ => ((zR : ℂ) - Complex.I * s)⁻¹) (Complex.I / q ^ 2) z := by
    have h1 : HasDerivAt (fun s : ℝ => ((zR : ℂ) - Complex.I * s)) (-Complex.I) z := by
      simpa using ((Complex.ofRealCLM.hasDerivAt (x := z)).const_mul Complex.I).const_sub (zR : ℂ)
    have := h1.fun_inv (by rw [← hqd]; exact hq)
    rw [← hqd] at this
    simpa using this
  have hzd : HasDerivAt (fun s => textbookBeam k zR A x y s) ((Complex.I / q - Complex.I * (k / 2 * ((x : ℂ) ^ 2 + (y : ℂ) ^ 2)) / q ^ 2) * textbookBeam k zR A x y z) z := by
    unfold textbookBeam
    refine (((hqz.fun_mul (hqz.const_mul (-(k / 2 * ((x : ℂ) ^ 2 + (y : ℂ) ^ 2)))).cexp).const_mul (zR : ℂ)).const_mul A).congr_deriv ?_
    rw [← hqd]
    field_simp
    ring
  refine ⟨_, _, _, _, _, hx, (hlin x).mul (hx x), hy, (hlin y).mul (hy y), hzd, ?_⟩
  have hI : Complex.I * Complex.I = -1 := Complex.I_mul_I
  field_simp
  linear_combination (-(k * (2 * q - k * (x ^ 2 + y ^ 2)))) * textbookBeam k zR A x y z * hI

/-- amplitude and phase of the prefactor -/
theorem gouy (zR z : ℝ) (hz : 0 < zR) :
    (zR : ℂ) * ((zR : ℂ) - Complex.I * z)⁻¹ = ((1 / Real.sqrt (1 + (z / zR) ^ 2) : ℝ) : ℂ) * Complex.exp (Complex.I * (Real.arctan (z / zR) : ℝ)) := by
  have hs : 0 < 1 + (z / zR) ^ 2 := by positivity
  have hss := Real.mul_self_sqrt hs.le
  have hsp := Real.sqrt_pos.mpr hs
  have h1 : Complex.exp (Complex.I * (Real.arctan (z / zR) : ℝ)) = ⟨1 / Real.sqrt (1 + (z / zR) ^ 2), z / zR / Real.sqrt (1 + (z / zR) ^ 2)⟩ := by
    rw [mul_comm]
    apply Complex.ext
    · rw [Complex.exp_ofReal_mul_I_re, Real.cos_arctan]
    · rw [Complex.exp_ofReal_mul_I_im, Real.sin_arctan]
  rw [h1, ← div_eq_mul_inv, div_eq_iff (beam_q_ne hz z)]
  generalize Real.sqrt (1 + (z / zR) ^ 2) = s at *
  apply Complex.ext
  · simp
    field_simp
    field_simp at hss
    linear_combination hss
  · simp
    field_simp
    ring

/-- the field of the program: amplitude without the phase shift in the waist -/
theorem beam_envelope (l zR : ℝ) (A : ℂ) (hl : 0 < l) (hz : 0 < zR) :
    Envelope (2 * Real.pi / l) (fun t x y z => beamE l zR A t ⟨x, y, z⟩)
      (fun x y z => textbookBeam (2 * Real.pi / l) zR A x y z * Complex.exp (-(Complex.I * (Real.arctan (z / zR) : ℝ)))) := by
  intro t x y z
  have hpi := Real.pi_pos
  have hq := beam_q_ne hz z
  have hw := waist_pos (mul_pos hl hz)
  have hw2 : Real.sqrt (l * zR / Real.pi) ^ 2 = l * zR / Real.pi := Real.sq_sqrt (div_pos (mul_pos hl hz) hpi).le
  have hs : 0 < 1 + (z / zR) ^ 2 := by positivity
  have hss := Real.sq_sqrt hs.le
  have hsp := Real.sqrt_pos.mpr hs
  have hqi : ((zR : ℂ) - Complex.I * z)⁻¹ = ⟨zR / (zR ^ 2 + z ^ 2), z / (zR ^ 2 + z ^ 2)⟩ := by
    refine inv_eq_of_mul_eq_one_right ?_
    have hn : zR ^ 2 + z ^ 2 ≠ 0 := by positivity
    apply Complex.ext
    · simp
      field_simp
    · simp
      field_simp
      ring
  have hr : radius ⟨x, y, z⟩ * radius ⟨x, y, z⟩ = x ^ 2 + y ^ 2 := by
    unfold radius Vec.norm
    rw [Real.mul_self_sqrt (by nlinarith [mul_self_nonneg x, mul_self_nonneg y])]
    ring
  have hexp : (-((2 * Real.pi / l : ℝ) / 2 * ((x : ℂ) ^ 2 + (y : ℂ) ^ 2)) * ((zR : ℂ) - Complex.I * z)⁻¹) + Complex.I * ((2 * Real.pi / l * (SI.c * t - z) : ℝ) : ℂ) =
      ⟨-(radius ⟨x, y, z⟩ / modeSize (Real.sqrt (l * zR / Real.pi)) zR z) ^ 2, wavePhase l zR t ⟨x, y, z⟩⟩ := by
    have e1 : (-((2 * Real.pi / l : ℝ) / 2 * ((x : ℂ) ^ 2 + (y : ℂ) ^ 2))) = ((-(Real.pi / l * (x ^ 2 + y ^ 2)) : ℝ) : ℂ) := by push_cast; ring
    rw [hqi, e1]
    have hn : zR ^ 2 + z ^ 2 ≠ 0 := by positivity
    apply Complex.ext
    · unfold modeSize
      rw [div_pow, mul_pow, hw2, hss, sq (radius _), hr, Complex.add_re, Complex.re_ofReal_mul]
      have e2 : (Complex.I * ((2 * Real.pi / l * (SI.c * t - z) : ℝ) : ℂ)).re = 0 := by rw [mul_comm, Complex.re_ofReal_mul]; simp
      rw [e2]
      field_simp
      ring
    · have e2 : (Complex.I * ((2 * Real.pi / l * (SI.c * t - z) : ℝ) : ℂ)).im = 2 * Real.pi / l * (SI.c * t - z) := by rw [mul_comm, Complex.im_ofReal_mul]; simp
      unfold wavePhase
      rw [mul_assoc Real.pi, hr, Complex.add_im, Complex.im_ofReal_mul, e2, C100_constants.1]
      by_cases h0 : z = 0
      · simp [h0]
        ring
      · rw [if_neg h0]
        have : z + zR * zR / z = (zR ^ 2 + z ^ 2) / z := by field_simp; ring
        simp only [this]
        field_simp
        ring
  have e : textbookBeam (2 * Real.pi / l) zR A x y z * Complex.exp (-(Complex.I * (Real.arctan (z / zR) : ℝ))) * Complex.exp (Complex.I * ((2 * Real.pi / l * (SI.c * t - z) : ℝ) : ℂ)) =
      A * (((1 / Real.sqrt (1 + (z / zR) ^ 2) : ℝ) : ℂ) * Complex.exp ⟨-(radius ⟨x, y, z⟩ / modeSize (Real.sqrt (l * zR / Real.pi)) zR z) ^ 2, wavePhase l zR t ⟨x, y, z⟩⟩) := by
    unfold textbookBeam
    rw [← hexp, ← mul_assoc (zR : ℂ), gouy zR z hz, Complex.exp_neg, Complex.exp_add]
    have := Complex.exp_ne_zero (Complex.I * (Real.arctan (z / zR) : ℝ))
    field_simp
  show beamE l zR A t ⟨x, y, z⟩ = _
  rw [e, re_mul_exp]
  unfold beamE
  congr 1
  unfold modeProfile
  simp only
  congr 1
  unfold modeSize
  field_simp

/-- the amplitude of a wave is unique -/
theorem envelope_unique {k : ℝ} (hk : k ≠ 0) {E : ℝ → ℝ → ℝ → ℝ → ℝ} {u v : ℝ → ℝ → ℝ → ℂ} (hu : Envelope k E u) (hv : Envelope k E v) : u = v := by
  funext x y z
  have hc : SI.c ≠ 0 := by norm_num [SI.c]
  have h : ∀ θ : ℝ, (u x y z * Complex.exp (Complex.I * (θ : ℂ))).re = (v x y z * Complex.exp (Complex.I * (θ : ℂ))).re := by
    intro θ
    have e : k * (SI.c * ((θ / k + z) / SI.c) - z) = θ := by field_simp; ring
    have a := hu ((θ / k + z) / SI.c) x y z
    have b := hv ((θ / k + z) / SI.c) x y z
    rw [e] at a b
    rw [← a, b]
  have h0 := h 0
  have h1 := h (Real.pi / 2)
  simp only [Complex.ofReal_zero, mul_zero, Complex.exp_zero, mul_one] at h0
  rw [mul_comm Complex.I, show (((Real.pi / 2 : ℝ)) : ℂ) * Complex.I = (Real.pi : ℂ) / 2 * Complex.I by push_cast; ring, Complex.exp_pi_div_two_mul_I] at h1
  simp at h1
  exact Complex.ext h0 h1

/-- **C111 (partial).** The field of a Gaussian wave is that of a solution of the paraxial wave equation, except that the phase shift
`arctan(z/zR)` in the waist (Gouy phase) is missing: the amplitude multiplied by `exp(i arctan(z/zR))` is a solution. -/
theorem C111_paraxial_partial (l zR : ℝ) (A : ℂ) (hl : 0 < l) (hz : 0 < zR) :
    ∃ (F : ℝ → Vec → EMField) (u : ℝ → ℝ → ℝ → ℂ), (∀ t X, (GaussianWave.Setup l A zR).LocalField t X = .ok (F t X)) ∧
      Envelope (2 * Real.pi / l) (fun t x y z => (F t ⟨x, y, z⟩).E.x) u ∧
      Paraxial (2 * Real.pi / l) (fun x y z => u x y z * Complex.exp (Complex.I * (Real.arctan (z / zR) : ℝ))) := by
  refine ⟨_, _, wave_field l zR A (mul_pos hl hz), beam_envelope l zR A hl hz, ?_⟩
  have e : (fun x y z => textbookBeam (2 * Real.pi / l) zR A x y z * Complex.exp (-(Complex.I * (Real.arctan (z / zR) : ℝ))) * Complex.exp (Complex.I * (Real.arctan (z / zR) : ℝ))) =
      textbookBeam (2 * Real.pi / l) zR A := by
    funext x y z
    rw [mul_assoc, ← Complex.exp_add, neg_add_cancel, Complex.exp_zero, mul_one]
  rw [e]
  exact textbook_paraxial _ _ _ hz

/-- **C111.** No Gaussian wave obeys the paraxial wave equation: the equation fails on the axis in the waist. -/
theorem C111_never (l zR : ℝ) (A : ℂ) (hl : 0 < l) (hz : 0 < zR) (hA : A ≠ 0) (F : ℝ → Vec → EMField) (hF : ∀ t X, (GaussianWave.Setup l A zR).LocalField t X = .ok (F t X))
    (u : ℝ → ℝ → ℝ → ℂ) (hu : Envelope (2 * Real.pi / l) (fun t x y z => (F t ⟨x, y, z⟩).E.x) u) : ¬ Paraxial (2 * Real.pi / l) u := by
  have hk : 2 * Real.pi / l ≠ 0 := by have := Real.pi_pos; positivity
  have hE : (fun t x y z => (F t ⟨x, y, z⟩).E.x) = fun t x y z => beamE l zR A t ⟨x, y, z⟩ := by
    funext t x y z
    have := hF t ⟨x, y, z⟩
    rw [wave_field l zR A (mul_pos hl hz)] at this
    injection this with this
    rw [← this]
    rfl
  rw [hE] at hu
  have hb := beam_envelope l zR A hl hz
  have huv := envelope_unique hk hu hb
  intro hp
  obtain ⟨ux, uy, uxx, uyy, uz, h1, h2, h3, h4, h5, h6⟩ := hp 0 0 0
  obtain ⟨vx, vy, vxx, vyy, vz, g1, g2, g3, g4, g5, g6⟩ := textbook_paraxial (2 * Real.pi / l) zR A hz 0 0 0
  have hP : ∀ x y, u x y 0 = textbookBeam (2 * Real.pi / l) zR A x y 0 := by
    intro x y
    rw [huv]
    simp
  have hx : ux = vx := by
    funext ξ
    have := h1 ξ
    simp only [hP] at this
    exact this.unique (g1 ξ)
  have hy : uy = vy := by
    funext η
    have := h3 η
    simp only [hP] at this
    exact this.unique (g3 η)
  rw [hx] at h2
  rw [hy] at h4
  have hxx := h2.unique g2
  have hyy := h4.unique g4
  have hat : HasDerivAt (fun s : ℝ => Complex.exp (-(Complex.I * (Real.arctan (s / zR) : ℝ)))) (-(Complex.I / zR)) 0 := by
    have a : HasDerivAt (fun s : ℝ => Real.arctan (s / zR)) (1 / zR) 0 := by
      have := ((hasDerivAt_id (0 : ℝ)).div_const zR).arctan
      simpa using this
    have := ((a.ofReal_comp.const_mul Complex.I).fun_neg).cexp
    simpa [div_eq_mul_inv] using this
  have huz : HasDerivAt (fun s => u 0 0 s) (vz * 1 + A * -(Complex.I / zR)) 0 := by
    have e0 : textbookBeam (2 * Real.pi / l) zR A 0 0 0 = A := by
      unfold textbookBeam
      have : (zR : ℂ) ≠ 0 := by exact_mod_cast hz.ne'
      simp [this]
    have := g5.fun_mul hat
    rw [e0] at this
    rw [huv]
    simpa using this
  have huz := h5.unique huz
  rw [hxx, hyy, g6, huz] at h6
  have hzc : (zR : ℂ) ≠ 0 := by exact_mod_cast hz.ne'
  have hkc : ((2 * Real.pi / l : ℝ) : ℂ) ≠ 0 := by exact_mod_cast hk
  have : 2 * Complex.I * ((2 * Real.pi / l : ℝ) : ℂ) * (A * -(Complex.I / zR)) = 0 := by linear_combination -h6
  have hI := Complex.I_ne_zero
  simp [hI, hA] at this
  rcases this with h | h
  · exact hl.ne' h
  · exact hz.ne' h

/-- **C111, the full statement is false**: Gaussian waves do not obey the paraxial wave equation. -/
theorem C111_full_statement_false : ¬ ∀ (l zR : ℝ) (A : ℂ), 0 < l → 0 < zR →
    ∃ (F : ℝ → Vec → EMField) (u : ℝ → ℝ → ℝ → ℂ), (∀ t X, (GaussianWave.Setup l A zR).LocalField t X = .ok (F t X)) ∧
      Envelope (2 * Real.pi / l) (fun t x y z => (F t ⟨x, y, z⟩).E.x) u ∧ Paraxial (2 * Real.pi / l) u := by
  intro h
  obtain ⟨F, u, h1, h2, h3⟩ := h 1 1 1 one_pos one_pos
  exact C111_never 1 1 1 one_pos one_pos one_ne_zero F h1 u h2 h3

/-- non-vacuity of C111: the paraxial equation has solutions with the properties expected of a Gaussian wave, and the wave of the program has an amplitude -/
example : ∃ (F : ℝ → Vec → EMField) (u : ℝ → ℝ → ℝ → ℂ), (∀ t X, (GaussianWave.Setup 1e-6 1 0.1).LocalField t X = .ok (F t X)) ∧
    Envelope (2 * Real.pi / 1e-6) (fun t x y z => (F t ⟨x, y, z⟩).E.x) u ∧ ¬ Paraxial (2 * Real.pi / 1e-6) u := by
  obtain ⟨F, u, h1, h2, -⟩ := C111_paraxial_partial 1e-6 0.1 1 (by norm_num) (by norm_num)
  exact ⟨F, u, h1, h2, C111_never 1e-6 0.1 1 (by norm_num) (by norm_num) one_ne_zero F h1 u h2⟩

/-- non-vacuity of C110: a wave of 1 MV/m with a wavelength of one micrometre, focussed at z = 2 m -/
example : ∃ F : ℝ → Vec → EMField, (∀ t X, (LocalizedField (GaussianWave.Setup 1e-6 1e6 0.1).LocalField 0 ⟨0, 0, 2⟩).field t X = .ok (F t X)) ∧
    (∀ t X, (F t X).E.norm ≤ 1e6) ∧ ∃ t, (F t ⟨0, 0, 2⟩).E.norm = 1e6 := by
  obtain ⟨F, h1, h2, h3, -⟩ := C110_reported 1e-6 0.1 1e6 (by norm_num) (by norm_num) 0 ⟨0, 0, 2⟩
  have e : (GaussianWave.Setup 1e-6 1e6 0.1).report.E0 = 1e6 := by
    show Real.sqrt (Complex.normSq 1e6) = 1e6
    have : (1e6 : ℂ) = ((1e6 : ℝ) : ℂ) := by norm_num
    rw [this, Complex.normSq_ofReal, Real.sqrt_mul_self (by norm_num)]
  rw [e] at h2 h3
  exact ⟨F, h1, h2, h3⟩

end Teufel
