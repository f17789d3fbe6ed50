import Verif.Model.Elements
import Verif.Spec.Maxwell
import Verif.Lemmas.Vec
import Mathlib.Analysis.SpecialFunctions.Trigonometric.DerivHyp
import Mathlib.Analysis.SpecialFunctions.Trigonometric.Deriv
import Mathlib.MeasureTheory.Integral.IntervalIntegral.Basic
import Mathlib.Analysis.Calculus.Deriv.Add
import Mathlib.Analysis.Calculus.Deriv.Mul

/-! # C26, C27: undulators -/

namespace Teufel
open Vec

/-- specification: linear rise from 0 at `a` to 1 at `a+l` -/
noncomputable def riseTo (a l z : ℝ) : ℝ := max 0 (min 1 ((z - a) / l))

/-- specification: trapezoidal envelope of an undulator of `N` periods -/
noncomputable def envelope (N : Int) (l z : ℝ) : ℝ :=
  riseTo (-((N : ℝ) + 1) * l / 2) l z * riseTo (-((N : ℝ) + 1) * l / 2) l (-z)

/-- the ramps of the code implement the trapezoidal envelope -/
theorem ramp_envelope (N : Int) (hN : 0 ≤ N) (l : ℝ) (hl : 0 < l) (z : ℝ) (B : Vec) :
    (if -((N : ℝ) + 1) * l / 2 ≤ z ∧ z < ((N : ℝ) + 1) * l / 2 then
      rampField z (-((N : ℝ) + 1) * l / 2) (((N : ℝ) + 1) * l / 2) l B else 0) = B * envelope N l z := by
  have hN' : (0 : ℝ) ≤ N := by exact_mod_cast hN
  obtain ⟨b, hb⟩ : ∃ b, b = ((N : ℝ) + 1) * l / 2 := ⟨_, rfl⟩
  have hb0 : 0 < b := by rw [hb]; positivity
  have hneg : -((N : ℝ) + 1) * l / 2 = -b := by rw [hb]; ring
  simp only [envelope, riseTo, hneg, ← hb]
  by_cases h : -b ≤ z ∧ z < b
  · rw [if_pos h]
    obtain ⟨h1, h2⟩ := h
    have p1 : 0 ≤ (z - -b) / l := div_nonneg (by linarith) hl.le
    have p2 : 0 ≤ (-z - -b) / l := div_nonneg (by linarith) hl.le
    have q : (-z - -b) / l = (b - z) / l := by congr 1; ring
    rw [q] at p2 ⊢
    rw [max_eq_right (le_min zero_le_one p1), max_eq_right (le_min zero_le_one p2)]
    simp only [rampField]
    by_cases c1 : z < -b + l
    · rw [if_pos c1, min_eq_right (by rw [div_le_one hl]; linarith)]
      by_cases c2 : b - l ≤ z
      · rw [if_pos c2, min_eq_right (by rw [div_le_one hl]; linarith), mul_assoc']
      · rw [if_neg c2, min_eq_left (by rw [le_div_iff₀ hl]; linarith), mul_one]
    · rw [if_neg c1, min_eq_left (by rw [le_div_iff₀ hl]; linarith), one_mul]
      by_cases c2 : b - l ≤ z
      · rw [if_pos c2, min_eq_right (by rw [div_le_one hl]; linarith)]
      · rw [if_neg c2, min_eq_left (by rw [le_div_iff₀ hl]; linarith), mul_one']
  · rw [if_neg h]
    have hz : max 0 (min 1 ((z - -b) / l)) * max 0 (min 1 ((-z - -b) / l)) = 0 := by
      rcases not_and_or.mp h with h | h
      · rw [max_eq_left (le_trans (min_le_right _ _) (div_nonpos_of_nonpos_of_nonneg (by linarith) hl.le)), zero_mul]
      · rw [mul_comm, max_eq_left (le_trans (min_le_right _ _) (div_nonpos_of_nonpos_of_nonneg (by linarith) hl.le)), zero_mul]
    rw [hz]; ext <;> simp

theorem envelope_nonneg (N : Int) (l z : ℝ) : 0 ≤ envelope N l z := mul_nonneg (le_max_left _ _) (le_max_left _ _)

theorem envelope_le_one (N : Int) (l z : ℝ) : envelope N l z ≤ 1 :=
  mul_le_one₀ (max_le zero_le_one (min_le_left _ _)) (le_max_left _ _) (max_le zero_le_one (min_le_left _ _))

theorem envelope_continuous (N : Int) (l : ℝ) : Continuous (envelope N l) := by
  unfold envelope riseTo; fun_prop

theorem envelope_symm (N : Int) (l z : ℝ) : envelope N l (-z) = envelope N l z := by
  simp only [envelope, neg_neg, mul_comm]

/-- the envelope is one on the flat top: `N-1` periods -/
theorem envelope_flat (N : Int) (l : ℝ) (hl : 0 < l) (z : ℝ) (h : |z| ≤ ((N : ℝ) - 1) * l / 2) : envelope N l z = 1 := by
  rw [abs_le] at h
  have r : ∀ y, -(((N : ℝ) - 1) * l / 2) ≤ y → riseTo (-((N : ℝ) + 1) * l / 2) l y = 1 := by
    intro y hy
    simp only [riseTo]
    rw [min_eq_left (by rw [le_div_iff₀ hl]; nlinarith), max_eq_right zero_le_one]
  simp only [envelope]
  rw [r z h.1, r (-z) (by linarith [h.2]), one_mul]

/-- the envelope vanishes outside `N+1` periods -/
theorem envelope_outside (N : Int) (l : ℝ) (hl : 0 < l) (z : ℝ) (h : ((N : ℝ) + 1) * l / 2 ≤ |z|) : envelope N l z = 0 := by
  have r : ∀ y, y ≤ -((N : ℝ) + 1) * l / 2 → riseTo (-((N : ℝ) + 1) * l / 2) l y = 0 := by
    intro y hy
    simp only [riseTo]
    exact max_eq_left (le_trans (min_le_right _ _) (div_nonpos_of_nonpos_of_nonneg (by linarith) hl.le))
  simp only [envelope]
  rcases le_abs.mp h with h | h
  · rw [r (-z) (by linarith), mul_zero]
  · rw [r z (by linarith), zero_mul]

/-- the magnetic field of a planar undulator set up with peak field `B`, period `l` and `N` periods -/
noncomputable def planarB (B l : ℝ) (N : Int) (X : Vec) : Vec :=
  ⟨0, B * Real.sin (2 * Real.pi / l * X.z) * Real.cosh (2 * Real.pi / l * X.y) * envelope N l X.z,
    B * Real.cos (2 * Real.pi / l * X.z) * Real.sinh (2 * Real.pi / l * X.y) * envelope N l X.z⟩

theorem planar_field (B l : ℝ) (N : Int) (hN : 0 ≤ N) (hl : 0 < l) (t : ℝ) (X : Vec) :
    (PlanarUndulator.Setup B l N).LocalField t X = .ok ⟨0, planarB B l N X⟩ := by
  have h := ramp_envelope N hN l hl X.z ⟨0, B * Real.sin (2 * Real.pi / l * X.z) * Real.cosh (2 * Real.pi / l * X.y),
    B * Real.cos (2 * Real.pi / l * X.z) * Real.sinh (2 * Real.pi / l * X.y)⟩
  have e : (⟨0, B * Real.sin (2 * Real.pi / l * X.z) * Real.cosh (2 * Real.pi / l * X.y),
    B * Real.cos (2 * Real.pi / l * X.z) * Real.sinh (2 * Real.pi / l * X.y)⟩ : Vec) * envelope N l X.z = planarB B l N X := by
    ext <;> simp [planarB]
  exact congrArg (fun b => Except.ok (EMField.mk 0 b)) (h.trans e)

/-- C26: outside its length of `N+1` periods (entrance and exit ramps extend half a period beyond `N` periods at each
side) the field of a planar undulator is exactly zero; there never is an electric field. -/
theorem C26_support (B l : ℝ) (N : Int) (hN : 0 ≤ N) (hl : 0 < l) (t : ℝ) (X : Vec) :
    ∃ F, (PlanarUndulator.Setup B l N).LocalField t X = .ok F ∧ F.E = 0 ∧
      (((N : ℝ) + 1) * l / 2 ≤ |X.z| → F.B = 0) := by
  refine ⟨_, planar_field B l N hN hl t X, rfl, ?_⟩
  intro h
  simp only [planarB, envelope_outside N l hl X.z h]
  ext <;> simp

/-- C26: the field is a continuous function of position everywhere, including both ends and the ramp limits. -/
theorem C26_continuous (B l : ℝ) (N : Int) (hN : 0 ≤ N) (hl : 0 < l) (t : ℝ) : ∃ F : ℝ × ℝ × ℝ → EMField,
    (∀ x y z, (PlanarUndulator.Setup B l N).LocalField t ⟨x, y, z⟩ = .ok (F (x, y, z))) ∧
    Continuous (fun q => (F q).B.x) ∧ Continuous (fun q => (F q).B.y) ∧ Continuous (fun q => (F q).B.z) := by
  have he := envelope_continuous N l
  refine ⟨fun q => ⟨0, planarB B l N ⟨q.1, q.2.1, q.2.2⟩⟩, fun x y z => planar_field B l N hN hl t _, ?_, ?_, ?_⟩
  · simp only [planarB]; exact continuous_const
  · simp only [planarB]; fun_prop
  · simp only [planarB]; fun_prop

/-- C26: the magnitude of the field never exceeds peak field times cosh of the scaled vertical offset; on axis it never
exceeds the peak field. -/
theorem C26_bounded (B l : ℝ) (N : Int) (hN : 0 ≤ N) (hl : 0 < l) (t : ℝ) (X : Vec) :
    ∃ F, (PlanarUndulator.Setup B l N).LocalField t X = .ok F ∧
      F.B.norm ≤ |B| * Real.cosh (2 * Real.pi / l * X.y) ∧ (X.y = 0 → F.B.norm ≤ |B|) := by
  have key : (planarB B l N X).norm ≤ |B| * Real.cosh (2 * Real.pi / l * X.y) := by
    rw [norm_def]
    apply Real.sqrt_le_iff.mpr
    have hc := Real.cosh_pos (2 * Real.pi / l * X.y)
    refine ⟨by positivity, ?_⟩
    simp only [abs2nd, planarB]
    have h1 := Real.sin_sq_add_cos_sq (2 * Real.pi / l * X.z)
    have h2 := Real.cosh_sq (2 * Real.pi / l * X.y)
    have e0 := envelope_nonneg N l X.z
    have e1 := envelope_le_one N l X.z
    have e2 : (envelope N l X.z) ^ 2 ≤ 1 := pow_le_one₀ e0 e1
    rw [mul_pow, sq_abs]
    generalize Real.sin (2 * Real.pi / l * X.z) = s at *
    generalize Real.cos (2 * Real.pi / l * X.z) = c at *
    generalize Real.cosh (2 * Real.pi / l * X.y) = C at *
    generalize Real.sinh (2 * Real.pi / l * X.y) = S at *
    generalize envelope N l X.z = e at *
    have i1 : s ^ 2 * C ^ 2 + c ^ 2 * S ^ 2 ≤ C ^ 2 := by
      have : s ^ 2 * C ^ 2 + c ^ 2 * S ^ 2 = C ^ 2 - c ^ 2 := by
        have hs : s ^ 2 = 1 - c ^ 2 := by linarith
        rw [hs, h2]; ring
      rw [this]; nlinarith [sq_nonneg c]
    have i0 : 0 ≤ s ^ 2 * C ^ 2 + c ^ 2 * S ^ 2 := by positivity
    calc 0 * 0 + B * s * C * e * (B * s * C * e) + B * c * S * e * (B * c * S * e)
        = B ^ 2 * ((s ^ 2 * C ^ 2 + c ^ 2 * S ^ 2) * e ^ 2) := by ring
      _ ≤ B ^ 2 * (C ^ 2 * 1) := by
          apply mul_le_mul_of_nonneg_left _ (sq_nonneg B)
          exact mul_le_mul i1 e2 (sq_nonneg e) (by positivity)
      _ = B ^ 2 * C ^ 2 := by ring
  refine ⟨_, planar_field B l N hN hl t X, key, ?_⟩
  intro hy
  have : (planarB B l N X).norm ≤ |B| * Real.cosh (2 * Real.pi / l * X.y) := key
  rw [hy, mul_zero, Real.cosh_zero, mul_one] at this
  exact this

theorem flat_near (N : Int) (l : ℝ) (hl : 0 < l) (z : ℝ) (h : |z| < ((N : ℝ) - 1) * l / 2) :
    ∀ᶠ s in nhds z, envelope N l s = 1 := by
  have ho : IsOpen {s : ℝ | |s| < ((N : ℝ) - 1) * l / 2} := isOpen_lt continuous_abs continuous_const
  filter_upwards [ho.mem_nhds h] with s hs
  exact envelope_flat N l hl s (le_of_lt hs)

section
variable (k x : ℝ)
theorem hd_sin : HasDerivAt (fun s => Real.sin (k * s)) (Real.cos (k * x) * k) x := by
  have h := (Real.hasDerivAt_sin (k * x)).comp x ((hasDerivAt_id x).const_mul k)
  exact h.congr_deriv (by simp)
theorem hd_cos : HasDerivAt (fun s => Real.cos (k * s)) (-Real.sin (k * x) * k) x := by
  have h := (Real.hasDerivAt_cos (k * x)).comp x ((hasDerivAt_id x).const_mul k)
  exact h.congr_deriv (by simp)
theorem hd_sinh : HasDerivAt (fun s => Real.sinh (k * s)) (Real.cosh (k * x) * k) x := by
  have h := (Real.hasDerivAt_sinh (k * x)).comp x ((hasDerivAt_id x).const_mul k)
  exact h.congr_deriv (by simp)
theorem hd_cosh : HasDerivAt (fun s => Real.cosh (k * s)) (Real.sinh (k * x) * k) x := by
  have h := (Real.hasDerivAt_cosh (k * x)).comp x ((hasDerivAt_id x).const_mul k)
  exact h.congr_deriv (by simp)
end

/-- C26: between the matching periods (the inner `N-1` periods) the field has neither divergence nor curl. -/
theorem C26_maxwell (B l : ℝ) (N : Int) (hN : 0 ≤ N) (hl : 0 < l) (t : ℝ) : ∃ F : Vec → EMField,
    (∀ Y, (PlanarUndulator.Setup B l N).LocalField t Y = .ok (F Y)) ∧
    ∀ X : Vec, |X.z| < ((N : ℝ) - 1) * l / 2 → StaticMaxwell (fun Y => (F Y).B) X := by
  refine ⟨_, fun Y => planar_field B l N hN hl t Y, ?_⟩
  intro X hX
  have hf := flat_near N l hl X.z hX
  have hX1 := envelope_flat N l hl X.z hX.le
  obtain ⟨k, hk⟩ : ∃ k, k = 2 * Real.pi / l := ⟨_, rfl⟩
  refine ⟨0, ⟨0, B * Real.sin (k * X.z) * (Real.sinh (k * X.y) * k), B * (Real.cos (k * X.z) * k) * Real.cosh (k * X.y)⟩,
    ⟨0, B * Real.cos (k * X.z) * (Real.cosh (k * X.y) * k), B * (-Real.sin (k * X.z) * k) * Real.sinh (k * X.y)⟩, ?_, ?_, ?_, ?_⟩
  · simp only [planarB]
    exact ⟨hasDerivAt_const _ _, hasDerivAt_const _ _, hasDerivAt_const _ _⟩
  · simp only [planarB, ← hk]
    refine ⟨hasDerivAt_const _ (B * Real.sin (k * X.z) * Real.cosh (k * X.y) * envelope N l X.z), ?_, ?_⟩
    · simp only [hX1, mul_one]
      have h1 := hd_cosh k X.y
      exact h1.const_mul _
    · have h1 := hd_sin k X.z
      refine HasDerivAt.congr_of_eventuallyEq ((h1.const_mul B).mul_const (Real.cosh (k * X.y))) ?_
      filter_upwards [hf] with s hs
      rw [hs, mul_one]
  · simp only [planarB, ← hk]
    refine ⟨hasDerivAt_const _ (B * Real.cos (k * X.z) * Real.sinh (k * X.y) * envelope N l X.z), ?_, ?_⟩
    · simp only [hX1, mul_one]
      have h1 := hd_sinh k X.y
      exact h1.const_mul _
    · have h1 := hd_cos k X.z
      refine HasDerivAt.congr_of_eventuallyEq ((h1.const_mul B).mul_const (Real.sinh (k * X.y))) ?_
      filter_upwards [hf] with s hs
      rw [hs, mul_one]
  · refine ⟨?_, ?_, ?_, ?_⟩ <;> simp <;> ring

/-- C26: the main component is odd along the axis for every offset, so its integral along the axis vanishes: the
matching ramps leave no net deflection. -/
theorem C26_no_net_kick (B l : ℝ) (N : Int) (hN : 0 ≤ N) (hl : 0 < l) (t x y : ℝ) : ∃ F : Vec → EMField,
    (∀ Y, (PlanarUndulator.Setup B l N).LocalField t Y = .ok (F Y)) ∧
    (∀ z, (F ⟨x, y, -z⟩).B.y = -(F ⟨x, y, z⟩).B.y) ∧ ∀ L : ℝ, ∫ z in (-L)..L, (F ⟨x, y, z⟩).B.y = 0 := by
  refine ⟨_, fun Y => planar_field B l N hN hl t Y, ?_, ?_⟩
  · intro z
    simp only [planarB, envelope_symm, mul_neg, Real.sin_neg]; ring
  · intro L
    have h := intervalIntegral.integral_comp_neg (a := -L) (b := L) (fun z => (planarB B l N ⟨x, y, z⟩).y)
    simp only [neg_neg] at h
    have h2 : (fun z : ℝ => (planarB B l N ⟨x, y, -z⟩).y) = fun z => -(planarB B l N ⟨x, y, z⟩).y := by
      funext z; simp only [planarB, envelope_symm, mul_neg, Real.sin_neg]; ring
    rw [h2, intervalIntegral.integral_neg] at h
    simp only
    linarith

/-- C26, non-vacuity -/
example : ∃ (l : ℝ) (N : Int) (X : Vec), 0 < l ∧ 0 ≤ N ∧ |X.z| < ((N : ℝ) - 1) * l / 2 :=
  ⟨1, 3, 0, by norm_num, by norm_num, by norm_num⟩

theorem tgu_field (B g m l : ℝ) (N : Int) (hN : 0 ≤ N) (hl : 0 < l) (t : ℝ) (X : Vec) :
    (TransverseGradientUndulator.Setup B g m l N).LocalField t X
      = .ok ⟨0, (TransverseGradientUndulator.Setup B g m l N).core X * envelope N l X.z⟩ := by
  simp only [TransverseGradientUndulator.LocalField]
  have e1 : (TransverseGradientUndulator.Setup B g m l N).NPeriods = N := rfl
  have e2 : (TransverseGradientUndulator.Setup B g m l N).LambdaU = l := rfl
  rw [e1, e2, ramp_envelope N hN l hl]

/-- C27: without gradient and modulation the field is that of the planar undulator. -/
theorem C27_planar_limit (B l : ℝ) (N : Int) (t : ℝ) (X : Vec) :
    (TransverseGradientUndulator.Setup B 0 0 l N).LocalField t X = (PlanarUndulator.Setup B l N).LocalField t X := by
  simp only [TransverseGradientUndulator.LocalField, PlanarUndulator.LocalField, TransverseGradientUndulator.core,
    TransverseGradientUndulator.Setup, PlanarUndulator.Setup]
  simp

/-- C27: support and absence of an electric field -/
theorem C27_support (B g m l : ℝ) (N : Int) (hN : 0 ≤ N) (hl : 0 < l) (t : ℝ) (X : Vec) :
    ∃ F, (TransverseGradientUndulator.Setup B g m l N).LocalField t X = .ok F ∧ F.E = 0 ∧
      (((N : ℝ) + 1) * l / 2 ≤ |X.z| → F.B = 0) := by
  refine ⟨_, tgu_field B g m l N hN hl t X, rfl, ?_⟩
  intro h
  simp only [envelope_outside N l hl X.z h]
  ext <;> simp

/-- C27 (partial): without modulation the field has neither divergence nor curl between the matching periods, for
every gradient.  Missing: a non-zero modulation, see the theorem below. -/
theorem C27_maxwell_partial (B g l : ℝ) (N : Int) (hN : 0 ≤ N) (hl : 0 < l) (t : ℝ) : ∃ F : Vec → EMField,
    (∀ Y, (TransverseGradientUndulator.Setup B g 0 l N).LocalField t Y = .ok (F Y)) ∧
    ∀ X : Vec, |X.z| < ((N : ℝ) - 1) * l / 2 → StaticMaxwell (fun Y => (F Y).B) X := by
  refine ⟨_, fun Y => tgu_field B g 0 l N hN hl t Y, ?_⟩
  intro X hX
  have hf := flat_near N l hl X.z hX
  have hX1 := envelope_flat N l hl X.z hX.le
  obtain ⟨k, hk⟩ : ∃ k, k = 2 * Pi / l := ⟨_, rfl⟩
  have hk0 : 0 < k := by rw [hk]; exact div_pos (mul_pos two_pos Pi_pos) hl
  obtain ⟨q, hq⟩ : ∃ q, q = Real.sqrt (k * k + g * g) := ⟨_, rfl⟩
  have hq0 : 0 < q := by rw [hq]; apply Real.sqrt_pos.mpr; nlinarith [sq_nonneg g]
  have hqq : q * q = k * k + g * g := by rw [hq]; exact Real.mul_self_sqrt (by nlinarith [sq_nonneg g, sq_nonneg k])
  have core : ∀ Y : Vec, (TransverseGradientUndulator.Setup B g 0 l N).core Y =
      ⟨B * g / q * Real.cos (g * Y.x) * Real.sinh (q * Y.y) * Real.sin (k * Y.z),
       B * Real.sin (k * Y.z) * Real.cosh (k * Y.y) + B * Real.sin (g * Y.x) * Real.cosh (q * Y.y) * Real.sin (k * Y.z),
       B * Real.cos (k * Y.z) * Real.sinh (k * Y.y) + B * k / q * Real.sin (g * Y.x) * Real.sinh (q * Y.y) * Real.cos (k * Y.z)⟩ := by
    intro Y
    simp only [TransverseGradientUndulator.core, TransverseGradientUndulator.Setup, ← hk, ← hq]
    ext <;> simp
  simp only [core]
  refine ⟨⟨B * g / q * (-Real.sin (g * X.x) * g) * Real.sinh (q * X.y) * Real.sin (k * X.z),
      B * g / q * Real.cos (g * X.x) * (Real.cosh (q * X.y) * q) * Real.sin (k * X.z),
      B * g / q * Real.cos (g * X.x) * Real.sinh (q * X.y) * (Real.cos (k * X.z) * k)⟩,
    ⟨B * (Real.cos (g * X.x) * g) * Real.cosh (q * X.y) * Real.sin (k * X.z),
      B * Real.sin (k * X.z) * (Real.sinh (k * X.y) * k) + B * Real.sin (g * X.x) * (Real.sinh (q * X.y) * q) * Real.sin (k * X.z),
      B * (Real.cos (k * X.z) * k) * Real.cosh (k * X.y) + B * Real.sin (g * X.x) * Real.cosh (q * X.y) * (Real.cos (k * X.z) * k)⟩,
    ⟨B * k / q * (Real.cos (g * X.x) * g) * Real.sinh (q * X.y) * Real.cos (k * X.z),
      B * Real.cos (k * X.z) * (Real.cosh (k * X.y) * k) + B * k / q * Real.sin (g * X.x) * (Real.cosh (q * X.y) * q) * Real.cos (k * X.z),
      B * (-Real.sin (k * X.z) * k) * Real.sinh (k * X.y) + B * k / q * Real.sin (g * X.x) * Real.sinh (q * X.y) * (-Real.sin (k * X.z) * k)⟩,
    ⟨?_, ?_, ?_⟩, ⟨?_, ?_, ?_⟩, ⟨?_, ?_, ?_⟩, ?_, ?_, ?_, ?_⟩
  · simp only [mul_x, hX1, mul_one]
    exact (((hd_cos g X.x).const_mul (B * g / q)).mul_const _).mul_const _
  · simp only [mul_x, hX1, mul_one]
    exact ((hd_sinh q X.y).const_mul (B * g / q * Real.cos (g * X.x))).mul_const _
  · refine HasDerivAt.congr_of_eventuallyEq ((hd_sin k X.z).const_mul (B * g / q * Real.cos (g * X.x) * Real.sinh (q * X.y))) ?_
    filter_upwards [hf] with s hs
    simp only [mul_x, hs, mul_one]
  · simp only [mul_y, hX1, mul_one]
    have h := (((hd_sin g X.x).const_mul B).mul_const (Real.cosh (q * X.y))).mul_const (Real.sin (k * X.z))
    exact h.const_add _
  · simp only [mul_y, hX1, mul_one]
    exact ((hd_cosh k X.y).const_mul _).add (((hd_cosh q X.y).const_mul (B * Real.sin (g * X.x))).mul_const _)
  · have h := (((hd_sin k X.z).const_mul B).mul_const (Real.cosh (k * X.y))).add ((hd_sin k X.z).const_mul (B * Real.sin (g * X.x) * Real.cosh (q * X.y)))
    refine HasDerivAt.congr_of_eventuallyEq h ?_
    filter_upwards [hf] with s hs
    simp only [mul_y, hs, mul_one, Pi.add_apply]
  · simp only [mul_z, hX1, mul_one]
    have h := (((hd_sin g X.x).const_mul (B * k / q)).mul_const (Real.sinh (q * X.y))).mul_const (Real.cos (k * X.z))
    exact h.const_add _
  · simp only [mul_z, hX1, mul_one]
    exact ((hd_sinh k X.y).const_mul _).add (((hd_sinh q X.y).const_mul (B * k / q * Real.sin (g * X.x))).mul_const _)
  · have h := (((hd_cos k X.z).const_mul B).mul_const (Real.sinh (k * X.y))).add ((hd_cos k X.z).const_mul (B * k / q * Real.sin (g * X.x) * Real.sinh (q * X.y)))
    refine HasDerivAt.congr_of_eventuallyEq h ?_
    filter_upwards [hf] with s hs
    simp only [mul_z, hs, mul_one, Pi.add_apply]
  · simp only
    have : q ≠ 0 := hq0.ne'
    field_simp
    linear_combination (B * Real.sin (k * X.z) * Real.sinh (q * X.y) * Real.sin (g * X.x)) * hqq
  · simp only
    have : q ≠ 0 := hq0.ne'
    field_simp
    ring
  · simp only
    have : q ≠ 0 := hq0.ne'
    field_simp
    ring
  · simp only
    have : q ≠ 0 := hq0.ne'
    field_simp
    ring

/-- C27: with modulation the documented Maxwell property does not hold. -/
theorem C27_maxwell_full_statement_false :
    ¬ ∀ (B g m l : ℝ) (N : Int), 0 ≤ N → 0 < l → ∀ F : Vec → EMField,
      (∀ Y, (TransverseGradientUndulator.Setup B g m l N).LocalField 0 Y = .ok (F Y)) →
      ∀ X : Vec, |X.z| < ((N : ℝ) - 1) * l / 2 → StaticMaxwell (fun Y => (F Y).B) X := by
  intro h
  have hpi := Real.pi_pos
  have hX : |(⟨0, 1, 0⟩ : Vec).z| < (((3 : Int) : ℝ) - 1) * (2 * Real.pi) / 2 := by simp; norm_num; linarith
  obtain ⟨gx, gy, gz, h1, h2, h3, hd, -⟩ := h 1 0 1 (2 * Real.pi) 3 (by norm_num) (by positivity) _
    (fun Y => tgu_field 1 0 1 (2 * Real.pi) 3 (by norm_num) (by positivity) 0 Y) ⟨0, 1, 0⟩ hX
  have hf := flat_near 3 (2 * Real.pi) (by positivity) (⟨0, 1, 0⟩ : Vec).z hX
  have hX1 := envelope_flat 3 (2 * Real.pi) (by positivity) (⟨0, 1, 0⟩ : Vec).z hX.le
  have core : ∀ Y : Vec, (TransverseGradientUndulator.Setup 1 0 1 (2 * Real.pi) 3).core Y =
      ⟨0, (1 + Real.sin Y.z) * Real.sin Y.z * Real.cosh Y.y, (1 + Real.sin Y.z) * Real.cos Y.z * Real.sinh Y.y⟩ := by
    intro Y
    have : 2 * Pi / (2 * Real.pi) = 1 := by unfold Pi; field_simp
    simp only [TransverseGradientUndulator.core, TransverseGradientUndulator.Setup, this]
    ext <;> simp
  simp only [core] at h1 h2 h3
  have a : gx.x = 0 := by
    have := h1.1
    simp only [mul_x, zero_mul] at this
    exact this.unique (hasDerivAt_const _ _)
  have b : gy.y = 0 := by
    have := h2.2.1
    simp only [mul_y, Real.sin_zero, mul_zero, zero_mul] at this
    exact this.unique (hasDerivAt_const _ _)
  have c : gz.z = Real.sinh 1 := by
    have h' := h3.2.2
    have hs : HasDerivAt (fun s => Real.sin s) 1 0 := by simpa using Real.hasDerivAt_sin 0
    have hc : HasDerivAt (fun s => Real.cos s) 0 0 := by simpa using Real.hasDerivAt_cos 0
    have hm := ((hs.const_add 1).mul hc).mul_const (Real.sinh 1)
    have hm' : HasDerivAt (fun s : ℝ => (1 + Real.sin s) * Real.cos s * Real.sinh 1 * envelope 3 (2 * Real.pi) s) (Real.sinh 1) 0 := by
      refine HasDerivAt.congr_of_eventuallyEq (hm.congr_deriv (by simp)) ?_
      filter_upwards [hf] with s hs
      rw [hs, mul_one]; rfl
    exact h'.unique hm'
  rw [a, b, c] at hd
  have : 0 < Real.sinh 1 := Real.sinh_pos_iff.mpr one_pos
  linarith

end Teufel
