import Verif.Spec.Undulator
import Verif.Props.Undulators
import Verif.Lemmas.Converge
import Mathlib.Analysis.Calculus.InverseFunctionTheorem.Deriv
import Mathlib.MeasureTheory.Integral.IntervalIntegral.FundThmCalculus
import Mathlib.Topology.Order.MonotoneContinuity

/-! # The field of a planar undulator and the motion in it -/

namespace Teufel
open Vec

namespace Und

theorem comps_le (v : Vec) : |v.x| ≤ v.norm ∧ |v.y| ≤ v.norm ∧ |v.z| ≤ v.norm := by
  rw [norm_def]
  unfold abs2nd
  refine ⟨Real.abs_le_sqrt ?_, Real.abs_le_sqrt ?_, Real.abs_le_sqrt ?_⟩ <;> nlinarith [sq_nonneg v.x, sq_nonneg v.y, sq_nonneg v.z]

theorem abs_norm_sub (v w : Vec) : |v.norm - w.norm| ≤ (v - w).norm := by
  rw [abs_le]
  have h1 := Vec.norm_add_le (v - w) w
  have h2 := Vec.norm_add_le (w - v) v
  rw [sub_add_cancel] at h1 h2
  rw [← Vec.norm_neg (w - v), neg_sub] at h2
  constructor <;> linarith

/-- zero up to `a`, then rising with slope one -/
noncomputable def hinge (a z : ℝ) : ℝ := max 0 (z - a)

theorem hinge_le {a z : ℝ} (h : z ≤ a) : hinge a z = 0 := max_eq_left (by linarith)
theorem hinge_ge {a z : ℝ} (h : a ≤ z) : hinge a z = z - a := max_eq_right (by linarith)

theorem hinge_lip (a y z : ℝ) : |hinge a y - hinge a z| ≤ |y - z| := by
  unfold hinge
  have := abs_max_sub_max_le_abs (y - a) (z - a) 0
  rw [max_comm 0, max_comm 0]
  refine this.trans (le_of_eq ?_)
  congr 1
  ring

/-- the trapezoid consists of four hinges -/
theorem envelope_hinges {N : ℤ} (hN : 1 ≤ N) {l : ℝ} (hl : 0 < l) (z : ℝ) :
    envelope N l z = (hinge (-(((N : ℝ) + 1) * l / 2)) z - hinge (-(((N : ℝ) - 1) * l / 2)) z - hinge (((N : ℝ) - 1) * l / 2) z + hinge (((N : ℝ) + 1) * l / 2) z) / l := by
  have hN' : (1 : ℝ) ≤ N := by exact_mod_cast hN
  obtain ⟨b, hb⟩ : ∃ b, b = ((N : ℝ) + 1) * l / 2 := ⟨_, rfl⟩
  obtain ⟨d, hd⟩ : ∃ d, d = ((N : ℝ) - 1) * l / 2 := ⟨_, rfl⟩
  have hbd : b = d + l := by rw [hb, hd]; ring
  have hd0 : 0 ≤ d := by rw [hd]; have := mul_nonneg (sub_nonneg.mpr hN') hl.le; linarith
  have hneg : -((N : ℝ) + 1) * l / 2 = -b := by rw [hb]; ring
  simp only [envelope, riseTo, hneg, ← hb, ← hd]
  have r1 : max 0 (min 1 ((z - -b) / l)) = (hinge (-b) z - hinge (-d) z) / l := by
    rcases le_total z (-b) with h | h
    · rw [hinge_le h, hinge_le (by linarith), max_eq_left]
      · simp
      · exact (min_le_right _ _).trans (div_nonpos_of_nonpos_of_nonneg (by linarith) hl.le)
    · rcases le_total z (-d) with h' | h'
      · rw [hinge_ge h, hinge_le h', min_eq_right (by rw [div_le_one hl]; linarith), max_eq_right (div_nonneg (by linarith) hl.le), sub_zero]
      · rw [hinge_ge h, hinge_ge h', min_eq_left (by rw [le_div_iff₀ hl]; linarith), max_eq_right zero_le_one]
        rw [eq_div_iff hl.ne']; linarith
  have r2 : max 0 (min 1 ((-z - -b) / l)) = 1 - (hinge d z - hinge b z) / l := by
    rcases le_total z d with h | h
    · rw [hinge_le h, hinge_le (by linarith), min_eq_left (by rw [le_div_iff₀ hl]; linarith), max_eq_right zero_le_one]
      simp
    · rcases le_total z b with h' | h'
      · rw [hinge_ge h, hinge_le h', min_eq_right (by rw [div_le_one hl]; linarith), max_eq_right (div_nonneg (by linarith) hl.le)]
        field_simp
        linarith
      · rw [hinge_ge h, hinge_ge h', max_eq_left ((min_le_right _ _).trans (div_nonpos_of_nonpos_of_nonneg (by linarith) hl.le))]
        have : (z - d - (z - b)) / l = 1 := by rw [div_eq_one_iff_eq hl.ne']; linarith
        rw [this]; ring
  rw [r1, r2]
  rcases le_total z d with h | h
  · rw [hinge_le h, hinge_le (a := b) (by linarith)]
    ring
  · rw [hinge_ge (a := -b) (by linarith), hinge_ge (a := -d) (by linarith)]
    have : (z - -b - (z - -d)) / l = 1 := by rw [div_eq_one_iff_eq hl.ne']; linarith
    rw [this]
    field_simp
    linarith

theorem envelope_lip {N : ℤ} (hN : 1 ≤ N) {l : ℝ} (hl : 0 < l) (y z : ℝ) : |envelope N l y - envelope N l z| ≤ 4 / l * |y - z| := by
  rw [envelope_hinges hN hl, envelope_hinges hN hl, ← sub_div, abs_div, abs_of_pos hl, div_mul_eq_mul_div, div_le_div_iff_of_pos_right hl]
  have h1 := abs_le.mp (hinge_lip (-(((N : ℝ) + 1) * l / 2)) y z)
  have h2 := abs_le.mp (hinge_lip (-(((N : ℝ) - 1) * l / 2)) y z)
  have h3 := abs_le.mp (hinge_lip (((N : ℝ) - 1) * l / 2) y z)
  have h4 := abs_le.mp (hinge_lip (((N : ℝ) + 1) * l / 2) y z)
  rw [abs_le]
  constructor <;> linarith [h1.1, h1.2, h2.1, h2.2, h3.1, h3.2, h4.1, h4.2]

/-- the sine with a hinge at one of its zeros -/
theorem sine_hinge {k a : ℝ} (ha : Real.sin (k * a) = 0) : LipDiff 1 (fun z => Real.sin (k * z) * hinge a z) := by
  have e : (fun z => Real.sin (k * z) * hinge a z) = LipDiff.piece a (fun _ => 0) (fun z => Real.sin (k * z) * (z - a)) := by
    funext z
    unfold LipDiff.piece
    split_ifs with h
    · rw [hinge_le h, mul_zero]
    · rw [hinge_ge (not_le.mp h).le]
  rw [e]
  have hd : ∀ z, HasDerivAt (fun z => Real.sin (k * z) * (z - a)) (Real.cos (k * z) * k * (z - a) + Real.sin (k * z)) z := by
    intro z
    exact ((hd_sin k z).mul ((hasDerivAt_id z).sub_const a)).congr_deriv (by simp)
  refine LipDiff.of_hasDerivAt (LipDiff.piece_deriv a (fun z => hasDerivAt_const z (0 : ℝ)) hd (by simp) (by simp [ha])) ?_
  refine LipDiff.piece_lip a (LocallyLipschitz.const 0) ?_ (by simp [ha])
  have : ContDiff ℝ 1 (fun z => Real.cos (k * z) * k * (z - a) + Real.sin (k * z)) := by fun_prop
  exact this.locallyLipschitz

/-- an antiderivative of the sine with a hinge -/
noncomputable def hingeInt (k a : ℝ) : ℝ → ℝ := LipDiff.piece a (fun _ => 0) (fun z => -(Real.cos (k * z) * (z - a)) / k + Real.sin (k * z) / k ^ 2)

theorem hingeInt_deriv {k a : ℝ} (hk : k ≠ 0) (ha : Real.sin (k * a) = 0) (z : ℝ) : HasDerivAt (hingeInt k a) (Real.sin (k * z) * hinge a z) z := by
  have hd : ∀ z, HasDerivAt (fun z => -(Real.cos (k * z) * (z - a)) / k + Real.sin (k * z) / k ^ 2) (Real.sin (k * z) * (z - a)) z := by
    intro z
    refine ((((hd_cos k z).mul ((hasDerivAt_id z).sub_const a)).neg.div_const k).add ((hd_sin k z).div_const (k ^ 2))).congr_deriv ?_
    simp
    field_simp
    ring
  refine (LipDiff.piece_deriv a (fun z => hasDerivAt_const z (0 : ℝ)) hd (by simp [ha]) (by simp) z).congr_deriv ?_
  unfold LipDiff.piece
  split_ifs with h
  · rw [hinge_le h, mul_zero]
  · rw [hinge_ge (not_le.mp h).le]

theorem hingeInt_le {k a z : ℝ} (h : z ≤ a) : hingeInt k a z = 0 := by unfold hingeInt LipDiff.piece; rw [if_pos h]
theorem hingeInt_ge {k a z : ℝ} (ha : Real.sin (k * a) = 0) (h : a ≤ z) : hingeInt k a z = -(Real.cos (k * z) * (z - a)) / k + Real.sin (k * z) / k ^ 2 := by
  unfold hingeInt LipDiff.piece
  split_ifs with h'
  · have : z = a := le_antisymm h' h
    rw [this]; simp [ha]
  · rfl

/-- the corners of the envelope are zeros of the sine -/
theorem corner {l : ℝ} (hl : 0 < l) (m : ℤ) : Real.sin (2 * Real.pi / l * ((m : ℝ) * l / 2)) = 0 := by
  have : 2 * Real.pi / l * ((m : ℝ) * l / 2) = m * Real.pi := by field_simp
  rw [this]
  exact Real.sin_int_mul_pi m

structure Corners (N : ℤ) (l : ℝ) : Prop where
  a : Real.sin (2 * Real.pi / l * (-(((N : ℝ) + 1) * l / 2))) = 0
  b : Real.sin (2 * Real.pi / l * (-(((N : ℝ) - 1) * l / 2))) = 0
  c : Real.sin (2 * Real.pi / l * (((N : ℝ) - 1) * l / 2)) = 0
  d : Real.sin (2 * Real.pi / l * (((N : ℝ) + 1) * l / 2)) = 0

theorem corners (N : ℤ) {l : ℝ} (hl : 0 < l) : Corners N l := by
  have h1 := corner hl (N + 1)
  have h2 := corner hl (N - 1)
  push_cast at h1 h2
  exact ⟨by rw [mul_neg, Real.sin_neg, h1, neg_zero], by rw [mul_neg, Real.sin_neg, h2, neg_zero], h2, h1⟩

/-- the field on the axis -/
theorem axis_lipDiff {N : ℤ} (hN : 1 ≤ N) {l : ℝ} (hl : 0 < l) : LipDiff 1 (fun z => Real.sin (2 * Real.pi / l * z) * envelope N l z) := by
  have C := corners N hl
  have := ((((sine_hinge C.a).sub (sine_hinge C.b)).sub (sine_hinge C.c)).add (sine_hinge C.d)).mul (LipDiff.const 1 (1 / l))
  refine Eq.mp (congrArg (LipDiff 1) ?_) this
  funext z
  rw [envelope_hinges hN hl]
  ring

theorem swing_eq {N : ℤ} (hN : 1 ≤ N) {l : ℝ} (hl : 0 < l) (z : ℝ) :
    swing N l z = -(2 * Real.pi / l / l) * (hingeInt (2 * Real.pi / l) (-(((N : ℝ) + 1) * l / 2)) z - hingeInt (2 * Real.pi / l) (-(((N : ℝ) - 1) * l / 2)) z
      - hingeInt (2 * Real.pi / l) (((N : ℝ) - 1) * l / 2) z + hingeInt (2 * Real.pi / l) (((N : ℝ) + 1) * l / 2) z) := by
  have C := corners N hl
  have hN' : (1 : ℝ) ≤ N := by exact_mod_cast hN
  have hpi := Real.pi_pos
  obtain ⟨b, hb⟩ : ∃ b, b = ((N : ℝ) + 1) * l / 2 := ⟨_, rfl⟩
  obtain ⟨d, hd⟩ : ∃ d, d = ((N : ℝ) - 1) * l / 2 := ⟨_, rfl⟩
  have hbd : b = d + l := by rw [hb, hd]; ring
  have hd0 : 0 ≤ d := by rw [hd]; have := mul_nonneg (sub_nonneg.mpr hN') hl.le; linarith
  have hbl : ((N : ℝ) + 1) / 2 = b / l := by rw [hb]; field_simp
  have hk : 2 * Real.pi = 2 * Real.pi / l * l := by field_simp
  obtain ⟨ca, cb, cc, cd⟩ := C
  unfold swing
  rw [← hb, ← hd] at *
  rw [hbl]
  have hkl : Real.sin (2 * Real.pi / l * |z|) / (2 * Real.pi) = Real.sin (2 * Real.pi / l * |z|) / (2 * Real.pi / l * l) := by rw [← hk]
  rw [hkl]
  clear hkl
  generalize hkk : 2 * Real.pi / l = k at *
  have hk0 : 0 < k := by rw [← hkk]; positivity
  rcases le_total z (-b) with h1 | h1
  · rw [hingeInt_le h1, hingeInt_le (a := -d) (by linarith), hingeInt_le (a := d) (by linarith), hingeInt_le (a := b) (by linarith)]
    have : |z| = -z := abs_of_nonpos (by linarith)
    rw [this, if_neg (by linarith), if_neg (by linarith)]
    simp
  rcases le_total z (-d) with h2 | h2
  · rw [hingeInt_ge ca h1, hingeInt_le h2, hingeInt_le (a := d) (by linarith), hingeInt_le (a := b) (by linarith)]
    have : |z| = -z := abs_of_nonpos (by linarith)
    rw [this]
    rcases eq_or_lt_of_le h2 with h3 | h3
    · rw [if_pos (by linarith)]
      have hs : Real.sin (k * z) = 0 := by rw [h3, cb]
      rw [hs]
      have : z - -b = l := by linarith
      rw [this]
      field_simp
      simp
    · rw [if_neg (by linarith)]
      rcases eq_or_lt_of_le h1 with h4 | h4
      · rw [if_neg (by linarith)]
        have hs : Real.sin (k * z) = 0 := by rw [← h4, ca]
        rw [hs, ← h4]
        simp
      · rw [if_pos (by linarith), mul_neg, Real.sin_neg]
        field_simp
        ring
  rcases le_total z d with h3 | h3
  · rw [hingeInt_ge ca h1, hingeInt_ge cb h2, hingeInt_le (a := d) h3, hingeInt_le (a := b) (by linarith), if_pos (abs_le.mpr ⟨h2, h3⟩), hbd]
    field_simp
    ring
  have : |z| = z := abs_of_nonneg (by linarith)
  rw [this]
  rcases le_total z b with h4 | h4
  · rw [hingeInt_ge ca h1, hingeInt_ge cb h2, hingeInt_ge cc h3, hingeInt_le h4]
    rcases eq_or_lt_of_le h3 with h5 | h5
    · have hs : Real.sin (k * z) = 0 := by rw [← h5, cc]
      rw [if_pos (by linarith), hs, ← h5, hbd]
      field_simp
      ring
    · rw [if_neg (by linarith)]
      rcases eq_or_lt_of_le h4 with h6 | h6
      · have hs : Real.sin (k * z) = 0 := by rw [h6, cd]
        rw [if_neg (by linarith), hs, h6, hbd]
        field_simp
        ring
      · rw [if_pos h6, hbd]
        field_simp
        ring
  · rw [hingeInt_ge ca h1, hingeInt_ge cb h2, hingeInt_ge cc h3, hingeInt_ge cd h4, if_neg (by linarith), if_neg (by linarith), hbd]
    field_simp
    ring

theorem swing_deriv {N : ℤ} (hN : 1 ≤ N) {l : ℝ} (hl : 0 < l) (z : ℝ) :
    HasDerivAt (swing N l) (-(2 * Real.pi / l) * (Real.sin (2 * Real.pi / l * z) * envelope N l z)) z := by
  have C := corners N hl
  have hk : 2 * Real.pi / l ≠ 0 := by have := Real.pi_pos; positivity
  have h := ((((hingeInt_deriv hk C.a z).sub (hingeInt_deriv hk C.b z)).sub (hingeInt_deriv hk C.c z)).add (hingeInt_deriv hk C.d z)).const_mul (-(2 * Real.pi / l / l))
  have e : swing N l = _ := funext (swing_eq hN hl)
  rw [e]
  refine h.congr_deriv ?_
  rw [envelope_hinges hN hl]
  ring

theorem swing_lipDiff {N : ℤ} (hN : 1 ≤ N) {l : ℝ} (hl : 0 < l) : LipDiff 2 (swing N l) :=
  LipDiff.of_hasDerivAt (swing_deriv hN hl) ((LipDiff.const 1 _).mul (axis_lipDiff hN hl))

theorem swing_lip {N : ℤ} (hN : 1 ≤ N) {l : ℝ} (hl : 0 < l) (y z : ℝ) : |swing N l y - swing N l z| ≤ 2 * Real.pi / l * |y - z| := by
  have hpi := Real.pi_pos
  refine Convex.norm_image_sub_le_of_norm_hasDerivWithin_le (fun x _ => (swing_deriv hN hl x).hasDerivWithinAt) (fun x _ => ?_) convex_univ (Set.mem_univ z) (Set.mem_univ y)
  rw [Real.norm_eq_abs, abs_mul, abs_neg, abs_mul, abs_of_pos (show 0 < 2 * Real.pi / l by positivity), abs_of_nonneg (envelope_nonneg N l x)]
  have h1 := mul_le_one₀ (Real.abs_sin_le_one (2 * Real.pi / l * x)) (envelope_nonneg N l x) (envelope_le_one N l x)
  have h2 : 0 ≤ 2 * Real.pi / l := by positivity
  nlinarith

theorem swing_bound (N : ℤ) {l : ℝ} (hl : 0 < l) (z : ℝ) : |swing N l z| ≤ 1 + 1 / (2 * Real.pi) := by
  have hpi := Real.pi_pos
  have hp : 0 ≤ 1 / (2 * Real.pi) := by positivity
  unfold swing
  split_ifs with h1 h2
  · exact (Real.abs_cos_le_one _).trans (by linarith)
  · have c := Real.abs_cos_le_one (2 * Real.pi / l * z)
    have s := Real.abs_sin_le_one (2 * Real.pi / l * |z|)
    have e1 : 0 ≤ ((N : ℝ) + 1) / 2 - |z| / l := by
      rw [sub_nonneg, div_le_div_iff₀ hl two_pos]; linarith
    have e2 : ((N : ℝ) + 1) / 2 - |z| / l ≤ 1 := by
      rw [sub_le_iff_le_add, ← sub_le_iff_le_add', le_div_iff₀ hl]; linarith
    refine (abs_add_le _ _).trans (add_le_add ?_ ?_)
    · rw [abs_mul, abs_of_nonneg e1]
      exact mul_le_one₀ e2 (abs_nonneg _) c
    · rw [abs_div, abs_of_pos (show 0 < 2 * Real.pi by positivity)]
      exact div_le_div_of_nonneg_right s (by positivity)
  · rw [abs_zero]; linarith

/-- the field of an undulator placed at `o` -/
noncomputable def fieldAt (B l : ℝ) (N : ℤ) (ts : ℝ) (o : Vec) : FieldFn := (LocalizedField (PlanarUndulator.Setup B l N).LocalField ts o).field

theorem fieldAt_eq (B : ℝ) {l : ℝ} {N : ℤ} (hN : 1 ≤ N) (hl : 0 < l) (ts : ℝ) (o : Vec) (t : ℝ) (X : Vec) :
    fieldAt B l N ts o t X = .ok ⟨0, planarB B l N (X - o)⟩ := planar_field B l N (by omega) hl (t - ts) _

theorem product_lip {S S' C C' Ls Lc M dz dy : ℝ} (h1 : |S' - S| ≤ Ls * dz) (h2 : |C' - C| ≤ Lc * dy) (h3 : |S| ≤ 1) (h4 : |C'| ≤ M) (hLs : 0 ≤ Ls) (hdz : 0 ≤ dz) :
    |S' * C' - S * C| ≤ Ls * M * dz + Lc * dy := by
  have e : S' * C' - S * C = (S' - S) * C' + S * (C' - C) := by ring
  rw [e]
  refine (abs_add_le _ _).trans (add_le_add ?_ ?_)
  · rw [abs_mul]
    calc _ ≤ Ls * dz * M := mul_le_mul h1 h4 (abs_nonneg _) (by positivity)
      _ = _ := by ring
  · rw [abs_mul]
    calc _ ≤ 1 * |C' - C| := mul_le_mul_of_nonneg_right h3 (abs_nonneg _)
      _ ≤ _ := by linarith

/-- a sine or cosine with the envelope -/
theorem wave_lip {N : ℤ} (hN : 1 ≤ N) {l : ℝ} (hl : 0 < l) {f : ℝ → ℝ} (hb : ∀ z, |f z| ≤ 1) (hf : ∀ y z, |f y - f z| ≤ 2 * Real.pi / l * |y - z|) (y z : ℝ) :
    |f y * envelope N l y - f z * envelope N l z| ≤ (2 * Real.pi / l + 4 / l) * |y - z| := by
  have := product_lip (M := 1) (hf y z) (envelope_lip hN hl y z) (hb z)
    (by rw [abs_of_nonneg (envelope_nonneg N l y)]; exact envelope_le_one N l y) (by have := Real.pi_pos; positivity) (abs_nonneg _)
  linarith

theorem hyp_lip {f f' : ℝ → ℝ} {k : ℝ} (hd : ∀ y, HasDerivAt f (f' y) y) (hc : Continuous f') : ∃ M L : ℝ, 0 ≤ M ∧ 0 ≤ L ∧
    ∀ y, |y| ≤ k → |f y| ≤ M ∧ ∀ z, |z| ≤ k → |f y - f z| ≤ L * |y - z| := by
  have hcf : Continuous f := continuous_iff_continuousAt.mpr fun y => (hd y).continuousAt
  obtain ⟨M, hM⟩ := (isCompact_Icc (a := -k) (b := k)).exists_bound_of_continuousOn hcf.continuousOn
  obtain ⟨L, hL⟩ := (isCompact_Icc (a := -k) (b := k)).exists_bound_of_continuousOn hc.continuousOn
  simp only [Real.norm_eq_abs] at hM hL
  refine ⟨|M|, |L|, abs_nonneg _, abs_nonneg _, fun y hy => ⟨(hM y (abs_le.mp hy)).trans (le_abs_self _), fun z hz => ?_⟩⟩
  exact Taylor.mvt (fun t _ => hd t) (fun t ht => (hL t ht).trans (le_abs_self _)) (abs_le.mp hz) (abs_le.mp hy)

/-- within a distance of one metre from the midplane the field is Lipschitz continuous -/
theorem planarB_lip (B : ℝ) {N : ℤ} (hN : 1 ≤ N) {l : ℝ} (hl : 0 < l) : ∃ L : ℝ, 0 ≤ L ∧ ∀ X Y : Vec, |X.y| ≤ 1 → |Y.y| ≤ 1 →
    (planarB B l N X - planarB B l N Y).norm ≤ L * (X - Y).norm := by
  have hpi := Real.pi_pos
  obtain ⟨k, hk⟩ : ∃ k, k = 2 * Real.pi / l := ⟨_, rfl⟩
  have hk0 : 0 ≤ k := by rw [hk]; positivity
  obtain ⟨Mc, Lc, m1, l1, hc⟩ := hyp_lip (k := 1) (hd_cosh k) (f' := fun y => Real.sinh (k * y) * k) (by fun_prop)
  obtain ⟨Ms, Ls, m2, l2, hs⟩ := hyp_lip (k := 1) (hd_sinh k) (f' := fun y => Real.cosh (k * y) * k) (by fun_prop)
  have sl : ∀ y z, |Real.sin (k * y) - Real.sin (k * z)| ≤ 2 * Real.pi / l * |y - z| := by
    intro y z
    rw [← hk]
    refine (Taylor.mvt (f := fun y => Real.sin (k * y)) (f' := fun y => Real.cos (k * y) * k) (C := k) (a := min y z) (b := max y z) (fun t _ => hd_sin k t) (fun t _ => ?_) (s := z) (t := y)
      ⟨min_le_right _ _, le_max_right _ _⟩ ⟨min_le_left _ _, le_max_left _ _⟩)
    rw [abs_mul, abs_of_nonneg hk0]
    nlinarith [Real.abs_cos_le_one (k * t)]
  have cl : ∀ y z, |Real.cos (k * y) - Real.cos (k * z)| ≤ 2 * Real.pi / l * |y - z| := by
    intro y z
    rw [← hk]
    refine (Taylor.mvt (f := fun y => Real.cos (k * y)) (f' := fun y => -Real.sin (k * y) * k) (C := k) (a := min y z) (b := max y z) (fun t _ => hd_cos k t) (fun t _ => ?_) (s := z) (t := y)
      ⟨min_le_right _ _, le_max_right _ _⟩ ⟨min_le_left _ _, le_max_left _ _⟩)
    rw [abs_mul, abs_neg, abs_of_nonneg hk0]
    nlinarith [Real.abs_sin_le_one (k * t)]
  have hLz : 0 ≤ k + 4 / l := by positivity
  refine ⟨|B| * (((k + 4 / l) * Mc + Lc) + ((k + 4 / l) * Ms + Ls)), by positivity, ?_⟩
  intro X Y hX hY
  have ey : ∀ z, |envelope N l z| ≤ 1 := fun z => by rw [abs_of_nonneg (envelope_nonneg N l z)]; exact envelope_le_one N l z
  have n1 : |X.z - Y.z| ≤ (X - Y).norm := by have := (comps_le (X - Y)).2.2; simpa using this
  have n2 : |X.y - Y.y| ≤ (X - Y).norm := by have := (comps_le (X - Y)).2.1; simpa using this
  have a1 := product_lip (wave_lip hN hl (fun z => Real.abs_sin_le_one (k * z)) sl X.z Y.z) ((hc X.y hX).2 Y.y hY)
    (by rw [abs_mul]; exact mul_le_one₀ (Real.abs_sin_le_one _) (abs_nonneg _) (ey _)) (hc X.y hX).1 (by rw [← hk]; positivity) (abs_nonneg _)
  have a2 := product_lip (wave_lip hN hl (fun z => Real.abs_cos_le_one (k * z)) cl X.z Y.z) ((hs X.y hX).2 Y.y hY)
    (by rw [abs_mul]; exact mul_le_one₀ (Real.abs_cos_le_one _) (abs_nonneg _) (ey _)) (hs X.y hX).1 (by rw [← hk]; positivity) (abs_nonneg _)
  rw [← hk] at a1 a2
  have hB := abs_nonneg B
  have b1 : |(planarB B l N X - planarB B l N Y).y| ≤ |B| * (((k + 4 / l) * Mc + Lc) * (X - Y).norm) := by
    have e : (planarB B l N X - planarB B l N Y).y = B * (Real.sin (k * X.z) * envelope N l X.z * Real.cosh (k * X.y) - Real.sin (k * Y.z) * envelope N l Y.z * Real.cosh (k * Y.y)) := by
      simp only [planarB, Vec.sub_y, ← hk]; ring
    rw [e, abs_mul]
    refine mul_le_mul_of_nonneg_left (a1.trans ?_) hB
    have c1 : (k + 4 / l) * Mc * |X.z - Y.z| ≤ (k + 4 / l) * Mc * (X - Y).norm := mul_le_mul_of_nonneg_left n1 (by positivity)
    have c2 : Lc * |X.y - Y.y| ≤ Lc * (X - Y).norm := mul_le_mul_of_nonneg_left n2 l1
    linarith
  have b2 : |(planarB B l N X - planarB B l N Y).z| ≤ |B| * (((k + 4 / l) * Ms + Ls) * (X - Y).norm) := by
    have e : (planarB B l N X - planarB B l N Y).z = B * (Real.cos (k * X.z) * envelope N l X.z * Real.sinh (k * X.y) - Real.cos (k * Y.z) * envelope N l Y.z * Real.sinh (k * Y.y)) := by
      simp only [planarB, Vec.sub_z, ← hk]; ring
    rw [e, abs_mul]
    refine mul_le_mul_of_nonneg_left (a2.trans ?_) hB
    have c1 : (k + 4 / l) * Ms * |X.z - Y.z| ≤ (k + 4 / l) * Ms * (X - Y).norm := mul_le_mul_of_nonneg_left n1 (by positivity)
    have c2 : Ls * |X.y - Y.y| ≤ Ls * (X - Y).norm := mul_le_mul_of_nonneg_left n2 l2
    linarith
  have b0 : |(planarB B l N X - planarB B l N Y).x| ≤ 0 := by simp [planarB]
  have := vec_bound b0 b1 b2
  refine this.trans (le_of_eq ?_)
  ring

/-- the field along a path in the midplane meets the assumptions of the convergence theorem -/
theorem tame (B : ℝ) {N : ℤ} (hN : 1 ≤ N) {l : ℝ} (hl : 0 < l) : ∃ L : ℝ, 0 ≤ L ∧ ∀ (ts : ℝ) (o : Vec) (x : ℝ → Vec) (t0 T : ℝ),
    (∀ t, t0 ≤ t → t ≤ t0 + T → (x t).y = o.y) → TameNear (fieldAt B l N ts o) x t0 T 1 L |B| := by
  obtain ⟨L, hL, h⟩ := planarB_lip B hN hl
  refine ⟨L, hL, fun ts o x t0 T hy => ⟨?_, ?_⟩⟩
  · intro t h1 h2 EB hE
    rw [fieldAt_eq B hN hl] at hE
    obtain ⟨F, hF, -, hb⟩ := C26_bounded B l N (by omega) hl 0 (x t - o)
    rw [planar_field B l N (by omega) hl] at hF
    cases hE
    cases hF
    exact hb (by simp [hy t h1 h2])
  · intro t h1 h2 EB hE X hX
    rw [fieldAt_eq B hN hl] at hE
    cases hE
    refine ⟨_, fieldAt_eq B hN hl ts o t X, ?_, ?_⟩
    · simp only [sub_self, Vec.norm_zero]
      have := Vec.norm_nonneg (X - x t)
      positivity
    · have hyy := hy t h1 h2
      have := h (X - o) (x t - o) (by have := (comps_le (X - x t)).2.1.trans hX; simpa [hyy] using this) (by simp [hyy])
      rwa [show X - o - (x t - o) = X - x t by abel] at this

/-- separable equation of motion: a position that moves with the positive speed `v` -/
theorem travel {v : ℝ → ℝ} (hv : Continuous v) (h0 : ∀ z, 0 < v z) {c : ℝ} (hc : ∀ z, v z ≤ c) (t0 z0 : ℝ) :
    ∃ z : ℝ → ℝ, z t0 = z0 ∧ ∀ t, HasDerivAt z (v (z t)) t := by
  have hc0 : 0 < c := (h0 0).trans_le (hc 0)
  have hci : Continuous (fun u => (v u)⁻¹) := hv.inv₀ fun z => (h0 z).ne'
  obtain ⟨τ, hτ⟩ : ∃ τ : ℝ → ℝ, τ = fun z => t0 + ∫ u in z0..z, (v u)⁻¹ := ⟨_, rfl⟩
  have hd : ∀ z, HasDerivAt τ (v z)⁻¹ z := by
    intro z
    rw [hτ]
    exact (intervalIntegral.integral_hasDerivAt_right (hci.intervalIntegrable _ _) (hci.stronglyMeasurableAtFilter _ _) hci.continuousAt).const_add t0
  have hτ0 : τ z0 = t0 := by rw [hτ]; simp
  have hcont : Continuous τ := continuous_iff_continuousAt.mpr fun z => (hd z).continuousAt
  have hstep : ∀ y z, y ≤ z → (z - y) / c ≤ τ z - τ y := by
    intro y z hyz
    have hmono : Monotone (fun u => τ u - u / c) := by
      have hd' : ∀ u, HasDerivAt (fun u => τ u - u / c) ((v u)⁻¹ - 1 / c) u := fun u => (hd u).sub ((hasDerivAt_id u).div_const c)
      refine monotone_of_deriv_nonneg (fun u => (hd' u).differentiableAt) (fun u => ?_)
      rw [(hd' u).deriv, sub_nonneg, one_div]
      exact inv_anti₀ (h0 u) (hc u)
    have := hmono hyz
    simp only at this
    rw [sub_div]
    linarith
  have hmono : StrictMono τ := by
    intro y z hyz
    have := hstep y z hyz.le
    have : 0 < (z - y) / c := div_pos (by linarith) hc0
    linarith
  have hsurj : Function.Surjective τ := by
    intro t
    refine mem_range_of_exists_le_of_exists_ge hcont ⟨z0 - c * |t - t0|, ?_⟩ ⟨z0 + c * |t - t0|, ?_⟩
    · have := hstep (z0 - c * |t - t0|) z0 (by have := mul_nonneg hc0.le (abs_nonneg (t - t0)); linarith)
      rw [show (z0 - (z0 - c * |t - t0|)) / c = |t - t0| by field_simp; ring, hτ0] at this
      linarith [neg_abs_le (t - t0)]
    · have := hstep z0 (z0 + c * |t - t0|) (by have := mul_nonneg hc0.le (abs_nonneg (t - t0)); linarith)
      rw [show (z0 + c * |t - t0| - z0) / c = |t - t0| by field_simp; ring, hτ0] at this
      linarith [le_abs_self (t - t0)]
  let e := hmono.orderIsoOfSurjective τ hsurj
  have he : ∀ t, τ (e.symm t) = t := fun t => e.apply_symm_apply t
  refine ⟨e.symm, ?_, fun t => ?_⟩
  · apply hmono.injective
    rw [he, hτ0]
  · have := HasDerivAt.of_local_left_inverse (f := τ) (g := e.symm) (a := t) e.symm.continuous.continuousAt (hd (e.symm t)) (inv_ne_zero (h0 _).ne')
      (Filter.Eventually.of_forall he)
    rwa [inv_inv] at this

/-- a position that moves with a speed given by a smooth function of the position is smooth itself -/
theorem travel_lipDiff {v z : ℝ → ℝ} (hv : LipDiff 2 v) (hz : ∀ t, HasDerivAt z (v (z t)) t) : LipDiff 2 z := by
  have hcz : Continuous z := continuous_iff_continuousAt.mpr fun t => (hz t).continuousAt
  have e : deriv z = fun t => v (z t) := funext fun t => (hz t).deriv
  have h0 : LipDiff 0 z := LipDiff.lip_of_differentiable (fun t => (hz t).differentiableAt) (by rw [e]; exact hv.continuous.comp hcz)
  have h1 : LipDiff 1 z := LipDiff.of_hasDerivAt hz (hv.lower.lower.comp h0)
  exact LipDiff.of_hasDerivAt hz (hv.lower.comp h1)

end Und

end Teufel
