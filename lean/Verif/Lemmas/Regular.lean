import Verif.Spec.Regular
import Verif.Lemmas.LipDiff
import Verif.Lemmas.Existence
import Verif.Model.Elements
import Mathlib.Analysis.SpecialFunctions.Trigonometric.ArctanDeriv
import Mathlib.Analysis.SpecialFunctions.Trigonometric.DerivHyp
import Mathlib.Analysis.SpecialFunctions.ExpDeriv
import Mathlib.Topology.MetricSpace.ProperSpace.Real
import Mathlib.Analysis.Normed.Group.Basic

/-! # Fields of lattice elements are Lipschitz continuous in bounded regions -/

namespace Teufel
open Vec
namespace Reg

/-- time and coordinates -/
abbrev Q := ℝ × ℝ × ℝ × ℝ

def at' (t : ℝ) (X : Vec) : Q := (t, X.x, X.y, X.z)

theorem mul {f g : Q → ℝ} (hf : LocallyLipschitz f) (hg : LocallyLipschitz g) : LocallyLipschitz (fun q => f q * g q) := by
  have h : LocallyLipschitz (fun q : ℝ × ℝ => q.1 * q.2) := ContDiff.locallyLipschitz (𝕂 := ℝ) (contDiff_fst.mul contDiff_snd)
  exact h.comp (hf.prodMk hg)

theorem smooth {f : Q → ℝ} (hf : ContDiff ℝ 1 f) : LocallyLipschitz f := hf.locallyLipschitz

theorem lip_on_ball {f : Q → ℝ} (hf : LocallyLipschitz f) (R : ℝ) :
    ∃ K : ℝ, 0 ≤ K ∧ ∀ (t t' : ℝ) (X X' : Vec), |t| ≤ R → |t'| ≤ R → X.norm ≤ R → X'.norm ≤ R →
      |f (at' t' X') - f (at' t X)| ≤ K * (|t' - t| + (X' - X).norm) := by
  have hc : IsCompact (Metric.closedBall (0 : Q) R) := isCompact_closedBall _ _
  obtain ⟨K, hK⟩ := LocallyLipschitzOn.exists_lipschitzOnWith_of_compact hc hf.locallyLipschitzOn
  refine ⟨K, K.2, fun t t' X X' h1 h2 h3 h4 => ?_⟩
  have inball : ∀ (t : ℝ) (X : Vec), |t| ≤ R → X.norm ≤ R → at' t X ∈ Metric.closedBall (0 : Q) R := by
    intro t X h1 h2
    rw [mem_closedBall_zero_iff]
    simp only [at', Prod.norm_def, Real.norm_eq_abs, sup_le_iff]
    exact ⟨h1, ((Exist.comps_le X).1).trans h2, (Exist.comps_le X).2.1.trans h2, (Exist.comps_le X).2.2.trans h2⟩
  have h := hK.dist_le_mul _ (inball t' X' h2 h4) _ (inball t X h1 h3)
  rw [Real.dist_eq] at h
  refine h.trans (mul_le_mul_of_nonneg_left ?_ K.2)
  have hn := Vec.norm_nonneg (X' - X)
  have ht := abs_nonneg (t' - t)
  have hx := (Exist.comps_le (X' - X)).1
  have hy := (Exist.comps_le (X' - X)).2.1
  have hz := (Exist.comps_le (X' - X)).2.2
  simp only [at', Prod.dist_eq, Real.dist_eq, sup_le_iff]
  simp only [Vec.sub_x, Vec.sub_y, Vec.sub_z] at hx hy hz
  exact ⟨by linarith, by linarith, by linarith, by linarith⟩

theorem vec_lip {fx fy fz : Q → ℝ} (hx : LocallyLipschitz fx) (hy : LocallyLipschitz fy) (hz : LocallyLipschitz fz) (R : ℝ) :
    ∃ K : ℝ, 0 ≤ K ∧ ∀ (t t' : ℝ) (X X' : Vec), |t| ≤ R → |t'| ≤ R → X.norm ≤ R → X'.norm ≤ R →
      ((⟨fx (at' t' X'), fy (at' t' X'), fz (at' t' X')⟩ : Vec) - ⟨fx (at' t X), fy (at' t X), fz (at' t X)⟩).norm ≤ K * (|t' - t| + (X' - X).norm) := by
  obtain ⟨Kx, h1, h2⟩ := lip_on_ball hx R
  obtain ⟨Ky, h3, h4⟩ := lip_on_ball hy R
  obtain ⟨Kz, h5, h6⟩ := lip_on_ball hz R
  refine ⟨Kx + Ky + Kz, by positivity, fun t t' X X' a b c d => ?_⟩
  have := norm_le_comps ((⟨fx (at' t' X'), fy (at' t' X'), fz (at' t' X')⟩ : Vec) - ⟨fx (at' t X), fy (at' t X), fz (at' t X)⟩)
  have e1 := h2 t t' X X' a b c d
  have e2 := h4 t t' X X' a b c d
  have e3 := h6 t t' X X' a b c d
  simp only [Vec.sub_x, Vec.sub_y, Vec.sub_z] at this
  linarith

/-- fields with locally Lipschitz continuous components are regular -/
theorem of_components {field : FieldFn} {ex ey ez bx b_y bz : Q → ℝ} (h1 : LocallyLipschitz ex) (h2 : LocallyLipschitz ey) (h3 : LocallyLipschitz ez)
    (h4 : LocallyLipschitz bx) (h5 : LocallyLipschitz b_y) (h6 : LocallyLipschitz bz)
    (heq : ∀ t X, field t X = .ok ⟨⟨ex (at' t X), ey (at' t X), ez (at' t X)⟩, ⟨bx (at' t X), b_y (at' t X), bz (at' t X)⟩⟩) : RegularField field := by
  intro R
  obtain ⟨K1, a1, a2⟩ := vec_lip h1 h2 h3 R
  obtain ⟨K2, b1, b2⟩ := vec_lip h4 h5 h6 R
  refine ⟨K1 + K2, fun t t' X X' c1 c2 c3 c4 => ⟨_, _, heq t X, heq t' X', ?_, ?_⟩⟩
  · have := a2 t t' X X' c1 c2 c3 c4
    have hn : 0 ≤ |t' - t| + (X' - X).norm := add_nonneg (abs_nonneg _) (Vec.norm_nonneg _)
    refine this.trans (mul_le_mul_of_nonneg_right (by linarith) hn)
  · have := b2 t t' X X' c1 c2 c3 c4
    have hn : 0 ≤ |t' - t| + (X' - X).norm := add_nonneg (abs_nonneg _) (Vec.norm_nonneg _)
    refine this.trans (mul_le_mul_of_nonneg_right (by linarith) hn)

theorem zero : LocallyLipschitz (fun _ : Q => (0 : ℝ)) := smooth contDiff_const

theorem homogeneous (E B : Vec) : RegularField (HomogeneousField E B).field :=
  of_components (smooth contDiff_const) (smooth contDiff_const) (smooth contDiff_const) (smooth contDiff_const) (smooth contDiff_const) (smooth contDiff_const)
    (fun _ _ => rfl)

theorem localized {f : FieldFn} (hf : RegularField f) (t0 : ℝ) (origin : Vec) : RegularField (LocalizedField f t0 origin).field := by
  intro R
  obtain ⟨L, hL⟩ := hf (R + |t0| + origin.norm)
  have h0 := Vec.norm_nonneg origin
  have h1 := abs_nonneg t0
  refine ⟨L, fun t t' X X' a b c d => ?_⟩
  have tt : ∀ t : ℝ, |t| ≤ R → |t - t0| ≤ R + |t0| + origin.norm := fun t h => by
    have := abs_sub t t0
    linarith
  have xx : ∀ X : Vec, X.norm ≤ R → (X - origin).norm ≤ R + |t0| + origin.norm := fun X h => by
    have := norm_sub_le' X origin
    linarith
  obtain ⟨F, F', e1, e2, e3, e4⟩ := hL (t - t0) (t' - t0) (X - origin) (X' - origin) (tt t a) (tt t' b) (xx X c) (xx X' d)
  rw [sub_sub_sub_cancel_right, sub_sub_sub_cancel_right] at e3 e4
  exact ⟨F, F', e1, e2, e3, e4⟩

theorem sum (lat : Lattice) (h : ∀ e ∈ lat, RegularField e.field) : RegularField lat.field := by
  suffices H : ∀ (lat : Lattice), (∀ e ∈ lat, RegularField e.field) → ∀ acc : FieldFn, RegularField acc →
      RegularField (fun t X => (acc t X).bind fun a => lat.foldlM (fun total e => (e.field t X).map (fun f => total + f)) a) by
    exact H lat h (fun _ _ => .ok 0) (homogeneous 0 0)
  intro lat
  induction lat with
  | nil =>
    intro _ acc hacc
    have : (fun t X => (acc t X).bind fun a => List.foldlM (fun total (e : GeneralField) => (e.field t X).map (fun f => total + f)) a []) = acc := by
      funext t X
      cases acc t X <;> rfl
    rw [this]
    exact hacc
  | cons e l ih =>
    intro h acc hacc
    have he := h e (by simp)
    have hs : RegularField (fun t X => (acc t X).bind fun a => (e.field t X).map (fun f => a + f)) := by
      intro R
      obtain ⟨L1, a1⟩ := hacc R
      obtain ⟨L2, a2⟩ := he R
      refine ⟨L1 + L2, fun t t' X X' b1 b2 b3 b4 => ?_⟩
      obtain ⟨F, F', c1, c2, c3, c4⟩ := a1 t t' X X' b1 b2 b3 b4
      obtain ⟨G, G', d1, d2, d3, d4⟩ := a2 t t' X X' b1 b2 b3 b4
      refine ⟨F + G, F' + G', by simp [c1, d1, Except.bind, Except.map], by simp [c2, d2, Except.bind, Except.map], ?_, ?_⟩
      · have eq : (F' + G').E - (F + G).E = (F'.E - F.E) + (G'.E - G.E) := by
          ext <;> simp <;> ring
        rw [eq, add_mul]
        exact (Vec.norm_add_le _ _).trans (add_le_add c3 d3)
      · have eq : (F' + G').B - (F + G).B = (F'.B - F.B) + (G'.B - G.B) := by
          ext <;> simp <;> ring
        rw [eq, add_mul]
        exact (Vec.norm_add_le _ _).trans (add_le_add c4 d4)
    have := ih (fun e' h' => h e' (by simp [h'])) _ hs
    refine cast (congrArg RegularField ?_) this
    funext t X
    cases acc t X with
    | error e => rfl
    | ok a => 
      cases h : e.field t X <;> simp [List.foldlM_cons, h, Except.bind, Except.map, bind]

/-! ### undulators -/

/-- the ramp of an undulator end -/
noncomputable def ramp (u : ℝ) : ℝ := max 0 (min 1 u)

theorem ramp_lip (a b : ℝ) : LocallyLipschitz (fun q : Q => ramp (a * q.2.2.2 + b)) := by
  unfold ramp
  have h : LocallyLipschitz (fun q : Q => a * q.2.2.2 + b) := smooth (by fun_prop)
  exact (smooth contDiff_const).max ((smooth contDiff_const).min h)

open Classical in
theorem ramped {z z1 z2 lambda : ℝ} (h : 0 < lambda) (B : Vec) :
    (if z1 ≤ z ∧ z < z2 then rampField z z1 z2 lambda B else 0) = B * (ramp (1 / lambda * z + -z1 / lambda) * ramp (-1 / lambda * z + z2 / lambda)) := by
  have e1 : 1 / lambda * z + -z1 / lambda = (z - z1) / lambda := by ring
  have e2 : -1 / lambda * z + z2 / lambda = (z2 - z) / lambda := by ring
  rw [e1, e2]
  have r0 : ∀ u : ℝ, u ≤ 0 → ramp (u / lambda) = 0 := fun u hu => by
    unfold ramp
    exact max_eq_left ((min_le_right _ _).trans (div_nonpos_of_nonpos_of_nonneg hu h.le))
  have r1 : ∀ u : ℝ, lambda ≤ u → ramp (u / lambda) = 1 := fun u hu => by
    unfold ramp
    rw [min_eq_left (by rwa [le_div_iff₀ h, one_mul]), max_eq_right zero_le_one]
  have r2 : ∀ u : ℝ, 0 ≤ u → u ≤ lambda → ramp (u / lambda) = u / lambda := fun u hu hu' => by
    unfold ramp
    rw [min_eq_right (by rwa [div_le_iff₀ h, one_mul]), max_eq_right (by positivity)]
  by_cases hz : z1 ≤ z ∧ z < z2
  · rw [if_pos hz]
    unfold rampField
    by_cases h1 : z < z1 + lambda
    · by_cases h2 : z2 - lambda ≤ z
      · rw [if_pos h1, if_pos h2, r2 (z - z1) (by linarith) (by linarith), r2 (z2 - z) (by linarith) (by linarith)]
        ext <;> simp <;> ring
      · rw [if_pos h1, if_neg h2, r2 (z - z1) (by linarith) (by linarith), r1 (z2 - z) (by linarith)]
        ext <;> simp
    · by_cases h2 : z2 - lambda ≤ z
      · rw [if_neg h1, if_pos h2, r1 (z - z1) (by linarith), r2 (z2 - z) (by linarith) (by linarith)]
        ext <;> simp
      · rw [if_neg h1, if_neg h2, r1 (z - z1) (by linarith), r1 (z2 - z) (by linarith)]
        ext <;> simp
  · rw [if_neg hz]
    rcases not_and_or.mp hz with h1 | h1
    · rw [r0 (z - z1) (by linarith)]
      ext <;> simp
    · rw [r0 (z2 - z) (by linarith)]
      ext <;> simp

open Classical in
theorem undulator {field : FieldFn} {core : Vec → Vec} {lambda : ℝ} {N : Int} (hs : 0 ≤ lambda ∨ -1 ≤ N)
    (hx : ContDiff ℝ 1 (fun q : Q => (core ⟨q.2.1, q.2.2.1, q.2.2.2⟩).x)) (hy : ContDiff ℝ 1 (fun q : Q => (core ⟨q.2.1, q.2.2.1, q.2.2.2⟩).y))
    (hz : ContDiff ℝ 1 (fun q : Q => (core ⟨q.2.1, q.2.2.1, q.2.2.2⟩).z))
    (heq : ∀ t X, field t X = .ok ⟨0, if -((N : ℝ) + 1) * lambda / 2 ≤ X.z ∧ X.z < ((N : ℝ) + 1) * lambda / 2 then
      rampField X.z (-((N : ℝ) + 1) * lambda / 2) (((N : ℝ) + 1) * lambda / 2) lambda (core X) else 0⟩) : RegularField field := by
  rcases lt_or_ge 0 lambda with hl | hl
  · have hr : LocallyLipschitz (fun q : Q => ramp (1 / lambda * q.2.2.2 + -(-((N : ℝ) + 1) * lambda / 2) / lambda) *
        ramp (-1 / lambda * q.2.2.2 + (((N : ℝ) + 1) * lambda / 2) / lambda)) := mul (ramp_lip _ _) (ramp_lip _ _)
    refine of_components zero zero zero (mul (smooth hx) hr) (mul (smooth hy) hr) (mul (smooth hz) hr) ?_
    intro t X
    rw [heq, ramped hl]
    rfl
  · refine of_components zero zero zero zero zero zero ?_
    intro t X
    rw [heq, if_neg]
    · rfl
    · rintro ⟨h1, h2⟩
      have h3 : 0 < ((N : ℝ) + 1) * lambda := by linarith
      rcases hs with h | h
      · have : lambda = 0 := le_antisymm hl h
        rw [this] at h3
        simp at h3
      · have : (0 : ℝ) ≤ (N : ℝ) + 1 := by exact_mod_cast (by omega : (0 : Int) ≤ N + 1)
        nlinarith

theorem planar (u : PlanarUndulator) (h : 0 ≤ u.LambdaU ∨ -1 ≤ u.NPeriods) : RegularField u.LocalField := by
  refine undulator (core := fun X => ⟨0, u.BPeak * Real.sin (u.kz * X.z) * Real.cosh (u.kz * X.y), u.BPeak * Real.cos (u.kz * X.z) * Real.sinh (u.kz * X.y)⟩)
    h ?_ ?_ ?_ (fun t X => rfl)
  · exact contDiff_const
  · fun_prop
  · fun_prop

theorem gradient (u : TransverseGradientUndulator) (h : 0 ≤ u.LambdaU ∨ -1 ≤ u.NPeriods) : RegularField u.LocalField := by
  refine undulator (core := u.core) h ?_ ?_ ?_ (fun t X => rfl)
  · simp only [TransverseGradientUndulator.core]
    fun_prop
  · simp only [TransverseGradientUndulator.core]
    fun_prop
  · simp only [TransverseGradientUndulator.core]
    fun_prop

theorem softEdge (d : SoftEdgeDipole) (h1 : d.t_1 ≠ 0) (h2 : d.t_2 ≠ 0) : RegularField d.LocalField := by
  have hs : ContDiff ℝ 1 (fun q : Q => 1 - (Real.arctan (2 * dot (⟨q.2.1, q.2.2.1, q.2.2.2⟩ - d.p_1) d.n_1 / d.t_1) / Pi + 1 / 2) -
      (Real.arctan (2 * dot (⟨q.2.1, q.2.2.1, q.2.2.2⟩ - d.p_2) d.n_2 / d.t_2) / Pi + 1 / 2)) := by
    simp only [dot, Vec.sub_x, Vec.sub_y, Vec.sub_z]
    have a1 := ContDiff.arctan (n := 1) (f := fun q : Q =>
      2 * ((q.2.1 - d.p_1.x) * d.n_1.x + (q.2.2.1 - d.p_1.y) * d.n_1.y + (q.2.2.2 - d.p_1.z) * d.n_1.z) / d.t_1) (by fun_prop)
    have a2 := ContDiff.arctan (n := 1) (f := fun q : Q =>
      2 * ((q.2.1 - d.p_2.x) * d.n_2.x + (q.2.2.1 - d.p_2.y) * d.n_2.y + (q.2.2.2 - d.p_2.z) * d.n_2.z) / d.t_2) (by fun_prop)
    fun_prop
  refine of_components zero zero zero (smooth (contDiff_const.mul hs)) (smooth (contDiff_const.mul hs)) (smooth (contDiff_const.mul hs))
    (ex := fun _ => 0) (bx := fun q => d.B_val.x * _) (b_y := fun q => d.B_val.y * _) (bz := fun q => d.B_val.z * _) ?_
  intro t X
  unfold SoftEdgeDipole.LocalField
  rw [if_neg (by tauto)]
  rfl

/-! ### waves -/

theorem curv (g : GaussianWave) (hz : g.zR ≠ 0) (hl : g.lambda ≠ 0) (x y z : ℝ) :
    g.curvPhase z (Vec.norm ⟨x, y, 0⟩) = Pi * (x ^ 2 + y ^ 2) * z / (g.lambda * (z ^ 2 + g.zR ^ 2)) := by
  have hr : Vec.norm ⟨x, y, 0⟩ * Vec.norm ⟨x, y, 0⟩ = x ^ 2 + y ^ 2 := by
    rw [← sq, Vec.norm_sq]
    simp [abs2nd]
    ring
  unfold GaussianWave.curvPhase
  by_cases h0 : z = 0
  · rw [if_pos h0, h0]
    simp
  · rw [if_neg h0, mul_assoc, hr]
    have : 0 < z ^ 2 + g.zR ^ 2 := by positivity
    have h' : z + g.zR * g.zR / z = (z ^ 2 + g.zR ^ 2) / z := by
      field_simp
    rw [h']
    field_simp

theorem wave_part (g : GaussianWave) (hz : g.zR ≠ 0) (hl : g.lambda ≠ 0) (a t : ℝ) (X : Vec) :
    (g.A * (((g.w0 / (g.w0 * Real.sqrt (1 + (X.z / g.zR) ^ 2)) : ℝ) : ℂ) * Complex.exp ⟨-(Vec.norm ⟨X.x, X.y, 0⟩ / (g.w0 * Real.sqrt (1 + (X.z / g.zR) ^ 2))) ^ 2 - a,
      g.omega * t - g.k * X.z - g.curvPhase X.z (Vec.norm ⟨X.x, X.y, 0⟩)⟩)).re =
    g.w0 / (g.w0 * Real.sqrt (1 + (X.z / g.zR) ^ 2)) * Real.exp (-((X.x ^ 2 + X.y ^ 2) / (g.w0 ^ 2 * (1 + (X.z / g.zR) ^ 2))) - a) *
      (g.A.re * Real.cos (g.omega * t - g.k * X.z - Pi * (X.x ^ 2 + X.y ^ 2) * X.z / (g.lambda * (X.z ^ 2 + g.zR ^ 2))) -
        g.A.im * Real.sin (g.omega * t - g.k * X.z - Pi * (X.x ^ 2 + X.y ^ 2) * X.z / (g.lambda * (X.z ^ 2 + g.zR ^ 2)))) := by
  have hr : (Vec.norm ⟨X.x, X.y, 0⟩ / (g.w0 * Real.sqrt (1 + (X.z / g.zR) ^ 2))) ^ 2 = (X.x ^ 2 + X.y ^ 2) / (g.w0 ^ 2 * (1 + (X.z / g.zR) ^ 2)) := by
    rw [div_pow, mul_pow, Real.sq_sqrt (by positivity), Vec.norm_sq]
    simp [abs2nd]
    ring
  rw [hr, curv g hz hl]
  simp only [Complex.mul_re, Complex.mul_im, Complex.exp_re, Complex.exp_im, Complex.ofReal_re, Complex.ofReal_im]
  ring

theorem wave_smooth (g : GaussianWave) (hz : g.zR ≠ 0) (hl : g.lambda ≠ 0) (hw : g.w0 ≠ 0) {a : Q → ℝ} (ha : ContDiff ℝ 1 a) :
    ContDiff ℝ 1 (fun q : Q => g.w0 / (g.w0 * Real.sqrt (1 + (q.2.2.2 / g.zR) ^ 2)) *
      Real.exp (-((q.2.1 ^ 2 + q.2.2.1 ^ 2) / (g.w0 ^ 2 * (1 + (q.2.2.2 / g.zR) ^ 2))) - a q) *
      (g.A.re * Real.cos (g.omega * q.1 - g.k * q.2.2.2 - Pi * (q.2.1 ^ 2 + q.2.2.1 ^ 2) * q.2.2.2 / (g.lambda * (q.2.2.2 ^ 2 + g.zR ^ 2))) -
        g.A.im * Real.sin (g.omega * q.1 - g.k * q.2.2.2 - Pi * (q.2.1 ^ 2 + q.2.2.1 ^ 2) * q.2.2.2 / (g.lambda * (q.2.2.2 ^ 2 + g.zR ^ 2))))) := by
  have h1 : ∀ q : Q, 1 + (q.2.2.2 / g.zR) ^ 2 ≠ 0 := fun q => by positivity
  have h2 : ∀ q : Q, g.w0 * Real.sqrt (1 + (q.2.2.2 / g.zR) ^ 2) ≠ 0 := fun q => mul_ne_zero hw (Real.sqrt_ne_zero'.mpr (by positivity))
  have h3 : ∀ q : Q, g.w0 ^ 2 * (1 + (q.2.2.2 / g.zR) ^ 2) ≠ 0 := fun q => mul_ne_zero (by positivity) (h1 q)
  have h4 : ∀ q : Q, g.lambda * (q.2.2.2 ^ 2 + g.zR ^ 2) ≠ 0 := fun q => mul_ne_zero hl (by positivity)
  fun_prop (disch := assumption)

theorem wave_facts (g : GaussianWave) (h : 0 < g.lambda * g.zR) : g.zR ≠ 0 ∧ g.lambda ≠ 0 := by
  constructor
  · intro h0; rw [h0] at h; simp at h
  · intro h0; rw [h0] at h; simp at h

theorem wave (g : GaussianWave) (h : 0 < g.lambda * g.zR) (hw : g.w0 ≠ 0) : RegularField g.LocalField := by
  obtain ⟨hz, hl⟩ := wave_facts g h
  have hs := wave_smooth g hz hl hw (a := fun _ => 0) contDiff_const
  refine of_components (smooth hs) zero zero zero (smooth (hs.div_const SpeedOfLight)) zero ?_
  intro t X
  unfold GaussianWave.LocalField
  simp only [h, if_false, not_true]
  have := wave_part g hz hl 0 t X
  rw [sub_zero] at this
  rw [this]
  rfl

theorem packet (g : GaussianWave) (tau : ℝ) (h : 0 < g.lambda * g.zR) (ht : tau ≠ 0) (hw : g.w0 ≠ 0) : RegularField (g.PacketField tau) := by
  obtain ⟨hz, hl⟩ := wave_facts g h
  have hs := wave_smooth g hz hl hw (a := fun q => ((q.1 - q.2.2.2 / SpeedOfLight) / tau) ^ 2) (by fun_prop)
  refine of_components (smooth hs) zero zero zero (smooth (hs.div_const SpeedOfLight)) zero ?_
  intro t X
  unfold GaussianWave.PacketField
  rw [if_neg (by tauto)]
  rw [wave_part g hz hl _ t X]
  rfl

end Reg
end Teufel
