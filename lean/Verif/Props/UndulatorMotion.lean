import Verif.Lemmas.Undulator
import Verif.Props.Convergence
import Verif.Props.Energy

/-!
# C105: the motion of particles in a planar undulator

`undulatorK` and `swing` are defined in Spec/Undulator, the equation of motion in Spec/Motion.
-/

namespace Teufel
open Vec

/-- C105: both undulator classes report the undulator parameter of the textbook, as peak value and as effective value. -/
theorem C105_parameter (B l g m : ℝ) (N : ℤ) :
    AgreeWithin 1e-8 (PlanarUndulator.Setup B l N).GetKpeak (undulatorK B l) ∧
    (PlanarUndulator.Setup B l N).GetKrms = (PlanarUndulator.Setup B l N).GetKpeak / Real.sqrt 2 ∧
    (TransverseGradientUndulator.Setup B g m l N).GetKpeak = (PlanarUndulator.Setup B l N).GetKpeak ∧
    (TransverseGradientUndulator.Setup B g m l N).GetKrms = (PlanarUndulator.Setup B l N).GetKrms := by
  have h2 : Real.sqrt 2 ≠ 0 := by positivity
  have hpi := Real.pi_pos
  refine ⟨?_, ?_, rfl, rfl⟩
  · have e1 : (PlanarUndulator.Setup B l N).GetKpeak = SpeedOfLight / mecsquared * (B * l / (2 * Real.pi)) := by
      simp only [PlanarUndulator.GetKpeak, PlanarUndulator.Setup, Pi]
      field_simp
    have e2 : undulatorK B l = SI.e / (SI.me * SI.c) * (B * l / (2 * Real.pi)) := by
      unfold undulatorK
      have h3 : SI.me ≠ 0 := by unfold SI.me; norm_num
      have h4 : SI.c ≠ 0 := by unfold SI.c; norm_num
      field_simp
    rw [e1, e2]
    unfold AgreeWithin
    rw [← sub_mul, abs_mul, abs_mul (SI.e / (SI.me * SI.c)), ← mul_assoc]
    refine mul_le_mul_of_nonneg_right ?_ (abs_nonneg _)
    unfold SI.e SI.me SI.c SpeedOfLight mecsquared
    norm_num [abs_le]
  · simp only [PlanarUndulator.GetKpeak, PlanarUndulator.GetKrms, mul_div_assoc, div_self h2, mul_one]

namespace Und

/-- the horizontal momentum per deflection, in units of m c: the undulator parameter for the charge to mass ratio `qm` -/
noncomputable def amplitude (qm B l : ℝ) : ℝ := qm * B * l / (2 * Real.pi * SpeedOfLight)

theorem amplitude_k (qm B : ℝ) {l : ℝ} (hl : 0 < l) : amplitude qm B l * (2 * Real.pi / l) = qm / SpeedOfLight * B := by
  have hpi := Real.pi_pos
  have hc := SpeedOfLight_ne
  unfold amplitude
  field_simp

/-- the field in the midplane -/
theorem midplane (B l : ℝ) (N : ℤ) (X : Vec) (hy : X.y = 0) : planarB B l N X = ⟨0, B * (Real.sin (2 * Real.pi / l * X.z) * envelope N l X.z), 0⟩ := by
  unfold planarB
  rw [hy]
  ext <;> simp
  ring

end Und

/-- C105: along every exact motion in the midplane of a planar undulator the horizontal momentum follows the oscillation `swing`; the amplitude is
the undulator parameter for the charge and mass of the particle. Energy and longitudinal momentum are tied to it. -/
theorem C105_oscillation (qm B l : ℝ) (N : ℤ) (hN : 1 ≤ N) (hl : 0 < l) (ts : ℝ) (o : Vec) (x p : ℝ → Vec) (t0 T : ℝ)
    (hm : Motion qm (LocalizedField (PlanarUndulator.Setup B l N).LocalField ts o).field x p t0 T)
    (hy : ∀ t, t0 ≤ t → t ≤ t0 + T → (x t).y = o.y) (t : ℝ) (h1 : t0 ≤ t) (h2 : t ≤ t0 + T) :
    (p t).x = (p t0).x + qm * B * l / (2 * Real.pi * SpeedOfLight) * (swing N l ((x t).z - o.z) - swing N l ((x t0).z - o.z)) ∧
    (p t).x ^ 2 + (p t).y ^ 2 + (p t).z ^ 2 = (p t0).x ^ 2 + (p t0).y ^ 2 + (p t0).z ^ 2 := by
  have hd : ∀ s, t0 ≤ s → s ≤ t0 + T → HasDerivAt (fun s => (p s).x - Und.amplitude qm B l * swing N l ((x s).z - o.z)) 0 s := by
    intro s a b
    obtain ⟨EB, hE, hv⟩ := hm.momentum s a b
    change Und.fieldAt B l N ts o s (x s) = _ at hE
    rw [Und.fieldAt_eq B hN hl] at hE
    cases hE
    have hz := (hm.position s a b).2.2.sub_const o.z
    have hs := ((Und.swing_deriv hN hl ((x s).z - o.z)).comp s hz).const_mul (Und.amplitude qm B l)
    refine (hv.1.sub hs).congr_deriv ?_
    rw [Und.midplane B l N _ (by simp [hy s a b])]
    have e := Und.amplitude_k qm B hl
    simp only [cross, Vec.mul_x, Vec.add_x, Vec.mul_z, Vec.sub_z, Vec.zero_x, mul_zero, zero_sub, zero_add]
    linear_combination (Real.sin (2 * Real.pi / l * ((x s).z - o.z)) * envelope N l ((x s).z - o.z)) * ((velOf (p s)).z * SpeedOfLight) * e
  have hd2 : ∀ s, t0 ≤ s → s ≤ t0 + T → HasDerivAt (fun s => (p s).x ^ 2 + (p s).y ^ 2 + (p s).z ^ 2) 0 s := by
    intro s a b
    obtain ⟨EB, hE, hv⟩ := hm.momentum s a b
    change Und.fieldAt B l N ts o s (x s) = _ at hE
    rw [Und.fieldAt_eq B hN hl] at hE
    cases hE
    refine (((hv.1.pow 2).add (hv.2.1.pow 2)).add (hv.2.2.pow 2)).congr_deriv ?_
    simp [cross, velOf]
    ring
  have c1 := constant_of_has_deriv_right_zero (a := t0) (b := t0 + T)
    (fun s hs => (hd s hs.1 hs.2).continuousAt.continuousWithinAt) (fun s hs => (hd s hs.1 hs.2.le).hasDerivWithinAt) t ⟨h1, h2⟩
  have c2 := constant_of_has_deriv_right_zero (a := t0) (b := t0 + T)
    (fun s hs => (hd2 s hs.1 hs.2).continuousAt.continuousWithinAt) (fun s hs => (hd2 s hs.1 hs.2.le).hasDerivWithinAt) t ⟨h1, h2⟩
  refine ⟨?_, c2⟩
  simp only [Und.amplitude] at c1
  linear_combination c1

/-- C105: in the inner `N - 1` periods, and at any height above the midplane, the horizontal momentum is a function of the place: it differs by the undulator
parameter times the difference of `cos * cosh`. -/
theorem C105_any_height (qm B l : ℝ) (N : ℤ) (hN : 1 ≤ N) (hl : 0 < l) (ts : ℝ) (o : Vec) (x p : ℝ → Vec) (t0 T : ℝ)
    (hm : Motion qm (LocalizedField (PlanarUndulator.Setup B l N).LocalField ts o).field x p t0 T)
    (hz : ∀ t, t0 ≤ t → t ≤ t0 + T → |(x t).z - o.z| ≤ ((N : ℝ) - 1) * l / 2) (t : ℝ) (h1 : t0 ≤ t) (h2 : t ≤ t0 + T) :
    (p t).x = (p t0).x + qm * B * l / (2 * Real.pi * SpeedOfLight) *
      (Real.cos (2 * Real.pi / l * ((x t).z - o.z)) * Real.cosh (2 * Real.pi / l * ((x t).y - o.y))
        - Real.cos (2 * Real.pi / l * ((x t0).z - o.z)) * Real.cosh (2 * Real.pi / l * ((x t0).y - o.y))) := by
  have hd : ∀ s, t0 ≤ s → s ≤ t0 + T → HasDerivAt (fun s => (p s).x - Und.amplitude qm B l *
      (Real.cos (2 * Real.pi / l * ((x s).z - o.z)) * Real.cosh (2 * Real.pi / l * ((x s).y - o.y)))) 0 s := by
    intro s a b
    obtain ⟨EB, hE, hv⟩ := hm.momentum s a b
    change Und.fieldAt B l N ts o s (x s) = _ at hE
    rw [Und.fieldAt_eq B hN hl] at hE
    cases hE
    have hz' := (hm.position s a b).2.2.sub_const o.z
    have hy' := (hm.position s a b).2.1.sub_const o.y
    have d1 := (hd_cos (2 * Real.pi / l) ((x s).z - o.z)).comp s hz'
    have d2 := (hd_cosh (2 * Real.pi / l) ((x s).y - o.y)).comp s hy'
    refine (hv.1.sub ((d1.mul d2).const_mul (Und.amplitude qm B l))).congr_deriv ?_
    have e := Und.amplitude_k qm B hl
    have f := envelope_flat N l hl ((x s).z - o.z) (hz s a b)
    simp only [cross, planarB, Function.comp, Vec.mul_x, Vec.mul_y, Vec.add_x, Vec.mul_z, Vec.sub_z, Vec.sub_y, Vec.zero_x, zero_add, f]
    linear_combination (Real.sin (2 * Real.pi / l * ((x s).z - o.z)) * Real.cosh (2 * Real.pi / l * ((x s).y - o.y)) * ((velOf (p s)).z * SpeedOfLight)
      - Real.cos (2 * Real.pi / l * ((x s).z - o.z)) * Real.sinh (2 * Real.pi / l * ((x s).y - o.y)) * ((velOf (p s)).y * SpeedOfLight)) * e
  have c1 := constant_of_has_deriv_right_zero (a := t0) (b := t0 + T)
    (fun s hs => (hd s hs.1 hs.2).continuousAt.continuousWithinAt) (fun s hs => (hd s hs.1 hs.2.le).hasDerivWithinAt) t ⟨h1, h2⟩
  simp only [Und.amplitude] at c1
  linear_combination c1

/-- C105: what the oscillation looks like: the cosine inside, no deflection outside, in between bounded by 1.16. -/
theorem C105_shape (N : ℤ) (l : ℝ) (hl : 0 < l) (z : ℝ) :
    (|z| ≤ ((N : ℝ) - 1) * l / 2 → swing N l z = Real.cos (2 * Real.pi / l * z)) ∧ (((N : ℝ) + 1) * l / 2 ≤ |z| → swing N l z = 0) ∧ |swing N l z| ≤ 1.16 := by
  refine ⟨fun h => ?_, fun h => ?_, ?_⟩
  · unfold swing; rw [if_pos h]
  · unfold swing
    rw [if_neg (not_le.mpr (by linarith)), if_neg (not_lt.mpr h)]
  · refine (Und.swing_bound N hl z).trans ?_
    have := Real.pi_gt_d2
    have h3 : 1 / (2 * Real.pi) ≤ 0.16 := by
      rw [div_le_iff₀ (by positivity)]
      linarith
    linarith

namespace Und

/-- the motion in the midplane exists -/
theorem exists_motion (qm B : ℝ) {l : ℝ} {N : ℤ} (hN : 1 ≤ N) (hl : 0 < l) (ts : ℝ) (o : Vec) (t0 : ℝ) (x0 p0 : Vec) (hy : x0.y = o.y) (hpy : p0.y = 0)
    (hpz : 0 < p0.z)
    (hK : ∀ z, |p0.x + amplitude qm B l * (swing N l z - swing N l (x0.z - o.z))| < p0.norm) :
    ∃ x p : ℝ → Vec, x t0 = x0 ∧ p t0 = p0 ∧ Smooth p ∧ (∀ t, (x t).y = o.y) ∧ (∀ t, 0 < (p t).z) ∧ ∀ T, Motion qm (fieldAt B l N ts o) x p t0 T := by
  obtain ⟨A, hA⟩ : ∃ A, A = amplitude qm B l := ⟨_, rfl⟩
  rw [← hA] at hK
  obtain ⟨f, hf⟩ : ∃ f : ℝ → ℝ, f = fun z => p0.x + A * (swing N l z - swing N l (x0.z - o.z)) := ⟨_, rfl⟩
  have hc := SpeedOfLight_pos
  have hfl : LipDiff 2 f := by
    rw [hf]
    exact (LipDiff.const 2 _).add ((LipDiff.const 2 _).mul ((swing_lipDiff hN hl).sub (LipDiff.const 2 _)))
  have hn2 : p0.norm ^ 2 = p0.abs2nd := by rw [norm_def, Real.sq_sqrt (abs2nd_nonneg p0)]
  have hpos : ∀ z, 0 < p0.abs2nd - f z ^ 2 := by
    intro z
    rw [← hn2]
    have := hK z
    rw [hf]
    have h1 := (sq_lt_sq₀ (abs_nonneg _) (Vec.norm_nonneg p0)).mpr this
    rw [sq_abs] at h1
    linarith
  obtain ⟨W, hW⟩ : ∃ W : ℝ → ℝ, W = fun z => Real.sqrt (p0.abs2nd - f z ^ 2) := ⟨_, rfl⟩
  have hWl : LipDiff 2 W := by
    rw [hW]
    have := (((LipDiff.const 2 p0.abs2nd).sub (hfl.mul hfl))).sqrt (fun z => by have := hpos z; rw [sq] at this; exact this.ne')
    simpa only [sq] using this
  have hWp : ∀ z, 0 < W z := fun z => by rw [hW]; exact Real.sqrt_pos.mpr (hpos z)
  have hWsq : ∀ z, W z ^ 2 = p0.abs2nd - f z ^ 2 := fun z => by rw [hW]; exact Real.sq_sqrt (hpos z).le
  obtain ⟨g, hg⟩ : ∃ g, g = Real.sqrt (1 + p0.abs2nd) := ⟨_, rfl⟩
  have hgp : 0 < g := by rw [hg]; exact Real.sqrt_pos.mpr (by have := abs2nd_nonneg p0; linarith)
  have hvl : LipDiff 2 (fun z => W z * (SpeedOfLight / g)) := hWl.mul (LipDiff.const 2 _)
  obtain ⟨z, hz0, hz⟩ := travel (v := fun z => W z * (SpeedOfLight / g)) hvl.continuous (fun z => mul_pos (hWp z) (by positivity))
    (c := p0.norm * (SpeedOfLight / g)) (fun z => by
      refine mul_le_mul_of_nonneg_right ?_ (by positivity)
      refine abs_le_of_sq_le_sq' ?_ (Vec.norm_nonneg _) |>.2
      rw [hWsq, hn2]
      nlinarith [sq_nonneg (f z)]) t0 (x0.z - o.z)
  have hzl := travel_lipDiff hvl hz
  have hfz : f (z t0) = p0.x := by rw [hz0, hf]; simp
  have hWz : W (z t0) = p0.z := by
    rw [hW]
    simp only [hfz]
    rw [show p0.abs2nd - p0.x ^ 2 = p0.z ^ 2 by unfold abs2nd; rw [hpy]; ring]
    exact Real.sqrt_sq hpz.le
  have hcf : Continuous (fun t => f (z t) * (SpeedOfLight / g)) := (hfl.continuous.comp hzl.continuous).mul continuous_const
  have hf' : ∀ s, HasDerivAt (fun t => f (z t)) (-(qm / SpeedOfLight * B) * (Real.sin (2 * Real.pi / l * z s) * envelope N l (z s)) * (W (z s) * (SpeedOfLight / g))) s := by
    intro s
    have h1 := (((swing_deriv hN hl (z s)).sub_const (swing N l (x0.z - o.z))).const_mul A).const_add p0.x
    have h2 := h1
    rw [← hf] at h2
    refine (h2.comp s (hz s)).congr_deriv ?_
    have e := amplitude_k qm B hl
    rw [← hA] at e
    linear_combination -((Real.sin (2 * Real.pi / l * z s) * envelope N l (z s)) * (W (z s) * (SpeedOfLight / g))) * e
  have hW' : ∀ s, HasDerivAt (fun t => W (z t)) ((qm / SpeedOfLight * B) * (Real.sin (2 * Real.pi / l * z s) * envelope N l (z s)) * (f (z s) * (SpeedOfLight / g))) s := by
    intro s
    have h1 := ((hf' s).pow 2).const_sub p0.abs2nd
    have h2 := h1.sqrt (hpos (z s)).ne'
    have h3 : (fun t => W (z t)) = fun t => Real.sqrt (p0.abs2nd - f (z t) ^ 2) := by rw [hW]
    rw [h3]
    refine h2.congr_deriv ?_
    have h4 : Real.sqrt (p0.abs2nd - f (z s) ^ 2) = W (z s) := by rw [hW]
    simp only [Pi.pow_apply]
    rw [h4]
    have h5 := (hWp (z s)).ne'
    field_simp
    simp
    ring
  have hgam : ∀ t, Real.sqrt (1 + (⟨f (z t), 0, W (z t)⟩ : Vec).abs2nd) = g := by
    intro t
    rw [hg]
    congr 2
    have := hWsq (z t)
    unfold abs2nd
    unfold abs2nd at this
    linear_combination this
  refine ⟨fun t => ⟨x0.x + ∫ s in t0..t, f (z s) * (SpeedOfLight / g), o.y, z t + o.z⟩, fun t => ⟨f (z t), 0, W (z t)⟩, ?_, ?_, ⟨?_, ?_, ?_⟩, fun _ => rfl, fun t => hWp (z t), fun T => ⟨?_, ?_⟩⟩
  · ext
    · simp
    · exact hy.symm
    · simp only [hz0]; ring
  · ext
    · exact hfz
    · exact hpy.symm
    · exact hWz
  · exact hfl.comp hzl
  · exact LipDiff.const 2 0
  · exact hWl.comp hzl
  · intro t _ _
    refine ⟨?_, ?_, ?_⟩
    · refine ((intervalIntegral.integral_hasDerivAt_right (hcf.intervalIntegrable _ _) (hcf.stronglyMeasurableAtFilter _ _) hcf.continuousAt).const_add x0.x).congr_deriv ?_
      simp only [velOf, hgam, Vec.div_x, Vec.mul_x]
      ring
    · refine (hasDerivAt_const t o.y).congr_deriv ?_
      simp [velOf]
    · refine ((hz t).add_const o.z).congr_deriv ?_
      simp only [velOf, hgam, Vec.div_z, Vec.mul_z]
      ring
  · intro t _ _
    refine ⟨_, fieldAt_eq B hN hl ts o t _, ?_⟩
    rw [midplane B l N _ (by simp)]
    have e1 : ∀ w : ℝ, w + o.z - o.z = w := fun w => by ring
    refine ⟨?_, ?_, ?_⟩
    · refine (hf' t).congr_deriv ?_
      simp only [velOf, hgam, cross, Vec.div_x, Vec.div_y, Vec.div_z, Vec.mul_x, Vec.mul_y, Vec.mul_z, Vec.add_x, Vec.sub_z, Vec.zero_x, e1]
      ring
    · refine (hasDerivAt_const t (0 : ℝ)).congr_deriv ?_
      simp [velOf, cross]
    · refine (hW' t).congr_deriv ?_
      simp only [velOf, hgam, cross, Vec.div_x, Vec.div_y, Vec.div_z, Vec.mul_x, Vec.mul_y, Vec.mul_z, Vec.add_z, Vec.sub_z, Vec.zero_z, e1]
      ring

end Und

/-- C105: end to end.  A particle is tracked with the Vay algorithm through a planar undulator; it starts in the midplane, moves forward, and its momentum is
large enough that the oscillation does not turn it around.  Then no step fails, and at every stored point the horizontal momentum is that of the oscillation at
the stored place, no vertical momentum or offset appears and the magnitude of the momentum is kept, all up to a constant times the square of the time step. -/
theorem C105_tracked (qm B l : ℝ) (N : ℤ) (hN : 1 ≤ N) (hl : 0 < l) (ts : ℝ) (o : Vec) (t0 T : ℝ) (hT : 0 ≤ T) (x0 p0 : Vec) (hy : x0.y = o.y) (hpy : p0.y = 0)
    (hpz : 0 < p0.z)
    (hK : ∀ z, |p0.x + qm * B * l / (2 * Real.pi * SpeedOfLight) * (swing N l z - swing N l (x0.z - o.z))| < p0.norm) :
    ∃ C h0 : ℝ, 0 < h0 ∧ ∀ h : ℝ, 0 < h → h ≤ h0 → ∀ n : ℕ, n * h ≤ T →
      ∀ a : Particle, a.Reachable → a.Mass ≠ 0 → a.Charge / a.Mass * InvRestMass = qm →
        a.TrajTime (a.getNP - 1 : Nat) = .ok t0 → a.TrajPoint (a.getNP - 1 : Nat) = .ok x0 → a.TrajMomentum (a.getNP - 1 : Nat) = .ok p0 →
        ∃ a1 a2, a.InitVay h (LocalizedField (PlanarUndulator.Setup B l N).LocalField ts o).field = .ok a1 ∧
          a1.steps (List.replicate n (LocalizedField (PlanarUndulator.Setup B l N).LocalField ts o).field) = .ok a2 ∧
          ∀ k : ℕ, k ≤ n → ∃ X P, a2.TrajPoint (a.getNP - 1 + k : Nat) = .ok X ∧ a2.TrajMomentum (a.getNP - 1 + k : Nat) = .ok P ∧
            |P.x - (p0.x + qm * B * l / (2 * Real.pi * SpeedOfLight) * (swing N l (X.z - o.z) - swing N l (x0.z - o.z)))| ≤ C * h ^ 2 ∧
            |P.y| ≤ C * h ^ 2 ∧ |X.y - o.y| ≤ C * h ^ 2 ∧ |P.norm - p0.norm| ≤ C * h ^ 2 := by
  obtain ⟨x, p, hx0, hp0, hp, hxy, -, hm⟩ := Und.exists_motion qm B hN hl ts o t0 x0 p0 hy hpy hpz hK
  obtain ⟨L, hL, ht⟩ := Und.tame B hN hl
  obtain ⟨C, h0, hh0, H⟩ := C92_second_order qm (Und.fieldAt B l N ts o) x p t0 T 1 L |B| (hm T) hp (ht ts o x t0 T fun t _ _ => hxy t) one_pos hL hT
  have hpi := Real.pi_pos
  set A := Und.amplitude qm B l with hA
  have hk : 0 ≤ 2 * Real.pi / l := by positivity
  refine ⟨|C| + |A| * (2 * Real.pi / l * |C|), h0, hh0, ?_⟩
  intro h hh hhh n hn a ha hmass hqm h1 h2 h3
  obtain ⟨a1, a2, e1, e2, H2⟩ := H h hh hhh n hn a ha hmass hqm h1 (by rw [hx0]; exact h2) (by rw [hp0]; exact h3)
  refine ⟨a1, a2, e1, e2, fun k hk' => ?_⟩
  obtain ⟨X, P, -, -, f1, f2, -, g1, g2, -⟩ := H2 k hk'
  have hkh : (k : ℝ) * h ≤ T := by
    have : (k : ℝ) ≤ n := by exact_mod_cast hk'
    nlinarith
  have hkh0 : 0 ≤ (k : ℝ) * h := by positivity
  set t := t0 + k * h with ht'
  obtain ⟨o1, o2⟩ := C105_oscillation qm B l N hN hl ts o x p t0 T (hm T) (fun t _ _ => hxy t) t (by linarith) (by linarith)
  obtain ⟨-, q2⟩ := C105_oscillation qm B l N hN hl ts o x p t0 T (hm T) (fun t _ _ => hxy t) t (by linarith) (by linarith)
  have hC : C * h ^ 2 ≤ |C| * h ^ 2 := mul_le_mul_of_nonneg_right (le_abs_self C) (sq_nonneg h)
  have gX := g1.trans hC
  have gP := g2.trans hC
  have hCh : 0 ≤ |C| * h ^ 2 := by positivity
  have hR : 0 ≤ |A| * (2 * Real.pi / l * |C|) * h ^ 2 := by positivity
  have cX := Und.comps_le (X - x t)
  have cP := Und.comps_le (P - p t)
  simp only [Vec.sub_x, Vec.sub_y, Vec.sub_z] at cX cP
  have hsw := Und.swing_lip hN hl ((x t).z - o.z) (X.z - o.z)
  have hpn : (p t).norm = p0.norm := by
    rw [norm_def, norm_def, ← hp0]
    congr 1
    unfold abs2nd
    linear_combination q2
  have hpy' : (p t).y = 0 := by
    have hd : ∀ s, t0 ≤ s → s ≤ t0 + T → HasDerivAt (fun s => (p s).y) 0 s := by
      intro s a b
      obtain ⟨EB, hE, hv⟩ := (hm T).momentum s a b
      rw [Und.fieldAt_eq B hN hl] at hE
      cases hE
      refine hv.2.1.congr_deriv ?_
      rw [Und.midplane B l N _ (by simp [hxy s])]
      simp [cross]
    have := constant_of_has_deriv_right_zero (a := t0) (b := t0 + T)
      (fun s hs => (hd s hs.1 hs.2).continuousAt.continuousWithinAt) (fun s hs => (hd s hs.1 hs.2.le).hasDerivWithinAt) t ⟨by linarith, by linarith⟩
    rw [this, hp0, hpy]
  refine ⟨X, P, f1, f2, ?_, ?_, ?_, ?_⟩
  · rw [hx0, hp0] at o1
    have e : P.x - (p0.x + qm * B * l / (2 * Real.pi * SpeedOfLight) * (swing N l (X.z - o.z) - swing N l (x0.z - o.z)))
        = (P.x - (p t).x) + A * (swing N l ((x t).z - o.z) - swing N l (X.z - o.z)) := by
      rw [hA]
      unfold Und.amplitude
      linear_combination o1
    rw [e]
    refine (abs_add_le _ _).trans ?_
    rw [abs_mul]
    have s1 : |(x t).z - o.z - (X.z - o.z)| ≤ |C| * h ^ 2 := by
      rw [show (x t).z - o.z - (X.z - o.z) = -(X.z - (x t).z) by ring, abs_neg]
      exact cX.2.2.trans gX
    have s2 := mul_le_mul_of_nonneg_left (hsw.trans (mul_le_mul_of_nonneg_left s1 hk)) (abs_nonneg A)
    have s3 := cP.1.trans gP
    linarith
  · have := cP.2.1.trans gP
    rw [hpy', sub_zero] at this
    linarith
  · have := cX.2.1.trans gX
    rw [hxy] at this
    linarith
  · rw [← hpn]
    have := (Und.abs_norm_sub P (p t)).trans gP
    linarith

/-- C105: a tracked particle that started in front of the undulator and has left it is not deflected, up to a constant times the square of the time step. -/
theorem C105_no_net_deflection (qm B l : ℝ) (N : ℤ) (hN : 1 ≤ N) (hl : 0 < l) (ts : ℝ) (o : Vec) (t0 T : ℝ) (hT : 0 ≤ T) (x0 p0 : Vec) (hy : x0.y = o.y) (hpy : p0.y = 0)
    (hpz : 0 < p0.z) (hx0 : x0.z - o.z ≤ -(((N : ℝ) + 1) * l / 2)) (hK : |p0.x| + 1.16 * |qm * B * l / (2 * Real.pi * SpeedOfLight)| < p0.norm) :
    ∃ C h0 : ℝ, 0 < h0 ∧ ∀ h : ℝ, 0 < h → h ≤ h0 → ∀ n : ℕ, n * h ≤ T →
      ∀ a : Particle, a.Reachable → a.Mass ≠ 0 → a.Charge / a.Mass * InvRestMass = qm →
        a.TrajTime (a.getNP - 1 : Nat) = .ok t0 → a.TrajPoint (a.getNP - 1 : Nat) = .ok x0 → a.TrajMomentum (a.getNP - 1 : Nat) = .ok p0 →
        ∃ a1 a2, a.InitVay h (LocalizedField (PlanarUndulator.Setup B l N).LocalField ts o).field = .ok a1 ∧
          a1.steps (List.replicate n (LocalizedField (PlanarUndulator.Setup B l N).LocalField ts o).field) = .ok a2 ∧
          ∀ k : ℕ, k ≤ n → ∃ X P, a2.TrajPoint (a.getNP - 1 + k : Nat) = .ok X ∧ a2.TrajMomentum (a.getNP - 1 + k : Nat) = .ok P ∧
            (|X.z - o.z| ≤ ((N : ℝ) - 1) * l / 2 →
              |P.x - (p0.x + qm * B * l / (2 * Real.pi * SpeedOfLight) * Real.cos (2 * Real.pi / l * (X.z - o.z)))| ≤ C * h ^ 2) ∧
            (((N : ℝ) + 1) * l / 2 ≤ X.z - o.z → |P.x - p0.x| ≤ C * h ^ 2) := by
  have hN' : (1 : ℝ) ≤ N := by exact_mod_cast hN
  have hb : 0 ≤ ((N : ℝ) + 1) * l / 2 := by positivity
  have hsw0 : swing N l (x0.z - o.z) = 0 := (C105_shape N l hl _).2.1 (by rw [abs_of_nonpos (by linarith)]; linarith)
  obtain ⟨C, h0, hh0, H⟩ := C105_tracked qm B l N hN hl ts o t0 T hT x0 p0 hy hpy hpz (fun z => by
    rw [hsw0, sub_zero]
    refine lt_of_le_of_lt (abs_add_le _ _) (lt_of_le_of_lt ?_ hK)
    rw [abs_mul]
    have := (C105_shape N l hl z).2.2
    have h1 := abs_nonneg (qm * B * l / (2 * Real.pi * SpeedOfLight))
    nlinarith)
  refine ⟨C, h0, hh0, fun h hh hhh n hn a ha hmass hqm h1 h2 h3 => ?_⟩
  obtain ⟨a1, a2, e1, e2, H2⟩ := H h hh hhh n hn a ha hmass hqm h1 h2 h3
  refine ⟨a1, a2, e1, e2, fun k hk => ?_⟩
  obtain ⟨X, P, f1, f2, g, -⟩ := H2 k hk
  rw [hsw0, sub_zero] at g
  refine ⟨X, P, f1, f2, fun hz => ?_, fun hz => ?_⟩
  · rw [(C105_shape N l hl _).1 hz] at g
    exact g
  · rw [(C105_shape N l hl _).2.1 (by rw [abs_of_nonneg (by linarith)]; exact hz), mul_zero, add_zero] at g
    exact g

/-- C105: the amplitude of the oscillation of a particle of the charge `q` (in units of e) and the mass `m` (in units of the mass of the electron) is the reported
undulator parameter times `q / m`, up to the precision of the natural constants in the program. -/
theorem C105_amplitude (q m B l : ℝ) (N : ℤ) :
    AgreeWithin 1e-8 (q / m * InvRestMass * B * l / (2 * Real.pi * SpeedOfLight)) (q / m * (PlanarUndulator.Setup B l N).GetKpeak) := by
  have h2 : Real.sqrt 2 ≠ 0 := by positivity
  have hpi := Real.pi_pos
  have e1 : q / m * (PlanarUndulator.Setup B l N).GetKpeak = SpeedOfLight / mecsquared * (q / m * (B * l / (2 * Real.pi))) := by
    simp only [PlanarUndulator.GetKpeak, PlanarUndulator.Setup, Pi]
    field_simp
  have hc := SpeedOfLight_ne
  have e2 : q / m * InvRestMass * B * l / (2 * Real.pi * SpeedOfLight) = InvRestMass / SpeedOfLight * (q / m * (B * l / (2 * Real.pi))) := by
    field_simp
  rw [e1, e2]
  unfold AgreeWithin
  rw [← sub_mul, abs_mul, abs_mul (SpeedOfLight / mecsquared), ← mul_assoc]
  refine mul_le_mul_of_nonneg_right ?_ (abs_nonneg _)
  unfold InvRestMass SpeedOfLight mecsquared
  norm_num [abs_le]

/-- non-vacuity: an electron of 100 MeV in an undulator of 40 periods of 30 mm with 0.5 T, started one metre in front of the centre -/
example : ∃ (B l : ℝ) (N : ℤ) (x0 p0 o : Vec), B ≠ 0 ∧ 1 ≤ N ∧ 0 < l ∧ x0.y = o.y ∧ p0.y = 0 ∧ 0 < p0.z ∧ x0.z - o.z ≤ -(((N : ℝ) + 1) * l / 2) ∧
    |p0.x| + 1.16 * |(-1) / 1 * InvRestMass * B * l / (2 * Real.pi * SpeedOfLight)| < p0.norm := by
  refine ⟨0.5, 0.03, 40, ⟨0, 0, -1⟩, ⟨0, 0, 200⟩, 0, by norm_num, by norm_num, by norm_num, rfl, rfl, by norm_num, by norm_num, ?_⟩
  have hn : (⟨0, 0, 200⟩ : Vec).norm = 200 := by
    rw [norm_def]
    unfold abs2nd
    rw [show (0 : ℝ) * 0 + 0 * 0 + 200 * 200 = 200 ^ 2 by norm_num]
    exact Real.sqrt_sq (by norm_num)
  have h3 := Real.pi_gt_three
  have hc := SpeedOfLight_pos
  rw [hn, abs_div, abs_of_pos (show 0 < 2 * Real.pi * SpeedOfLight by positivity)]
  have : |(-1) / 1 * InvRestMass * 0.5 * 0.03| / (2 * Real.pi * SpeedOfLight) ≤ 2 := by
    rw [div_le_iff₀ (by positivity)]
    have e : |(-1) / 1 * InvRestMass * 0.5 * 0.03| = InvRestMass * 0.015 := by
      unfold InvRestMass
      norm_num [abs_of_neg]
    rw [e]
    have h4 : InvRestMass * 0.015 ≤ 2 * (2 * 3 * SpeedOfLight) := by unfold InvRestMass SpeedOfLight; norm_num
    nlinarith
  simp only [abs_zero]
  linarith

end Teufel
