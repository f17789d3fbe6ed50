import Verif.Props.UndulatorMotion
import Mathlib.Analysis.SpecialFunctions.Integrals.Basic

/-!
# C106: the resonance condition of undulator radiation

`resonantWavelength` and `slip` are defined in Spec/Undulator.
-/

namespace Teufel
open Vec

namespace Und

/-- bounds for the inverse of the longitudinal velocity -/
theorem inverse_bounds {b u : ℝ} (hb : 0 ≤ b) (hu0 : 0 ≤ u) (hu : u ≤ 1 / 2) (h : b ^ 2 = 1 - u) : b * (1 + u / 2) ≤ 1 ∧ 1 ≤ b * (1 + u / 2 + u ^ 2) := by
  constructor
  · refine abs_le_of_sq_le_sq' ?_ zero_le_one |>.2
    rw [mul_pow, h]
    nlinarith [sq_nonneg u, mul_nonneg hu0 (sq_nonneg u)]
  · refine abs_le_of_sq_le_sq' (a := 1) ?_ (by positivity) |>.2
    rw [mul_pow, h]
    have h2 := sq_nonneg u
    nlinarith [mul_nonneg h2 (sub_nonneg.mpr hu), mul_nonneg (mul_nonneg h2 hu0) (sub_nonneg.mpr hu), mul_nonneg (mul_nonneg h2 h2) (sub_nonneg.mpr hu), mul_nonneg h2 hu0, mul_nonneg h2 h2]

theorem mono_of_deriv {f f' : ℝ → ℝ} {a b : ℝ} (hd : ∀ t, a ≤ t → t ≤ b → HasDerivAt f (f' t) t) (h0 : ∀ t, a ≤ t → t ≤ b → 0 ≤ f' t) (hab : a ≤ b) : f a ≤ f b := by
  have := monotoneOn_of_deriv_nonneg (convex_Icc a b) (f := f) (fun t ht => (hd t ht.1 ht.2).continuousAt.continuousWithinAt)
    (fun t ht => (hd t (interior_subset ht).1 (interior_subset ht).2).differentiableAt.differentiableWithinAt)
    (fun t ht => by rw [(hd t (interior_subset ht).1 (interior_subset ht).2).deriv]; exact h0 t (interior_subset ht).1 (interior_subset ht).2)
  exact this ⟨le_rfl, hab⟩ ⟨hab, le_rfl⟩ hab

/-- the vertical momentum in the midplane -/
theorem vertical {qm B l : ℝ} {N : ℤ} (hN : 1 ≤ N) (hl : 0 < l) {ts : ℝ} {o : Vec} {x p : ℝ → Vec} {t0 T : ℝ} (hm : Motion qm (fieldAt B l N ts o) x p t0 T)
    (hy : ∀ t, t0 ≤ t → t ≤ t0 + T → (x t).y = o.y) {t : ℝ} (h1 : t0 ≤ t) (h2 : t ≤ t0 + T) : (p t).y = (p t0).y := by
  have hd : ∀ s, t0 ≤ s → s ≤ t0 + T → HasDerivAt (fun s => (p s).y) 0 s := by
    intro s a b
    obtain ⟨EB, hE, hv⟩ := hm.momentum s a b
    rw [fieldAt_eq B hN hl] at hE
    cases hE
    refine hv.2.1.congr_deriv ?_
    rw [midplane B l N _ (by simp [hy s a b])]
    simp [cross]
  exact constant_of_has_deriv_right_zero (a := t0) (b := t0 + T)
    (fun s hs => (hd s hs.1 hs.2).continuousAt.continuousWithinAt) (fun s hs => (hd s hs.1 hs.2.le).hasDerivWithinAt) t ⟨h1, h2⟩

/-- light overtakes a particle whose horizontal momentum is a function `f` of the longitudinal position with `G' = 1 + f²` -/
theorem slippage {x p : ℝ → Vec} {t0 T γ w : ℝ} {f G : ℝ → ℝ} (hx : ∀ t, t0 ≤ t → t ≤ t0 + T → HasVelocity x (velOf (p t) * SpeedOfLight) t)
    (hγ : 0 < γ) (hpn : ∀ t, t0 ≤ t → t ≤ t0 + T → 1 + (p t).abs2nd = γ ^ 2) (hpy : ∀ t, t0 ≤ t → t ≤ t0 + T → (p t).y = 0)
    (hpz : ∀ t, t0 ≤ t → t ≤ t0 + T → 0 ≤ (p t).z) {oz : ℝ} (hf : ∀ t, t0 ≤ t → t ≤ t0 + T → (p t).x = f ((x t).z - oz)) (hG : ∀ z, HasDerivAt G (1 + f z ^ 2) z)
    (hw : ∀ z, (1 + f z ^ 2) / γ ^ 2 ≤ w) (hw2 : w ≤ 1 / 2) {s t : ℝ} (h1 : t0 ≤ s) (h2 : s ≤ t) (h3 : t ≤ t0 + T) :
    0 ≤ SpeedOfLight * (t - s) - ((x t).z - (x s).z) - (G ((x t).z - oz) - G ((x s).z - oz)) / (2 * γ ^ 2) ∧
    SpeedOfLight * (t - s) - ((x t).z - (x s).z) - (G ((x t).z - oz) - G ((x s).z - oz)) / (2 * γ ^ 2) ≤ ((x t).z - (x s).z) * w ^ 2 := by
  have hc := SpeedOfLight_pos
  have hvz : ∀ r, t0 ≤ r → r ≤ t0 + T → HasDerivAt (fun r => (x r).z) ((p r).z / γ * SpeedOfLight) r := by
    intro r a b
    refine (hx r a b).2.2.congr_deriv ?_
    simp only [velOf, Vec.mul_z, Vec.div_z]
    rw [hpn r a b, Real.sqrt_sq hγ.le]
  have hF : ∀ r, t0 ≤ r → r ≤ t0 + T → HasDerivAt (fun r => SpeedOfLight * r - (x r).z - G ((x r).z - oz) / (2 * γ ^ 2))
      (SpeedOfLight * (1 - (p r).z / γ * (1 + (1 + f ((x r).z - oz) ^ 2) / γ ^ 2 / 2))) r := by
    intro r a b
    have d1 := ((hasDerivAt_id r).const_mul SpeedOfLight).sub (hvz r a b)
    have d2 := ((hG ((x r).z - oz)).comp r ((hvz r a b).sub_const oz)).div_const (2 * γ ^ 2)
    refine (d1.sub d2).congr_deriv ?_
    field_simp
    ring
  have key : ∀ r, t0 ≤ r → r ≤ t0 + T → (p r).z / γ * (1 + (1 + f ((x r).z - oz) ^ 2) / γ ^ 2 / 2) ≤ 1 ∧
      1 ≤ (p r).z / γ * (1 + (1 + f ((x r).z - oz) ^ 2) / γ ^ 2 / 2 + ((1 + f ((x r).z - oz) ^ 2) / γ ^ 2) ^ 2) := by
    intro r a b
    refine inverse_bounds (div_nonneg (hpz r a b) hγ.le) (by positivity) ((hw _).trans hw2) ?_
    have e := hpn r a b
    unfold abs2nd at e
    rw [hpy r a b, hf r a b] at e
    rw [div_pow, ← sub_eq_zero]
    field_simp
    linear_combination e
  constructor
  · have := mono_of_deriv (a := s) (b := t) (fun r a b => hF r (by linarith) (by linarith)) (fun r a b => by
      have := (key r (by linarith) (by linarith)).1
      exact mul_nonneg hc.le (by linarith)) h2
    rw [sub_div]
    linarith
  · have := mono_of_deriv (a := s) (b := t) (fun r a b => ((hvz r (by linarith) (by linarith)).mul_const (w ^ 2)).sub (hF r (by linarith) (by linarith))) (fun r a b => by
      have h5 := (key r (by linarith) (by linarith)).2
      have h6 := hw ((x r).z - oz)
      have h7 : ((1 + f ((x r).z - oz) ^ 2) / γ ^ 2) ^ 2 ≤ w ^ 2 := pow_le_pow_left₀ (by positivity) h6 2
      have h8 : 0 ≤ (p r).z / γ := div_nonneg (hpz r (by linarith) (by linarith)) hγ.le
      have h9 : (p r).z / γ * ((1 + f ((x r).z - oz) ^ 2) / γ ^ 2) ^ 2 ≤ (p r).z / γ * w ^ 2 := mul_le_mul_of_nonneg_left h7 h8
      have : 0 ≤ SpeedOfLight * ((p r).z / γ * w ^ 2 - (1 - (p r).z / γ * (1 + (1 + f ((x r).z - oz) ^ 2) / γ ^ 2 / 2))) := mul_nonneg hc.le (by linarith)
      linarith) h2
    simp only [Pi.sub_apply] at this
    rw [sub_div]
    linarith

theorem slip_deriv (K p : ℝ) {l : ℝ} (hl : 0 < l) (z : ℝ) : HasDerivAt (slip l K p) (1 + (p + K * Real.cos (2 * Real.pi / l * z)) ^ 2) z := by
  have hk : 2 * Real.pi / l ≠ 0 := by have := Real.pi_pos; positivity
  have d := (((hasDerivAt_id z).const_mul (1 + K ^ 2 / 2 + p ^ 2)).add (((hd_sin (2 * Real.pi / l) z).div_const (2 * Real.pi / l)).const_mul (2 * p * K))).add
    (((hd_sin (2 * (2 * Real.pi / l)) z).div_const (4 * (2 * Real.pi / l))).const_mul (K ^ 2))
  refine HasDerivAt.congr_deriv (f := slip l K p) d ?_
  generalize 2 * Real.pi / l = k at *
  rw [show 2 * k * z = 2 * (k * z) by ring, Real.cos_two_mul]
  field_simp
  ring

theorem slip_periods (l K p : ℝ) (hl : 0 < l) (m : ℤ) (z : ℝ) : slip l K p (z + m * l) - slip l K p z = m * l * (1 + K ^ 2 / 2 + p ^ 2) := by
  have e1 : Real.sin (2 * Real.pi / l * (z + m * l)) = Real.sin (2 * Real.pi / l * z) := by
    rw [show 2 * Real.pi / l * (z + m * l) = 2 * Real.pi / l * z + m * (2 * Real.pi) by field_simp]
    exact Real.sin_add_int_mul_two_pi _ _
  have e2 : Real.sin (2 * (2 * Real.pi / l) * (z + m * l)) = Real.sin (2 * (2 * Real.pi / l) * z) := by
    rw [show 2 * (2 * Real.pi / l) * (z + m * l) = 2 * (2 * Real.pi / l) * z + ((2 * m : ℤ) : ℝ) * (2 * Real.pi) by push_cast; field_simp]
    exact Real.sin_add_int_mul_two_pi _ _
  unfold slip
  rw [e1, e2]
  ring

end Und

/-- C106: while a particle moves in the midplane of an undulator through `m` of the inner periods, light overtakes it by `m` times the resonant wavelength;
the difference is of higher order in `1/γ²`. -/
theorem C106_resonance (qm B l : ℝ) (N : ℤ) (hN : 1 ≤ N) (hl : 0 < l) (ts : ℝ) (o : Vec) (x p : ℝ → Vec) (t0 T : ℝ) (hT : 0 ≤ T)
    (hm : Motion qm (LocalizedField (PlanarUndulator.Setup B l N).LocalField ts o).field x p t0 T)
    (hy : ∀ t, t0 ≤ t → t ≤ t0 + T → (x t).y = o.y) (hpy0 : (p t0).y = 0) (hpz : ∀ t, t0 ≤ t → t ≤ t0 + T → 0 < (p t).z)
    (hin : ∀ t, t0 ≤ t → t ≤ t0 + T → |(x t).z - o.z| ≤ ((N : ℝ) - 1) * l / 2)
    (γ K mean : ℝ) (hγ : γ = Real.sqrt (1 + (p t0).abs2nd)) (hK : K = qm * B * l / (2 * Real.pi * SpeedOfLight))
    (hmean : (p t0).x = mean + K * Real.cos (2 * Real.pi / l * ((x t0).z - o.z)))
    (hsmall : 2 * (1 + (|mean| + |K|) ^ 2) ≤ γ ^ 2) (m : ℕ) (hper : (x (t0 + T)).z = (x t0).z + m * l) :
    m * resonantWavelength l γ K mean ≤ SpeedOfLight * T - m * l ∧
    SpeedOfLight * T - m * l ≤ m * resonantWavelength l γ K mean + m * l * ((1 + (|mean| + |K|) ^ 2) / γ ^ 2) ^ 2 := by
  have hpi := Real.pi_pos
  have hγ0 : 0 < γ := by rw [hγ]; exact Real.sqrt_pos.mpr (by have := abs2nd_nonneg (p t0); linarith)
  have hγ2 : γ ^ 2 = 1 + (p t0).abs2nd := by rw [hγ]; exact Real.sq_sqrt (by have := abs2nd_nonneg (p t0); linarith)
  have hosc := fun t h1 h2 => C105_oscillation qm B l N hN hl ts o x p t0 T hm hy t h1 h2
  have hpy : ∀ t, t0 ≤ t → t ≤ t0 + T → (p t).y = 0 := by
    intro t h1 h2
    rw [Und.vertical hN hl hm hy h1 h2, hpy0]
  have hS := Und.slippage (w := (1 + (|mean| + |K|) ^ 2) / γ ^ 2) (f := fun z => mean + K * Real.cos (2 * Real.pi / l * z)) (G := slip l K mean) (oz := o.z)
    hm.position hγ0 (fun t h1 h2 => by
      rw [hγ2]
      have := (hosc t h1 h2).2
      unfold abs2nd
      linear_combination this) hpy (fun t h1 h2 => (hpz t h1 h2).le) (fun t h1 h2 => by
      have := (hosc t h1 h2).1
      rw [(C105_shape N l hl _).1 (hin t h1 h2), (C105_shape N l hl _).1 (hin t0 le_rfl (by linarith)), hmean, ← hK] at this
      rw [this]
      ring) (Und.slip_deriv K mean hl) (fun z => by
      refine div_le_div_of_nonneg_right ?_ (by positivity)
      have h1 : |mean + K * Real.cos (2 * Real.pi / l * z)| ≤ |mean| + |K| := by
        refine (abs_add_le _ _).trans ?_
        rw [abs_mul]
        have := mul_le_mul_of_nonneg_left (Real.abs_cos_le_one (2 * Real.pi / l * z)) (abs_nonneg K)
        linarith
      have := pow_le_pow_left₀ (abs_nonneg _) h1 2
      rw [sq_abs] at this
      linarith) (by rw [div_le_iff₀ (by positivity)]; linarith) (s := t0) (t := t0 + T) le_rfl (by linarith) le_rfl
  have hsl := Und.slip_periods l K mean hl m ((x t0).z - o.z)
  rw [hper, show (x t0).z + (m : ℝ) * l - o.z = (x t0).z - o.z + ((m : ℤ) : ℝ) * l by push_cast; ring, hsl] at hS
  have e : ((m : ℤ) : ℝ) * l * (1 + K ^ 2 / 2 + mean ^ 2) / (2 * γ ^ 2) = m * resonantWavelength l γ K mean := by
    unfold resonantWavelength
    push_cast
    field_simp
  rw [e] at hS
  constructor <;> [linarith [hS.1]; linarith [hS.2]]

private theorem transfer {q z z' X X' g g' v ε : ℝ} (hv : v ≤ 1) (hv0 : 0 ≤ v) (h1 : |X - z| ≤ ε) (h2 : |X' - z'| ≤ ε) (h3 : |g' - g| ≤ ε)
    (h4 : 0 ≤ q - (z' - z) - g) (h5 : q - (z' - z) - g ≤ (z' - z) * v) :
    g' - 5 * ε ≤ q - (X' - X) ∧ q - (X' - X) ≤ g' + (X' - X) * v + 5 * ε := by
  rw [abs_le] at h1 h2 h3
  have hd : (z' - z) - (X' - X) ≤ 2 * ε := by linarith
  have hε : 0 ≤ ε := by linarith
  have : ((z' - z) - (X' - X)) * v ≤ 2 * ε := by
    calc _ ≤ 2 * ε * v := mul_le_mul_of_nonneg_right hd hv0
      _ ≤ 2 * ε * 1 := mul_le_mul_of_nonneg_left hv (by linarith)
      _ = _ := by ring
  constructor <;> linarith

/-- C106: end to end.  A particle is tracked with the Vay algorithm through a planar undulator; it starts in the midplane in front of the undulator and moves
forward with a large momentum.  Whenever two stored points lie in the inner periods, light overtakes the particle between them by the distance given by the resonance
condition, up to terms of higher order in `1/γ²` and up to a constant times the square of the time step. -/
theorem C106_tracked (qm B l : ℝ) (N : ℤ) (hN : 1 ≤ N) (hl : 0 < l) (ts : ℝ) (o : Vec) (t0 T : ℝ) (hT : 0 ≤ T) (x0 p0 : Vec) (hy : x0.y = o.y) (hpy : p0.y = 0)
    (hpz : 0 < p0.z) (hx0 : x0.z - o.z ≤ -(((N : ℝ) + 1) * l / 2)) (γ K : ℝ) (hγ : γ = Real.sqrt (1 + p0.abs2nd)) (hK : K = qm * B * l / (2 * Real.pi * SpeedOfLight))
    (hsmall : 2 * (1 + (|p0.x| + 1.16 * |K|) ^ 2) ≤ γ ^ 2) :
    ∃ C h0 : ℝ, 0 < h0 ∧ ∀ h : ℝ, 0 < h → h ≤ h0 → ∀ n : ℕ, n * h ≤ T →
      ∀ a : Particle, a.Reachable → a.Mass ≠ 0 → a.Charge / a.Mass * InvRestMass = qm →
        a.TrajTime (a.getNP - 1 : Nat) = .ok t0 → a.TrajPoint (a.getNP - 1 : Nat) = .ok x0 → a.TrajMomentum (a.getNP - 1 : Nat) = .ok p0 →
        ∃ a1 a2, a.InitVay h (LocalizedField (PlanarUndulator.Setup B l N).LocalField ts o).field = .ok a1 ∧
          a1.steps (List.replicate n (LocalizedField (PlanarUndulator.Setup B l N).LocalField ts o).field) = .ok a2 ∧
          ∀ i j : ℕ, i ≤ j → j ≤ n → ∃ t t' X X',
            a2.TrajTime (a.getNP - 1 + i : Nat) = .ok t ∧ a2.TrajTime (a.getNP - 1 + j : Nat) = .ok t' ∧
            a2.TrajPoint (a.getNP - 1 + i : Nat) = .ok X ∧ a2.TrajPoint (a.getNP - 1 + j : Nat) = .ok X' ∧
            (|X.z - o.z| ≤ ((N : ℝ) - 1) * l / 2 → |X'.z - o.z| ≤ ((N : ℝ) - 1) * l / 2 →
              (slip l K p0.x (X'.z - o.z) - slip l K p0.x (X.z - o.z)) / (2 * γ ^ 2) - C * h ^ 2 ≤ SpeedOfLight * (t' - t) - (X'.z - X.z) ∧
              SpeedOfLight * (t' - t) - (X'.z - X.z) ≤ (slip l K p0.x (X'.z - o.z) - slip l K p0.x (X.z - o.z)) / (2 * γ ^ 2)
                + (X'.z - X.z) * ((1 + (|p0.x| + 1.16 * |K|) ^ 2) / γ ^ 2) ^ 2 + C * h ^ 2) := by
  have hN' : (1 : ℝ) ≤ N := by exact_mod_cast hN
  have hb : 0 ≤ ((N : ℝ) + 1) * l / 2 := by positivity
  have hsw0 : swing N l (x0.z - o.z) = 0 := (C105_shape N l hl _).2.1 (by rw [abs_of_nonpos (by linarith)]; linarith)
  have h20 := abs2nd_nonneg p0
  have hγ0 : 0 < γ := by rw [hγ]; exact Real.sqrt_pos.mpr (by linarith)
  have hγ2 : γ ^ 2 = 1 + p0.abs2nd := by rw [hγ]; exact Real.sq_sqrt (by linarith)
  obtain ⟨f, hf⟩ : ∃ f : ℝ → ℝ, f = fun z => p0.x + K * swing N l z := ⟨_, rfl⟩
  have hfb : ∀ z, |f z| ≤ |p0.x| + 1.16 * |K| := by
    intro z
    rw [hf]
    refine (abs_add_le _ _).trans ?_
    rw [abs_mul]
    have := mul_le_mul_of_nonneg_left (C105_shape N l hl z).2.2 (abs_nonneg K)
    linarith
  have hfb2 : ∀ z, f z ^ 2 ≤ (|p0.x| + 1.16 * |K|) ^ 2 := by
    intro z
    have := pow_le_pow_left₀ (abs_nonneg _) (hfb z) 2
    rwa [sq_abs] at this
  have hb0 : 0 ≤ |p0.x| + 1.16 * |K| := by positivity
  have hlt : ∀ z, |f z| < p0.norm := by
    intro z
    refine lt_of_le_of_lt (hfb z) ?_
    refine abs_lt_of_sq_lt_sq' ?_ (Vec.norm_nonneg p0) |>.2
    have : p0.norm ^ 2 = p0.abs2nd := by rw [norm_def, Real.sq_sqrt h20]
    rw [this]
    nlinarith [sq_nonneg (|p0.x| + 1.16 * |K|)]
  have hcf : Continuous (fun z => 1 + f z ^ 2) := by
    have : Continuous f := by rw [hf]; exact continuous_const.add (continuous_const.mul (Und.swing_lipDiff hN hl).continuous)
    fun_prop
  obtain ⟨G, hG⟩ : ∃ G : ℝ → ℝ, ∀ z, HasDerivAt G (1 + f z ^ 2) z :=
    ⟨fun z => ∫ u in (0 : ℝ)..z, (1 + f u ^ 2), fun z =>
      intervalIntegral.integral_hasDerivAt_right (hcf.intervalIntegrable _ _) (hcf.stronglyMeasurableAtFilter _ _) hcf.continuousAt⟩
  obtain ⟨w, hw⟩ : ∃ w, w = (1 + (|p0.x| + 1.16 * |K|) ^ 2) / γ ^ 2 := ⟨_, rfl⟩
  have hw0 : 0 ≤ w := by rw [hw]; positivity
  have hw2 : w ≤ 1 / 2 := by rw [hw, div_le_iff₀ (by positivity)]; linarith
  have hfw : ∀ z, (1 + f z ^ 2) / γ ^ 2 ≤ w := fun z => by
    rw [hw]
    exact div_le_div_of_nonneg_right (by linarith [hfb2 z]) (by positivity)
  have hGl : ∀ y z, |G y - G z| ≤ γ ^ 2 * |y - z| := by
    intro y z
    refine Taylor.mvt (a := min y z) (b := max y z) (fun t _ => hG t) (fun t _ => ?_) ⟨min_le_right _ _, le_max_right _ _⟩ ⟨min_le_left _ _, le_max_left _ _⟩
    rw [abs_of_nonneg (by positivity)]
    nlinarith [hfb2 t, sq_nonneg (|p0.x| + 1.16 * |K|)]
  have hflat : ∀ y z, |y| ≤ ((N : ℝ) - 1) * l / 2 → |z| ≤ ((N : ℝ) - 1) * l / 2 → G z - G y = slip l K p0.x z - slip l K p0.x y := by
    have key : ∀ z, |z| ≤ ((N : ℝ) - 1) * l / 2 → G z - slip l K p0.x z = G (-(((N : ℝ) - 1) * l / 2)) - slip l K p0.x (-(((N : ℝ) - 1) * l / 2)) := by
      intro z hz
      have hd : ∀ s ∈ Set.Icc (-(((N : ℝ) - 1) * l / 2)) (((N : ℝ) - 1) * l / 2), HasDerivAt (fun s => G s - slip l K p0.x s) 0 s := by
        intro s hs
        refine ((hG s).sub (Und.slip_deriv K p0.x hl s)).congr_deriv ?_
        rw [hf]
        simp only
        rw [(C105_shape N l hl s).1 (abs_le.mpr hs)]
        ring
      exact constant_of_has_deriv_right_zero (fun s hs => (hd s hs).continuousAt.continuousWithinAt) (fun s hs => (hd s ⟨hs.1, hs.2.le⟩).hasDerivWithinAt) z (abs_le.mp hz)
    intro y z hy hz
    have := key y hy
    have := key z hz
    linarith
  obtain ⟨x, p, ex0, ep0, hp, hxy, hppz, hm⟩ := Und.exists_motion qm B hN hl ts o t0 x0 p0 hy hpy hpz (fun z => by
    rw [hsw0, sub_zero]
    have := hlt z
    rw [hf] at this
    simp only [hK] at this
    exact this)
  obtain ⟨L, hL, ht⟩ := Und.tame B hN hl
  obtain ⟨C, h0, hh0, H⟩ := C92_second_order qm (Und.fieldAt B l N ts o) x p t0 T 1 L |B| (hm T) hp (ht ts o x t0 T fun t _ _ => hxy t) one_pos hL hT
  have hosc := fun t h1 h2 => C105_oscillation qm B l N hN hl ts o x p t0 T (hm T) (fun t _ _ => hxy t) t h1 h2
  refine ⟨5 * |C|, h0, hh0, ?_⟩
  intro h hh hhh n hn a ha hmass hqm h1 h2 h3
  obtain ⟨a1, a2, e1, e2, H2⟩ := H h hh hhh n hn a ha hmass hqm h1 (by rw [ex0]; exact h2) (by rw [ep0]; exact h3)
  refine ⟨a1, a2, e1, e2, fun i j hij hjn => ?_⟩
  obtain ⟨X, P, A, ft, fX, -, -, gX, -⟩ := H2 i (hij.trans hjn)
  obtain ⟨X', P', A', ft', fX', -, -, gX', -⟩ := H2 j hjn
  refine ⟨_, _, X, X', ft, ft', fX, fX', fun hz hz' => ?_⟩
  have hij' : (i : ℝ) ≤ j := by exact_mod_cast hij
  have hjn' : (j : ℝ) ≤ n := by exact_mod_cast hjn
  have hi0 : 0 ≤ (i : ℝ) * h := by positivity
  have hijh : (i : ℝ) * h ≤ j * h := mul_le_mul_of_nonneg_right hij' hh.le
  have hjh : (j : ℝ) * h ≤ T := (mul_le_mul_of_nonneg_right hjn' hh.le).trans hn
  have hS := Und.slippage (w := w) (f := f) (G := G) (oz := o.z) (hm T).position hγ0 (fun t h1 h2 => by
      rw [hγ2]
      have := (hosc t h1 h2).2
      rw [ep0] at this
      unfold abs2nd
      linear_combination this) (fun t h1 h2 => by rw [Und.vertical hN hl (hm T) (fun t _ _ => hxy t) h1 h2, ep0, hpy]) (fun t _ _ => (hppz t).le) (fun t h1 h2 => by
      have := (hosc t h1 h2).1
      rw [ex0, ep0, hsw0, sub_zero, ← hK] at this
      rw [this, hf]) hG hfw hw2 (s := t0 + i * h) (t := t0 + j * h) (by linarith) (by linarith) (by linarith)
  generalize t0 + (i : ℝ) * h = s at *
  generalize t0 + (j : ℝ) * h = t at *
  have hC : C * h ^ 2 ≤ |C| * h ^ 2 := mul_le_mul_of_nonneg_right (le_abs_self C) (sq_nonneg h)
  have cX := ((Und.comps_le (X - x s)).2.2.trans gX).trans hC
  have cX' := ((Und.comps_le (X' - x t)).2.2.trans gX').trans hC
  simp only [Vec.sub_z] at cX cX'
  have hG1 := hGl (X.z - o.z) ((x s).z - o.z)
  have hG2 := hGl (X'.z - o.z) ((x t).z - o.z)
  rw [sub_sub_sub_cancel_right] at hG1 hG2
  have hγp : 0 < γ ^ 2 := by positivity
  have hG1' := hG1.trans (mul_le_mul_of_nonneg_left cX hγp.le)
  have hG2' := hG2.trans (mul_le_mul_of_nonneg_left cX' hγp.le)
  rw [← hflat _ _ hz hz', ← hw]
  set ε := |C| * h ^ 2 with hε
  have hε0 : 0 ≤ ε := by rw [hε]; positivity
  have hd : ∀ u v : ℝ, |u - v| ≤ 2 * (γ ^ 2 * ε) → |u / (2 * γ ^ 2) - v / (2 * γ ^ 2)| ≤ ε := by
    intro u v huv
    rw [← sub_div, abs_div, abs_of_pos (show 0 < 2 * γ ^ 2 by positivity), div_le_iff₀ (by positivity)]
    linarith
  have hDG := hd (G (X'.z - o.z) - G (X.z - o.z)) (G ((x t).z - o.z) - G ((x s).z - o.z)) (by
    rw [abs_le] at hG1' hG2' ⊢
    constructor <;> linarith [hG1'.1, hG1'.2, hG2'.1, hG2'.2])
  have hw2' : w ^ 2 ≤ 1 := by nlinarith only [hw0, hw2]
  rw [show 5 * |C| * h ^ 2 = 5 * ε by rw [hε]; ring]
  exact transfer hw2' (sq_nonneg w) cX cX' hDG hS.1 hS.2

/-- C106: over `m` periods the distance of `C106_tracked` is `m` times the resonant wavelength. -/
theorem C106_wavelength (l γ K p : ℝ) (hl : 0 < l) (m : ℕ) (z : ℝ) :
    (slip l K p (z + m * l) - slip l K p z) / (2 * γ ^ 2) = m * resonantWavelength l γ K p := by
  have := Und.slip_periods l K p hl m z
  push_cast at this
  rw [this]
  unfold resonantWavelength
  ring

/-- non-vacuity of `C106_tracked`: an electron of 100 MeV in an undulator of 40 periods of 30 mm with 0.5 T -/
example : ∃ (B l K γ : ℝ) (N : ℤ) (x0 p0 o : Vec), B ≠ 0 ∧ 1 ≤ N ∧ 0 < l ∧ x0.y = o.y ∧ p0.y = 0 ∧ 0 < p0.z ∧ x0.z - o.z ≤ -(((N : ℝ) + 1) * l / 2) ∧
    K = (-1) / 1 * InvRestMass * B * l / (2 * Real.pi * SpeedOfLight) ∧ γ = Real.sqrt (1 + p0.abs2nd) ∧ 2 * (1 + (|p0.x| + 1.16 * |K|) ^ 2) ≤ γ ^ 2 := by
  refine ⟨0.5, 0.03, _, _, 40, ⟨0, 0, -1⟩, ⟨0, 0, 200⟩, 0, by norm_num, by norm_num, by norm_num, rfl, rfl, by norm_num, by norm_num, rfl, rfl, ?_⟩
  have h3 := Real.pi_gt_three
  have hc := SpeedOfLight_pos
  rw [Real.sq_sqrt (by unfold abs2nd; norm_num), abs_div, abs_of_pos (show 0 < 2 * Real.pi * SpeedOfLight by positivity)]
  have : |(-1) / 1 * InvRestMass * 0.5 * 0.03| / (2 * Real.pi * SpeedOfLight) ≤ 2 := by
    rw [div_le_iff₀ (by positivity)]
    have e : |(-1) / 1 * InvRestMass * 0.5 * 0.03| = InvRestMass * 0.015 := by
      unfold InvRestMass
      norm_num [abs_of_neg]
    rw [e]
    have h4 : InvRestMass * 0.015 ≤ 2 * (2 * 3 * SpeedOfLight) := by unfold InvRestMass SpeedOfLight; norm_num
    nlinarith
  have h0 : 0 ≤ |(-1) / 1 * InvRestMass * 0.5 * 0.03| / (2 * Real.pi * SpeedOfLight) := by positivity
  generalize |(-1) / 1 * InvRestMass * 0.5 * 0.03| / (2 * Real.pi * SpeedOfLight) = k at *
  simp only [abs_zero, abs2nd]
  nlinarith

/-- non-vacuity of `C106_resonance`: a particle which is deflected by an undulator of three periods and passes one of them -/
example : ∃ (qm : ℝ) (x p : ℝ → Vec) (T : ℝ), 0 ≤ T ∧ qm * 1 * 1 / (2 * Real.pi * SpeedOfLight) = 1 ∧
    Motion qm (LocalizedField (PlanarUndulator.Setup 1 1 3).LocalField 0 0).field x p 0 T ∧ (∀ t, 0 ≤ t → t ≤ 0 + T → (x t).y = (0 : Vec).y) ∧ (p 0).y = 0 ∧
    (∀ t, 0 ≤ t → t ≤ 0 + T → 0 < (p t).z) ∧ (∀ t, 0 ≤ t → t ≤ 0 + T → |(x t).z - (0 : Vec).z| ≤ (((3 : ℤ) : ℝ) - 1) * 1 / 2) ∧
    (p 0).x = 0 + 1 * Real.cos (2 * Real.pi / 1 * ((x 0).z - (0 : Vec).z)) ∧ 2 * (1 + (|(0 : ℝ)| + |(1 : ℝ)|) ^ 2) ≤ Real.sqrt (1 + (p 0).abs2nd) ^ 2 ∧
    (x (0 + T)).z = (x 0).z + ((1 : ℕ) : ℝ) * 1 := by
  have hc := SpeedOfLight_pos
  have hpi := Real.pi_pos
  have hA : Und.amplitude (2 * Real.pi * SpeedOfLight) 1 1 = 1 := by unfold Und.amplitude; field_simp
  have hs1 : swing 3 1 (-1) = 1 := by
    rw [(C105_shape 3 1 one_pos (-1)).1 (by norm_num), show 2 * Real.pi / 1 * (-1) = -(2 * Real.pi) by ring, Real.cos_neg, Real.cos_two_pi]
  have hn : (⟨1, 0, 10⟩ : Vec).norm ^ 2 = 101 := by rw [norm_def, Real.sq_sqrt (abs2nd_nonneg _)]; unfold abs2nd; norm_num
  obtain ⟨x, p, ex0, ep0, -, hxy, hpz, hm⟩ := Und.exists_motion (2 * Real.pi * SpeedOfLight) 1 (l := 1) (N := 3) (by norm_num) one_pos 0 0 0 ⟨0, 0, -1⟩ ⟨1, 0, 10⟩ rfl rfl (by norm_num) (fun z => by
    rw [hA]
    simp only [Vec.zero_z, sub_zero]
    rw [hs1, one_mul, add_sub_cancel]
    refine lt_of_le_of_lt (C105_shape 3 1 one_pos z).2.2 ?_
    refine abs_lt_of_sq_lt_sq' ?_ (Vec.norm_nonneg _) |>.2
    rw [hn]
    norm_num)
  have hosc := fun T t h1 h2 => C105_oscillation (2 * Real.pi * SpeedOfLight) 1 1 3 (by norm_num) one_pos 0 0 x p 0 T (hm T) (fun t _ _ => hxy t) t h1 h2
  have hp1 : ∀ t, 0 ≤ t → 9 ≤ (p t).z := by
    intro t ht
    obtain ⟨o1, o2⟩ := hosc t t ht (by linarith)
    rw [ex0, ep0] at o1
    rw [ep0] at o2
    have hA' : 2 * Real.pi * SpeedOfLight * 1 * 1 / (2 * Real.pi * SpeedOfLight) = 1 := hA
    simp only [Vec.zero_z, sub_zero, hs1, hA'] at o1
    have hb := abs_le.mp (C105_shape 3 1 one_pos ((x t).z)).2.2
    have hy := Und.vertical (by norm_num) one_pos (hm t) (fun t _ _ => hxy t) ht (by linarith)
    rw [ep0] at hy
    rw [hy] at o2
    have h1 : (p t).x ^ 2 ≤ 4 := by rw [o1]; nlinarith [hb.1, hb.2]
    have h2 : 81 ≤ (p t).z ^ 2 := by nlinarith
    nlinarith [hpz t]
  have hvz : ∀ t, 0 ≤ t → HasDerivAt (fun r => (x r).z) ((p t).z / Real.sqrt 102 * SpeedOfLight) t := by
    intro t ht
    refine ((hm t).position t ht (by linarith)).2.2.congr_deriv ?_
    simp only [velOf, Vec.mul_z, Vec.div_z]
    have := (hosc t t ht (by linarith)).2
    rw [ep0] at this
    rw [show (1 : ℝ) + (p t).abs2nd = 102 by unfold abs2nd; linear_combination this]
  have h102 : Real.sqrt 102 ≤ 11 := by rw [Real.sqrt_le_left (by norm_num)]; norm_num
  have h102' : 0 < Real.sqrt 102 := by positivity
  have hgrow : ∀ s t, 0 ≤ s → s ≤ t → (t - s) * (SpeedOfLight / 2) ≤ (x t).z - (x s).z := by
    intro s t hs hst
    have := Und.mono_of_deriv (a := s) (b := t) (f := fun r => (x r).z - r * (SpeedOfLight / 2)) (fun r a _ => (hvz r (by linarith)).sub ((hasDerivAt_id r).mul_const _)) (fun r a _ => by
      have h9 := hp1 r (by linarith)
      have : 1 / 2 ≤ (p r).z / Real.sqrt 102 := by rw [le_div_iff₀ h102']; linarith
      have := mul_le_mul_of_nonneg_right this hc.le
      linarith) hst
    linarith
  have hcont : ContinuousOn (fun r => (x r).z) (Set.Icc 0 (2 / SpeedOfLight)) := fun r hr => (hvz r hr.1).continuousAt.continuousWithinAt
  have hend := hgrow 0 (2 / SpeedOfLight) le_rfl (by positivity)
  rw [show (2 / SpeedOfLight - 0) * (SpeedOfLight / 2) = 1 by field_simp; ring, ex0] at hend
  obtain ⟨T, hT, hTz⟩ := intermediate_value_Icc (by positivity) hcont (show (0 : ℝ) ∈ Set.Icc ((x 0).z) ((x (2 / SpeedOfLight)).z) by
    rw [ex0]
    simp only at hend
    exact ⟨by norm_num, by linarith⟩)
  simp only at hTz
  refine ⟨2 * Real.pi * SpeedOfLight, x, p, T, hT.1, hA, hm T, fun t _ _ => hxy t, by rw [ep0], fun t _ _ => hpz t, ?_, ?_, ?_, ?_⟩
  · intro t h1 h2
    have a1 := hgrow 0 t le_rfl h1
    have a2 := hgrow t T h1 (by linarith)
    rw [ex0] at a1
    rw [hTz] at a2
    have a3 : 0 ≤ (t - 0) * (SpeedOfLight / 2) := mul_nonneg (by linarith) (by positivity)
    have a4 : 0 ≤ (T - t) * (SpeedOfLight / 2) := mul_nonneg (by linarith) (by positivity)
    simp only at a1
    rw [Vec.zero_z, sub_zero, abs_le]
    push_cast
    constructor <;> linarith
  · rw [ex0, ep0]
    simp only [Vec.zero_z, sub_zero]
    rw [show 2 * Real.pi / 1 * (-1) = -(2 * Real.pi) by ring, Real.cos_neg, Real.cos_two_pi]
    norm_num
  · rw [ep0, Real.sq_sqrt (by unfold abs2nd; norm_num)]
    unfold abs2nd
    norm_num
  · rw [zero_add, hTz, ex0]
    norm_num

end Teufel
