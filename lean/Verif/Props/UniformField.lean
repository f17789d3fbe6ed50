import Verif.Spec.Uniform
import Verif.Props.RadiatedField
import Verif.Props.Vector
import Mathlib.Analysis.SpecialFunctions.Integrals.Basic

/-!
# C115: the field of particles in uniform motion
-/

namespace Teufel
open Vec

/-- Heaviside's form of the field -/
theorem boosted_form (q : ℝ) (b r : Vec) (hb : b.abs2nd < 1) (s : ℝ) (hs : 0 < s) (h2 : s ^ 2 = r.abs2nd - (cross r b).abs2nd) :
    (boosted q b r).E = r * (q / (4 * Real.pi * EpsNull) * (1 - b.abs2nd) / s ^ 3) ∧ (boosted q b r).B = cross b r * (q / (4 * Real.pi * EpsNull) * (1 - b.abs2nd) / s ^ 3 / SpeedOfLight) := by
  set K := q / (4 * Real.pi * EpsNull) with hK
  have hpos : 0 < 1 - b.abs2nd := by linarith
  set g := lorentz b with hg
  have hg0 : 0 < g := by rw [hg]; unfold lorentz; positivity
  have hg2 : g ^ 2 * (1 - b.abs2nd) = 1 := by
    rw [hg]
    unfold lorentz
    rw [div_pow, Real.sq_sqrt hpos.le, one_pow]
    field_simp
  have hbb : b.abs2nd * g ^ 2 = g ^ 2 - 1 := by linear_combination -hg2
  have h1g : (1 + g) ≠ 0 := by linarith
  have hk : b.abs2nd * (g ^ 2 / (1 + g)) = g - 1 := by
    rw [← mul_div_assoc, hbb]
    field_simp
    ring
  set k := g ^ 2 / (1 + g) with hkd
  have hkg : k * (1 + g) = g ^ 2 := by rw [hkd]; field_simp
  have hrest : restFrame b r = r + b * (dot b r * k) := rfl
  have hdot : dot b (restFrame b r) = dot b r * g := by
    rw [hrest]
    have : dot b (r + b * (dot b r * k)) = dot b r * (1 + b.abs2nd * k) := by simp [Vec.dot, Vec.abs2nd]; ring
    rw [this, hk]
    ring
  have hnorm : Vec.norm (restFrame b r) = g * s := by
    have h0 : Vec.norm (restFrame b r) ^ 2 = (g * s) ^ 2 := by
      rw [norm_sq, mul_pow, h2, hrest]
      have e : (r + b * (dot b r * k)).abs2nd = r.abs2nd + dot b r ^ 2 * (2 * k + b.abs2nd * k * k) := by simp [Vec.dot, Vec.abs2nd]; ring
      have e2 : (cross r b).abs2nd = r.abs2nd * b.abs2nd - dot b r ^ 2 := by simp [Vec.dot, Vec.abs2nd]; ring
      rw [e, hk, e2]
      linear_combination (dot b r ^ 2) * hkg - r.abs2nd * hg2
    exact (pow_left_inj₀ (Vec.norm_nonneg _) (by positivity) two_ne_zero).mp h0
  have hc := SpeedOfLight_pos.ne'
  have hEf : ∀ F : ℝ, g * F = (1 - b.abs2nd) * (g ^ 3 * F) := by
    intro F
    linear_combination -(g * F) * hg2
  unfold boosted boost
  rw [← hg, ← hkd]
  simp only [coulomb, hnorm, ← hK]
  have e1 : dot b (restFrame b r * (K / (g * s) ^ 3)) = dot b r * g * (K / (g * s) ^ 3) := by
    rw [← hdot]; simp [Vec.dot]; ring
  rw [e1, hrest]
  have hval : g * (K / (g * s) ^ 3) = K * (1 - b.abs2nd) / s ^ 3 := by
    rw [hEf]
    field_simp
  rw [← hval]
  constructor
  · ext <;> simp <;> ring
  · ext <;> simp <;> ring

/-- the field of a charge that has not been accelerated is found from its present position -/
theorem LW_uniform (q : ℝ) (x b obs : Vec) (hb : Vec.norm b < 1) (h : obs ≠ x) : LW q x b 0 obs = boosted q b (obs - (x + b * Vec.norm (obs - x))) := by
  have hR := Vec.norm_pos (sub_ne_zero.mpr h)
  have hq := Vec.norm_sq (obs - x)
  have hne := sent_ne_zero (sub_ne_zero.mpr h) hb
  have hb2 : b.abs2nd < 1 := by
    rw [← norm_sq]
    have := Vec.norm_nonneg b
    nlinarith
  have hsp : 0 < Vec.norm (obs - x) - dot (obs - x) b := by
    have := Vec.dot_le (obs - x) b
    nlinarith
  rw [Wiechert.lw_form q x b 0 obs h hne]
  have er : obs - (x + b * Vec.norm (obs - x)) = (obs - x) - b * Vec.norm (obs - x) := by ext <;> simp <;> ring
  rw [er]
  set r := obs - x
  set R := Vec.norm r
  have h2 : (R - dot r b) ^ 2 = (r - b * R).abs2nd - (cross (r - b * R) b).abs2nd := by
    have : (r - b * R).abs2nd - (cross (r - b * R) b).abs2nd = (R - dot r b) ^ 2 + (r.abs2nd - R ^ 2) * (1 - b.abs2nd) := by
      simp [Vec.dot, Vec.abs2nd]; ring
    rw [this, hq]
    ring
  obtain ⟨hE, hB⟩ := boosted_form q b (r - b * R) hb2 _ hsp h2
  have hdd : dot b b = b.abs2nd := rfl
  have ed : (0 : Vec) / SpeedOfLight = 0 := by ext <;> simp
  refine EMField.ext ?_ ?_
  · rw [hE, ed]
    simp only [Wiechert.N, hdd]
    ext <;> simp [Vec.dot] <;> ring
  · rw [hB, ed]
    simp only [Wiechert.M, hdd]
    ext <;> simp [Vec.dot] <;> ring

/-- C115: Up to the arrival of the first signal of a trajectory that starts at time zero the reported field is Coulomb's field of the charge at its present position
on the straight line of its initial motion, transformed from the rest frame of the charge. -/
theorem C115_before_start (p : Particle) (hp : p.Reachable) (t r0 rl : ℝ) (x0 m0 obs : Vec) (hn : 1 ≤ p.getNP) (ht0 : p.TrajTime (0 : Nat) = .ok 0)
    (hx0 : p.TrajPoint (0 : Nat) = .ok x0) (hm0 : p.TrajMomentum (0 : Nat) = .ok m0) (h0 : p.RetardedTime (0 : Nat) obs = .ok r0)
    (hl : p.RetardedTime (p.getNP - 1 : Nat) obs = .ok rl) (h1 : t ≤ r0) (h2 : t ≤ rl) (hne : obs ≠ x0 + betaOf m0 * (SpeedOfLight * t)) :
    p.RetardedFieldAt t obs = .ok (boosted (p.Charge * ElementaryCharge) (betaOf m0) (obs - (x0 + betaOf m0 * (SpeedOfLight * t)))) := by
  obtain ⟨T, -, hT, hok, -⟩ := C11_before_start_partial p hp t r0 rl x0 m0 obs hn ht0 hx0 hm0 h0 hl h1 h2
  have hc := SpeedOfLight_pos
  have hoff : obs ≠ x0 + betaOf m0 * (SpeedOfLight * T) := by
    intro h
    have hz : Vec.norm (obs - (x0 + betaOf m0 * (SpeedOfLight * T))) = 0 := by rw [← h]; simp [Vec.norm]
    rw [hz] at hT
    have : T = t := by simpa using hT
    rw [this] at h
    exact hne h
  rw [hok hoff, LW_uniform _ _ _ _ (betaOf_norm_lt m0) hoff]
  have hR : Vec.norm (obs - (x0 + betaOf m0 * (SpeedOfLight * T))) = SpeedOfLight * (t - T) := by
    rw [← hT]; field_simp; ring
  rw [hR]
  congr 3
  ext <;> simp <;> ring

theorem heaviside_integral (b : ℝ) (hb : b ^ 2 < 1) :
    ∫ θ in (0 : ℝ)..Real.pi, (1 - b ^ 2) * Real.sin θ / Real.sqrt (1 - b ^ 2 * Real.sin θ ^ 2) ^ 3 = 2 := by
  have hw : ∀ θ, 0 < 1 - b ^ 2 * Real.sin θ ^ 2 := by
    intro θ
    have := Real.sin_sq_le_one θ
    have := sq_nonneg (Real.sin θ)
    nlinarith [sq_nonneg b]
  have hd : ∀ θ, HasDerivAt (fun θ => -Real.cos θ / Real.sqrt (1 - b ^ 2 * Real.sin θ ^ 2)) ((1 - b ^ 2) * Real.sin θ / Real.sqrt (1 - b ^ 2 * Real.sin θ ^ 2) ^ 3) θ := by
    intro θ
    have h1 : HasDerivAt (fun θ => 1 - b ^ 2 * Real.sin θ ^ 2) (-(b ^ 2 * (2 * Real.sin θ * Real.cos θ))) θ := by
      refine (((Real.hasDerivAt_sin θ).fun_pow 2).const_mul (b ^ 2)).const_sub 1 |>.congr_deriv ?_
      simp
    have h2 := h1.sqrt (hw θ).ne'
    have hs := Real.sqrt_pos.mpr (hw θ)
    refine ((Real.hasDerivAt_cos θ).fun_neg.div h2 hs.ne').congr_deriv ?_
    have hsq := Real.sq_sqrt (hw θ).le
    set w := Real.sqrt (1 - b ^ 2 * Real.sin θ ^ 2)
    have hcs := Real.sin_sq_add_cos_sq θ
    field_simp
    linear_combination Real.sin θ * hsq - b ^ 2 * Real.sin θ * hcs
  rw [intervalIntegral.integral_eq_sub_of_hasDerivAt (fun θ _ => hd θ)]
  · simp
    norm_num
  · refine Continuous.intervalIntegrable ?_ _ _
    refine Continuous.div (by fun_prop) (by fun_prop) (fun θ => ?_)
    have := Real.sqrt_pos.mpr (hw θ)
    positivity

/-- the last signal does not arrive before the first -/
theorem last_arrival (p : Particle) (hp : p.Reachable) (hs : p.Subluminal) (hn : 1 ≤ p.getNP) (X : Vec) (r0 : ℝ) (h0 : p.RetardedTime (0 : Nat) X = .ok r0) :
    ∃ rl, p.RetardedTime (p.getNP - 1 : Nat) X = .ok rl ∧ r0 ≤ rl := by
  rcases Nat.lt_or_ge 1 p.getNP with h1 | h1
  · have hcons := cons_reachable hp
    have ⟨c1, c2, c3, c4⟩ := hcons
    have g : ∀ {α} (l : List α), l.length = p.NP → ∃ a, l[p.NP - 1]? = some a := by
      intro α l hl; exact ⟨_, List.getElem?_eq_getElem (by simp only [Particle.getNP] at h1; omega)⟩
    obtain ⟨TL, hTL⟩ := g p.Time c1
    obtain ⟨XL, hXL⟩ := g p.X c2
    have hl := RetardedTime_of (obs := X) (TrajTime_of_get hcons hTL) (TrajPoint_of_get hcons hXL)
    exact ⟨_, hl, (C13_arrival_order p hp hs X 0 (p.NP - 1) (by simp only [Particle.getNP] at h1; omega) _ _ h0 hl).le⟩
  · have : p.getNP - 1 = 0 := by omega
    rw [this]
    exact ⟨_, h0, le_refl _⟩

theorem direction_facts {ex ey ez : Vec} (hf : Frame3 ex ey ez) (θ φ : ℝ) : (direction ex ey ez θ φ).abs2nd = 1 ∧ dot (direction ex ey ez θ φ) ez = Real.cos θ := by
  obtain ⟨h1, h2, h3, h4, h5, h6⟩ := hf
  have a := Real.sin_sq_add_cos_sq θ
  have b := Real.sin_sq_add_cos_sq φ
  have key : ∀ u v w : ℝ, (ex * u + ey * v + ez * w).abs2nd = u ^ 2 + v ^ 2 + w ^ 2 ∧ dot (ex * u + ey * v + ez * w) ez = w := by
    intro u v w
    constructor
    · have : (ex * u + ey * v + ez * w).abs2nd = u ^ 2 * dot ex ex + v ^ 2 * dot ey ey + w ^ 2 * dot ez ez + 2 * u * v * dot ex ey + 2 * v * w * dot ey ez + 2 * w * u * dot ez ex := by
        simp [Vec.dot, Vec.abs2nd]; ring
      rw [this, h1, h2, h3, h4, h5, h6]
      ring
    · have : dot (ex * u + ey * v + ez * w) ez = u * dot ez ex + v * dot ey ez + w * dot ez ez := by
        simp [Vec.dot]; ring
      rw [this, h3, h5, h6]
      ring
  refine ⟨?_, (key _ _ _).2⟩
  unfold direction
  rw [(key _ _ _).1]
  linear_combination a + Real.sin θ ^ 2 * b

/-- C115: Gauss's law: at all times before the start of the trajectory the flux of the reported electric field through every sphere around the
particle is its charge divided by the electric constant. -/
theorem C115_gauss (p : Particle) (hp : p.Reachable) (hs : p.Subluminal) (x0 m0 : Vec) (hn : 1 ≤ p.getNP) (ht0 : p.TrajTime (0 : Nat) = .ok 0)
    (hx0 : p.TrajPoint (0 : Nat) = .ok x0) (hm0 : p.TrajMomentum (0 : Nat) = .ok m0) (S : ℝ → Vec → EMField)
    (hS : ∀ t X F, p.RetardedFieldAt t X = .ok F → S t X = F) (t : ℝ) (ht : t ≤ 0) (radius : ℝ) (hr : 0 < radius)
    (ex ey ez : Vec) (hf : Frame3 ex ey ez) (b : ℝ) (hb : betaOf m0 = ez * b) :
    sphereFlux (fun X => (S t X).E) (x0 + betaOf m0 * (SpeedOfLight * t)) ex ey ez radius = p.getCharge / EpsNull := by
  have hc := SpeedOfLight_pos
  have hbb : (betaOf m0).abs2nd = b ^ 2 := by
    have : (ez * b).abs2nd = b ^ 2 * dot ez ez := by simp [Vec.dot, Vec.abs2nd]; ring
    rw [hb, this, hf.2.2.1, mul_one]
  have hb1 : b ^ 2 < 1 := by
    rw [← hbb, ← norm_sq]
    have h1 := betaOf_norm_lt m0
    have h2 := Vec.norm_nonneg (betaOf m0)
    nlinarith
  set K := p.Charge * ElementaryCharge / (4 * Real.pi * EpsNull) with hK
  have point : ∀ θ φ, dot (S t (x0 + betaOf m0 * (SpeedOfLight * t) + direction ex ey ez θ φ * radius)).E (direction ex ey ez θ φ) * (radius ^ 2 * Real.sin θ) =
      K * ((1 - b ^ 2) * Real.sin θ / Real.sqrt (1 - b ^ 2 * Real.sin θ ^ 2) ^ 3) := by
    intro θ φ
    obtain ⟨hn1, hnz⟩ := direction_facts hf θ φ
    set n := direction ex ey ez θ φ
    set X := x0 + betaOf m0 * (SpeedOfLight * t) + n * radius with hX
    have hdiff : X - (x0 + betaOf m0 * (SpeedOfLight * t)) = n * radius := by rw [hX]; ext <;> simp
    have hne : X ≠ x0 + betaOf m0 * (SpeedOfLight * t) := by
      intro h
      rw [h, sub_self] at hdiff
      have : (n * radius).abs2nd = radius ^ 2 * n.abs2nd := by simp [Vec.abs2nd]; ring
      rw [← hdiff, hn1] at this
      have h0 : (0 : Vec).abs2nd = 0 := by simp [Vec.abs2nd]
      rw [h0] at this
      nlinarith
    have h0 := RetardedTime_of (obs := X) ht0 hx0
    obtain ⟨rl, hl, hle⟩ := last_arrival p hp hs hn X _ h0
    have hr0 : t ≤ 0 + Vec.norm (X - x0) / SpeedOfLight := by
      have := div_nonneg (Vec.norm_nonneg (X - x0)) hc.le
      linarith
    have hval := hS _ _ _ (C115_before_start p hp t _ rl x0 m0 X hn ht0 hx0 hm0 h0 hl hr0 (hr0.trans hle) hne)
    have hsin := Real.sin_sq_add_cos_sq θ
    have hw : 0 < 1 - b ^ 2 * Real.sin θ ^ 2 := by
      have := Real.sin_sq_le_one θ
      have := sq_nonneg (Real.sin θ)
      nlinarith [sq_nonneg b]
    have hws := Real.sqrt_pos.mpr hw
    have h2 : (radius * Real.sqrt (1 - b ^ 2 * Real.sin θ ^ 2)) ^ 2 = (n * radius).abs2nd - (cross (n * radius) (betaOf m0)).abs2nd := by
      rw [mul_pow, Real.sq_sqrt hw.le]
      have e : (n * radius).abs2nd - (cross (n * radius) (betaOf m0)).abs2nd = radius ^ 2 * (n.abs2nd * (1 - (betaOf m0).abs2nd) + dot n (betaOf m0) ^ 2) := by
        simp [Vec.dot, Vec.abs2nd]; ring
      have e2 : dot n (betaOf m0) = b * Real.cos θ := by
        rw [hb, ← hnz]; simp [Vec.dot]; ring
      rw [e, hn1, hbb, e2]
      linear_combination -(radius ^ 2 * b ^ 2) * hsin
    have hE := (boosted_form (p.Charge * ElementaryCharge) (betaOf m0) (n * radius) (by rw [hbb]; exact hb1) _ (mul_pos hr hws) h2).1
    rw [hval, hdiff, hE, ← hK, hbb]
    have e3 : dot (n * radius * (K * (1 - b ^ 2) / (radius * Real.sqrt (1 - b ^ 2 * Real.sin θ ^ 2)) ^ 3)) n =
        n.abs2nd * (radius * (K * (1 - b ^ 2) / (radius * Real.sqrt (1 - b ^ 2 * Real.sin θ ^ 2)) ^ 3)) := by
      simp [Vec.dot, Vec.abs2nd]; ring
    rw [e3, hn1]
    field_simp
  unfold sphereFlux
  simp only [point, intervalIntegral.integral_const_mul, heaviside_integral b hb1, intervalIntegral.integral_const]
  rw [hK]
  unfold Particle.getCharge
  have h1 := Real.pi_pos.ne'
  have h2 : EpsNull ≠ 0 := by unfold EpsNull; norm_num
  simp
  field_simp
  ring

/-- C115: The field reported for particles tracked without any external field approaches, when the time step of the tracking is made ever shorter,
that of a charge in uniform motion; also after the start of the trajectory. -/
theorem C115_tracked (qm q : ℝ) (x0 m0 : Vec) (t0 T : ℝ) (hT : 0 ≤ T) (obs : Vec) (hobs : ∀ t, t0 ≤ t → t ≤ t0 + T → obs ≠ x0 + betaOf m0 * (SpeedOfLight * (t - t0)))
    (φ : EMField → ℝ) (hφ : Particle.IsComponent φ) :
    ∃ C h0 : ℝ, 0 < h0 ∧ ∀ h : ℝ, 0 < h → h ≤ h0 → ∀ n : ℕ, n * h ≤ T →
      ∀ a : Particle, a.Reachable → a.getNP = 1 → a.Mass ≠ 0 → a.Charge / a.Mass * InvRestMass = qm → a.Charge * ElementaryCharge = q →
        a.TrajTime 0 = .ok t0 → a.TrajPoint 0 = .ok x0 → a.TrajMomentum 0 = .ok m0 →
        ∃ a1 a2, a.InitVay h (fun _ _ => .ok 0) = .ok a1 ∧ a1.steps (List.replicate n (fun _ _ => .ok 0)) = .ok a2 ∧
          ∀ θ s, t0 < s → s + C * h ^ 2 ≤ t0 + n * h → SpeedOfLight * (θ - s) = Vec.norm (obs - (x0 + betaOf m0 * (SpeedOfLight * (s - t0)))) →
            ∃ F, a2.RetardedFieldAt θ obs = .ok F ∧
              |φ F - φ (boosted q (betaOf m0) (obs - (x0 + betaOf m0 * (SpeedOfLight * (θ - t0)))))| ≤ C * h ^ 2 := by
  have hc := SpeedOfLight_pos
  set x : ℝ → Vec := fun t => x0 + betaOf m0 * (SpeedOfLight * (t - t0)) with hx
  have hvel : ∀ s, HasVelocity x (betaOf m0 * SpeedOfLight) s := by
    have key : ∀ (u v : ℝ) (s : ℝ), HasDerivAt (fun t : ℝ => u + v * (SpeedOfLight * (t - t0))) (v * SpeedOfLight) s := by
      intro u v s
      simpa using ((((hasDerivAt_id s).sub_const t0).const_mul SpeedOfLight).const_mul v).const_add u
    intro s
    exact ⟨by simpa [hx] using key x0.x (betaOf m0).x s, by simpa [hx] using key x0.y (betaOf m0).y s, by simpa [hx] using key x0.z (betaOf m0).z s⟩
  have hzero : ∀ v : Vec, ∀ s, HasVelocity (fun _ : ℝ => v) 0 s := fun v s => ⟨hasDerivAt_const _ _, hasDerivAt_const _ _, hasDerivAt_const _ _⟩
  have hm : Motion qm (fun _ _ => .ok 0) x (fun _ => m0) t0 T := by
    refine ⟨fun t _ _ => by rw [← betaOf_eq_velOf]; exact hvel t, fun t _ _ => ⟨0, rfl, ?_⟩⟩
    have e : ((0 : EMField).E + cross (velOf m0 * SpeedOfLight) (0 : EMField).B) * (qm / SpeedOfLight) = 0 := by ext <;> simp
    rw [e]
    exact hzero m0 t
  have hp : Smooth (fun _ : ℝ => m0) := ⟨LipDiff.const 2 _, LipDiff.const 2 _, LipDiff.const 2 _⟩
  have n0 : Vec.norm (0 : Vec) = 0 := by simp [Vec.norm]
  have ht : TameNear (fun _ _ => .ok 0) x t0 T 1 0 0 := by
    refine ⟨?_, ?_⟩
    · intro t _ _ EB h
      cases h
      simp [n0]
    · intro t _ _ EB h X _
      cases h
      refine ⟨0, rfl, ?_, ?_⟩ <;> simp [n0]
  have hmag : ∀ t, t0 ≤ t → t ≤ t0 + T → ∀ EB, (fun _ _ => .ok 0 : FieldFn) t (x t) = .ok EB → EB.E = 0 := by
    intro t _ _ EB h
    cases h
    rfl
  obtain ⟨C, h0, hh0, H⟩ := C96_second_order qm q (fun _ _ => .ok 0) x (fun _ => m0) t0 T 1 0 0 hm hp ht one_pos le_rfl hT hmag obs hobs φ hφ
  obtain ⟨S, hS, -⟩ := C114_field_exists q x (fun _ => m0) t0 T hm.position hp
  refine ⟨|C|, h0, hh0, ?_⟩
  intro h hh hle n hn a ha hnp hmass hqm hq hat hax hap
  have x00 : x t0 = x0 := by rw [hx]; ext <;> simp
  obtain ⟨a1, a2, e1, e2, rec⟩ := H h hh hle n hn a ha hnp hmass hqm hq hat (by rw [x00]; exact hax) hap
  refine ⟨a1, a2, e1, e2, ?_⟩
  intro θ s hs hsn hθ
  have hC : C * h ^ 2 ≤ |C| * h ^ 2 := mul_le_mul_of_nonneg_right (le_abs_self C) (sq_nonneg h)
  have hC0 : 0 ≤ |C| * h ^ 2 := by positivity
  have harr : arrival x obs s = θ := by
    unfold arrival
    have : Vec.norm (obs - x s) = SpeedOfLight * (θ - s) := hθ.symm
    rw [this]
    field_simp
    ring
  obtain ⟨F, hF, hv⟩ := rec s hs (by linarith)
  rw [harr] at hF
  refine ⟨F, hF, ?_⟩
  have hval := hS obs s hs.le (by linarith) 0 (hzero _ s)
  have hval' : S (arrival x obs s) obs = LW q (x s) (betaOf m0) 0 obs := hval
  have hne : obs ≠ x s := hobs s hs.le (by linarith)
  have := hv _ (hS obs)
  rw [hval', LW_uniform q (x s) (betaOf m0) obs (betaOf_norm_lt m0) hne] at this
  have e : x s + betaOf m0 * Vec.norm (obs - x s) = x0 + betaOf m0 * (SpeedOfLight * (θ - t0)) := by
    have : Vec.norm (obs - x s) = SpeedOfLight * (θ - s) := hθ.symm
    rw [this, hx]
    ext <;> simp <;> ring
  rw [e] at this
  exact this.trans hC

/-- non-vacuity: the flux through a sphere of 2 m radius around an electron one second before the start of its trajectory -/
example : ∃ S : ℝ → Vec → EMField, (∀ t X F, demoParticle.RetardedFieldAt t X = .ok F → S t X = F) ∧
    sphereFlux (fun X => (S (-1) X).E) (betaOf ⟨0, 0, 1⟩ * (SpeedOfLight * -1)) ⟨1, 0, 0⟩ ⟨0, 1, 0⟩ ⟨0, 0, 1⟩ 2 = demoParticle.getCharge / EpsNull ∧
    demoParticle.getCharge ≠ 0 := by
  obtain ⟨h1, h2, -, h4⟩ := demoParticle_ok
  refine ⟨fun t X => match demoParticle.RetardedFieldAt t X with | .ok F => F | .error _ => 0, ?_, ?_, ?_⟩
  · intro t X F h
    simp only [h]
  · have := C115_gauss demoParticle h1 h4 0 ⟨0, 0, 1⟩ (by omega) rfl rfl rfl
      (fun t X => match demoParticle.RetardedFieldAt t X with | .ok F => F | .error _ => 0) (by intro t X F h; simp only [h]) (-1) (by norm_num) 2 two_pos
      ⟨1, 0, 0⟩ ⟨0, 1, 0⟩ ⟨0, 0, 1⟩ (by refine ⟨?_, ?_, ?_, ?_, ?_, ?_⟩ <;> norm_num [Vec.dot]) (betaOf ⟨0, 0, 1⟩).z
      (by ext <;> simp [betaOf])
    rwa [zero_add] at this
  · have : demoParticle.Charge = -1 := rfl
    norm_num [Particle.getCharge, this, ElementaryCharge]

/-- non-vacuity: an electron that passes the observation point at a distance of 1 m -/
example : ∃ a : Particle, a.Reachable ∧ a.getNP = 1 ∧ a.Mass ≠ 0 ∧ a.TrajTime 0 = .ok 0 ∧ a.TrajPoint 0 = .ok 0 ∧ a.TrajMomentum 0 = .ok ⟨0, 0, 1⟩ ∧
    (∀ t : ℝ, 0 ≤ t → t ≤ 0 + 5 → (⟨1, 0, 0⟩ : Vec) ≠ 0 + betaOf ⟨0, 0, 1⟩ * (SpeedOfLight * (t - 0))) ∧ Particle.IsComponent (fun F => F.E.x) := by
  refine ⟨[POp.init 0 0 ⟨0, 0, 1⟩ 0].foldl POp.exec Particle.default, ⟨_, _, Or.inr (Or.inr (Or.inl rfl)), rfl⟩, rfl, ?_, rfl, rfl, rfl, ?_, ?_⟩
  · have : ([POp.init 0 0 ⟨0, 0, 1⟩ 0].foldl POp.exec Particle.default).Mass = 1 := rfl
    rw [this]; exact one_ne_zero
  · intro t _ _ h
    have := congrArg Vec.x h
    simp [betaOf] at this
  · exact component_Ex

end Teufel
