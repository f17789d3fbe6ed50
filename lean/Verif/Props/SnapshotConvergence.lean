import Verif.Props.RadiationConvergence
import Verif.Props.LightCone

/-!
# C96: the field of a snapshot converges to that of the exact motion

A particle is tracked with the time step `h`.  The field it causes at an observer at a given time - the value in a snapshot - is compared with the
exact Liénard-Wiechert field of the exact motion (Spec/Radiation).
-/

namespace Teufel
open Vec

/-- the search of the source point when the slope hardly changes: the first guess is corrected once -/
theorem secant_short (g : ℝ → ℝ) (m L s f0 : ℝ) (hm : 0 < m) (hL : L - m ≤ 1e-5 * m)
    (hsl : ∀ a b, -1 ≤ a → b ≤ 2 → a < b → m * (b - a) ≤ g b - g a ∧ g b - g a ≤ L * (b - a))
    (hs : s = g 1 - g 0) (hf : f0 * s = -g 0) (h0 : 0 < f0) (h1 : f0 ≤ 1) :
    Particle.secant g 9 f0 (g f0) (g f0 / s) = .ok (f0, g f0 / s, 9) ∧ 0 ≤ f0 - g f0 / s ∧ f0 - g f0 / s ≤ 1 ∧
      |g (f0 - g f0 / s)| ≤ L - m := by
  have hsm := hsl 0 1 (by norm_num) (by norm_num) (by norm_num)
  rw [← hs, sub_zero, mul_one, mul_one] at hsm
  have hspos : 0 < s := by linarith [hsm.1]
  have hg0 : g 0 = -(f0 * s) := by linarith
  have hg1 : g 1 = (1 - f0) * s := by linarith
  have hLm : 0 ≤ L - m := by linarith [hsm.1, hsm.2]
  have lo : |g f0| ≤ (L - m) * f0 := by
    have h := hsl 0 f0 (by norm_num) (by linarith) h0
    rw [sub_zero, hg0] at h
    have k1 : 0 ≤ f0 * (s - m) := mul_nonneg h0.le (by linarith [hsm.1])
    have k2 : 0 ≤ f0 * (L - s) := mul_nonneg h0.le (by linarith [hsm.2])
    rw [abs_le]
    constructor
    · linarith [h.1]
    · linarith [h.2]
  have hi : |g f0| ≤ (L - m) * (1 - f0) := by
    rcases eq_or_lt_of_le h1 with h | h
    · rw [h] at hg1 ⊢
      rw [hg1]; simp
    · have h := hsl f0 1 (by linarith) (by norm_num) h
      rw [hg1] at h
      have k1 : 0 ≤ (1 - f0) * (s - m) := mul_nonneg (by linarith) (by linarith [hsm.1])
      have k2 : 0 ≤ (1 - f0) * (L - s) := mul_nonneg (by linarith) (by linarith [hsm.2])
      rw [abs_le]
      constructor
      · linarith [h.2]
      · linarith [h.1]
  have bnd : ∀ w, 0 ≤ w → |g f0| ≤ (L - m) * w → |g f0 / s| ≤ 1e-5 * w := by
    intro w hw h
    rw [abs_div, abs_of_pos hspos, div_le_iff₀ hspos]
    have : (L - m) * w ≤ 1e-5 * m * w := mul_le_mul_of_nonneg_right hL hw
    have : 1e-5 * w * m ≤ 1e-5 * w * s := mul_le_mul_of_nonneg_left hsm.1 (by positivity)
    linarith
  have b0 := bnd f0 h0.le lo
  have b1 := bnd (1 - f0) (by linarith) hi
  have hle := le_abs_self (g f0 / s)
  have hge := neg_abs_le (g f0 / s)
  refine ⟨?_, by linarith, by linarith, ?_⟩
  · rw [Particle.secant, if_neg (by rw [not_lt]; linarith)]
  · refine (Particle.secant_residual g m L hm f0 (g f0 / s) s (fun a b hab hlt => ?_) hsm.1 hsm.2 rfl).trans ?_
    · rcases hab with ⟨rfl, rfl⟩ | ⟨rfl, rfl⟩ <;> exact hsl _ _ (by linarith) (by linarith) hlt
    · have : |g f0 / s| ≤ 1 := by linarith
      have := mul_le_mul_of_nonneg_left this hLm
      linarith

/-- the source point found for a short step: it lies within the step and close to the light cone -/
theorem StepData.short {p : Particle} {i : Nat} (d : StepData p i) (obs : Vec) (t f e : ℝ) (left : Nat)
    (hint : Particle.interpolate p i (i + 1) t obs = .ok (d.source f, left)) (hut : d.t < d.u)
    (h1 : d.t + Vec.norm (obs - d.x) / SpeedOfLight < t) (h2 : t ≤ d.u + Vec.norm (obs - d.y) / SpeedOfLight)
    (hr : 2 * Vec.norm (d.y - d.x) < Vec.norm (obs - d.x))
    (he : 4 * Vec.norm (d.y - d.x) ^ 2 / (Vec.norm (obs - d.x) - 2 * Vec.norm (d.y - d.x)) / SpeedOfLight = e)
    (hs : 4 * e ≤ 1e-5 * ((d.u + Vec.norm (obs - d.y) / SpeedOfLight) - (d.t + Vec.norm (obs - d.x) / SpeedOfLight))) :
    0 ≤ f ∧ f ≤ 1 ∧ |d.coneError obs t f| ≤ 2 * e := by
  have hc := SpeedOfLight_pos
  set g := Particle.mismatch d.t d.u d.x d.y t obs with hg
  have hgc : ∀ f, g f = d.coneError obs t f := fun f => d.coneError_eq obs t f
  have hg0 : g 0 = d.t + Vec.norm (obs - d.x) / SpeedOfLight - t := by
    rw [hgc]; simp only [StepData.coneError, lerp]
    have : d.x + (d.y - d.x) * (0:ℝ) = d.x := by ext <;> simp
    rw [this]; ring
  have hg1 : g 1 = d.u + Vec.norm (obs - d.y) / SpeedOfLight - t := by
    rw [hgc]; simp only [StepData.coneError, lerp]
    have : d.x + (d.y - d.x) * (1:ℝ) = d.y := by ext <;> simp
    rw [this]; ring
  obtain ⟨s, hs'⟩ : ∃ s, s = (d.u - d.t) + (Vec.norm (obs - d.y) - Vec.norm (obs - d.x)) / SpeedOfLight := ⟨_, rfl⟩
  have hs1 : s = g 1 - g 0 := by rw [hg0, hg1, hs']; ring
  have hspos : 0 < s := by rw [hs1, hg0, hg1]; linarith
  obtain ⟨f0, hf0⟩ : ∃ f0, f0 = (t - (d.t + Vec.norm (obs - d.x) / SpeedOfLight)) / s := ⟨_, rfl⟩
  have hf0' : f0 * s = -g 0 := by rw [hf0, hg0, div_mul_cancel₀ _ hspos.ne']; ring
  have hf0pos : 0 < f0 := by rw [hf0]; apply div_pos _ hspos; linarith
  have hf0le : f0 ≤ 1 := by rw [hf0, div_le_one hspos, hs1]; linarith
  obtain ⟨s0, hs0⟩ : ∃ s0, s0 = (d.u - d.t) - dot (d.y - d.x) (obs - d.x) / Vec.norm (obs - d.x) / SpeedOfLight := ⟨_, rfl⟩
  have hsl : ∀ a b, -1 ≤ a → b ≤ 2 → a < b → (s0 - e) * (b - a) ≤ g b - g a ∧ g b - g a ≤ (s0 + e) * (b - a) :=
    fun a b ha hb hab => Particle.mismatch_slope_far d.t d.u d.x d.y t obs a b ha hb hab hr s0 e hs0 he.symm
  have hsm := hsl 0 1 (by norm_num) (by norm_num) (by norm_num)
  rw [← hs1, sub_zero, mul_one, mul_one] at hsm
  have he0 : 0 ≤ e := by linarith [hsm.1, hsm.2]
  have hss : 4 * e ≤ 1e-5 * s := by rw [hs1, hg0, hg1]; linarith
  obtain ⟨k1, k2, k3, k4⟩ := secant_short g (s0 - e) (s0 + e) s f0 (by linarith [hsm.2]) (by linarith [hsm.2]) hsl hs1 hf0' hf0pos hf0le
  have hred := interpolate_red p i d obs t s f0 hs' hspos.ne' hf0 f0 (g f0 / s) 9 k1
  rw [hint] at hred
  injection hred with hred
  injection hred with hred _
  have hT := congrArg Particle.Source.T hred
  simp only [StepData.source] at hT
  have hff : f = f0 - g f0 / s := by
    have : (d.u - d.t) * (f - (f0 - g f0 / s)) = 0 := by linarith
    rcases mul_eq_zero.mp this with h | h
    · linarith
    · linarith
  rw [hff]
  refine ⟨k2, k3, ?_⟩
  rw [← hgc]
  linarith

/-- linear interpolation over a step -/
theorem lerp_near {f : ℝ → Vec} {a b : ℝ} (hf : FunAlg.V Quad (fun s : Set.Icc a b => f s)) :
    ∃ K, 0 ≤ K ∧ ∀ s ∈ Set.Icc a b, ∀ h, 0 ≤ h → s + h ∈ Set.Icc a b → ∀ θ, 0 ≤ θ → θ ≤ 1 →
      Vec.norm (lerp (f s) (f (s + h)) θ - f (s + h * θ)) ≤ K * h ^ 2 := by
  have key : ∀ {g : ℝ → ℝ}, Quad (fun s : Set.Icc a b => g s) → ∃ K, 0 ≤ K ∧ ∀ s ∈ Set.Icc a b, ∀ h, 0 ≤ h → s + h ∈ Set.Icc a b → ∀ θ, 0 ≤ θ → θ ≤ 1 →
      |g s + (g (s + h) - g s) * θ - g (s + h * θ)| ≤ K * h ^ 2 := by
    rintro g ⟨g', C, hC, hg⟩
    refine ⟨2 * C, by positivity, ?_⟩
    intro s hs h hh hsh θ t0 t1
    have hm : s + h * θ ∈ Set.Icc a b := by
      have : h * θ ≤ h * 1 := mul_le_mul_of_nonneg_left t1 hh
      have : 0 ≤ h * θ := mul_nonneg hh t0
      exact ⟨by linarith [hs.1], by linarith [hsh.2]⟩
    have e1 := (hg ⟨s, hs⟩ ⟨s + h, hsh⟩).2.2.2
    have e2 := (hg ⟨s, hs⟩ ⟨s + h * θ, hm⟩).2.2.2
    simp only [add_sub_cancel_left] at e1 e2
    have e : g s + (g (s + h) - g s) * θ - g (s + h * θ) = (g (s + h) - g s - g' ⟨s, hs⟩ * h) * θ - (g (s + h * θ) - g s - g' ⟨s, hs⟩ * (h * θ)) := by ring
    rw [e]
    refine (abs_sub _ _).trans ?_
    rw [abs_mul, abs_of_nonneg t0]
    have i1 : |g (s + h) - g s - g' ⟨s, hs⟩ * h| * θ ≤ C * h ^ 2 * 1 := mul_le_mul e1 t1 t0 (by positivity)
    have i2 : (h * θ) ^ 2 ≤ h ^ 2 := by
      have : h * θ ≤ h := by nlinarith
      exact pow_le_pow_left₀ (mul_nonneg hh t0) this 2
    have := mul_le_mul_of_nonneg_left i2 hC
    linarith
  obtain ⟨K1, p1, q1⟩ := key (g := fun s => (f s).x) hf.1
  obtain ⟨K2, p2, q2⟩ := key (g := fun s => (f s).y) hf.2.1
  obtain ⟨K3, p3, q3⟩ := key (g := fun s => (f s).z) hf.2.2
  refine ⟨K1 + K2 + K3, by positivity, ?_⟩
  intro s hs h hh hsh θ t0 t1
  refine (norm_le_comps _).trans ?_
  have r1 := q1 s hs h hh hsh θ t0 t1
  have r2 := q2 s hs h hh hsh θ t0 t1
  have r3 := q3 s hs h hh hsh θ t0 t1
  simp only [lerp, sub_x, sub_y, sub_z, add_x, add_y, add_z, mul_x, mul_y, mul_z]
  linarith

theorem lerp_lerp (a b c d : Vec) (θ ε : ℝ) (h0 : 0 ≤ θ) (h1 : θ ≤ 1) (ha : Vec.norm (a - c) ≤ ε) (hb : Vec.norm (b - d) ≤ ε) :
    Vec.norm (lerp a b θ - lerp c d θ) ≤ ε := by
  have e : lerp a b θ - lerp c d θ = (a - c) * (1 - θ) + (b - d) * θ := by
    simp only [lerp]; ext <;> simp <;> ring
  rw [e]
  refine (Vec.norm_add_le _ _).trans ?_
  rw [Vec.norm_mul, Vec.norm_mul, abs_of_nonneg h0, abs_of_nonneg (by linarith : 0 ≤ 1 - θ)]
  have i1 := mul_le_mul_of_nonneg_right ha (by linarith : 0 ≤ 1 - θ)
  have i2 := mul_le_mul_of_nonneg_right hb h0
  linarith

/-- C96, in any fields: with the second order of the time step the field at an observer at a given time converges to the field formula in which the
rate of change of the momentum divided by γ stands for the acceleration. -/
theorem C96_limit (qm q : ℝ) (field : FieldFn) (x p : ℝ → Vec) (t0 T r L Bm : ℝ) (hm : Motion qm field x p t0 T) (hp : Smooth p)
    (ht : TameNear field x t0 T r L Bm) (hr : 0 < r) (hL : 0 ≤ L) (hT : 0 ≤ T) (obs : Vec) (hobs : ∀ t, t0 ≤ t → t ≤ t0 + T → obs ≠ x t)
    (φ : EMField → ℝ) (hφ : Particle.IsComponent φ) :
    ∃ C h0 : ℝ, 0 < h0 ∧ ∀ h : ℝ, 0 < h → h ≤ h0 → ∀ n : ℕ, n * h ≤ T →
      ∀ a : Particle, a.Reachable → a.getNP = 1 → a.Mass ≠ 0 → a.Charge / a.Mass * InvRestMass = qm → a.Charge * ElementaryCharge = q →
        a.TrajTime 0 = .ok t0 → a.TrajPoint 0 = .ok (x t0) → a.TrajMomentum 0 = .ok (p t0) →
        ∃ a1 a2, a.InitVay h field = .ok a1 ∧ a1.steps (List.replicate n field) = .ok a2 ∧
          ∀ s, t0 < s → s + C * h ^ 2 ≤ t0 + n * h → ∃ F, a2.RetardedFieldAt (arrival x obs s) obs = .ok F ∧
            ∀ v, HasVelocity p v s → |φ F - φ (LW q (x s) (betaOf (p s)) (v / Real.sqrt (1 + Vec.norm (p s) ^ 2)) obs)| ≤ C * h ^ 2 := by
  have H : Path x p t0 T obs := ⟨⟨fun t h => hm.position t h.1 h.2, fun t h => hobs t h.1 h.2, hT⟩, hp⟩
  obtain ⟨C, h0, hh0, conv⟩ := C92_second_order qm field x p t0 T r L Bm hm hp ht hr hL hT
  obtain ⟨δ, K1, hsent⟩ := H.sent q hφ
  obtain ⟨d, hd, hdist⟩ := H.distance
  obtain ⟨Lx, hLx, lx⟩ := lerp_near H.quad_pos
  obtain ⟨Lp, hLp, lp⟩ := lerp_near (quad_vec H.smooth t0 (t0 + T))
  obtain ⟨La, hLa, la⟩ := lerp_near (quad_rate H.smooth t0 (t0 + T))
  have hCa := abs_nonneg C
  have hc := SpeedOfLight_pos
  obtain ⟨C', hC'⟩ : ∃ C', C' = |C| + Lx + Lp + La := ⟨_, rfl⟩
  have hC'0 : 0 ≤ C' := by rw [hC']; positivity
  obtain ⟨Mp, Mv, hMp, hMv⟩ := H.bounds
  obtain ⟨K2, h1, hK2, hh1, hh11, hnear⟩ := H.field_near q hφ (C := C') hC'0 hMp hMv
  obtain ⟨E, hE⟩ : ∃ E, E = 16 * SpeedOfLight / d := ⟨_, rfl⟩
  have hE0 : 0 < E := by rw [hE]; positivity
  have hδ := hsent.δ_pos
  have hK1 := hsent.K_nonneg
  obtain ⟨G, hG⟩ : ∃ G, G = (2 * E + C' / SpeedOfLight) / δ := ⟨_, rfl⟩
  have hCc : 0 ≤ C' / SpeedOfLight := by positivity
  have hG0 : 0 ≤ G := by rw [hG]; positivity
  have hGδ : G * δ = 2 * E + C' / SpeedOfLight := by rw [hG]; field_simp
  obtain ⟨w, hw⟩ : ∃ w, w = min (min (d / (8 * SpeedOfLight)) (d / (2 * (|C| + 1)))) (1e-5 * δ / (4 * E + 2 * |C| / SpeedOfLight)) := ⟨_, rfl⟩
  have hw0 : 0 < w := by
    rw [hw]
    refine lt_min (lt_min (by positivity) (by positivity)) (by positivity)
  refine ⟨K2 + (K1 + 1) * G, min (min h0 h1) w, lt_min (lt_min hh0 hh1) hw0, ?_⟩
  intro h hh hle n hn a ha hnp hmass hqm hq hat hax hap
  have hle0 : h ≤ h0 := hle.trans ((min_le_left _ _).trans (min_le_left _ _))
  have hle1 : h ≤ h1 := hle.trans ((min_le_left _ _).trans (min_le_right _ _))
  have hlew : h ≤ w := hle.trans (min_le_right _ _)
  rw [hw] at hlew
  have w1 : h ≤ d / (8 * SpeedOfLight) := hlew.trans ((min_le_left _ _).trans (min_le_left _ _))
  have w2 : h ≤ d / (2 * (|C| + 1)) := hlew.trans ((min_le_left _ _).trans (min_le_right _ _))
  have w3 : h ≤ 1e-5 * δ / (4 * E + 2 * |C| / SpeedOfLight) := hlew.trans (min_le_right _ _)
  rw [le_div_iff₀ (by positivity)] at w1 w2 w3
  have hh1' : h ≤ 1 := hle1.trans hh11
  have hhh : h ^ 2 ≤ h := by nlinarith
  obtain ⟨a1, a2, e1, e2, pts⟩ := conv h hh hle0 n hn a ha hmass hqm (by rw [hnp]; exact hat) (by rw [hnp]; exact hax) (by rw [hnp]; exact hap)
  refine ⟨a1, a2, e1, e2, ?_⟩
  simp only [hnp, Nat.sub_self, Nat.zero_add] at pts
  have hreach := run_reachable ha e1 e2
  obtain ⟨hsub, hinc⟩ := C13_tracked a a1 a2 ha hnp h hh field (List.replicate n field) e1 e2
  obtain ⟨hN2, -, -⟩ := C05_equidistant a a1 a2 ha h field (List.replicate n field) t0 (by rw [hnp]; exact hat) e1 e2
  rw [hnp, List.length_replicate] at hN2
  have hcharge : a2.Charge = a.Charge := by
    obtain ⟨-, -, t, y, pm, EB', -, -, -, -, -, e⟩ := Particle.InitVay_ok e1
    rw [(Particle.steps_facts e2).2.2.2.2.2.1, e]
  choose X P A pt using pts
  have mem : ∀ k ≤ n, t0 + (k : ℝ) * h ∈ Set.Icc t0 (t0 + T) := by
    intro k hk
    have : (k : ℝ) * h ≤ n * h := mul_le_mul_of_nonneg_right (by exact_mod_cast hk) hh.le
    have : 0 ≤ (k : ℝ) * h := by positivity
    exact ⟨by linarith, by linarith⟩
  have hCabs : C * h ^ 2 ≤ |C| * h ^ 2 := mul_le_mul_of_nonneg_right (le_abs_self C) (sq_nonneg h)
  have arr : ∀ k (hk : k ≤ n), |t0 + (k : ℝ) * h + Vec.norm (obs - X k hk) / SpeedOfLight - arrival x obs (t0 + k * h)| ≤ |C| / SpeedOfLight * h ^ 2 := by
    intro k hk
    have e : t0 + (k : ℝ) * h + Vec.norm (obs - X k hk) / SpeedOfLight - arrival x obs (t0 + k * h)
        = (Vec.norm (obs - X k hk) - Vec.norm (obs - x (t0 + k * h))) / SpeedOfLight := by unfold arrival; ring
    rw [e, abs_div, abs_of_pos hc]
    have h3 := (norm_sub_abs obs (X k hk) (x (t0 + k * h))).trans ((pt k hk).2.2.2.2.1.trans hCabs)
    calc _ ≤ |C| * h ^ 2 / SpeedOfLight := div_le_div_of_nonneg_right h3 hc.le
      _ = _ := by ring
  have hCC' : |C| / SpeedOfLight ≤ C' / SpeedOfLight := div_le_div_of_nonneg_right (by rw [hC']; linarith) hc.le
  intro s hs0 hsn
  have hh2 := sq_nonneg h
  have hns : s ≤ t0 + n * h := by
    have : 0 ≤ (K2 + (K1 + 1) * G) * h ^ 2 := by positivity
    linarith
  have hsT : s ∈ Set.Icc t0 (t0 + T) := ⟨hs0.le, by linarith⟩
  have hGn : s + G * h ^ 2 ≤ t0 + n * h := by
    have : 0 ≤ (K2 + K1 * G) * h ^ 2 := by positivity
    linarith
  -- the ends of the trajectory
  have r0 : a2.RetardedTime (0 : Nat) obs = .ok (t0 + (0 : ℕ) * h + Vec.norm (obs - X 0 (Nat.zero_le n)) / SpeedOfLight) := by
    obtain ⟨p1, p2, -⟩ := pt 0 (Nat.zero_le n)
    simp only [Particle.RetardedTime, p1, p2, bind, Except.bind, pure, Except.pure]
  have rl : a2.RetardedTime (a2.getNP - 1 : Nat) obs = .ok (t0 + n * h + Vec.norm (obs - X n le_rfl) / SpeedOfLight) := by
    obtain ⟨p1, p2, -⟩ := pt n le_rfl
    rw [hN2, Nat.add_sub_cancel_left]
    simp only [Particle.RetardedTime, p1, p2, bind, Except.bind, pure, Except.pure]
  have hX0 : X 0 (Nat.zero_le n) = x t0 := by
    obtain ⟨-, p2, -⟩ := pt 0 (Nat.zero_le n)
    have g1 := get_of_TrajPoint (n := 0) hax
    have g2 := get_of_TrajPoint p2
    obtain ⟨-, -, t, y, pm, EB', -, -, -, -, -, e⟩ := Particle.InitVay_ok e1
    obtain ⟨l, hl⟩ := (Particle.steps_facts e2).2.2.2.2.2.2.2.1.2.1
    have hX1 : a1.X = a.X := by rw [e]
    rw [hX1] at hl
    have hlt := (List.getElem?_eq_some_iff.mp g1).1
    rw [← hl, List.getElem?_append_left hlt, g1] at g2
    injection g2 with g2
    exact g2.symm
  have b0 : t0 + (0 : ℕ) * h + Vec.norm (obs - X 0 (Nat.zero_le n)) / SpeedOfLight < arrival x obs s := by
    rw [hX0]
    have := hsent.lower t0 ⟨le_rfl, by linarith⟩ s hsT hs0.le
    have := mul_pos hδ (sub_pos.mpr hs0)
    have e : arrival x obs t0 = t0 + Vec.norm (obs - x t0) / SpeedOfLight := rfl
    push_cast
    linarith
  have bl : arrival x obs s ≤ t0 + n * h + Vec.norm (obs - X n le_rfl) / SpeedOfLight := by
    have l1 := hsent.lower s hsT _ (mem n le_rfl) hns
    have l2 := (abs_le.mp (arr n le_rfl)).1
    have l3 : δ * (G * h ^ 2) ≤ δ * (t0 + n * h - s) := mul_le_mul_of_nonneg_left (by linarith) hδ.le
    have l4 : |C| / SpeedOfLight * h ^ 2 ≤ δ * (G * h ^ 2) := by
      have : |C| / SpeedOfLight ≤ G * δ := by rw [hGδ]; linarith
      calc _ ≤ G * δ * h ^ 2 := mul_le_mul_of_nonneg_right this hh2
        _ = _ := by ring
    linarith
  obtain ⟨i, D, f, left, hi, ⟨br1, br2⟩, hval, -, hint, -, -⟩ := interior_core a2 hreach hsub (arrival x obs s) _ _ obs (by omega) r0 rl b0 bl
  have hin : i ≤ n := by omega
  have hin1 : i + 1 ≤ n := by omega
  obtain ⟨p1, p2, p3, p4, bX, bP, bA⟩ := pt i hin
  obtain ⟨q1, q2, q3, q4, cX, cP, cA⟩ := pt (i + 1) hin1
  have hsubD := hsub i D.t D.u D.x D.y D.ht D.hu D.hx D.hy
  have kt : D.t = t0 + (i : ℝ) * h := Except.ok.inj (D.ht.symm.trans p1)
  have ku : D.u = t0 + ((i + 1 : ℕ) : ℝ) * h := Except.ok.inj (D.hu.symm.trans q1)
  have kx : D.x = X i hin := Except.ok.inj (D.hx.symm.trans p2)
  have ky : D.y = X (i + 1) hin1 := Except.ok.inj (D.hy.symm.trans q2)
  have km : D.m = P i hin := Except.ok.inj (D.hm.symm.trans p3)
  have kn : D.n = P (i + 1) hin1 := Except.ok.inj (D.hn.symm.trans q3)
  have ka : D.a = A i hin := Except.ok.inj (D.ha.symm.trans p4)
  have kb : D.b = A (i + 1) hin1 := Except.ok.inj (D.hb.symm.trans q4)
  have hst : t0 + ((i + 1 : ℕ) : ℝ) * h = t0 + (i : ℝ) * h + h := by push_cast; ring
  have hut : D.u - D.t = h := by rw [kt, ku]; push_cast; ring
  have mi := mem i hin
  have mi1 := mem (i + 1) hin1
  -- the step is short compared with the distance of the observer
  have hCh : |C| * h ^ 2 ≤ d / 2 := by
    have := mul_le_mul_of_nonneg_left hhh hCa
    linarith
  have hfar : d / 2 ≤ Vec.norm (obs - D.x) := by
    have h2 := Vec.norm_sub_le obs D.x (x (t0 + i * h))
    have h3 := hdist _ mi
    have h4 : Vec.norm (D.x - x (t0 + i * h)) ≤ d / 2 := by rw [kx]; exact bX.trans (hCabs.trans hCh)
    linarith
  have hlen : Vec.norm (D.y - D.x) ≤ SpeedOfLight * h := by rw [hut] at hsubD; exact hsubD.le
  have hlen0 := Vec.norm_nonneg (D.y - D.x)
  have hden : d / 4 ≤ Vec.norm (obs - D.x) - 2 * Vec.norm (D.y - D.x) := by linarith
  obtain ⟨e, he⟩ : ∃ e, 4 * Vec.norm (D.y - D.x) ^ 2 / (Vec.norm (obs - D.x) - 2 * Vec.norm (D.y - D.x)) / SpeedOfLight = e := ⟨_, rfl⟩
  have heE : e ≤ E * h ^ 2 := by
    rw [← he, div_div, div_le_iff₀ (mul_pos (by linarith) hc), hE]
    have i1 : Vec.norm (D.y - D.x) ^ 2 ≤ (SpeedOfLight * h) ^ 2 := pow_le_pow_left₀ hlen0 hlen 2
    have i2 : 16 * SpeedOfLight / d * h ^ 2 * (d / 4 * SpeedOfLight) ≤
        16 * SpeedOfLight / d * h ^ 2 * ((Vec.norm (obs - D.x) - 2 * Vec.norm (D.y - D.x)) * SpeedOfLight) :=
      mul_le_mul_of_nonneg_left (mul_le_mul_of_nonneg_right hden hc.le) (by positivity)
    have i3 : 16 * SpeedOfLight / d * h ^ 2 * (d / 4 * SpeedOfLight) = 4 * (SpeedOfLight * h) ^ 2 := by field_simp; ring
    linarith
  have hslope : δ * h - 2 * (|C| / SpeedOfLight) * h ^ 2 ≤
      (D.u + Vec.norm (obs - D.y) / SpeedOfLight) - (D.t + Vec.norm (obs - D.x) / SpeedOfLight) := by
    have l1 := hsent.lower _ mi _ mi1 (by rw [hst]; linarith)
    have l2 := (abs_le.mp (arr i hin)).2
    have l3 := (abs_le.mp (arr (i + 1) hin1)).1
    rw [kt, ku, kx, ky]
    have : t0 + ((i + 1 : ℕ) : ℝ) * h - (t0 + i * h) = h := by push_cast; ring
    rw [this] at l1
    linarith
  have hsmall : 4 * e ≤ 1e-5 * ((D.u + Vec.norm (obs - D.y) / SpeedOfLight) - (D.t + Vec.norm (obs - D.x) / SpeedOfLight)) := by
    have j1 : h * (4 * E + 2 * |C| / SpeedOfLight) * h ≤ 1e-5 * δ * h := mul_le_mul_of_nonneg_right w3 hh.le
    have j2 : 0 ≤ |C| / SpeedOfLight * h ^ 2 := by positivity
    have j3 : h * (4 * E + 2 * |C| / SpeedOfLight) * h = 4 * (E * h ^ 2) + 2 * (|C| / SpeedOfLight * h ^ 2) := by ring
    have j4 := mul_le_mul_of_nonneg_left hslope (by norm_num : (0 : ℝ) ≤ 1e-5)
    linarith
  obtain ⟨f0, f1, hcone⟩ := D.short obs _ f e left hint (by linarith) br1 br2 (by linarith) he hsmall
  -- the source point
  have hsrc : D.t + (D.u - D.t) * f = t0 + i * h + h * f := by rw [hut, kt]
  have msrc : t0 + (i : ℝ) * h + h * f ∈ Set.Icc t0 (t0 + T) := by
    have : h * f ≤ h * 1 := mul_le_mul_of_nonneg_left f1 hh.le
    have : 0 ≤ h * f := mul_nonneg hh.le f0
    rw [hst] at mi1
    exact ⟨by linarith [mi.1], by linarith [mi1.2]⟩
  have near : ∀ (u v : Vec) (g : ℝ → Vec) (l : ℝ), 0 ≤ l → l + |C| ≤ C' →
      (∀ s ∈ Set.Icc t0 (t0 + T), ∀ h, 0 ≤ h → s + h ∈ Set.Icc t0 (t0 + T) → ∀ θ, 0 ≤ θ → θ ≤ 1 →
        Vec.norm (lerp (g s) (g (s + h)) θ - g (s + h * θ)) ≤ l * h ^ 2) →
      Vec.norm (u - g (t0 + i * h)) ≤ C * h ^ 2 → Vec.norm (v - g (t0 + (i + 1 : ℕ) * h)) ≤ C * h ^ 2 →
      Vec.norm (lerp u v f - g (t0 + i * h + h * f)) ≤ C' * h ^ 2 := by
    intro u v g l hl hlC hg hu hv
    rw [hst] at hv mi1
    have n1 := lerp_lerp u v _ _ f (|C| * h ^ 2) f0 f1 (hu.trans hCabs) (hv.trans hCabs)
    have n2 := hg _ mi h hh.le mi1 f f0 f1
    have n3 := Vec.norm_add_le (lerp u v f - lerp (g (t0 + i * h)) (g (t0 + i * h + h)) f) (lerp (g (t0 + i * h)) (g (t0 + i * h + h)) f - g (t0 + i * h + h * f))
    have n4 : (lerp u v f - lerp (g (t0 + i * h)) (g (t0 + i * h + h)) f) + (lerp (g (t0 + i * h)) (g (t0 + i * h + h)) f - g (t0 + i * h + h * f))
        = lerp u v f - g (t0 + i * h + h * f) := by ext <;> simp
    rw [n4] at n3
    have n5 := mul_le_mul_of_nonneg_right hlC hh2
    linarith
  have nX : Vec.norm (lerp D.x D.y f - x (t0 + i * h + h * f)) ≤ C' * h ^ 2 := by
    rw [kx, ky]
    exact near _ _ x Lx hLx (by rw [hC']; linarith) lx bX cX
  have nP : Vec.norm (lerp D.m D.n f - p (t0 + i * h + h * f)) ≤ C' * h ^ 2 := by
    rw [km, kn]
    exact near _ _ p Lp hLp (by rw [hC']; linarith) lp bP cP
  have nA : Vec.norm (lerp D.a D.b f - rateOf p (t0 + i * h + h * f)) ≤ C' * h ^ 2 := by
    rw [ka, kb]
    exact near _ _ (rateOf p) La hLa (by rw [hC']; linarith) la (bA _ (rateOf_spec hp _)) (cA _ (rateOf_spec hp _))
  obtain ⟨hne, hfield⟩ := hnear ⟨t0 + i * h + h * f, h ^ 2, lerp D.x D.y f, lerp D.m D.n f, lerp D.a D.b f, msrc, sq_nonneg h, hhh.trans hle1, nX, nP, nA⟩
  simp only at hne hfield
  refine ⟨_, hval hne, ?_⟩
  intro v hv
  have hv' := hv.unique (rateOf_spec hp s)
  rw [hv']
  have hF : D.fieldFrom obs f = LW q (lerp D.x D.y f) (betaOf (lerp D.m D.n f)) (lerp D.a D.b f / Real.sqrt (1 + Vec.norm (lerp D.m D.n f) ^ 2)) obs := by
    unfold StepData.fieldFrom
    rw [hcharge, hq]
  rw [hF]
  have hFs : Path.fieldAt q x p obs s = LW q (x s) (betaOf (p s)) (rateOf p s / Real.sqrt (1 + Vec.norm (p s) ^ 2)) obs := rfl
  rw [← hFs]
  -- the time of the source
  have htime : δ * |t0 + i * h + h * f - s| ≤ (2 * E + C' / SpeedOfLight) * h ^ 2 := by
    have c1 : |arrival x obs (t0 + i * h + h * f) - arrival x obs s| ≤ (2 * E + C' / SpeedOfLight) * h ^ 2 := by
      have e' : arrival x obs (t0 + i * h + h * f) - arrival x obs s = D.coneError obs (arrival x obs s) f +
          (Vec.norm (obs - x (t0 + i * h + h * f)) - Vec.norm (obs - lerp D.x D.y f)) / SpeedOfLight := by
        unfold StepData.coneError
        rw [hsrc]
        have e0 : arrival x obs (t0 + i * h + h * f) = t0 + i * h + h * f + Vec.norm (obs - x (t0 + i * h + h * f)) / SpeedOfLight := rfl
        rw [e0]
        ring
      rw [e']
      refine (abs_add_le _ _).trans ?_
      have c2 : |(Vec.norm (obs - x (t0 + i * h + h * f)) - Vec.norm (obs - lerp D.x D.y f)) / SpeedOfLight| ≤ C' / SpeedOfLight * h ^ 2 := by
        rw [abs_div, abs_of_pos hc]
        have := norm_sub_abs obs (x (t0 + i * h + h * f)) (lerp D.x D.y f)
        rw [Vec.norm_sub_comm (x (t0 + i * h + h * f)) (lerp D.x D.y f)] at this
        calc _ ≤ C' * h ^ 2 / SpeedOfLight := div_le_div_of_nonneg_right (this.trans nX) hc.le
          _ = _ := by ring
      linarith
    refine le_trans ?_ c1
    rcases le_total (t0 + (i : ℝ) * h + h * f) s with hle | hle
    · have := hsent.lower _ msrc _ hsT hle
      rw [abs_of_nonpos (by linarith : t0 + (i : ℝ) * h + h * f - s ≤ 0)]
      have := neg_abs_le (arrival x obs (t0 + i * h + h * f) - arrival x obs s)
      linarith
    · have := hsent.lower _ hsT _ msrc hle
      rw [abs_of_nonneg (by linarith : 0 ≤ t0 + (i : ℝ) * h + h * f - s)]
      exact this.trans (le_abs_self _)
  have hG' : |t0 + i * h + h * f - s| ≤ G * h ^ 2 := by
    rw [← hGδ] at htime
    have : δ * |t0 + i * h + h * f - s| ≤ δ * (G * h ^ 2) := by linarith
    exact le_of_mul_le_mul_left this hδ
  have hlip := hsent.lip s hsT _ msrc
  have := mul_le_mul_of_nonneg_left hG' hK1
  have tri := abs_sub_le (φ (LW q (lerp D.x D.y f) (betaOf (lerp D.m D.n f)) (lerp D.a D.b f / Real.sqrt (1 + Vec.norm (lerp D.m D.n f) ^ 2)) obs))
    (φ (Path.fieldAt q x p obs (t0 + i * h + h * f))) (φ (Path.fieldAt q x p obs s))
  have : 0 ≤ G * h ^ 2 := by positivity
  linarith

/-- C96: in magnetic fields the field found at an observer at the arrival time of the signal sent at the time `s` is the exact Liénard-Wiechert field of
the exact motion, up to a constant times the square of the time step of the tracking; only signals sent within a time of that order before the end
of the tracking are exempt.  The constant depends neither on the time step, the number of steps, nor on the time of observation. -/
theorem C96_second_order (qm q : ℝ) (field : FieldFn) (x p : ℝ → Vec) (t0 T r L Bm : ℝ) (hm : Motion qm field x p t0 T) (hp : Smooth p)
    (ht : TameNear field x t0 T r L Bm) (hr : 0 < r) (hL : 0 ≤ L) (hT : 0 ≤ T)
    (hmag : ∀ t, t0 ≤ t → t ≤ t0 + T → ∀ EB, field t (x t) = .ok EB → EB.E = 0)
    (obs : Vec) (hobs : ∀ t, t0 ≤ t → t ≤ t0 + T → obs ≠ x t) (φ : EMField → ℝ) (hφ : Particle.IsComponent φ) :
    ∃ C h0 : ℝ, 0 < h0 ∧ ∀ h : ℝ, 0 < h → h ≤ h0 → ∀ n : ℕ, n * h ≤ T →
      ∀ a : Particle, a.Reachable → a.getNP = 1 → a.Mass ≠ 0 → a.Charge / a.Mass * InvRestMass = qm → a.Charge * ElementaryCharge = q →
        a.TrajTime 0 = .ok t0 → a.TrajPoint 0 = .ok (x t0) → a.TrajMomentum 0 = .ok (p t0) →
        ∃ a1 a2, a.InitVay h field = .ok a1 ∧ a1.steps (List.replicate n field) = .ok a2 ∧
          ∀ s, t0 < s → s + C * h ^ 2 ≤ t0 + n * h → ∃ F, a2.RetardedFieldAt (arrival x obs s) obs = .ok F ∧
            ∀ S : ℝ → EMField, Seen q x p obs t0 T S → |φ F - φ (S (arrival x obs s))| ≤ C * h ^ 2 := by
  obtain ⟨C, h0, hh0, H⟩ := C96_limit qm q field x p t0 T r L Bm hm hp ht hr hL hT obs hobs φ hφ
  refine ⟨|C|, h0, hh0, ?_⟩
  intro h hh hle n hn a ha hnp hmass hqm hq hat hax hap
  obtain ⟨a1, a2, e1, e2, rec⟩ := H h hh hle n hn a ha hnp hmass hqm hq hat hax hap
  refine ⟨a1, a2, e1, e2, ?_⟩
  intro s hs hsn
  have hC : C * h ^ 2 ≤ |C| * h ^ 2 := mul_le_mul_of_nonneg_right (le_abs_self C) (sq_nonneg h)
  have hC0 : 0 ≤ |C| * h ^ 2 := by positivity
  obtain ⟨F, hF, hv⟩ := rec s hs (by linarith)
  refine ⟨F, hF, ?_⟩
  intro S hS
  rw [hS s hs.le (by linarith) _ (magnetic_rate hm hmag hs.le (by linarith) (rateOf_spec hp s))]
  exact (hv _ (rateOf_spec hp s)).trans hC

/-- non-vacuity: the electron circulating in a uniform magnetic field (see C92), seen from a point above the plane of its circle; the field it radiates exists, and a signal sent in the
middle of the tracking is sent early enough if the time step is small -/
example (C : ℝ) : (∀ t, 0 ≤ t → t ≤ 0 + 1 → ∀ EB, circleField t (circleX t) = .ok EB → EB.E = 0) ∧ (∀ t, 0 ≤ t → t ≤ 0 + 1 → (⟨0, 1, 0⟩ : Vec) ≠ circleX t) ∧
    (∃ a : Particle, a.Reachable ∧ a.getNP = 1 ∧ a.Mass ≠ 0 ∧ a.Charge / a.Mass * InvRestMass = -1 / 1 * InvRestMass ∧ a.Charge * ElementaryCharge = -1 * ElementaryCharge ∧
      a.TrajTime 0 = .ok 0 ∧ a.TrajPoint 0 = .ok (circleX 0) ∧ a.TrajMomentum 0 = .ok (circleP 0)) ∧
    (∃ N : ℕ, ∀ n : ℕ, N ≤ n → 0 < n → (0 : ℝ) < 1 / 2 ∧ 1 / 2 + C * (1 / n : ℝ) ^ 2 ≤ 0 + n * (1 / n : ℝ)) := by
  refine ⟨?_, ?_, ⟨POp.exec Particle.default (.init 0 (circleX 0) (circleP 0) 0), ⟨_, [.init 0 (circleX 0) (circleP 0) 0], Or.inr (Or.inr (Or.inl rfl)), rfl⟩, ?_, ?_, ?_, ?_, rfl, rfl, rfl⟩, ?_⟩
  · intro t _ _ EB h
    cases h
    rfl
  · intro t _ _ h
    have := congrArg Vec.y h
    simp [circleX] at this
  · simp [POp.exec, POp.result, Particle.initTrajectory, Particle.default, Particle.new, Particle.getNP]
  · simp [POp.exec, POp.result, Particle.initTrajectory, Particle.default, Particle.new, Particle.getNP]
  · simp [POp.exec, POp.result, Particle.initTrajectory, Particle.default, Particle.new, Particle.getNP]
  · simp [POp.exec, POp.result, Particle.initTrajectory, Particle.default, Particle.new, Particle.getNP]
  · obtain ⟨N, hN⟩ := exists_nat_ge (2 * |C|)
    refine ⟨N, fun n hn hpos => ⟨by norm_num, ?_⟩⟩
    have h1 : (1 : ℝ) ≤ n := by exact_mod_cast hpos
    have h2 : (N : ℝ) ≤ n := by exact_mod_cast hn
    have h3 : C * (1 / n : ℝ) ^ 2 ≤ 1 / 2 := by
      rw [one_div, inv_pow, ← div_eq_mul_inv, div_le_iff₀ (by positivity)]
      have := le_abs_self C
      nlinarith
    have h4 : (n : ℝ) * (1 / n) = 1 := by field_simp
    rw [h4]
    linarith

end Teufel
