import Verif.Lemmas.LightCone
import Verif.Props.Interp
import Verif.Props.RetardedField

/-! # C11: light-cone correctness of the retarded field at a given observation time -/

namespace Teufel
open Vec

/-- C11: without trajectory the query raises RANGEexception. -/
theorem C11_no_trajectory (p : Particle) (h : p.getNP = 0) (t : ℝ) (obs : Vec) : p.RetardedFieldAt t obs = .error .range := by
  simp only [Particle.getNP] at h
  simp only [Particle.RetardedFieldAt]
  rw [if_pos (by omega)]

theorem RetardedTime_of {p : Particle} {i : Nat} {obs : Vec} {t : ℝ} {x : Vec} (ht : p.TrajTime i = .ok t)
    (hx : p.TrajPoint i = .ok x) : p.RetardedTime i obs = .ok (t + Vec.norm (obs - x) / SpeedOfLight) := by
  simp only [Particle.RetardedTime, ht, hx, bind, Except.bind, pure, Except.pure]

/-- C11: an observation later than the arrival of the signal of the last point gives zero field. -/
theorem C11_after_end (p : Particle) (hp : p.Reachable) (hn : 1 ≤ p.getNP) (t rl : ℝ) (obs : Vec)
    (hl : p.RetardedTime (p.getNP - 1 : Nat) obs = .ok rl) (h : rl < t) : p.RetardedFieldAt t obs = .ok 0 := by
  have hcons := cons_reachable hp
  have ⟨c1, c2, c3, c4⟩ := hcons
  simp only [Particle.getNP] at *
  have g : ∀ {α} (l : List α), l.length = p.NP → ∀ i, i < p.NP → ∃ a, l[i]? = some a := by
    intro α l hl i hi; exact ⟨_, List.getElem?_eq_getElem (by omega)⟩
  obtain ⟨T0, hT0⟩ := g p.Time c1 0 (by omega)
  obtain ⟨X0, hX0⟩ := g p.X c2 0 (by omega)
  obtain ⟨P0, hP0⟩ := g p.P c3 0 (by omega)
  obtain ⟨TL, hTL⟩ := g p.Time c1 (p.NP - 1) (by omega)
  obtain ⟨XL, hXL⟩ := g p.X c2 (p.NP - 1) (by omega)
  rw [RetardedTime_of (TrajTime_of_get hcons hTL) (TrajPoint_of_get hcons hXL)] at hl
  injection hl with hl
  simp only [Particle.RetardedFieldAt]
  rw [if_neg (by omega), Particle.vecAt_of_get hX0, Particle.vecAt_of_get hT0, Particle.vecAt_of_get hP0,
    Particle.vecAt_of_get hXL, Particle.vecAt_of_get hTL]
  simp only [bind, Except.bind]
  rw [if_neg (by rw [hl]; linarith)]

theorem beta_form (m : Vec) : m / Real.sqrt (m.abs2nd + 1) = betaOf m := by rw [gamma_form]; rfl

theorem norm_zero_iff (a b : Vec) : Vec.norm (a - b) = 0 ↔ a = b := by
  rw [Vec.norm_eq_zero]; exact sub_eq_zero

/-- C11 (partial): an observer not yet reached by the signal of the first point, if that point has time zero, sees
the field of a uniformly moving charge at a source point which lies on the straight line through the first point,
not later than the first point, exactly on the backward light cone.
Missing: trajectories whose first time is not zero, for which the claim is false
(`C11_before_start_full_statement_false`). -/
theorem C11_before_start_partial (p : Particle) (hp : p.Reachable) (t r0 rl : ℝ) (x0 m0 obs : Vec)
    (hn : 1 ≤ p.getNP) (ht0 : p.TrajTime (0 : Nat) = .ok 0) (hx0 : p.TrajPoint (0 : Nat) = .ok x0)
    (hm0 : p.TrajMomentum (0 : Nat) = .ok m0) (h0 : p.RetardedTime (0 : Nat) obs = .ok r0)
    (hl : p.RetardedTime (p.getNP - 1 : Nat) obs = .ok rl) (h1 : t ≤ r0) (h2 : t ≤ rl) :
    ∃ T : ℝ, T ≤ 0 ∧ T + Vec.norm (obs - (x0 + betaOf m0 * (SpeedOfLight * T))) / SpeedOfLight = t ∧
      (obs ≠ x0 + betaOf m0 * (SpeedOfLight * T) →
        p.RetardedFieldAt t obs
          = .ok (LW (p.Charge * ElementaryCharge) (x0 + betaOf m0 * (SpeedOfLight * T)) (betaOf m0) 0 obs)) ∧
      (obs = x0 + betaOf m0 * (SpeedOfLight * T) → p.RetardedFieldAt t obs = .error .nan) := by
  have hcons := cons_reachable hp
  have ⟨c1, c2, c3, c4⟩ := hcons
  simp only [Particle.getNP] at *
  rw [RetardedTime_of ht0 hx0] at h0
  injection h0 with h0
  have g : ∀ {α} (l : List α), l.length = p.NP → ∀ i, i < p.NP → ∃ a, l[i]? = some a := by
    intro α l hl i hi; exact ⟨_, List.getElem?_eq_getElem (by omega)⟩
  obtain ⟨TL, hTL⟩ := g p.Time c1 (p.NP - 1) (by omega)
  obtain ⟨XL, hXL⟩ := g p.X c2 (p.NP - 1) (by omega)
  rw [RetardedTime_of (TrajTime_of_get hcons hTL) (TrajPoint_of_get hcons hXL)] at hl
  injection hl with hl
  have hb : dot (m0 / Real.sqrt (m0.abs2nd + 1)) (m0 / Real.sqrt (m0.abs2nd + 1)) < 1 := by
    rw [beta_form]
    have := betaOf_sq m0
    have h0 := abs2nd_nonneg m0
    have : 0 < 1 / (m0.abs2nd + 1) := by positivity
    linarith
  obtain ⟨e1, e2⟩ := Particle.extrapolate_cone x0 m0 obs t hb (by linarith)
  have hX : (Particle.extrapolate x0 m0 t obs).X
      = x0 + betaOf m0 * (SpeedOfLight * (Particle.extrapolate x0 m0 t obs).T) := by
    have : (Particle.extrapolate x0 m0 t obs).X
      = x0 + (m0 / Real.sqrt (m0.abs2nd + 1)) * SpeedOfLight * (Particle.extrapolate x0 m0 t obs).T := rfl
    rw [this, beta_form, Vec.mul_assoc']
  have hval : p.RetardedFieldAt t obs =
      if Vec.norm (obs - (Particle.extrapolate x0 m0 t obs).X) = 0 then .error .nan
      else .ok (LW (p.Charge * ElementaryCharge) (Particle.extrapolate x0 m0 t obs).X (betaOf m0) 0 obs) := by
    simp only [Particle.RetardedFieldAt]
    rw [if_neg (by omega), Particle.vecAt_of_get (get_of_TrajPoint hx0), Particle.vecAt_of_get (get_of_TrajTime ht0),
      Particle.vecAt_of_get (get_of_TrajMomentum hm0), Particle.vecAt_of_get hXL, Particle.vecAt_of_get hTL]
    simp only [bind, Except.bind]
    rw [if_pos (by rw [hl]; linarith), if_pos (by linarith)]
    congr 2
    rw [← lwField_eq]
    have : (Particle.extrapolate x0 m0 t obs).beta = betaOf m0 := by
      rw [← beta_form]; rfl
    rw [this]; rfl
  refine ⟨_, e1, by rw [← hX]; exact e2, ?_, ?_⟩
  · intro hne; rw [hval, hX, if_neg (by rw [norm_zero_iff]; exact hne)]
  · intro he; rw [hval, hX, if_pos (by rw [norm_zero_iff]; exact he)]

/-- position, momentum and acceleration used for the source at fraction `f` of a trajectory step -/
structure StepData (p : Particle) (i : Nat) where
  (t u : ℝ) (x y m n a b : Vec)
  ht : p.TrajTime i = .ok t
  hu : p.TrajTime (i + 1 : Nat) = .ok u
  hx : p.TrajPoint i = .ok x
  hy : p.TrajPoint (i + 1 : Nat) = .ok y
  hm : p.TrajMomentum i = .ok m
  hn : p.TrajMomentum (i + 1 : Nat) = .ok n
  ha : p.TrajAccel i = .ok a
  hb : p.TrajAccel (i + 1 : Nat) = .ok b

/-- distance in time between the observation and the arrival of the signal from the source at fraction `f` -/
noncomputable def StepData.coneError {p : Particle} {i : Nat} (d : StepData p i) (obs : Vec) (t f : ℝ) : ℝ :=
  (d.t + (d.u - d.t) * f) + Vec.norm (obs - lerp d.x d.y f) / SpeedOfLight - t

/-- the Liénard-Wiechert field of the source at fraction `f` -/
noncomputable def StepData.fieldFrom {p : Particle} {i : Nat} (d : StepData p i) (obs : Vec) (f : ℝ) : EMField :=
  LW (p.Charge * ElementaryCharge) (lerp d.x d.y f) (betaOf (lerp d.m d.n f))
    (lerp d.a d.b f / Real.sqrt (1 + Vec.norm (lerp d.m d.n f) ^ 2)) obs

/-- the step is short or slow enough for the search of the source point to succeed: either the velocity is
below 0.13 c, or the observer is far away compared with the step length and the relativistic focusing -/
def StepData.Resolved {p : Particle} {i : Nat} (d : StepData p i) (obs : Vec) : Prop :=
  Vec.norm (d.y - d.x) ≤ 0.13 * (SpeedOfLight * (d.u - d.t)) ∨
  (2 * Vec.norm (d.y - d.x) < Vec.norm (obs - d.x) ∧
    4 * Vec.norm (d.y - d.x) ^ 2 / (Vec.norm (obs - d.x) - 2 * Vec.norm (d.y - d.x))
      ≤ 0.13 * (SpeedOfLight * (d.u - d.t) - Vec.norm (d.y - d.x)))

theorem lerp_form (u v : Vec) (s : ℝ) : u * (1 - s) + v * s = lerp u v s := by
  simp only [lerp]; ext <;> simp <;> ring

/-- the source point at fraction `f`, as the code builds it -/
noncomputable def StepData.source {p : Particle} {i : Nat} (d : StepData p i) (f : ℝ) : Particle.Source :=
  { T := d.t * (1 - f) + d.u * f, X := lerp d.x d.y f
    beta := betaOf (lerp d.m d.n f)
    betaPrime := lerp d.a d.b f / Real.sqrt (1 + Vec.norm (lerp d.m d.n f) ^ 2)
    gamma2 := (lerp d.m d.n f).abs2nd + 1 }

theorem interpolate_red (p : Particle) (i : Nat) (d : StepData p i) (obs : Vec) (t s f0 : ℝ)
    (hs : s = (d.u - d.t) + (Vec.norm (obs - d.y) - Vec.norm (obs - d.x)) / SpeedOfLight) (hs0 : s ≠ 0)
    (hf0 : f0 = (t - (d.t + Vec.norm (obs - d.x) / SpeedOfLight)) / s) (f dd : ℝ) (left : Nat)
    (hsec : Particle.secant (Particle.mismatch d.t d.u d.x d.y t obs) 9 f0
      (Particle.mismatch d.t d.u d.x d.y t obs f0) (Particle.mismatch d.t d.u d.x d.y t obs f0 / s) = .ok (f, dd, left)) :
    Particle.interpolate p i (i + 1) t obs = .ok (d.source (f - dd), left) := by
  have he : (t - (d.t + Vec.norm (obs - d.x) / SpeedOfLight)) - (t - (d.u + Vec.norm (obs - d.y) / SpeedOfLight)) = s := by
    rw [hs]; ring
  simp only [Particle.interpolate]
  rw [Particle.vecAt_of_get (get_of_TrajTime d.ht), Particle.vecAt_of_get (get_of_TrajTime d.hu),
    Particle.vecAt_of_get (get_of_TrajPoint d.hx), Particle.vecAt_of_get (get_of_TrajPoint d.hy),
    Particle.vecAt_of_get (get_of_TrajMomentum d.hm), Particle.vecAt_of_get (get_of_TrajMomentum d.hn),
    Particle.vecAt_of_get (get_of_TrajAccel d.ha), Particle.vecAt_of_get (get_of_TrajAccel d.hb)]
  simp only [bind, Except.bind]
  rw [he, ← hs, ← hf0, if_neg hs0, if_neg hs0, hsec]
  simp only [pure, Except.pure, lerp_form, gamma_form, StepData.source, betaOf]

theorem StepData.coneError_eq {p : Particle} {i : Nat} (d : StepData p i) (obs : Vec) (t f : ℝ) :
    Particle.mismatch d.t d.u d.x d.y t obs f = d.coneError obs t f := by
  simp only [Particle.mismatch, StepData.coneError, lerp_form]; ring

theorem interpolate_spec (p : Particle) (i : Nat) (d : StepData p i) (obs : Vec) (t : ℝ)
    (hsub : Vec.norm (d.y - d.x) < SpeedOfLight * (d.u - d.t))
    (h1 : d.t + Vec.norm (obs - d.x) / SpeedOfLight < t) (h2 : t ≤ d.u + Vec.norm (obs - d.y) / SpeedOfLight) :
    ∃ f left, Particle.interpolate p i (i + 1) t obs = .ok (d.source f, left) ∧
      (left ≠ 0 → |d.coneError obs t f| ≤ 2e-5 * (d.u - d.t)) ∧
      (d.Resolved obs → |d.coneError obs t f| ≤ 2e-5 * (d.u - d.t)) := by
  have hc := SpeedOfLight_pos
  set g := Particle.mismatch d.t d.u d.x d.y t obs with hg
  have hgc : ∀ f, g f = d.coneError obs t f := fun f => d.coneError_eq obs t f
  have hg0 : g 0 = d.t + Vec.norm (obs - d.x) / SpeedOfLight - t := by
    rw [hgc]; simp only [StepData.coneError, lerp]
    have : d.x + (d.y - d.x) * (0:ℝ) = d.x := by ext <;> simp
    rw [this]; ring
  have hg1 : g 1 = d.u + Vec.norm (obs - d.y) / SpeedOfLight - t := by
    rw [hgc]; simp only [StepData.coneError, lerp]
    have : d.x + (d.y - d.x) * (1:ℝ) = d.y := by ext <;> simp
    rw [this]; ring
  set D := Vec.norm (d.y - d.x) / SpeedOfLight with hD
  have hD0 : 0 ≤ D := div_nonneg (Vec.norm_nonneg _) hc.le
  have hDlt : D < d.u - d.t := by rw [hD, div_lt_iff₀ hc]; linarith
  have hslope : ∀ a b, a < b → ((d.u - d.t) - D) * (b - a) ≤ g b - g a ∧ g b - g a ≤ ((d.u - d.t) + D) * (b - a) :=
    fun a b hab => Particle.mismatch_slope d.t d.u d.x d.y t obs a b hab
  obtain ⟨s, hs⟩ : ∃ s, s = (d.u - d.t) + (Vec.norm (obs - d.y) - Vec.norm (obs - d.x)) / SpeedOfLight := ⟨_, rfl⟩
  have hs1 : s = g 1 - g 0 := by rw [hg0, hg1, hs]; ring
  have hsm := hslope 0 1 (by norm_num)
  rw [← hs1, sub_zero, mul_one, mul_one] at hsm
  have hspos : 0 < s := by linarith [hsm.1]
  obtain ⟨f0, hf0⟩ : ∃ f0, f0 = (t - (d.t + Vec.norm (obs - d.x) / SpeedOfLight)) / s := ⟨_, rfl⟩
  have hf0' : f0 * s = -g 0 := by rw [hf0, hg0, div_mul_cancel₀ _ hspos.ne']; ring
  have hf0pos : 0 < f0 := by rw [hf0]; apply div_pos _ hspos; linarith
  have hf0le : f0 ≤ 1 := by rw [hf0, div_le_one hspos, hs1]; linarith
  obtain ⟨f, dd, left, s', e1, e2, e3, e4, e5⟩ :=
    Particle.secant_global g ((d.u - d.t) - D) ((d.u - d.t) + D) (by linarith) hslope 9 f0 s hsm.1 hsm.2
  refine ⟨f - dd, left, interpolate_red p i d obs t s f0 hs hspos.ne' hf0 f dd left e1, ?_, ?_⟩
  · intro hleft
    rw [← hgc]
    refine (Particle.secant_residual g ((d.u - d.t) - D) ((d.u - d.t) + D) (by linarith) f dd s'
      (fun a b _ hab => hslope a b hab) e2 e3 e4).trans ?_
    have h5 := e5 hleft
    have h6 := abs_nonneg dd
    have h7 : ((d.u - d.t) + D - ((d.u - d.t) - D)) * |dd| ≤ (2 * (d.u - d.t)) * 1e-5 :=
      mul_le_mul (by linarith) h5 h6 (by linarith)
    linarith
  · intro hres
    rw [← hgc]
    rcases hres with hslow | ⟨hfar1, hfar2⟩
    · have hDs : D ≤ 0.13 * (d.u - d.t) := by rw [hD, div_le_iff₀ hc]; linarith
      refine (Particle.secant_main g ((d.u - d.t) - D) ((d.u - d.t) + D) s f0 (by linarith) (by linarith) (by linarith)
        (fun a b _ _ hab => hslope a b hab) hs1 hf0' hf0pos hf0le f dd left e1).trans ?_
      linarith
    · obtain ⟨e, he⟩ : ∃ e, e = 4 * Vec.norm (d.y - d.x) ^ 2 / (Vec.norm (obs - d.x) - 2 * Vec.norm (d.y - d.x)) / SpeedOfLight :=
        ⟨_, rfl⟩
      obtain ⟨s0, hs0⟩ : ∃ s0, s0 = (d.u - d.t) - dot (d.y - d.x) (obs - d.x) / Vec.norm (obs - d.x) / SpeedOfLight := ⟨_, rfl⟩
      have hdel := Vec.norm_nonneg (d.y - d.x)
      have hrp : 0 < Vec.norm (obs - d.x) := by linarith
      have hs0ge : (d.u - d.t) - D ≤ s0 := by
        rw [hs0, hD]
        have h1 := le_trans (le_abs_self _) (abs_dot_le (d.y - d.x) (obs - d.x))
        have : dot (d.y - d.x) (obs - d.x) / Vec.norm (obs - d.x) ≤ Vec.norm (d.y - d.x) := by
          rw [div_le_iff₀ hrp]; exact h1
        have := div_le_div_of_nonneg_right this hc.le
        linarith
      have he0 : 0 ≤ e := by
        rw [he]; apply div_nonneg _ hc.le; apply div_nonneg (by positivity); linarith
      have hE : e ≤ 0.13 * ((d.u - d.t) - D) := by
        rw [he, div_le_iff₀ hc]
        refine hfar2.trans (le_of_eq ?_)
        rw [hD]; field_simp
      refine (Particle.secant_main g (s0 - e) (s0 + e) s f0 (by linarith) (by linarith) (by linarith)
        (fun a b ha hb hab => Particle.mismatch_slope_far d.t d.u d.x d.y t obs a b ha hb hab hfar1 s0 e hs0 he)
        hs1 hf0' hf0pos hf0le f dd left e1).trans ?_
      linarith

/-- the step found by the search brackets the observation time, and the field is that of an interpolated source -/
theorem interior_core (p : Particle) (hp : p.Reachable) (hs : p.Subluminal) (t r0 rl : ℝ) (obs : Vec) (hn : 1 ≤ p.getNP)
    (h0 : p.RetardedTime (0 : Nat) obs = .ok r0) (hl : p.RetardedTime (p.getNP - 1 : Nat) obs = .ok rl)
    (h1 : r0 < t) (h2 : t ≤ rl) :
    ∃ (i : Nat) (d : StepData p i) (f : ℝ) (left : Nat), i + 1 < p.getNP ∧
      (d.t + Vec.norm (obs - d.x) / SpeedOfLight < t ∧ t ≤ d.u + Vec.norm (obs - d.y) / SpeedOfLight) ∧
      (obs ≠ lerp d.x d.y f → p.RetardedFieldAt t obs = .ok (d.fieldFrom obs f)) ∧
      (obs = lerp d.x d.y f → p.RetardedFieldAt t obs = .error .nan) ∧
      Particle.interpolate p i (i + 1) t obs = .ok (d.source f, left) ∧
      (left ≠ 0 → |d.coneError obs t f| ≤ 2e-5 * (d.u - d.t)) ∧
      (d.Resolved obs → |d.coneError obs t f| ≤ 2e-5 * (d.u - d.t)) := by
  have hcons := cons_reachable hp
  have ⟨c1, c2, c3, c4⟩ := hcons
  simp only [Particle.getNP] at *
  have gT : ∀ k, k < p.NP → p.Time[k]? = some ((p.Time[k]?).getD 0) := by
    intro k hk; rw [List.getElem?_eq_getElem (by omega)]; rfl
  have gX : ∀ k, k < p.NP → p.X[k]? = some ((p.X[k]?).getD 0) := by
    intro k hk; rw [List.getElem?_eq_getElem (by omega)]; rfl
  have gP : ∀ k, k < p.NP → p.P[k]? = some ((p.P[k]?).getD 0) := by
    intro k hk; rw [List.getElem?_eq_getElem (by omega)]; rfl
  have gA : ∀ k, k < p.NP → p.A[k]? = some ((p.A[k]?).getD 0) := by
    intro k hk; rw [List.getElem?_eq_getElem (by omega)]; rfl
  set T : Nat → ℝ := fun k => (p.Time[k]?).getD 0 with hT
  set X : Nat → Vec := fun k => (p.X[k]?).getD 0 with hX
  set R : Nat → ℝ := fun k => T k + Vec.norm (obs - X k) / SpeedOfLight with hR
  have hRT : ∀ k, k < p.NP → p.RetardedTime k obs = .ok (R k) := fun k hk =>
    RetardedTime_of (TrajTime_of_get hcons (gT k hk)) (TrajPoint_of_get hcons (gX k hk))
  rw [hRT 0 (by omega)] at h0
  rw [hRT (p.NP - 1) (by omega)] at hl
  injection h0 with h0
  injection hl with hl
  have hNP : 2 ≤ p.NP := by
    by_contra hcon
    have : p.NP - 1 = 0 := by omega
    rw [this] at hl; linarith
  obtain ⟨j, hj, j1, j2, j3, j4⟩ := Particle.bisect_spec
    (fun i => do
      let x ← Particle.vecAt p.X i
      let tt ← Particle.vecAt p.Time i
      return decide (t - (tt + Vec.norm (obs - x) / SpeedOfLight) > 0)) (fun k => decide (t - R k > 0)) 0 (p.NP - 1) (by omega)
    (by intro k _ hk
        rw [Particle.vecAt_of_get (gX k (by omega)), Particle.vecAt_of_get (gT k (by omega))]; rfl)
  have b1 : R j < t := by
    rcases j3 with h | h
    · rw [h, h0]; exact h1
    · have := of_decide_eq_true h; linarith
  have b2 : t ≤ R (j + 1) := by
    rcases j4 with h | h
    · rw [h, hl]; exact h2
    · have := of_decide_eq_false h; linarith
  let d : StepData p j :=
    { t := T j, u := T (j + 1), x := X j, y := X (j + 1), m := (p.P[j]?).getD 0, n := (p.P[j+1]?).getD 0
      a := (p.A[j]?).getD 0, b := (p.A[j+1]?).getD 0
      ht := TrajTime_of_get hcons (gT j (by omega)), hu := TrajTime_of_get hcons (gT (j + 1) (by omega))
      hx := TrajPoint_of_get hcons (gX j (by omega)), hy := TrajPoint_of_get hcons (gX (j + 1) (by omega))
      hm := TrajMomentum_of_get hcons (gP j (by omega)), hn := TrajMomentum_of_get hcons (gP (j + 1) (by omega))
      ha := TrajAccel_of_get hcons (gA j (by omega)), hb := TrajAccel_of_get hcons (gA (j + 1) (by omega)) }
  have hsub := hs j d.t d.u d.x d.y d.ht d.hu d.hx d.hy
  obtain ⟨f, left, hint, hc1, hc2⟩ := interpolate_spec p j d obs t hsub b1 b2
  have hval : p.RetardedFieldAt t obs =
      if Vec.norm (obs - lerp d.x d.y f) = 0 then .error .nan else .ok (d.fieldFrom obs f) := by
    simp only [Particle.RetardedFieldAt]
    rw [if_neg (by omega), Particle.vecAt_of_get (gX 0 (by omega)), Particle.vecAt_of_get (gT 0 (by omega)),
      Particle.vecAt_of_get (gP 0 (by omega)), Particle.vecAt_of_get (gX (p.NP - 1) (by omega)),
      Particle.vecAt_of_get (gT (p.NP - 1) (by omega))]
    simp only [bind, Except.bind]
    have k1 : t - (T (p.NP - 1) + Vec.norm (obs - X (p.NP - 1)) / SpeedOfLight) ≤ 0 := by
      have : R (p.NP - 1) = T (p.NP - 1) + Vec.norm (obs - X (p.NP - 1)) / SpeedOfLight := rfl
      rw [← this]; linarith
    have k2 : ¬ (t - (T 0 + Vec.norm (obs - X 0) / SpeedOfLight) ≤ 0) := by
      have : R 0 = T 0 + Vec.norm (obs - X 0) / SpeedOfLight := rfl
      rw [← this]; linarith
    rw [if_pos k1, if_neg k2]
    simp only [bind, Except.bind] at hj
    rw [hj]
    simp only
    rw [hint]
    simp only [Except.map, StepData.source]
    congr 2
    simp only [StepData.fieldFrom]
    rw [lwField_eq]
  refine ⟨j, d, f, left, by omega, ⟨b1, b2⟩, ?_, ?_, hint, hc1, hc2⟩
  · intro hne; rw [hval, if_neg (by rw [norm_zero_iff]; exact hne)]
  · intro he; rw [hval, if_pos (by rw [norm_zero_iff]; exact he)]

/-- C11 (partial): for an observer reached by the signal of the first point and not yet passed by the signal of the
last one, a subluminal trajectory yields the field of a source point interpolated within the step whose signals
bracket the observation time.  For steps that are slow or far from the observer (`Resolved`) the source point is on
the backward light cone up to 2·10⁻⁵ of the time step, and no division by zero occurs unless the observer sits on
the source.  Missing: steps close to the observer at relativistic velocity, where the claim is false
(`C11_interior_full_statement_false`). -/
theorem C11_interior_partial (p : Particle) (hp : p.Reachable) (hs : p.Subluminal) (t r0 rl : ℝ) (obs : Vec) (hn : 1 ≤ p.getNP)
    (h0 : p.RetardedTime (0 : Nat) obs = .ok r0) (hl : p.RetardedTime (p.getNP - 1 : Nat) obs = .ok rl)
    (h1 : r0 < t) (h2 : t ≤ rl) (hres : ∀ i (d : StepData p i), d.Resolved obs) :
    ∃ (i : Nat) (d : StepData p i) (f : ℝ), i + 1 < p.getNP ∧
      (d.t + Vec.norm (obs - d.x) / SpeedOfLight < t ∧ t ≤ d.u + Vec.norm (obs - d.y) / SpeedOfLight) ∧
      |d.coneError obs t f| ≤ 2e-5 * (d.u - d.t) ∧
      (obs ≠ lerp d.x d.y f → p.RetardedFieldAt t obs = .ok (d.fieldFrom obs f)) ∧
      (obs = lerp d.x d.y f → p.RetardedFieldAt t obs = .error .nan) := by
  obtain ⟨i, d, f, left, a1, a2, a3, a4, a5, a6, a7⟩ := interior_core p hp hs t r0 rl obs hn h0 hl h1 h2
  exact ⟨i, d, f, a1, a2, a7 (hres i d), a3, a4⟩

/-- C11 (partial): without any assumption on the step length, the light-cone error is below 2·10⁻⁵ of the time step
whenever the search loop stopped before its iteration limit (`left ≠ 0`). -/
theorem C11_interior_converged_partial (p : Particle) (hp : p.Reachable) (hs : p.Subluminal) (t r0 rl : ℝ) (obs : Vec)
    (hn : 1 ≤ p.getNP)
    (h0 : p.RetardedTime (0 : Nat) obs = .ok r0) (hl : p.RetardedTime (p.getNP - 1 : Nat) obs = .ok rl)
    (h1 : r0 < t) (h2 : t ≤ rl) :
    ∃ (i : Nat) (d : StepData p i) (f : ℝ) (left : Nat), i + 1 < p.getNP ∧
      (d.t + Vec.norm (obs - d.x) / SpeedOfLight < t ∧ t ≤ d.u + Vec.norm (obs - d.y) / SpeedOfLight) ∧
      (obs ≠ lerp d.x d.y f → p.RetardedFieldAt t obs = .ok (d.fieldFrom obs f)) ∧
      (obs = lerp d.x d.y f → p.RetardedFieldAt t obs = .error .nan) ∧
      Particle.interpolate p i (i + 1) t obs = .ok (d.source f, left) ∧
      (left ≠ 0 → |d.coneError obs t f| ≤ 2e-5 * (d.u - d.t)) := by
  obtain ⟨i, d, f, left, a1, a2, a3, a4, a5, a6, a7⟩ := interior_core p hp hs t r0 rl obs hn h0 hl h1 h2
  exact ⟨i, d, f, left, a1, a2, a3, a4, a5, a6⟩

/-- non-vacuity of the hypotheses of `C11_interior_partial`: a slow charge and an observer 1 m away -/
example : ∃ p : Particle, p.Reachable ∧ p.Subluminal ∧ p.getNP = 2 ∧ ∀ i (d : StepData p i), d.Resolved ⟨1, 0, 0⟩ := by
  let p := [POp.init 0 0 ⟨0,0,1⟩ 0, .store 1 ⟨0,0,1⟩ ⟨0,0,1⟩ 0].foldl POp.exec Particle.default
  have key : ∀ (i : Nat) t u x y, p.TrajTime i = .ok t → p.TrajTime (i + 1 : Nat) = .ok u → p.TrajPoint i = .ok x →
      p.TrajPoint (i + 1 : Nat) = .ok y → Vec.norm (y - x) ≤ 0.13 * (SpeedOfLight * (u - t)) ∧ Vec.norm (y - x) < SpeedOfLight * (u - t) := by
    intro i t u x y ht hu hx hy
    have h1 := (List.getElem?_eq_some_iff.mp (get_of_TrajTime hu)).1
    have h2 : p.Time.length = 2 := rfl
    have hi : i = 0 := by omega
    subst hi
    have e1 : Except.ok t = (Except.ok 0 : Except Err ℝ) := ht.symm.trans rfl
    have e2 : Except.ok u = (Except.ok 1 : Except Err ℝ) := hu.symm.trans rfl
    have e3 : Except.ok x = (Except.ok 0 : Except Err Vec) := hx.symm.trans rfl
    have e4 : Except.ok y = (Except.ok ⟨0, 0, 1⟩ : Except Err Vec) := hy.symm.trans rfl
    injection e1 with e1; injection e2 with e2; injection e3 with e3; injection e4 with e4
    have : Vec.norm ((⟨0,0,1⟩ : Vec) - 0) = 1 := by simp [Vec.norm]
    rw [e1, e2, e3, e4, this]; simp only [SpeedOfLight]; norm_num
  exact ⟨p, ⟨_, _, Or.inr (Or.inr (Or.inl rfl)), rfl⟩, fun i t u x y a b c d => (key i t u x y a b c d).2, rfl,
    fun i d => Or.inl (key i _ _ _ _ d.ht d.hu d.hx d.hy).1⟩

/-- C11: the field observed from a subluminal trajectory is always defined (no division by zero in the search or in the
field formula, no index error), for every observation time, if the observer is not on the straight continuation of the
first velocity and on none of the straight lines through consecutive points of the trajectory. -/
theorem C11_defined (p : Particle) (hp : p.Reachable) (hs : p.Subluminal) (hn : 1 ≤ p.getNP) (t : ℝ) (obs : Vec)
    (hstart : ∀ x m, p.TrajPoint (0 : Nat) = .ok x → p.TrajMomentum (0 : Nat) = .ok m → ∀ s : ℝ, obs ≠ x + m * s)
    (hlines : ∀ (i : Nat) x y, p.TrajPoint i = .ok x → p.TrajPoint (i + 1 : Nat) = .ok y → ∀ s : ℝ, obs ≠ lerp x y s) :
    ∃ F, p.RetardedFieldAt t obs = .ok F := by
  have hcons := cons_reachable hp
  have ⟨c1, c2, c3, c4⟩ := hcons
  have g : ∀ {α} (l : List α), l.length = p.NP → ∀ i, i < p.NP → ∃ a, l[i]? = some a := by
    intro α l hl i hi; exact ⟨_, List.getElem?_eq_getElem (by omega)⟩
  have hn' : 1 ≤ p.NP := hn
  obtain ⟨T0, hT0⟩ := g p.Time c1 0 (by omega)
  obtain ⟨X0, hX0⟩ := g p.X c2 0 (by omega)
  obtain ⟨P0, hP0⟩ := g p.P c3 0 (by omega)
  obtain ⟨TL, hTL⟩ := g p.Time c1 (p.NP - 1) (by omega)
  obtain ⟨XL, hXL⟩ := g p.X c2 (p.NP - 1) (by omega)
  have h0 := RetardedTime_of (obs := obs) (TrajTime_of_get hcons hT0) (TrajPoint_of_get hcons hX0)
  have hl := RetardedTime_of (obs := obs) (TrajTime_of_get hcons hTL) (TrajPoint_of_get hcons hXL)
  rcases lt_or_ge (TL + Vec.norm (obs - XL) / SpeedOfLight) t with hafter | hafter
  · exact ⟨0, C11_after_end p hp hn t _ obs hl hafter⟩
  rcases lt_or_ge (T0 + Vec.norm (obs - X0) / SpeedOfLight) t with hin | hbefore
  · obtain ⟨i, d, f, left, a1, a2, a3, _⟩ := interior_core p hp hs t _ _ obs hn h0 hl hin hafter
    exact ⟨_, a3 (hlines i _ _ d.hx d.hy f)⟩
  · simp only [Particle.RetardedFieldAt]
    rw [if_neg (by omega), Particle.vecAt_of_get hX0, Particle.vecAt_of_get hT0, Particle.vecAt_of_get hP0,
      Particle.vecAt_of_get hXL, Particle.vecAt_of_get hTL]
    simp only [bind, Except.bind]
    rw [if_pos (by linarith), if_pos (by linarith)]
    rw [if_neg]
    · exact ⟨_, rfl⟩
    · rw [norm_zero_iff]
      have : (Particle.extrapolate X0 P0 t obs).X
        = X0 + (P0 / Real.sqrt (P0.abs2nd + 1)) * SpeedOfLight * (Particle.extrapolate X0 P0 t obs).T := rfl
      have e : (Particle.extrapolate X0 P0 t obs).X
        = X0 + P0 * ((Real.sqrt (P0.abs2nd + 1))⁻¹ * SpeedOfLight * (Particle.extrapolate X0 P0 t obs).T) := by
        rw [this]; ext <;> simp <;> ring
      rw [e]
      exact hstart X0 P0 (TrajPoint_of_get hcons hX0) (TrajMomentum_of_get hcons hP0) _

/-- non-vacuity of `C11_defined`: a charge moving along z and an observer beside it -/
example : ∃ p : Particle, p.Reachable ∧ p.Subluminal ∧ p.getNP = 2 ∧
    (∀ x m, p.TrajPoint (0 : Nat) = .ok x → p.TrajMomentum (0 : Nat) = .ok m → ∀ s : ℝ, (⟨1, 0, 0⟩ : Vec) ≠ x + m * s) ∧
    (∀ (i : Nat) x y, p.TrajPoint i = .ok x → p.TrajPoint (i + 1 : Nat) = .ok y → ∀ s : ℝ, (⟨1, 0, 0⟩ : Vec) ≠ lerp x y s) := by
  let p := [POp.init 0 0 ⟨0,0,1⟩ 0, .store 1 ⟨0,0,1⟩ ⟨0,0,1⟩ 0].foldl POp.exec Particle.default
  have key : ∀ (i : Nat) y, p.TrajPoint (i + 1 : Nat) = .ok y → i = 0 := by
    intro i y hy
    have h1 := (List.getElem?_eq_some_iff.mp (get_of_TrajPoint hy)).1
    have h2 : p.X.length = 2 := rfl
    omega
  refine ⟨p, ⟨_, _, Or.inr (Or.inr (Or.inl rfl)), rfl⟩, ?_, rfl, ?_, ?_⟩
  · intro i t u x y ht hu hx hy
    obtain rfl := key i y hy
    have e1 : Except.ok t = (Except.ok 0 : Except Err ℝ) := ht.symm.trans rfl
    have e2 : Except.ok u = (Except.ok 1 : Except Err ℝ) := hu.symm.trans rfl
    have e3 : Except.ok x = (Except.ok 0 : Except Err Vec) := hx.symm.trans rfl
    have e4 : Except.ok y = (Except.ok ⟨0, 0, 1⟩ : Except Err Vec) := hy.symm.trans rfl
    injection e1 with e1; injection e2 with e2; injection e3 with e3; injection e4 with e4
    have : Vec.norm ((⟨0,0,1⟩ : Vec) - 0) = 1 := by simp [Vec.norm]
    rw [e1, e2, e3, e4, this]; simp only [SpeedOfLight]; norm_num
  · intro x m hx hm s he
    have e3 : Except.ok x = (Except.ok 0 : Except Err Vec) := hx.symm.trans rfl
    have e4 : Except.ok m = (Except.ok ⟨0, 0, 1⟩ : Except Err Vec) := hm.symm.trans rfl
    injection e3 with e3; injection e4 with e4
    rw [e3, e4] at he
    have := congrArg Vec.x he
    simp at this
  · intro i x y hx hy s he
    obtain rfl := key i y hy
    have e3 : Except.ok x = (Except.ok 0 : Except Err Vec) := hx.symm.trans rfl
    have e4 : Except.ok y = (Except.ok ⟨0, 0, 1⟩ : Except Err Vec) := hy.symm.trans rfl
    injection e3 with e3; injection e4 with e4
    rw [e3, e4] at he
    have := congrArg Vec.x he
    simp [lerp] at this

/-! ### where the claim fails -/

theorem axis_E (q a b k σ : ℝ) (hσ : σ = 1 ∨ σ = -1) (hab : 0 < σ * (a - b)) :
    (LWE q ⟨0, 0, b⟩ ⟨0, 0, k⟩ 0 ⟨0, 0, a⟩).z
      = (σ - k) * ((1 - k * k) / ((1 - σ * k) ^ 3 * (a - b) ^ 2)) * (q / (4 * Real.pi * EpsNull)) := by
  have hn : Vec.norm ((⟨0, 0, a⟩ : Vec) - ⟨0, 0, b⟩) = σ * (a - b) := by
    simp only [Vec.norm, sub_x, sub_y, sub_z]
    rw [show (0 - 0 : ℝ) * (0 - 0) + (0 - 0) * (0 - 0) + (a - b) * (a - b) = (σ * (a - b)) ^ 2 by
      rcases hσ with rfl | rfl <;> ring]
    exact Real.sqrt_sq hab.le
  have hne : a - b ≠ 0 := by intro h; rw [h] at hab; simp at hab
  have hu : (a - b) / (σ * (a - b)) = σ := by
    rcases hσ with rfl | rfl <;> field_simp
  have hsq : (σ * (a - b)) ^ 2 = (a - b) ^ 2 := by rcases hσ with rfl | rfl <;> ring
  simp only [LWE, hn, dot, cross, div_x, div_y, div_z, sub_x, sub_y, sub_z, add_x, add_y, add_z, mul_x, mul_y, mul_z,
    zero_x, zero_y, zero_z, sub_zero, zero_div, zero_mul, mul_zero, zero_add, hu, hsq, add_zero]

theorem axis_norm (a b : ℝ) : Vec.norm ((⟨0, 0, a⟩ : Vec) - ⟨0, 0, b⟩) = |a - b| := by
  simp only [Vec.norm, sub_x, sub_y, sub_z]
  rw [show (0 - 0 : ℝ) * (0 - 0) + (0 - 0) * (0 - 0) + (a - b) * (a - b) = (a - b) ^ 2 by ring, Real.sqrt_sq_eq_abs]

/-- C11: for a first point with a time other than zero the continuation to the past is wrong: there is a
uniformly moving charge (one recorded point, at time 1) for which the field returned is not the field of any
point of its straight-line motion on the backward light cone. -/
theorem C11_before_start_full_statement_false :
    ∃ (p : Particle) (t0 : ℝ) (x0 m0 obs : Vec) (t r0 : ℝ), p.Reachable ∧ p.getNP = 1 ∧
      p.TrajTime (0 : Nat) = .ok t0 ∧ p.TrajPoint (0 : Nat) = .ok x0 ∧ p.TrajMomentum (0 : Nat) = .ok m0 ∧
      p.RetardedTime (0 : Nat) obs = .ok r0 ∧ t ≤ r0 ∧ ∃ F, p.RetardedFieldAt t obs = .ok F ∧
      ∀ T : ℝ, T + Vec.norm (obs - (x0 + betaOf m0 * (SpeedOfLight * (T - t0)))) / SpeedOfLight = t →
        F ≠ LW (p.Charge * ElementaryCharge) (x0 + betaOf m0 * (SpeedOfLight * (T - t0))) (betaOf m0) 0 obs := by
  let p := [POp.init 1 0 ⟨0, 0, 3/4⟩ 0].foldl POp.exec Particle.default
  have hc := SpeedOfLight_pos
  have hp : p.Reachable := ⟨_, _, Or.inr (Or.inr (Or.inl rfl)), rfl⟩
  have hb : betaOf ⟨0, 0, 3/4⟩ = ⟨0, 0, 3/5⟩ := by
    have : Real.sqrt (1 + Vec.norm (⟨0, 0, 3/4⟩ : Vec) ^ 2) = 5/4 := by
      rw [Vec.norm_sq]; simp only [abs2nd]
      rw [show (1 + (0 * 0 + 0 * 0 + 3 / 4 * (3 / 4)) : ℝ) = (5/4) ^ 2 by norm_num, Real.sqrt_sq (by norm_num)]
    simp only [betaOf, this]; ext <;> norm_num
  have hT : (Particle.extrapolate 0 ⟨0, 0, 3/4⟩ 0 ⟨0, 0, SpeedOfLight⟩).T = -(5/2) := by
    simp only [Particle.extrapolate]
    rw [beta_form, hb]
    simp only [dot, div_x, div_y, div_z, sub_x, sub_y, sub_z, zero_x, zero_y, zero_z, sub_zero, div_self hc.ne']
    norm_num
  have hX : (Particle.extrapolate 0 ⟨0, 0, 3/4⟩ 0 ⟨0, 0, SpeedOfLight⟩).X = ⟨0, 0, -(3/2) * SpeedOfLight⟩ := by
    have : (Particle.extrapolate 0 ⟨0, 0, 3/4⟩ 0 ⟨0, 0, SpeedOfLight⟩).X
      = 0 + ((⟨0, 0, 3/4⟩ : Vec) / Real.sqrt ((⟨0, 0, 3/4⟩ : Vec).abs2nd + 1)) * SpeedOfLight
          * (Particle.extrapolate 0 ⟨0, 0, 3/4⟩ 0 ⟨0, 0, SpeedOfLight⟩).T := rfl
    rw [this, beta_form, hb, hT]
    ext <;> simp <;> ring
  have hz : (0 : Vec) = ⟨0, 0, 0⟩ := rfl
  have hr0 : p.RetardedTime (0 : Nat) ⟨0, 0, SpeedOfLight⟩ = .ok 2 := by
    rw [RetardedTime_of (t := 1) (x := 0) rfl rfl, hz, axis_norm, sub_zero, abs_of_pos hc, div_self hc.ne']; norm_num
  have hval : p.RetardedFieldAt 0 ⟨0, 0, SpeedOfLight⟩
      = .ok (LW (p.Charge * ElementaryCharge) ⟨0, 0, -(3/2) * SpeedOfLight⟩ ⟨0, 0, 3/5⟩ 0 ⟨0, 0, SpeedOfLight⟩) := by
    simp only [Particle.RetardedFieldAt]
    rw [if_neg (show ¬ p.NP < 1 by simp [p, POp.exec, POp.result, Particle.initTrajectory])]
    have v1 : Particle.vecAt p.X 0 = .ok 0 := rfl
    have v2 : Particle.vecAt p.Time 0 = .ok 1 := rfl
    have v3 : Particle.vecAt p.P 0 = .ok ⟨0, 0, 3/4⟩ := rfl
    have v4 : Particle.vecAt p.X (p.NP - 1) = .ok 0 := rfl
    have v5 : Particle.vecAt p.Time (p.NP - 1) = .ok 1 := rfl
    rw [v1, v2, v3, v4, v5]
    simp only [bind, Except.bind]
    have hle : (0 : ℝ) - (1 + Vec.norm ((⟨0, 0, SpeedOfLight⟩ : Vec) - 0) / SpeedOfLight) ≤ 0 := by
      have := div_nonneg (Vec.norm_nonneg ((⟨0, 0, SpeedOfLight⟩ : Vec) - 0)) hc.le
      linarith
    rw [if_pos hle, if_pos hle, if_neg]
    · rw [hX]
      have e : (Particle.extrapolate 0 ⟨0, 0, 3/4⟩ 0 ⟨0, 0, SpeedOfLight⟩).beta = betaOf ⟨0, 0, 3/4⟩ := by
        rw [← beta_form]; rfl
      rw [e]
      have e2 := lwField_eq p.Charge ⟨0, 0, -(3/2) * SpeedOfLight⟩ ⟨0, 0, 3/4⟩ 0 ⟨0, 0, SpeedOfLight⟩
      rw [← hb, ← e2]; rfl
    · rw [hX, norm_zero_iff]; intro h
      have := congrArg Vec.z h
      simp only at this; linarith
  refine ⟨p, 1, 0, ⟨0, 0, 3/4⟩, ⟨0, 0, SpeedOfLight⟩, 0, 2, hp, rfl, rfl, rfl, rfl, hr0, by norm_num, _, hval, ?_⟩
  intro T hcone heq
  rw [hb] at hcone heq
  have hx : (0 : Vec) + (⟨0, 0, 3/5⟩ : Vec) * (SpeedOfLight * (T - 1)) = ⟨0, 0, 3/5 * (SpeedOfLight * (T - 1))⟩ := by
    ext <;> simp
  rw [hx] at hcone heq
  rw [axis_norm] at hcone
  have hf : SpeedOfLight - 3/5 * (SpeedOfLight * (T - 1)) = SpeedOfLight * (8/5 - 3/5 * T) := by ring
  rw [hf, abs_mul, abs_of_pos hc, mul_div_cancel_left₀ _ hc.ne'] at hcone
  have hTv : T = -4 := by
    rcases le_total 0 (8/5 - 3/5 * T) with h | h
    · rw [abs_of_nonneg h] at hcone; linarith
    · rw [abs_of_nonpos h] at hcone; linarith
  subst hTv
  have hE := congrArg (fun F : EMField => F.E.z) heq
  simp only [LW] at hE
  rw [axis_E _ _ _ _ 1 (Or.inl rfl) (by linarith), axis_E _ _ _ _ 1 (Or.inl rfl) (by nlinarith)] at hE
  have hq : p.Charge = -1 := rfl
  have h4 : 0 < 4 * Real.pi * EpsNull := by have := Real.pi_pos; have := EpsNull_pos; positivity
  have he := ElementaryCharge_pos
  have hs : (p.Charge * ElementaryCharge / (4 * Real.pi * EpsNull)) ≠ 0 := by
    rw [hq]; apply div_ne_zero _ h4.ne'; linarith
  have hE2 := mul_right_cancel₀ hs hE
  rw [show SpeedOfLight - -(3/2) * SpeedOfLight = SpeedOfLight * (5/2) by ring,
    show SpeedOfLight - 3/5 * (SpeedOfLight * (-4 - 1)) = SpeedOfLight * 4 by ring] at hE2
  field_simp at hE2
  norm_num at hE2

/-- the mismatch function of the witness below -/
theorem wit_mismatch (f : ℝ) :
    Particle.mismatch 0 1 0 ⟨0, 0, 40/41 * SpeedOfLight⟩ 1 ⟨0, 0, 19/20 * SpeedOfLight⟩ f = f + |19/20 - 40/41 * f| - 1 := by
  have hc := SpeedOfLight_pos
  simp only [Particle.mismatch]
  have : (0 : Vec) * (1 - f) + (⟨0, 0, 40/41 * SpeedOfLight⟩ : Vec) * f = ⟨0, 0, 40/41 * SpeedOfLight * f⟩ := by
    ext <;> simp
  rw [this, axis_norm, show 19/20 * SpeedOfLight - 40/41 * SpeedOfLight * f = SpeedOfLight * (19/20 - 40/41 * f) by ring,
    abs_mul, abs_of_pos hc, mul_div_cancel_left₀ _ hc.ne']
  ring

theorem wit_secant :
    Particle.secant (Particle.mismatch 0 1 0 ⟨0, 0, 40/41 * SpeedOfLight⟩ 1 ⟨0, 0, 19/20 * SpeedOfLight⟩) 9
      ((41:ℝ)/62) ((-21:ℝ)/620) ((-861:ℝ)/1922) = .ok (((17349109:ℝ)/20761420), ((-12605901:ℝ)/10380710), 0) := by
  generalize hG : Particle.mismatch 0 1 0 ⟨0, 0, 40/41 * SpeedOfLight⟩ 1 ⟨0, 0, 19/20 * SpeedOfLight⟩ = G
  have hGf : ∀ f, G f = f + |19/20 - 40/41 * f| - 1 := by intro f; rw [← hG]; exact wit_mismatch f
  have hGl : ∀ f v : ℝ, 0 ≤ 19/20 - 40/41 * f → f + (19/20 - 40/41 * f) - 1 = v → G f = v := by
    intro f v h1 h2; rw [hGf, abs_of_nonneg h1, h2]
  have hGr : ∀ f v : ℝ, 19/20 - 40/41 * f ≤ 0 → f - (19/20 - 40/41 * f) - 1 = v → G f = v := by
    intro f v h1 h2; rw [hGf, abs_of_nonpos h1, ← h2]; ring
  have habsn : ∀ d : ℝ, 1e-5 < -d → |d| > 1e-5 := by
    intro d h; exact lt_of_lt_of_le h (neg_le_abs d)
  have habsp : ∀ d : ℝ, 1e-5 < d → |d| > 1e-5 := by
    intro d h; exact lt_of_lt_of_le h (le_abs_self d)
  rw [Particle.secant_step G 8 ((41:ℝ)/62) ((-21:ℝ)/620) ((-861:ℝ)/1922) ((1066:ℝ)/961) ((4641:ℝ)/19220) ((126:ℝ)/205) ((9061:ℝ)/23064) (habsn _ (by norm_num)) (by norm_num) (hGr _ _ (by norm_num) (by norm_num)) (by norm_num) (by norm_num) (by norm_num)]
  rw [Particle.secant_step G 7 ((1066:ℝ)/961) ((4641:ℝ)/19220) ((9061:ℝ)/23064) ((533:ℝ)/744) ((-121:ℝ)/3720) ((31597:ℝ)/45305) ((-1096381:ℝ)/23508168) (habsp _ (by norm_num)) (by norm_num) (hGl _ _ (by norm_num) (by norm_num)) (by norm_num) (by norm_num) (by norm_num)]
  rw [Particle.secant_step G 6 ((533:ℝ)/744) ((-121:ℝ)/3720) ((-1096381:ℝ)/23508168) ((2989597:ℝ)/3918028) ((-307461:ℝ)/9795070) ((1:ℝ)/41) ((-12605901:ℝ)/9795070) (habsn _ (by norm_num)) (by norm_num) (hGl _ _ (by norm_num) (by norm_num)) (by norm_num) (by norm_num) (by norm_num)]
  rw [Particle.secant_step G 5 ((2989597:ℝ)/3918028) ((-307461:ℝ)/9795070) ((-12605901:ℝ)/9795070) ((41:ℝ)/20) ((21:ℝ)/10) ((994148:ℝ)/600281) ((12605901:ℝ)/9941480) (habsn _ (by norm_num)) (by norm_num) (hGr _ _ (by norm_num) (by norm_num)) (by norm_num) (by norm_num) (by norm_num)]
  rw [Particle.secant_step G 4 ((41:ℝ)/20) ((21:ℝ)/10) ((12605901:ℝ)/9941480) ((7774133:ℝ)/9941480) ((-307461:ℝ)/9941480) ((1008789:ℝ)/600281) ((-61520998847:ℝ)/3342951889240) (habsp _ (by norm_num)) (by norm_num) (hGl _ _ (by norm_num) (by norm_num)) (by norm_num) (by norm_num) (by norm_num)]
  rw [Particle.secant_step G 3 ((7774133:ℝ)/9941480) ((-307461:ℝ)/9941480) ((-61520998847:ℝ)/3342951889240) ((5382849:ℝ)/6725260) ((-102487:ℝ)/3362630) ((1:ℝ)/41) ((-4201967:ℝ)/3362630) (habsn _ (by norm_num)) (by norm_num) (hGl _ _ (by norm_num) (by norm_num)) (by norm_num) (by norm_num) (by norm_num)]
  rw [Particle.secant_step G 2 ((5382849:ℝ)/6725260) ((-102487:ℝ)/3362630) ((-4201967:ℝ)/3362630) ((41:ℝ)/20) ((21:ℝ)/10) ((1023430:ℝ)/600281) ((12605901:ℝ)/10234300) (habsn _ (by norm_num)) (by norm_num) (hGr _ _ (by norm_num) (by norm_num)) (by norm_num) (by norm_num) (by norm_num)]
  rw [Particle.secant_step G 1 ((41:ℝ)/20) ((21:ℝ)/10) ((12605901:ℝ)/10234300) ((4187207:ℝ)/5117150) ((-307461:ℝ)/10234300) ((1038071:ℝ)/600281) ((-184562996541:ℝ)/10623930035300) (habsp _ (by norm_num)) (by norm_num) (hGl _ _ (by norm_num) (by norm_num)) (by norm_num) (by norm_num) (by norm_num)]
  rw [Particle.secant_step G 0 ((4187207:ℝ)/5117150) ((-307461:ℝ)/10234300) ((-184562996541:ℝ)/10623930035300) ((17349109:ℝ)/20761420) ((-307461:ℝ)/10380710) ((1:ℝ)/41) ((-12605901:ℝ)/10380710) (habsn _ (by norm_num)) (by norm_num) (hGl _ _ (by norm_num) (by norm_num)) (by norm_num) (by norm_num) (by norm_num)]
  rw [Particle.secant]

/-- C11: close to the observer the claim is false.  A charge moving uniformly with γ = 41/9, tracked with one step of
one second (all quantities scale), passes the observer within the step.  The search runs into its iteration limit and
the field returned is that of a source point extrapolated far beyond the step, not of any point of the step on the
backward light cone. -/
theorem C11_interior_full_statement_false :
    ∃ (p : Particle) (obs : Vec) (t r0 rl : ℝ) (F : EMField), p.Reachable ∧ p.Subluminal ∧ p.getNP = 2 ∧
      p.TrajTime (0 : Nat) = .ok 0 ∧ p.RetardedTime (0 : Nat) obs = .ok r0 ∧ p.RetardedTime (p.getNP - 1 : Nat) obs = .ok rl ∧
      r0 < t ∧ t ≤ rl ∧ p.RetardedFieldAt t obs = .ok F ∧
      ∀ (i : Nat) (d : StepData p i) (f : ℝ), d.coneError obs t f = 0 → F ≠ d.fieldFrom obs f := by
  have hc := SpeedOfLight_pos
  have hz : (0 : Vec) = ⟨0, 0, 0⟩ := rfl
  let p := [POp.init 0 0 ⟨0, 0, 40/9⟩ 0, .store 1 ⟨0, 0, 40/41 * SpeedOfLight⟩ ⟨0, 0, 40/9⟩ 0].foldl POp.exec Particle.default
  have hp : p.Reachable := ⟨_, _, Or.inr (Or.inr (Or.inl rfl)), rfl⟩
  have hb : betaOf ⟨0, 0, 40/9⟩ = ⟨0, 0, 40/41⟩ := by
    have : Real.sqrt (1 + Vec.norm (⟨0, 0, 40/9⟩ : Vec) ^ 2) = 41/9 := by
      rw [Vec.norm_sq]; simp only [abs2nd]
      rw [show (1 + (0 * 0 + 0 * 0 + 40/9 * (40/9)) : ℝ) = (41/9) ^ 2 by norm_num, Real.sqrt_sq (by norm_num)]
    simp only [betaOf, this]; ext <;> norm_num
  -- the only step
  have hdat : ∀ (i : Nat) (d : StepData p i), i = 0 ∧ d.t = 0 ∧ d.u = 1 ∧ d.x = 0 ∧ d.y = ⟨0, 0, 40/41 * SpeedOfLight⟩ ∧
      d.m = ⟨0, 0, 40/9⟩ ∧ d.n = ⟨0, 0, 40/9⟩ ∧ d.a = 0 ∧ d.b = 0 := by
    intro i d
    have h1 := (List.getElem?_eq_some_iff.mp (get_of_TrajTime d.hu)).1
    have h2 : p.Time.length = 2 := rfl
    have hi : i = 0 := by omega
    subst hi
    have e1 : Except.ok d.t = (Except.ok 0 : Except Err ℝ) := d.ht.symm.trans rfl
    have e2 : Except.ok d.u = (Except.ok 1 : Except Err ℝ) := d.hu.symm.trans rfl
    have e3 : Except.ok d.x = (Except.ok 0 : Except Err Vec) := d.hx.symm.trans rfl
    have e4 : Except.ok d.y = (Except.ok ⟨0, 0, 40/41 * SpeedOfLight⟩ : Except Err Vec) := d.hy.symm.trans rfl
    have e5 : Except.ok d.m = (Except.ok ⟨0, 0, 40/9⟩ : Except Err Vec) := d.hm.symm.trans rfl
    have e6 : Except.ok d.n = (Except.ok ⟨0, 0, 40/9⟩ : Except Err Vec) := d.hn.symm.trans rfl
    have e7 : Except.ok d.a = (Except.ok 0 : Except Err Vec) := d.ha.symm.trans rfl
    have e8 : Except.ok d.b = (Except.ok 0 : Except Err Vec) := d.hb.symm.trans rfl
    injection e1 with e1; injection e2 with e2; injection e3 with e3; injection e4 with e4
    injection e5 with e5; injection e6 with e6; injection e7 with e7; injection e8 with e8
    exact ⟨rfl, e1, e2, e3, e4, e5, e6, e7, e8⟩
  have hsub : p.Subluminal := by
    intro i t u x y ht hu hx hy
    have h1 := (List.getElem?_eq_some_iff.mp (get_of_TrajTime hu)).1
    have h2 : p.Time.length = 2 := rfl
    have hi : i = 0 := by omega
    subst hi
    have e1 : Except.ok t = (Except.ok 0 : Except Err ℝ) := ht.symm.trans rfl
    have e2 : Except.ok u = (Except.ok 1 : Except Err ℝ) := hu.symm.trans rfl
    have e3 : Except.ok x = (Except.ok 0 : Except Err Vec) := hx.symm.trans rfl
    have e4 : Except.ok y = (Except.ok ⟨0, 0, 40/41 * SpeedOfLight⟩ : Except Err Vec) := hy.symm.trans rfl
    injection e1 with e1; injection e2 with e2; injection e3 with e3; injection e4 with e4
    rw [e1, e2, e3, e4, hz, axis_norm, abs_of_pos (by linarith)]
    linarith
  have hr0 : p.RetardedTime (0 : Nat) ⟨0, 0, 19/20 * SpeedOfLight⟩ = .ok (19/20) := by
    rw [RetardedTime_of (t := 0) (x := 0) rfl rfl, hz, axis_norm, abs_of_pos (by linarith)]
    congr 1; field_simp; ring
  have hrl : p.RetardedTime (p.getNP - 1 : Nat) ⟨0, 0, 19/20 * SpeedOfLight⟩ = .ok (1 + 21/820) := by
    have hn : p.getNP - 1 = 1 := rfl
    rw [hn, RetardedTime_of (t := 1) (x := ⟨0, 0, 40/41 * SpeedOfLight⟩) rfl rfl, axis_norm, abs_of_neg (by linarith)]
    congr 1; field_simp; ring
  obtain ⟨i, d, f, left, a1, a2, a3, a4, a5, a6, a7⟩ := interior_core p hp hsub 1 _ _ ⟨0, 0, 19/20 * SpeedOfLight⟩
    (by simp [p, POp.exec, POp.result, Particle.initTrajectory, Particle.storeTrajectoryPoint, Particle.getNP]) hr0 hrl (by norm_num) (by norm_num)
  obtain ⟨rfl, d1, d2, d3, d4, d5, d6, d7, d8⟩ := hdat i d
  -- the source used by the code
  have hs : (1 : ℝ) - 19/20 + 21/820 = (d.u - d.t) + (Vec.norm ((⟨0, 0, 19/20 * SpeedOfLight⟩ : Vec) - d.y) - Vec.norm ((⟨0, 0, 19/20 * SpeedOfLight⟩ : Vec) - d.x)) / SpeedOfLight := by
    rw [d1, d2, d3, d4, hz, axis_norm, axis_norm, abs_of_neg (by linarith), abs_of_pos (by linarith)]
    field_simp; ring
  have hf0 : (41/62 : ℝ) = (1 - (d.t + Vec.norm ((⟨0, 0, 19/20 * SpeedOfLight⟩ : Vec) - d.x) / SpeedOfLight)) / (1 - 19/20 + 21/820) := by
    rw [d1, d3, hz, axis_norm, abs_of_pos (by linarith), sub_zero, mul_div_cancel_right₀ _ hc.ne']; norm_num
  have hint := interpolate_red p 0 d ⟨0, 0, 19/20 * SpeedOfLight⟩ 1 _ _ hs (by norm_num) hf0 _ _ _ (by
    rw [d1, d2, d3, d4, wit_mismatch (41/62)]
    have e1 : (41/62 : ℝ) + |19/20 - 40/41 * (41/62)| - 1 = -21/620 := by
      rw [abs_of_pos (by norm_num)]; norm_num
    rw [e1, show (-21/620 : ℝ) / (1 - 19/20 + 21/820) = -861/1922 by norm_num]
    exact wit_secant)
  have hsrc := hint.symm.trans a5
  injection hsrc with hsrc
  have hX := congrArg (fun z : Particle.Source × Nat => z.1.X.z) hsrc
  have hfv : f = 41/20 := by
    simp only [StepData.source, lerp, d3, d4, add_z, mul_z, sub_z, zero_z] at hX
    have : SpeedOfLight * (40/41 * (41/20)) = SpeedOfLight * (40/41 * f) := by linarith
    have := mul_left_cancel₀ hc.ne' this
    linarith
  have hl : ∀ v, lerp d.x d.y v = ⟨0, 0, 40/41 * SpeedOfLight * v⟩ := by
    intro v; rw [d3, d4]; simp only [lerp]; ext <;> simp
  have hlm : ∀ v, lerp d.m d.n v = ⟨0, 0, 40/9⟩ := by
    intro v; rw [d5, d6]; simp only [lerp]; ext <;> simp
  have hla : ∀ v k, lerp d.a d.b v / Real.sqrt k = 0 := by
    intro v k; rw [d7, d8]; simp only [lerp]; ext <;> simp
  have hval := a3 (by
    rw [hl, hfv]; intro h; have := congrArg Vec.z h; simp only at this; linarith)
  refine ⟨p, ⟨0, 0, 19/20 * SpeedOfLight⟩, 1, _, _, _, hp, hsub, rfl, rfl, hr0, hrl, by norm_num, by norm_num, hval, ?_⟩
  intro i' d' f' hcone heq
  obtain ⟨rfl, c1, c2, c3, c4, c5, c6, c7, c8⟩ := hdat i' d'
  rw [← StepData.coneError_eq, c1, c2, c3, c4, wit_mismatch] at hcone
  have hf' : f' = 39/20 * (41/81) := by
    rcases le_total 0 (19/20 - 40/41 * f') with h | h
    · rw [abs_of_nonneg h] at hcone
      have : f' = 41/20 := by linarith
      rw [this] at h; norm_num at h
    · rw [abs_of_nonpos h] at hcone; linarith
  have hl' : lerp d'.x d'.y f' = ⟨0, 0, 40/41 * SpeedOfLight * f'⟩ := by
    rw [c3, c4]; simp only [lerp]; ext <;> simp
  have hlm' : lerp d'.m d'.n f' = ⟨0, 0, 40/9⟩ := by rw [c5, c6]; simp only [lerp]; ext <;> simp
  have hla' : ∀ k, lerp d'.a d'.b f' / Real.sqrt k = 0 := by intro k; rw [c7, c8]; simp only [lerp]; ext <;> simp
  have hE := congrArg (fun F : EMField => F.E.z) heq
  simp only [StepData.fieldFrom, LW] at hE
  rw [hl, hlm, hla, hl', hlm', hla', hb, axis_E _ _ _ _ (-1) (Or.inr rfl) (by rw [hfv]; linarith),
    axis_E _ _ _ _ (-1) (Or.inr rfl) (by rw [hf']; linarith)] at hE
  have hq : p.Charge = -1 := rfl
  have h4 : 0 < 4 * Real.pi * EpsNull := by have := Real.pi_pos; have := EpsNull_pos; positivity
  have he := ElementaryCharge_pos
  have hs : (p.Charge * ElementaryCharge / (4 * Real.pi * EpsNull)) ≠ 0 := by
    rw [hq]; apply div_ne_zero _ h4.ne'; linarith
  have hE2 := mul_right_cancel₀ hs hE
  rw [hfv, hf', show 19/20 * SpeedOfLight - 40/41 * SpeedOfLight * (41/20) = SpeedOfLight * (-21/20) by ring,
    show 19/20 * SpeedOfLight - 40/41 * SpeedOfLight * (39/20 * (41/81)) = SpeedOfLight * (-7/540) by ring] at hE2
  field_simp at hE2
  norm_num at hE2

end Teufel
