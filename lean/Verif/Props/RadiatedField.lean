import Verif.Lemmas.WiechertField
import Verif.Props.LightCone
import Verif.Props.SnapshotConvergence
import Verif.Props.ProgramConvergence
import Verif.Spec.Charges
import Verif.Spec.Propagate

/-!
# C114: the radiated field obeys Maxwell's equations

`VacuumMaxwell` (Spec/Propagate) states all four of Maxwell's equations in vacuum at one time and place, with the derivatives of the field in the sense
of analysis.  Nothing in it refers to charges, to the retarded time or to the formula of Liénard and Wiechert.
-/

namespace Teufel
open Vec Filter
open scoped Topology

/-- a charge slower than light does not run along with its own light -/
theorem sent_ne_zero {r b : Vec} (hr : r ≠ 0) (hb : Vec.norm b < 1) : Vec.norm r - Vec.dot r b ≠ 0 := by
  have h1 := Vec.norm_pos hr
  have h2 := Vec.dot_le r b
  nlinarith

/-- signals of a charge slower than light arrive in the order in which they were sent -/
theorem arrival_mono {x b : ℝ → Vec} {s t : ℝ} (hst : s < t) (hx : ∀ u ∈ Set.Icc s t, HasVelocity x (b u * SpeedOfLight) u)
    (hb : ∀ u ∈ Set.Icc s t, Vec.norm (b u) < 1) (obs : Vec) : arrival x obs s < arrival x obs t := by
  have hc := SpeedOfLight_pos
  set n := x t - x s with hn
  have hlt : Vec.norm n < SpeedOfLight * (t - s) := by
    by_cases h0 : n = 0
    · rw [h0]
      have : Vec.norm (0 : Vec) = 0 := by simp [Vec.norm]
      rw [this]
      exact mul_pos hc (by linarith)
    have hpos := Vec.norm_pos h0
    have hd : ∀ u ∈ Set.Icc s t, HasDerivAt (fun u => n.x * (x u).x + n.y * (x u).y + n.z * (x u).z) (Vec.dot n (b u) * SpeedOfLight) u := by
      intro u hu
      have h := hx u hu
      refine (((h.1.const_mul n.x).add (h.2.1.const_mul n.y)).add (h.2.2.const_mul n.z)).congr_deriv ?_
      simp [Vec.dot]
      ring
    obtain ⟨u, hu, e⟩ := exists_hasDerivAt_eq_slope _ _ hst (fun u hu => (hd u hu).continuousAt.continuousWithinAt) (fun u hu => hd u ⟨hu.1.le, hu.2.le⟩)
    rw [eq_div_iff (by linarith)] at e
    have e2 : Vec.dot n (b u) * SpeedOfLight * (t - s) = Vec.norm n ^ 2 := by
      rw [e, norm_sq, hn]
      simp [Vec.abs2nd]
      ring
    have h1 := Vec.dot_le n (b u)
    have h2 := hb u ⟨hu.1.le, hu.2.le⟩
    have h3 : Vec.dot n (b u) < Vec.norm n := by nlinarith
    have h4 : Vec.dot n (b u) * (SpeedOfLight * (t - s)) < Vec.norm n * (SpeedOfLight * (t - s)) := mul_lt_mul_of_pos_right h3 (mul_pos hc (by linarith))
    have h5 : Vec.norm n * Vec.norm n < Vec.norm n * (SpeedOfLight * (t - s)) := by nlinarith
    exact lt_of_mul_lt_mul_left h5 hpos.le
  have tri : Vec.norm (obs - x s) ≤ Vec.norm (obs - x t) + Vec.norm n := by
    have e : obs - x s = (obs - x t) + n := by rw [hn]; ext <;> simp
    rw [e]
    exact Vec.norm_add_le _ _
  unfold arrival
  have : Vec.norm (obs - x s) / SpeedOfLight < t - s + Vec.norm (obs - x t) / SpeedOfLight := by
    rw [div_lt_iff₀ hc, add_mul, div_mul_cancel₀ _ hc.ne']
    linarith
  linarith

theorem beta_smooth {p : ℝ → Vec} (hp : Smooth p) : Smooth (fun s => betaOf (p s)) := by
  have := hp.velOf
  simpa only [← betaOf_eq_velOf] using this

/-- C114: The field of a moving charge is well defined in all of space: there is exactly one value at every place and time reached by a signal. -/
theorem C114_field_exists (q : ℝ) (x p : ℝ → Vec) (t0 T : ℝ) (hv : ∀ t, t0 ≤ t → t ≤ t0 + T → HasVelocity x (velOf (p t) * SpeedOfLight) t) (hp : Smooth p) :
    ∃ S, SeenEverywhere q x p t0 T S ∧ ∀ S', SeenEverywhere q x p t0 T S' → ∀ s, t0 ≤ s → s ≤ t0 + T → ∀ P, S' (arrival x P s) P = S (arrival x P s) P := by
  classical
  have hβ := beta_smooth hp
  have hmono : ∀ obs, StrictMonoOn (arrival x obs) (Set.Icc t0 (t0 + T)) := fun obs s hs t ht hst =>
    arrival_mono hst (b := fun u => velOf (p u)) (fun u hu => hv u (hs.1.trans hu.1) (hu.2.trans ht.2)) (fun u _ => by rw [← betaOf_eq_velOf]; exact betaOf_norm_lt _) obs
  refine ⟨fun θ obs => if h : ∃ t ∈ Set.Icc t0 (t0 + T), arrival x obs t = θ then
    LW q (x h.choose) (betaOf (p h.choose)) (rateOf (fun s => betaOf (p s)) h.choose) obs else 0, ?_, ?_⟩
  · intro obs t h1 h2 w hw
    have hex : ∃ t' ∈ Set.Icc t0 (t0 + T), arrival x obs t' = arrival x obs t := ⟨t, ⟨h1, h2⟩, rfl⟩
    have e : hex.choose = t := (hmono obs).injOn hex.choose_spec.1 ⟨h1, h2⟩ hex.choose_spec.2
    simp only [dif_pos hex, e]
    rw [hw.unique (rateOf_spec hβ t)]
  · intro S' hS' s h1 h2 P
    have hex : ∃ t' ∈ Set.Icc t0 (t0 + T), arrival x P t' = arrival x P s := ⟨s, ⟨h1, h2⟩, rfl⟩
    have e : hex.choose = s := (hmono P).injOn hex.choose_spec.1 ⟨h1, h2⟩ hex.choose_spec.2
    simp only [dif_pos hex, e]
    exact hS' P s h1 h2 _ (rateOf_spec hβ s)

/-- C114: The Liénard-Wiechert field of any motion slower than light obeys Maxwell's equations in vacuum, everywhere off the path of the charge. -/
theorem C114_radiation (q : ℝ) (x p : ℝ → Vec) (t0 T : ℝ) (hv : ∀ t, t0 ≤ t → t ≤ t0 + T → HasVelocity x (velOf (p t) * SpeedOfLight) t) (hp : Smooth p)
    (S : ℝ → Vec → EMField) (hS : SeenEverywhere q x p t0 T S) (s : ℝ) (h0 : t0 < s) (h1 : s < t0 + T) (P : Vec) (hP : P ≠ x s) :
    ∃ et bt, VacuumMaxwell (fun t X => (S t X).E) (fun t X => (S t X).B) (arrival x P s) P et bt := by
  have hβ := beta_smooth hp
  have hin : ∀ᶠ u in 𝓝 s, u ∈ Set.Icc t0 (t0 + T) := Icc_mem_nhds h0 h1
  have second : HasVelocity (fun u => rateOf (fun s => betaOf (p s)) u) (rateOf (fun u => rateOf (fun s => betaOf (p s)) u) s) s :=
    ⟨(hβ.1.2.1 s).hasDerivAt, (hβ.2.1.2.1 s).hasDerivAt, (hβ.2.2.2.1 s).hasDerivAt⟩
  refine Wiechert.maxwell q x (fun s => betaOf (p s)) (fun u => rateOf (fun s => betaOf (p s)) u) _ s ?_ (rateOf_spec hβ s) second P hP
    (sent_ne_zero (sub_ne_zero.mpr hP) (betaOf_norm_lt _)) _ _ ?_
  · filter_upwards [hin] with u hu
    rw [betaOf_eq_velOf]
    exact hv u hu.1 hu.2
  · filter_upwards [hin] with u hu X _
    exact hS X u hu.1 hu.2 _ (rateOf_spec hβ u)

theorem VacuumMaxwell.zero (t : ℝ) (P : Vec) : VacuumMaxwell (fun _ _ => 0) (fun _ _ => 0) t P 0 0 := by
  have hr : HasRate (fun _ => (0 : Vec)) t 0 := ⟨hasDerivAt_const _ _, hasDerivAt_const _ _, hasDerivAt_const _ _⟩
  have hj : HasJacobian (fun _ => (0 : Vec)) P 0 0 0 := by
    intro v
    have e : (0 : Vec) * v.x + (0 : Vec) * v.y + (0 : Vec) * v.z = 0 := by ext <;> simp
    rw [e]
    exact ⟨hasDerivAt_const _ _, hasDerivAt_const _ _, hasDerivAt_const _ _⟩
  refine ⟨hr, hr, 0, 0, 0, 0, 0, 0, hj, hj, ?_, ?_, ?_, ?_⟩
  · simp
  · simp
  · ext <;> simp
  · ext <;> simp

theorem VacuumMaxwell.add {E B E' B' : ℝ → Vec → Vec} {t : ℝ} {P et bt et' bt' : Vec} (h : VacuumMaxwell E B t P et bt) (h' : VacuumMaxwell E' B' t P et' bt') :
    VacuumMaxwell (fun t X => E t X + E' t X) (fun t X => B t X + B' t X) t P (et + et') (bt + bt') := by
  obtain ⟨r1, r2, ex, ey, ez, bx, by', bz, j1, j2, d1, d2, c1, c2⟩ := h
  obtain ⟨s1, s2, fx, fy, fz, gx, gy, gz, k1, k2, e1, e2, f1, f2⟩ := h'
  have hj : ∀ {G G' : Vec → Vec} {a b c a' b' c' : Vec}, HasJacobian G P a b c → HasJacobian G' P a' b' c' → HasJacobian (fun X => G X + G' X) P (a + a') (b + b') (c + c') := by
    intro G G' a b c a' b' c' h h' v
    refine ⟨((h v).1.add (h' v).1).congr_deriv ?_, ((h v).2.1.add (h' v).2.1).congr_deriv ?_, ((h v).2.2.add (h' v).2.2).congr_deriv ?_⟩ <;> simp <;> ring
  refine ⟨⟨r1.1.add s1.1, r1.2.1.add s1.2.1, r1.2.2.add s1.2.2⟩, ⟨r2.1.add s2.1, r2.2.1.add s2.2.1, r2.2.2.add s2.2.2⟩, _, _, _, _, _, _, hj j1 k1, hj j2 k2, ?_, ?_, ?_, ?_⟩
  · simp only [Vec.add_x, Vec.add_y, Vec.add_z]
    linear_combination d1 + e1
  · simp only [Vec.add_x, Vec.add_y, Vec.add_z]
    linear_combination d2 + e2
  · have x1 := congrArg Vec.x c1; have y1 := congrArg Vec.y c1; have z1 := congrArg Vec.z c1
    have x2 := congrArg Vec.x f1; have y2 := congrArg Vec.y f1; have z2 := congrArg Vec.z f1
    simp at x1 y1 z1 x2 y2 z2
    ext <;> simp <;> linarith
  · have x1 := congrArg Vec.x c2; have y1 := congrArg Vec.y c2; have z1 := congrArg Vec.z c2
    have x2 := congrArg Vec.x f2; have y2 := congrArg Vec.y f2; have z2 := congrArg Vec.z f2
    simp at x1 y1 z1 x2 y2 z2
    ext <;> simp [add_div] <;> linarith

/-- C114: The field of a beam, the sum of the fields of its charges, obeys Maxwell's equations in vacuum at every place and time that signals of all
charges reach, off their paths. -/
theorem C114_beam (field : FieldFn) (cs : List Charge) (T : ℝ) (hc : ∀ c ∈ cs, c.Moves field T) (S : Charge → ℝ → Vec → EMField)
    (hS : ∀ c ∈ cs, SeenEverywhere c.q c.x c.p c.t0 T (S c)) (t : ℝ) (P : Vec)
    (ht : ∀ c ∈ cs, ∃ s, c.t0 < s ∧ s < c.t0 + T ∧ arrival c.x P s = t ∧ P ≠ c.x s) :
    ∃ et bt, VacuumMaxwell (fun t X => ((cs.map fun c => S c t X).sum).E) (fun t X => ((cs.map fun c => S c t X).sum).B) t P et bt := by
  induction cs with
  | nil => exact ⟨_, _, VacuumMaxwell.zero t P⟩
  | cons c cs ih =>
    obtain ⟨et, bt, h⟩ := ih (fun a ha => hc a (List.mem_cons_of_mem _ ha)) (fun a ha => hS a (List.mem_cons_of_mem _ ha)) (fun a ha => ht a (List.mem_cons_of_mem _ ha))
    obtain ⟨s, h0, h1, e, hP⟩ := ht c List.mem_cons_self
    obtain ⟨et', bt', h'⟩ := C114_radiation c.q c.x c.p c.t0 T (hc c List.mem_cons_self).motion.position (hc c List.mem_cons_self).smooth (S c) (hS c List.mem_cons_self) s h0 h1 P hP
    rw [e] at h'
    exact ⟨_, _, h'.add h⟩

/-- non-vacuity: two charges circulating in a uniform magnetic field; what they send after half of the time is seen one metre above the plane of their circle -/
example : ∃ S : Charge → ℝ → Vec → EMField, (∀ c ∈ [Lib.ringCharge, { Lib.ringCharge with q := 2 }], SeenEverywhere c.q c.x c.p c.t0 1 (S c)) ∧
    ∃ et bt, VacuumMaxwell (fun t X => (([Lib.ringCharge, { Lib.ringCharge with q := 2 }].map fun c => S c t X).sum).E)
      (fun t X => (([Lib.ringCharge, { Lib.ringCharge with q := 2 }].map fun c => S c t X).sum).B) (arrival Lib.ringCharge.x ⟨0, 1, 0⟩ (1 / 2)) ⟨0, 1, 0⟩ et bt := by
  have hm := (Lib.ring_moves 1).1
  have hm' : ({ Lib.ringCharge with q := 2 } : Charge).Moves (Lattice.field [HomogeneousField 0 ⟨0, 1, 0⟩]) 1 := ⟨hm.motion, hm.smooth, hm.tame⟩
  have hc : ∀ c ∈ [Lib.ringCharge, { Lib.ringCharge with q := 2 }], c.Moves (Lattice.field [HomogeneousField 0 ⟨0, 1, 0⟩]) 1 := by
    intro c h
    simp only [List.mem_cons, List.not_mem_nil, or_false] at h
    rcases h with rfl | rfl
    · exact hm
    · exact hm'
  have hoff : (⟨0, 1, 0⟩ : Vec) ≠ Lib.ringCharge.x (1 / 2) := by
    intro h
    have := congrArg Vec.y h
    simp [Lib.ringCharge] at this
  classical
  refine ⟨fun c => if h : c.Moves (Lattice.field [HomogeneousField 0 ⟨0, 1, 0⟩]) 1 then (C114_field_exists c.q c.x c.p c.t0 1 h.motion.position h.smooth).choose else fun _ _ => 0, ?_, ?_⟩
  · intro c h
    simp only [dif_pos (hc c h)]
    exact (C114_field_exists c.q c.x c.p c.t0 1 (hc c h).motion.position (hc c h).smooth).choose_spec.1
  · refine C114_beam (Lattice.field [HomogeneousField 0 ⟨0, 1, 0⟩]) _ 1 hc _ ?_ _ _ ?_
    · intro c h
      simp only [dif_pos (hc c h)]
      exact (C114_field_exists c.q c.x c.p c.t0 1 (hc c h).motion.position (hc c h).smooth).choose_spec.1
    · intro c h
      simp only [List.mem_cons, List.not_mem_nil, or_false] at h
      rcases h with rfl | rfl
      · exact ⟨1 / 2, by norm_num [Lib.ringCharge], by norm_num [Lib.ringCharge], rfl, hoff⟩
      · exact ⟨1 / 2, by norm_num [Lib.ringCharge], by norm_num [Lib.ringCharge], rfl, hoff⟩

/-- C114: In magnetic fields, the field that the program reports at an observer has a limit when the time step of the tracking is made ever shorter, and
this limit obeys Maxwell's equations in vacuum. -/
theorem C114_limit (qm q : ℝ) (field : FieldFn) (x p : ℝ → Vec) (t0 T r L Bm : ℝ) (hm : Motion qm field x p t0 T) (hp : Smooth p)
    (ht : TameNear field x t0 T r L Bm) (hr : 0 < r) (hL : 0 ≤ L) (hT : 0 ≤ T)
    (hmag : ∀ t, t0 ≤ t → t ≤ t0 + T → ∀ EB, field t (x t) = .ok EB → EB.E = 0) :
    ∃ S : ℝ → Vec → EMField,
      (∀ s, t0 < s → s < t0 + T → ∀ P, P ≠ x s → ∃ et bt, VacuumMaxwell (fun t X => (S t X).E) (fun t X => (S t X).B) (arrival x P s) P et bt) ∧
      ∀ obs, (∀ t, t0 ≤ t → t ≤ t0 + T → obs ≠ x t) → ∀ φ, Particle.IsComponent φ →
        ∃ C h0 : ℝ, 0 < h0 ∧ ∀ h : ℝ, 0 < h → h ≤ h0 → ∀ n : ℕ, n * h ≤ T →
          ∀ a : Particle, a.Reachable → a.getNP = 1 → a.Mass ≠ 0 → a.Charge / a.Mass * InvRestMass = qm → a.Charge * ElementaryCharge = q →
            a.TrajTime 0 = .ok t0 → a.TrajPoint 0 = .ok (x t0) → a.TrajMomentum 0 = .ok (p t0) →
            ∃ a1 a2, a.InitVay h field = .ok a1 ∧ a1.steps (List.replicate n field) = .ok a2 ∧
              ∀ s, t0 < s → s + C * h ^ 2 ≤ t0 + n * h → ∃ F, a2.RetardedFieldAt (arrival x obs s) obs = .ok F ∧
                |φ F - φ (S (arrival x obs s) obs)| ≤ C * h ^ 2 := by
  obtain ⟨S, hS, -⟩ := C114_field_exists q x p t0 T hm.position hp
  refine ⟨S, fun s h0 h1 P hP => C114_radiation q x p t0 T hm.position hp S hS s h0 h1 P hP, ?_⟩
  intro obs hobs φ hφ
  obtain ⟨C, h0, hh0, H⟩ := C96_second_order qm q field x p t0 T r L Bm hm hp ht hr hL hT hmag obs hobs φ hφ
  refine ⟨C, h0, hh0, ?_⟩
  intro h hh hle n hn a ha hnp hmass hqm hq hat hax hap
  obtain ⟨a1, a2, e1, e2, rec⟩ := H h hh hle n hn a ha hnp hmass hqm hq hat hax hap
  refine ⟨a1, a2, e1, e2, ?_⟩
  intro s hs hsn
  obtain ⟨F, hF, hv⟩ := rec s hs hsn
  exact ⟨F, hF, hv _ (hS obs)⟩

/-- C114: Before the first signal of the trajectory arrives the reported field itself obeys Maxwell's equations exactly (trajectories starting at the time zero). -/
theorem C114_before_start (p : Particle) (hp : p.Reachable) (hs : p.Subluminal) (x0 m0 : Vec) (hn : 1 ≤ p.getNP) (ht0 : p.TrajTime (0 : Nat) = .ok 0)
    (hx0 : p.TrajPoint (0 : Nat) = .ok x0) (hm0 : p.TrajMomentum (0 : Nat) = .ok m0) (S : ℝ → Vec → EMField)
    (hS : ∀ t X F, p.RetardedFieldAt t X = .ok F → S t X = F) (t r0 : ℝ) (P : Vec) (hr : p.RetardedTime (0 : Nat) P = .ok r0) (ht : t < r0)
    (hok : ∃ F, p.RetardedFieldAt t P = .ok F) :
    ∃ et bt, VacuumMaxwell (fun t X => (S t X).E) (fun t X => (S t X).B) t P et bt := by
  have hc := SpeedOfLight_pos
  set x : ℝ → Vec := fun s => x0 + betaOf m0 * (SpeedOfLight * s) with hx
  have hvel : ∀ s, HasVelocity x (betaOf m0 * SpeedOfLight) s := by
    intro s
    refine ⟨?_, ?_, ?_⟩
    · simpa [hx, mul_assoc] using (((hasDerivAt_id s).const_mul ((betaOf m0).x * SpeedOfLight)).const_add x0.x)
    · simpa [hx, mul_assoc] using (((hasDerivAt_id s).const_mul ((betaOf m0).y * SpeedOfLight)).const_add x0.y)
    · simpa [hx, mul_assoc] using (((hasDerivAt_id s).const_mul ((betaOf m0).z * SpeedOfLight)).const_add x0.z)
  have mono : ∀ X, StrictMono (arrival x X) := fun X s t hst => arrival_mono hst (b := fun _ => betaOf m0) (fun u _ => hvel u) (fun _ _ => betaOf_norm_lt _) X
  have x00 : x 0 = x0 := by rw [hx]; ext <;> simp
  have start : ∀ X, p.RetardedTime (0 : Nat) X = .ok (arrival x X 0) := by
    intro X
    rw [RetardedTime_of ht0 hx0]
    unfold arrival
    rw [x00]
  -- the last arrival is not earlier than the first
  have last : ∀ X, ∃ rl, p.RetardedTime (p.getNP - 1 : Nat) X = .ok rl ∧ arrival x X 0 ≤ rl := by
    intro X
    rcases Nat.lt_or_ge 1 p.getNP with h1 | h1
    · have hcons := cons_reachable hp
      have ⟨c1, c2, c3, c4⟩ := hcons
      have g : ∀ {α} (l : List α), l.length = p.NP → ∃ a, l[p.NP - 1]? = some a := by
        intro α l hl; exact ⟨_, List.getElem?_eq_getElem (by simp only [Particle.getNP] at h1; omega)⟩
      obtain ⟨TL, hTL⟩ := g p.Time c1
      obtain ⟨XL, hXL⟩ := g p.X c2
      have hl := RetardedTime_of (obs := X) (TrajTime_of_get hcons hTL) (TrajPoint_of_get hcons hXL)
      refine ⟨_, hl, ?_⟩
      exact (C13_arrival_order p hp hs X 0 (p.NP - 1) (by simp only [Particle.getNP] at h1; omega) _ _ (start X) hl).le
    · have : p.getNP - 1 = 0 := by omega
      rw [this]
      exact ⟨_, start X, le_refl _⟩
  have value : ∀ s ≤ 0, ∀ X, (X ≠ x s → p.RetardedFieldAt (arrival x X s) X = .ok (LW (p.Charge * ElementaryCharge) (x s) (betaOf m0) 0 X)) ∧
      (X = x s → p.RetardedFieldAt (arrival x X s) X = .error .nan) := by
    intro s h0 X
    obtain ⟨rl, hrl, hle⟩ := last X
    have h1 : arrival x X s ≤ arrival x X 0 := (mono X).monotone h0
    obtain ⟨T, -, hT, hne, heq⟩ := C11_before_start_partial p hp (arrival x X s) (arrival x X 0) rl x0 m0 X hn ht0 hx0 hm0 (start X) hrl h1 (h1.trans hle)
    have e : T = s := (mono X).injective hT
    rw [e] at hne heq
    exact ⟨hne, heq⟩
  have hr0 : r0 = arrival x P 0 := by
    have := hr.symm.trans (start P)
    injection this
  obtain ⟨rl, hrl, hle⟩ := last P
  obtain ⟨T, hT0, hT, -, -⟩ := C11_before_start_partial p hp t (arrival x P 0) rl x0 m0 P hn ht0 hx0 hm0 (start P) hrl (by linarith) (by linarith)
  have hT' : arrival x P T = t := hT
  have hneg : T < 0 := by
    rcases lt_or_eq_of_le hT0 with h | h
    · exact h
    · rw [h] at hT'
      linarith
  have hne : P ≠ x T := by
    intro h
    obtain ⟨F, hF⟩ := hok
    have := (value T hT0 P).2 h
    rw [hT', hF] at this
    exact absurd this (by simp)
  have zero : HasVelocity (fun _ : ℝ => (0 : Vec)) 0 T := ⟨hasDerivAt_const _ _, hasDerivAt_const _ _, hasDerivAt_const _ _⟩
  have const : HasVelocity (fun _ : ℝ => betaOf m0) 0 T := ⟨hasDerivAt_const _ _, hasDerivAt_const _ _, hasDerivAt_const _ _⟩
  have := Wiechert.maxwell (p.Charge * ElementaryCharge) x (fun _ => betaOf m0) (fun _ => 0) 0 T (Eventually.of_forall fun s => hvel s) const zero P hne
    (sent_ne_zero (sub_ne_zero.mpr hne) (betaOf_norm_lt _)) (fun t X => (S t X).E) (fun t X => (S t X).B) ?_
  · rwa [hT'] at this
  · filter_upwards [Iic_mem_nhds hneg] with s h0 X hX
    exact hS _ _ _ ((value s h0 X).1 hX)

/-- non-vacuity: before the first signal of a moving particle arrives, its field is defined one metre to the side -/
example : demoParticle.Reachable ∧ demoParticle.Subluminal ∧ 1 ≤ demoParticle.getNP ∧ demoParticle.TrajTime (0 : Nat) = .ok 0 ∧
    demoParticle.TrajPoint (0 : Nat) = .ok 0 ∧ demoParticle.TrajMomentum (0 : Nat) = .ok ⟨0, 0, 1⟩ ∧
    ∃ r0, demoParticle.RetardedTime (0 : Nat) ⟨1, 0, 0⟩ = .ok r0 ∧ r0 - 1 < r0 ∧ ∃ F, demoParticle.RetardedFieldAt (r0 - 1) ⟨1, 0, 0⟩ = .ok F := by
  obtain ⟨h1, h2, -, h4⟩ := demoParticle_ok
  have ht : demoParticle.TrajTime (0 : Nat) = .ok 0 := rfl
  have hx : demoParticle.TrajPoint (0 : Nat) = .ok 0 := rfl
  refine ⟨h1, h4, by omega, ht, hx, rfl, _, RetardedTime_of ht hx, by linarith, ?_⟩
  refine C11_defined _ h1 h4 (by omega) _ _ ?_ ?_
  · intro x m hx' hm s h
    rw [hx] at hx'
    have e : demoParticle.TrajMomentum (0 : Nat) = .ok ⟨0, 0, 1⟩ := rfl
    rw [e] at hm
    cases hx'; cases hm
    have := congrArg Vec.x h
    simp at this
  · intro i x y hx' hy' s h
    have hx2 := get_of_TrajPoint hx'
    have hy2 := get_of_TrajPoint hy'
    simp [demoParticle, POp.exec, POp.result, Particle.initTrajectory, Particle.storeTrajectoryPoint, Particle.default, Particle.new] at hx2 hy2
    rcases i with _ | i
    · simp at hx2 hy2
      subst hx2; subst hy2
      have := congrArg Vec.x h
      simp [lerp] at this
    · simp at hy2

end Teufel
