import Verif.Lemmas.RadiateLip
import Verif.Props.Existence
import Verif.Props.ProgramConvergence

/-!
# C119: the files of runs in beam lines without hard edges converge to the exact solution

`Jumpless` and `RegularField` (Spec/Regular) allow kinks of the fields, like those at the ramps of undulators, where the motion is not smooth and C93 and
C94 do not apply.  `Motion` (Spec/Motion) is the equation of motion, `Seen` (Spec/Radiation) the Liénard-Wiechert field of a moving charge.  Of the exact
motion nothing is assumed but the equation; by C118 it exists for every start.
-/

namespace Teufel
open Vec

theorem Sent0.mono {τ F : ℝ → ℝ} {t0 T δ K K' : ℝ} (S : Sent0 τ F t0 T δ K) (h : K ≤ K') : Sent0 τ F t0 T δ K' :=
  ⟨S.δ_pos, S.K_nonneg.trans h, S.T_nonneg, S.lower, fun s hs t ht => (S.upper s hs t ht).trans (mul_le_mul_of_nonneg_right h (abs_nonneg _)),
    fun s hs => (S.bound s hs).trans h, fun s hs t ht => (S.lip s hs t ht).trans (mul_le_mul_of_nonneg_right h (abs_nonneg _))⟩

theorem HasVelocity.rateOf {p : ℝ → Vec} {v : Vec} {t : ℝ} (h : HasVelocity p v t) : rateOf p t = v := by
  obtain ⟨a, b, c⟩ := h
  exact Vec.ext a.deriv b.deriv c.deriv

/-- what the motion in a regular field is like: momentum and its rate of change are bounded and Lipschitz continuous -/
structure Kinked (x p : ℝ → Vec) (t0 T Mp Lp Lv : ℝ) : Prop where
  Lp_nonneg : 0 ≤ Lp
  Lv_nonneg : 0 ≤ Lv
  rate : ∀ t, t0 ≤ t → t ≤ t0 + T → HasVelocity p (rateOf p t) t
  hMp : ∀ t ∈ Set.Icc t0 (t0 + T), Vec.norm (p t) ≤ Mp
  hMv : ∀ t ∈ Set.Icc t0 (t0 + T), Vec.norm (rateOf p t) ≤ Lp
  lp : ∀ s ∈ Set.Icc t0 (t0 + T), ∀ t ∈ Set.Icc t0 (t0 + T), Vec.norm (p t - p s) ≤ Lp * |t - s|
  lv : ∀ s ∈ Set.Icc t0 (t0 + T), ∀ t ∈ Set.Icc t0 (t0 + T), Vec.norm (rateOf p t - rateOf p s) ≤ Lv * |t - s|
  lx : ∀ s ∈ Set.Icc t0 (t0 + T), ∀ t ∈ Set.Icc t0 (t0 + T), Vec.norm (x t - x s) ≤ SpeedOfLight * |t - s|

theorem kinked {qm : ℝ} {field : FieldFn} (hf : RegularField field) {x p : ℝ → Vec} {t0 T : ℝ} (hT : 0 ≤ T) (hm : Motion qm field x p t0 T) :
    ∃ Mp Lp Lv, Kinked x p t0 T Mp Lp Lv := by
  obtain ⟨e, b, L, M, y, q, hy, hq, E⟩ := Exist.extended_exists hf qm t0 T hT (x t0) (p t0)
  have same : ∀ t, t0 ≤ t → t ≤ t0 + T → x t = y t ∧ p t = q t := fun t h1 h2 => E.unique hT hm hy.symm hq.symm t h1 h2
  have hrate : ∀ t, t0 ≤ t → t ≤ t0 + T → HasVelocity p (rateOf p t) t ∧ rateOf p t = Exist.force qm e b t (y t) (q t) := by
    intro t h1 h2
    obtain ⟨F1, f1, f2⟩ := hm.momentum t h1 h2
    obtain ⟨F2, f3, f4⟩ := (E.motion hT).momentum t h1 h2
    refine ⟨by rw [f2.rateOf]; exact f2, ?_⟩
    rw [f2.rateOf]
    obtain ⟨sx, sp⟩ := same t h1 h2
    rw [sx] at f1
    rw [f1] at f3
    cases f3
    rw [sp]
    exact f4.unique (E.mom t (by linarith) (by linarith))
  have hlp : ∀ s ∈ Set.Icc t0 (t0 + T), ∀ t ∈ Set.Icc t0 (t0 + T), Vec.norm (p t - p s) ≤ Exist.F qm M * |t - s| := by
    rintro s ⟨h1, h2⟩ t ⟨h3, h4⟩
    rw [(same t h3 h4).2, (same s h1 h2).2]
    exact E.mom_lip (by linarith) (by linarith) (by linarith) (by linarith)
  refine ⟨Vec.norm (p t0) + Exist.F qm M * T, Exist.F qm M, Exist.C qm L M, E.F_nonneg, E.C_nonneg, fun t h1 h2 => (hrate t h1 h2).1, ?_, ?_, hlp, ?_, ?_⟩
  · rintro t ⟨h1, h2⟩
    have h3 := hlp t0 ⟨le_rfl, by linarith⟩ t ⟨h1, h2⟩
    have eq : p t = (p t - p t0) + p t0 := by abel
    have h4 := Vec.norm_add_le (p t - p t0) (p t0)
    rw [← eq] at h4
    have h5 : Exist.F qm M * |t - t0| ≤ Exist.F qm M * T := by
      refine mul_le_mul_of_nonneg_left ?_ E.F_nonneg
      rw [abs_of_nonneg (by linarith)]
      linarith
    linarith
  · rintro t ⟨h1, h2⟩
    rw [(hrate t h1 h2).2]
    exact E.cut.force_bound qm (by linarith) (by linarith) _ _
  · rintro s ⟨h1, h2⟩ t ⟨h3, h4⟩
    rw [(hrate t h3 h4).2, (hrate s h1 h2).2]
    exact E.force_lip (by linarith) (by linarith) (by linarith) (by linarith)
  · rintro s ⟨h1, h2⟩ t ⟨h3, h4⟩
    exact Exist.moved hm.position (fun t _ _ => Exist.speed (p t)) h1 h2 h3 h4

/-- C119, in any regular field: the recorded samples converge - with the first order of the time step - to the averages of the field formula in which the
rate of change of the momentum divided by γ stands for the acceleration. -/
theorem C119_limit (qm q : ℝ) (field : FieldFn) (hf : RegularField field) (x p : ℝ → Vec) (t0 T : ℝ) (hT : 0 ≤ T) (hm : Motion qm field x p t0 T)
    (obs : Vec) (hobs : ∀ t, t0 ≤ t → t ≤ t0 + T → obs ≠ x t) (φ : EMField → ℝ) (hφ : Particle.IsComponent φ) :
    ∃ C h0 : ℝ, 0 < h0 ∧ ∀ h : ℝ, 0 < h → h ≤ h0 → ∀ n : ℕ, n * h ≤ T →
      ∀ a : Particle, a.Reachable → a.getNP = 1 → a.Mass ≠ 0 → a.Charge / a.Mass * InvRestMass = qm → a.Charge * ElementaryCharge = q →
        a.TrajTime 0 = .ok t0 → a.TrajPoint 0 = .ok (x t0) → a.TrajMomentum 0 = .ok (p t0) →
        ∃ a1 a2, a.InitVay h field = .ok a1 ∧ a1.steps (List.replicate n field) = .ok a2 ∧
          ∀ tr : FieldTrace, tr.WF → 0 < tr.dt → 2 ≤ tr.N → ∃ tr', a2.integrateFieldTrace obs tr = .ok tr' ∧
            ∀ S : ℝ → EMField, (∀ t, t0 ≤ t → t ≤ t0 + T → ∀ v, HasVelocity p v t →
              S (arrival x obs t) = LW q (x t) (betaOf (p t)) (v / Real.sqrt (1 + Vec.norm (p t) ^ 2)) obs) →
              ∀ (i : Nat) (f f' : EMField), tr.getField i = .ok f → tr'.getField i = .ok f' →
                |φ f' - φ f - (∫ θ in Set.Icc (arrival x obs t0) (arrival x obs (t0 + n * h)) ∩
                  Set.Icc (tr.t0 + ((i : ℝ) - 1 / 2) * tr.dt) (tr.t0 + ((i : ℝ) + 1 / 2) * tr.dt), φ (S θ)) / tr.dt| ≤ C / tr.dt * h := by
  have H : Way x p t0 T obs := ⟨fun t h => hm.position t h.1 h.2, fun t h => hobs t h.1 h.2, hT⟩
  obtain ⟨Mp, Lp, Lv, k⟩ := kinked hf hT hm
  obtain ⟨δ, K1, hsent⟩ := H.sent0 q hφ k.hMp k.hMv k.Lp_nonneg k.Lv_nonneg SpeedOfLight_pos.le k.lp k.lv k.lx
  exact recorded_of_points qm q field x p t0 T obs H k.rate Mp Lp k.hMp k.hMv (fun h => h) (fun h h1 h2 => ⟨h1.le, le_rfl⟩) φ hφ K1 hsent.K_nonneg
    (fun K hK => ⟨signalC1 δ K T, fun h n R G h1 nodes σ hσ A B => signal_first (hsent.mono hK) nodes h1 σ hσ A B⟩)
    (C118_first_order qm field hf x p t0 T hT hm)

/-- C119: in a regular field which is purely magnetic along the path the samples recorded from a tracked particle are the averages of the exact
Liénard-Wiechert field of the exact motion over the time of each sample, up to a constant times the time step of the tracking.  Neither the tracking nor
the recording fails.  The constant depends neither on the time step, the number of steps, nor on the sampling. -/
theorem C119_recorded (qm q : ℝ) (field : FieldFn) (hf : RegularField field) (x p : ℝ → Vec) (t0 T : ℝ) (hT : 0 ≤ T) (hm : Motion qm field x p t0 T)
    (hmag : ∀ t, t0 ≤ t → t ≤ t0 + T → ∀ EB, field t (x t) = .ok EB → EB.E = 0)
    (obs : Vec) (hobs : ∀ t, t0 ≤ t → t ≤ t0 + T → obs ≠ x t) (φ : EMField → ℝ) (hφ : Particle.IsComponent φ) :
    ∃ C h0 : ℝ, 0 < h0 ∧ ∀ h : ℝ, 0 < h → h ≤ h0 → ∀ n : ℕ, n * h ≤ T →
      ∀ a : Particle, a.Reachable → a.getNP = 1 → a.Mass ≠ 0 → a.Charge / a.Mass * InvRestMass = qm → a.Charge * ElementaryCharge = q →
        a.TrajTime 0 = .ok t0 → a.TrajPoint 0 = .ok (x t0) → a.TrajMomentum 0 = .ok (p t0) →
        ∃ a1 a2, a.InitVay h field = .ok a1 ∧ a1.steps (List.replicate n field) = .ok a2 ∧
          ∀ tr : FieldTrace, tr.WF → 0 < tr.dt → 2 ≤ tr.N → ∃ tr', a2.integrateFieldTrace obs tr = .ok tr' ∧
            ∀ S : ℝ → EMField, Seen q x p obs t0 T S →
              ∀ (i : Nat) (f f' : EMField), tr.getField i = .ok f → tr'.getField i = .ok f' →
                |φ f' - φ f - (∫ θ in Set.Icc (arrival x obs t0) (arrival x obs (t0 + n * h)) ∩
                  Set.Icc (tr.t0 + ((i : ℝ) - 1 / 2) * tr.dt) (tr.t0 + ((i : ℝ) + 1 / 2) * tr.dt), φ (S θ)) / tr.dt| ≤ C / tr.dt * h := by
  obtain ⟨C, h0, hh0, H⟩ := C119_limit qm q field hf x p t0 T hT hm obs hobs φ hφ
  refine ⟨C, h0, hh0, ?_⟩
  intro h hh hle n hn a ha hnp hmass hqm hq hat hax hap
  obtain ⟨a1, a2, e1, e2, rec⟩ := H h hh hle n hn a ha hnp hmass hqm hq hat hax hap
  refine ⟨a1, a2, e1, e2, ?_⟩
  intro tr hw hdt hN
  obtain ⟨tr', hrec, hs⟩ := rec tr hw hdt hN
  refine ⟨tr', hrec, ?_⟩
  intro S hS
  exact hs S (fun t h1 h2 v hv => hS t h1 h2 _ (magnetic_rate hm hmag h1 h2 hv))

/-- C119: in a regular field signals sent at different times arrive at different times, and the exact field at the observer exists. -/
theorem C119_signal (qm q : ℝ) (field : FieldFn) (hf : RegularField field) (x p : ℝ → Vec) (t0 T : ℝ) (hT : 0 ≤ T) (hm : Motion qm field x p t0 T)
    (obs : Vec) (hobs : ∀ t, t0 ≤ t → t ≤ t0 + T → obs ≠ x t) :
    StrictMonoOn (arrival x obs) (Set.Icc t0 (t0 + T)) ∧ ∃ S, Seen q x p obs t0 T S := by
  have H : Way x p t0 T obs := ⟨fun t h => hm.position t h.1 h.2, fun t h => hobs t h.1 h.2, hT⟩
  obtain ⟨Mp, Lp, Lv, k⟩ := kinked hf hT hm
  obtain ⟨δ, K, hs⟩ := H.sent0 q component_Ex k.hMp k.hMv k.Lp_nonneg k.Lv_nonneg SpeedOfLight_pos.le k.lp k.lv k.lx
  have hmono : StrictMonoOn (arrival x obs) (Set.Icc t0 (t0 + T)) := by
    intro s hs' t ht' hst
    have := hs.lower s hs' t ht' hst.le
    have := mul_pos hs.δ_pos (sub_pos.mpr hst)
    linarith
  refine ⟨hmono, ?_⟩
  classical
  refine ⟨fun θ => if h : ∃ t ∈ Set.Icc t0 (t0 + T), arrival x obs t = θ then
    LW q (x h.choose) (betaOf (p h.choose)) (rateOf (fun s => betaOf (p s)) h.choose) obs else 0, ?_⟩
  intro t h1 h2 w hw
  have hex : ∃ t' ∈ Set.Icc t0 (t0 + T), arrival x obs t' = arrival x obs t := ⟨t, ⟨h1, h2⟩, rfl⟩
  have e : hex.choose = t := hmono.injOn hex.choose_spec.1 ⟨h1, h2⟩ hex.choose_spec.2
  simp only [dif_pos hex, e]
  rw [hw.rateOf]

namespace Lib
open Input

/-- **C119 (observation).** Particles move in purely magnetic parts of a lattice without hard-edge dipoles.  The files the program writes for observers of
the beam contain, for every sample at the place `obs`, the sum of the Liénard-Wiechert fields of the exact motions of all particles, averaged over the
time `dt` of the sample, up to a constant times the time step of the tracking - for every input, every number of nodes and whatever memory and random
generator contain. -/
theorem C119_observation (lat : Lattice) (hl : ∀ e ∈ lat, Jumpless e) (cs : List Charge) (T : ℝ) (hT : 0 ≤ T)
    (hc : ∀ c ∈ cs, Motion c.qm (Lattice.field lat) c.x c.p c.t0 T ∧ c.NoElectric (Lattice.field lat) T)
    (obs : Vec) (hobs : ∀ c ∈ cs, ∀ t, c.t0 ≤ t → t ≤ c.t0 + T → obs ≠ c.x t) (φ : EMField → ℝ) (hφ : Particle.IsComponent φ) :
    ∃ C h0 : ℝ, 0 < h0 ∧ ∀ (L : Lib) (rnd : Nat → (Nat → Nat → ℝ) × (Nat → Nat → Nat → ℝ)) (J : Indet) (nodes : Nat) (doc : Xml) (fs : List OutFile) (p : Parsed) (m : Beam),
      0 < nodes → L.program rnd J nodes doc = .ok fs → (L.withRandom (rnd 0)).parse doc = .ok p → masterBeam p = .ok m →
      p.lattice.lattice = lat → p.tracking.state.interactions = [] → List.Forall₂ Charge.Starts cs m.all →
      ∀ h : ℝ, p.tracking.timeStep = h → 0 < h → h ≤ h0 → ∀ n : ℕ, (n : Int) = p.tracking.NOTS → n * h ≤ T →
        ∃ before files : List OutFile, fs = before ++ files ∧ files.length = p.observers.observers.length ∧
          ∀ (i : Nat) (spec : ObserverSpec), p.observers.observers[i]? = some spec → ∃ d, files[i]? = some ⟨spec.file, d⟩ ∧
            (spec.source = .beam → ∀ k ∈ spec.observer.keys, ∀ t dt N, spec.observer.samplePoint k = .ok (t, obs) → spec.observer.sampling k = .ok (dt, N) →
              0 < dt → 2 ≤ N → ∃ F, Shows spec.observer d k obs F ∧
                ∀ S : Charge → ℝ → EMField, (∀ c ∈ cs, Seen c.q c.x c.p obs c.t0 T (S c)) →
                  |φ F - (cs.map (fun c => (∫ θ in Set.Icc (arrival c.x obs c.t0) (arrival c.x obs (c.t0 + n * h)) ∩ Set.Icc (t - dt / 2) (t + dt / 2), φ (S c θ)) / dt)).sum|
                    ≤ C / dt * h) := by
  exact observation_of (fun h => h) (fun h hh => hh.le) lat cs T obs φ hφ (fun c hcs => recorded_start (fun h => h) _ c T obs φ hφ
    (C119_recorded c.qm c.q _ (C118_lattice lat hl) c.x c.p c.t0 T hT (hc c hcs).1 (hc c hcs).2 obs (hobs c hcs) φ hφ))

/-- **C119 (watch points).** In a lattice without hard-edge dipoles the files of the watch points contain the exact positions and momenta of all particles
at the time of the watch point, up to a constant times the time step - for every input and number of nodes. -/
theorem C119_watches (lat : Lattice) (hl : ∀ e ∈ lat, Jumpless e) (cs : List Charge) (T : ℝ) (hT : 0 ≤ T)
    (hc : ∀ c ∈ cs, Motion c.qm (Lattice.field lat) c.x c.p c.t0 T) :
    ∃ C h0 : ℝ, 0 < h0 ∧ ∀ (L : Lib) (rnd : Nat → (Nat → Nat → ℝ) × (Nat → Nat → Nat → ℝ)) (J : Indet) (nodes : Nat) (doc : Xml) (fs : List OutFile) (p : Parsed) (m : Beam),
      0 < nodes → L.program rnd J nodes doc = .ok fs → (L.withRandom (rnd 0)).parse doc = .ok p → masterBeam p = .ok m →
      p.lattice.lattice = lat → p.tracking.state.interactions = [] → List.Forall₂ Charge.Starts cs m.all →
      ∀ h : ℝ, p.tracking.timeStep = h → 0 < h → h ≤ h0 → ∀ w ∈ p.tracking.state.watches, ∀ k : ℕ, w.step = k → w.step ≤ p.tracking.NOTS → k * h ≤ T →
        ∃ d, (⟨w.filename, .watch d⟩ : OutFile) ∈ fs ∧
          (w.type = .hdf5 → ∃ pts : List (Vec × Vec), d = .hdf5 pts.length (pts.flatMap (fun b => [b.1.x, b.1.y, b.1.z, b.2.x, b.2.y, b.2.z])) ∧
            List.Forall₂ (fun (c : Charge) (b : Vec × Vec) => (b.1 - c.x (c.t0 + k * h)).norm ≤ C * h ∧ (b.2 - c.p (c.t0 + k * h)).norm ≤ C * h) cs pts) ∧
          (w.type = .sdds → ∃ charge rows, d = .sdds cs.length charge rows ∧
            List.Forall₂ (fun (c : Charge) (row : SddsRow) => row.t = c.t0 + k * h ∧ ((⟨row.x, row.y, row.z⟩ : Vec) - c.x (c.t0 + k * h)).norm ≤ C * h ∧
              ((⟨row.px, row.py, row.pz⟩ : Vec) - c.p (c.t0 + k * h)).norm ≤ C * h) cs rows) := by
  exact watches_of (fun h => h) (fun h hh => hh.le) lat cs T (fun c hcs => moved_of (fun h => h) (fun h hh => hh.le) _ c T
    (C118_first_order c.qm _ (C118_lattice lat hl) c.x c.p c.t0 T hT (hc c hcs)))

/-- **C119 (trajectory logs).** In a lattice without hard-edge dipoles the trajectory log of a bunch contains the exact trajectory of each of its
particles, up to a constant times the time step. -/
theorem C119_trajectories (lat : Lattice) (hl : ∀ e ∈ lat, Jumpless e) (c : Charge) (T : ℝ) (hT : 0 ≤ T) (hc : Motion c.qm (Lattice.field lat) c.x c.p c.t0 T) :
    ∃ C h0 : ℝ, 0 < h0 ∧ ∀ (L : Lib) (rnd : Nat → (Nat → Nat → ℝ) × (Nat → Nat → Nat → ℝ)) (J : Indet) (nodes : Nat) (doc : Xml) (fs : List OutFile) (p : Parsed) (m : Beam),
      0 < nodes → L.program rnd J nodes doc = .ok fs → (L.withRandom (rnd 0)).parse doc = .ok p → masterBeam p = .ok m →
      p.lattice.lattice = lat → p.tracking.state.interactions = [] →
      ∀ b file step number, LogSpec.traj b file step number ∈ p.beam.logs → ∀ st num : Nat, (st : Int) = step % 2 ^ 32 → (num : Int) = number % 2 ^ 32 → 1 ≤ st →
        ∃ bu, m.B[b]? = some bu ∧
          ∃ F : H5File, (⟨file, .hdf5 F⟩ : OutFile) ∈ fs ∧
            ∀ h : ℝ, p.tracking.timeStep = h → 0 < h → h ≤ h0 → ∀ l j q, l * st ≤ p.tracking.NOTS.toNat → (l * st : ℕ) * h ≤ T → j < num → bu.P[j]? = some q → c.Starts q →
              ∃ X P : Vec, F.entry "Trajectories" [l, j, 0] = some X.x ∧ F.entry "Trajectories" [l, j, 1] = some X.y ∧ F.entry "Trajectories" [l, j, 2] = some X.z ∧
                F.entry "Trajectories" [l, j, 3] = some P.x ∧ F.entry "Trajectories" [l, j, 4] = some P.y ∧ F.entry "Trajectories" [l, j, 5] = some P.z ∧
                (X - c.x (c.t0 + (l * st : ℕ) * h)).norm ≤ C * h ∧ (P - c.p (c.t0 + (l * st : ℕ) * h)).norm ≤ C * h := by
  exact trajectories_of (fun h => h) lat c T (moved_of (fun h => h) (fun h hh => hh.le) _ c T
    (C118_first_order c.qm _ (C118_lattice lat hl) c.x c.p c.t0 T hT hc))

/-! ### Example: a particle entering an undulator, observed at a point -/

/-- the file: the particle starts at the entrance of an undulator, where the field has a kink -/
def kinkDoc : Xml :=
  .node "" [] [.node "teufel" []
    [.node "lattice" [] [.node "undulator" [("type", "planar")] [.node "position" [("z", "2")] [], .node "field" [("B", "1"), ("period", "1"), ("N", "3")] []]],
     .node "beam" [] [.node "particle" [("gamma", "2"), ("charge", "1"), ("cmr", "1")] [.node "position" [] [], .node "momentum" [("z", "1")] []]],
     .node "tracking" [("method", "Vay"), ("delta_t", "tau"), ("n", "steps")] [.node "watch" [("step", "steps"), ("file", "end.h5")] []],
     .node "observer" [] [.node "point" [("file", "point.sdds"), ("source", "beam")] [.node "position" [("x", "1")] [], .node "time" [("dt", "1"), ("n", "3")] []]]]]

noncomputable def kinkLattice : Lattice := [LocalizedField (PlanarUndulator.Setup 1 1 3).LocalField 0 ⟨0, 0, 2⟩]

theorem kinkLattice_jumpless : ∀ e ∈ kinkLattice, Jumpless e := by
  intro e he
  rw [kinkLattice, List.mem_singleton] at he
  subst he
  exact .planar _ _ _ (Or.inl (by simp [PlanarUndulator.Setup]))

theorem kinkLattice_field (t : ℝ) (X : Vec) : ∃ F, Lattice.field kinkLattice t X = .ok F := ⟨_, rfl⟩

theorem kinkLattice_magnetic {t : ℝ} {X : Vec} {EB : EMField} (h : Lattice.field kinkLattice t X = .ok EB) : EB.E = 0 := by
  injection h with h
  subst h
  show (0 : Vec) + 0 = 0
  exact add_zero 0

noncomputable def kinkParsed (h : ℝ) (n : Nat) : Parsed :=
  ⟨⟨predefined, kinkLattice, 1⟩, ⟨predefined, [singleParticle 2 1 1 0 ⟨0, 0, 0⟩ ⟨0, 0, 1⟩], [], none, 1⟩,
    ⟨h, n, ⟨predefined, [⟨n, "end.h5", .hdf5⟩], []⟩⟩, ⟨predefined, [⟨.point (PointObs.new ⟨1, 0, 0⟩ 0 1 3), .beam, "point.sdds"⟩]⟩⟩

theorem kinkDoc_parse (h : ℝ) (n : Nat) (hn : n < 2 ^ 31) (r : (Nat → Nat → ℝ) × (Nat → Nat → Nat → ℝ)) : ((ringLib h n).withRandom r).parse kinkDoc = .ok (kinkParsed h n) := by
  have hc : ∀ env node, (∀ c ∈ node.children, c.name ≠ "calc") → ((ringLib h n).withRandom r).parseCalcChildren env node = env := by
    intro env node hn
    unfold parseCalcChildren
    generalize node.children = l at hn
    induction l generalizing env with
    | nil => rfl
    | cons c l ih =>
      rw [List.foldl_cons, if_neg (hn c (by simp))]
      exact ih env (fun c' hc' => hn c' (by simp [hc']))
  have e0 : ∀ env, ((ringLib h n).withRandom r).eval env "" = env "" := by intro env; simp [withRandom, ringLib, exampleLib]
  have e1 : ∀ env, ((ringLib h n).withRandom r).eval env "1" = some 1 := by intro env; simp [withRandom, ringLib, exampleLib]
  have e2 : ∀ env, ((ringLib h n).withRandom r).eval env "2" = some 2 := by intro env; simp [withRandom, ringLib, exampleLib]
  have e3 : ((ringLib h n).withRandom r).asInt "3" = 3 := by simp [withRandom, ringLib, exampleLib]
  have e4 : ∀ env, ((ringLib h n).withRandom r).eval env "tau" = some h := by intro env; simp [withRandom, ringLib]
  have e5 : ∀ env, ((ringLib h n).withRandom r).eval env "steps" = some (n : ℝ) := by intro env; simp [withRandom, ringLib]
  have hpe := predefined_empty
  have h2 : toInt32 (crint (n : ℝ)) = .ok (n : Int) := by
    have : crint (n : ℝ) = n := by simp [crint]
    rw [this]
    unfold toInt32
    rw [if_pos ⟨by omega, by omega⟩]
  unfold parse kinkDoc
  simp only [Xml.child, Xml.children, Xml.name, List.find?, need, bind, Except.bind, pure, Except.pure, start, beq_self_eq_true]
  rw [hc _ _ (by simp [Xml.children, Xml.name])]
  simp only [parseLattice, parseBeam, parseTracking, parseObservers, Xml.child, Xml.children, Xml.name, List.find?, need, bind, Except.bind, pure, Except.pure]
  have p1 : ((ringLib h n).withRandom r).latticeStep ⟨predefined, [], 0⟩ (.node "undulator" [("type", "planar")] [.node "position" [("z", "2")] [], .node "field" [("B", "1"), ("period", "1"), ("N", "3")] []])
      = .ok ⟨predefined, kinkLattice, 1⟩ := by
    simp [latticeStep, latticeElement, planarUndulator, intOr, kinkLattice, need, bind, Except.bind, pure, Except.pure, List.lookup, e2, e3, Xml.name, parseCalcChildren, Xml.children, Except.map, Lattice.addElement, optVec, Xml.child, vec, num, Xml.value, Xml.attr, Xml.attrs, e0, e1, hpe]
  have p2 : ((ringLib h n).withRandom r).beamStep ⟨predefined, [], [], none, 0⟩ (.node "particle" [("gamma", "2"), ("charge", "1"), ("cmr", "1")] [.node "position" [] [], .node "momentum" [("z", "1")] []])
      = .ok ⟨predefined, [singleParticle 2 1 1 0 ⟨0, 0, 0⟩ ⟨0, 0, 1⟩], [], none, 1⟩ := by
    simp [beamStep, particleEntry, Xml.name, parseCalcChildren, Xml.children, Xml.child, need, bind, Except.bind, pure, Except.pure, parseLog, optNum, vec, num, Xml.value, Xml.attr, Xml.attrs, e0, e1, e2, hpe, List.lookup]
  have p3 : ∀ t, ((ringLib h n).withRandom r).trackStep t ⟨predefined, [], []⟩ (.node "watch" [("step", "steps"), ("file", "end.h5")] []) = .ok ⟨predefined, [⟨n, "end.h5", .hdf5⟩], []⟩ := by
    intro t
    simp [trackStep, watchEntry, Xml.name, need, bind, Except.bind, pure, Except.pure, int, num, Xml.value, Xml.attr, Xml.attrs, e5, h2, List.lookup]
  have p4 : ((ringLib h n).withRandom r).observerStep ⟨predefined, []⟩ (.node "point" [("file", "point.sdds"), ("source", "beam")] [.node "position" [("x", "1")] [], .node "time" [("dt", "1"), ("n", "3")] []])
      = .ok ⟨predefined, [⟨.point (PointObs.new ⟨1, 0, 0⟩ 0 1 3), .beam, "point.sdds"⟩]⟩ := by
    have hsrc : source (.node "point" [("file", "point.sdds"), ("source", "beam")] [.node "position" [("x", "1")] [], .node "time" [("dt", "1"), ("n", "3")] []]) = .ok .beam := by
      simp [source, Xml.attr, Xml.attrs, List.lookup]
    simp [observerStep, observerEntry, pointEntry, Xml.name, parseCalcChildren, Xml.children, Xml.child, need, bind, Except.bind, pure, Except.pure, hsrc, points, Except.map, vec, num, Xml.value, Xml.attr, Xml.attrs, e0, e1, e3, hpe, List.lookup]
  simp [p1, p2, Xml.value, Xml.attr, Xml.attrs, List.lookup, int, num, e1, e2, e4, e5, h2, kinkParsed]
  simp [pure, Except.pure, bind, Except.bind, p3, p4]

theorem kinkDoc_master (h : ℝ) (n : Nat) : masterBeam (kinkParsed h n) = .ok { progBeam (Real.sqrt 3) ⟨0, 0, 1⟩ with dt := h, NOTS := n } := by
  have hone : Vec.norm (⟨0, 0, 1⟩ : Vec) = 1 := by simp [Vec.norm]
  have hn : normalizeE ⟨0, 0, 1⟩ = .ok ⟨0, 0, 1⟩ := by
    unfold normalizeE
    rw [if_neg]
    · unfold Vec.normalize
      rw [hone]
      congr 1
      ext <;> simp
    · intro h
      have := congrArg Vec.z h
      norm_num at this
  have hc : chargeMass (1 / ElementaryCharge) 1 = .ok (1 / ElementaryCharge, 1 / ElementaryCharge) := by
    unfold chargeMass
    rw [if_neg (by norm_num [ElementaryCharge]), div_one]
  have hb : betaGamma 2 = .ok (Real.sqrt 3) := by
    unfold betaGamma
    rw [if_neg (by norm_num)]
    norm_num
  simp only [masterBeam, kinkParsed, singleParticle, hn, hc, hb, bind, Except.bind, pure, Except.pure, List.mapM_cons, List.mapM_nil, id, List.foldl]
  rfl

/-- the program runs -/
theorem kinkDoc_runs (h : ℝ) (n : Nat) (hn : n < 2 ^ 31) (hh : 0 < h) (hT : n * h ≤ 1e-9) (rnd : Nat → (Nat → Nat → ℝ) × (Nat → Nat → Nat → ℝ)) (J : Indet) (nodes : Nat) (hN : 0 < nodes) :
    ∃ fs, (ringLib h n).program rnd J nodes kinkDoc = .ok fs := by
  have hreach : (progParticle (Real.sqrt 3) ⟨0, 0, 1⟩).Reachable := ⟨_, [.init 0 ⟨0, 0, 0⟩ ((⟨0, 0, 1⟩ : Vec) * Real.sqrt 3) 0], Or.inl ⟨_, _, rfl⟩, rfl⟩
  refine C86_without_interactions _ rnd J nodes hN kinkDoc _ _ (kinkDoc_parse h n hn (rnd 0)) (kinkDoc_master h n) (by simp [kinkParsed]) (fun t X => kinkLattice_field t X) ?_ (by simp [kinkParsed]) ?_ ?_ rfl
  · intro q hq
    rw [ring_all, List.mem_singleton] at hq
    subst hq
    show (1 / ElementaryCharge : ℝ) ≠ 0
    norm_num [ElementaryCharge]
  · intro pr hpr
    simp [kinkParsed] at hpr
  · intro spec hspec
    simp only [kinkParsed, List.mem_singleton] at hspec
    subst hspec
    refine ⟨⟨by simp [Observer.keys, PointObs.new, FieldTrace.new], by intro s hs; cases hs⟩, fun _ => ⟨hh, by show (0 : ℝ) < 1; norm_num, ?_⟩⟩
    intro q hq a ha
    rw [ring_all, List.mem_singleton] at hq
    subst hq
    refine clear_far (by intro s hs; cases hs) hreach hh (alone_moved ha) ?_
    intro key _ t X hX
    have hX' : X = ⟨1, 0, 0⟩ := by
      injection hX with hX
      exact (congrArg Prod.snd hX).symm
    have h0 : (progParticle (Real.sqrt 3) ⟨0, 0, 1⟩).XCur = ⟨0, 0, 0⟩ := rfl
    have hn' : (kinkParsed h n).tracking.NOTS.toNat = n := rfl
    rw [hX', h0, hn']
    have : Vec.norm ((⟨1, 0, 0⟩ : Vec) - ⟨0, 0, 0⟩) = 1 := by simp [Vec.norm]
    rw [this]
    have hc := SpeedOfLight_pos
    calc SpeedOfLight * (n * h) ≤ SpeedOfLight * 1e-9 := by gcongr
      _ < 1 := by norm_num [SpeedOfLight]

/-- non-vacuity of C119: for all small time steps the program runs on any number of nodes, and the rows of the file show the field of the exact motion through
the entrance of the undulator, up to a constant times the time step -/
example : ∃ c : Charge, Motion c.qm (Lattice.field kinkLattice) c.x c.p 0 1e-9 ∧ ∃ C h0 : ℝ, 0 < h0 ∧ ∀ (h : ℝ) (n : Nat), 0 < h → h ≤ h0 → n < 2 ^ 31 → n * h ≤ 1e-9 →
    ∀ (rnd : Nat → (Nat → Nat → ℝ) × (Nat → Nat → Nat → ℝ)) (J : Indet) (nodes : Nat), 0 < nodes →
      ∃ fs before f, (ringLib h n).program rnd J nodes kinkDoc = .ok fs ∧ fs = before ++ [⟨"point.sdds", .point f⟩] ∧
        (∀ i : Nat, i < 3 → ∃ F : EMField, f.rows[i]? = some [0 + (i : ℝ) * 1, F.E.x, F.E.y, F.E.z, F.B.x, F.B.y, F.B.z] ∧
          ∃ S : ℝ → EMField, Seen 1 c.x c.p ⟨1, 0, 0⟩ 0 1e-9 S ∧
            |F.E.y - ∫ θ in Set.Icc (arrival c.x ⟨1, 0, 0⟩ 0) (arrival c.x ⟨1, 0, 0⟩ (0 + n * h)) ∩ Set.Icc (0 + (i : ℝ) * 1 - 1 / 2) (0 + (i : ℝ) * 1 + 1 / 2), (S θ).E.y| ≤ C * h) ∧
        ∃ X P : Vec, (⟨"end.h5", .watch (.hdf5 1 [X.x, X.y, X.z, P.x, P.y, P.z])⟩ : OutFile) ∈ fs ∧ (X - c.x (n * h)).norm ≤ C * h ∧ (P - c.p (n * h)).norm ≤ C * h := by
  have hT : (0 : ℝ) ≤ 1e-9 := by norm_num
  obtain ⟨x, p, hx, hp, hm⟩ := C118_motion_exists InvRestMass (Lattice.field kinkLattice) (C118_lattice _ kinkLattice_jumpless) 0 1e-9 0 ⟨0, 0, Real.sqrt 3⟩ hT
  set c : Charge := ⟨InvRestMass, 1, x, p, 0⟩ with hcdef
  have hm' : Motion c.qm (Lattice.field kinkLattice) c.x c.p c.t0 1e-9 := hm
  have hne : c.NoElectric (Lattice.field kinkLattice) 1e-9 := fun t _ _ EB h => kinkLattice_magnetic h
  have hobs : ∀ t, c.t0 ≤ t → t ≤ c.t0 + 1e-9 → (⟨1, 0, 0⟩ : Vec) ≠ c.x t := by
    intro t h1 h2 h
    have h0 : (0 : ℝ) ≤ t := h1
    have h2' : t ≤ 0 + 1e-9 := h2
    have := Exist.moved hm.position (fun t _ _ => Exist.speed (p t)) (s := 0) (t := t) le_rfl (by norm_num) h0 h2'
    have h' : x t = ⟨1, 0, 0⟩ := h.symm
    rw [hx, h', sub_zero, sub_zero, abs_of_nonneg h0] at this
    have e1 : Vec.norm (⟨1, 0, 0⟩ : Vec) = 1 := by simp [Vec.norm]
    rw [e1] at this
    have hc := SpeedOfLight_pos
    have : SpeedOfLight * t ≤ SpeedOfLight * 1e-9 := mul_le_mul_of_nonneg_left (by linarith) hc.le
    have : SpeedOfLight * 1e-9 < 1 := by norm_num [SpeedOfLight]
    linarith
  have hst : ∀ (h : ℝ) (n : Nat), List.Forall₂ Charge.Starts [c] ({ progBeam (Real.sqrt 3) ⟨0, 0, 1⟩ with dt := h, NOTS := n } : Beam).all := by
    intro h n
    rw [ring_all]
    refine .cons ⟨?_, ?_, ?_, rfl, ?_, ?_⟩ .nil
    · show (1 / ElementaryCharge : ℝ) ≠ 0
      norm_num [ElementaryCharge]
    · show (1 / ElementaryCharge : ℝ) / (1 / ElementaryCharge) * InvRestMass = InvRestMass
      rw [div_self (by norm_num [ElementaryCharge]), one_mul]
    · show (1 / ElementaryCharge : ℝ) * ElementaryCharge = 1
      exact one_div_mul_cancel (by norm_num [ElementaryCharge])
    · show (⟨0, 0, 0⟩ : Vec) = x 0
      rw [hx]
      rfl
    · show (⟨0, 0, 1⟩ : Vec) * Real.sqrt 3 = p 0
      rw [hp]
      ext <;> simp
  obtain ⟨C, h0, hh0, H⟩ := C119_observation kinkLattice kinkLattice_jumpless [c] 1e-9 hT (by simpa using ⟨hm', hne⟩) ⟨1, 0, 0⟩ (by simpa using hobs) (fun F => F.E.y) component_Ey
  obtain ⟨C', h0', hh0', H'⟩ := C119_watches kinkLattice kinkLattice_jumpless [c] 1e-9 hT (by simpa using hm')
  obtain ⟨_, S, hS⟩ := C119_signal c.qm 1 _ (C118_lattice _ kinkLattice_jumpless) c.x c.p 0 1e-9 hT hm' ⟨1, 0, 0⟩ hobs
  refine ⟨c, hm, max C C', min h0 h0', lt_min hh0 hh0', ?_⟩
  intro h n hh hle hn hnT rnd J nodes hN
  obtain ⟨fs, hfs⟩ := kinkDoc_runs h n hn hh hnT rnd J nodes hN
  obtain ⟨before, files, e1, e2, e3⟩ := H (ringLib h n) rnd J nodes kinkDoc fs _ _ hN hfs (kinkDoc_parse h n hn (rnd 0)) (kinkDoc_master h n) rfl rfl (hst h n) h rfl hh
    (hle.trans (min_le_left _ _)) n rfl hnT
  obtain ⟨d', d1, d2, _⟩ := H' (ringLib h n) rnd J nodes kinkDoc fs _ _ hN hfs (kinkDoc_parse h n hn (rnd 0)) (kinkDoc_master h n) rfl rfl (hst h n) h rfl hh
    (hle.trans (min_le_right _ _)) ⟨n, "end.h5", .hdf5⟩ (by simp [kinkParsed]) n rfl (by simp [kinkParsed]) hnT
  obtain ⟨d, hd, hb⟩ := e3 0 ⟨.point (PointObs.new ⟨1, 0, 0⟩ 0 1 3), .beam, "point.sdds"⟩ rfl
  have hfl : files = [⟨"point.sdds", d⟩] := by
    have : files.length = 1 := e2
    obtain ⟨x, rfl⟩ := List.length_eq_one_iff.mp this
    simpa using hd
  have hrow := fun (i : Nat) (hi : i < 3) => hb rfl ((0, 0), i) (by simpa [Observer.keys, PointObs.new, FieldTrace.new] using hi) _ _ _ rfl rfl one_pos (by show 2 ≤ 3; norm_num)
  obtain ⟨F0, hF0, _⟩ := hrow 0 (by norm_num)
  obtain ⟨f, rfl⟩ : ∃ f, d = .point f := by
    cases d with
    | point f => exact ⟨f, rfl⟩
    | _ => exact hF0.elim
  refine ⟨fs, before, f, hfs, by rw [e1, hfl], ?_, ?_⟩
  · intro i hi
    obtain ⟨F, f1, f2⟩ := hrow i hi
    refine ⟨F, f1, S, hS, ?_⟩
    have := f2 (fun _ => S) (by intro c' hc'; rw [List.mem_singleton.mp hc']; exact hS)
    have h3 : C * h ≤ max C C' * h := mul_le_mul_of_nonneg_right (le_max_left _ _) hh.le
    refine le_trans ?_ h3
    simpa [PointObs.new, FieldTrace.new, hcdef] using this
  · obtain ⟨pts, g1, g2⟩ := d2 rfl
    cases g2 with
    | cons a b =>
      cases b
      have e0 : c.t0 + n * h = n * h := zero_add _
      rw [e0] at a
      have h3 : C' * h ≤ max C C' * h := mul_le_mul_of_nonneg_right (le_max_right _ _) hh.le
      refine ⟨_, _, ?_, a.1.trans h3, a.2.trans h3⟩
      rw [g1] at d1
      simpa using d1

end Lib
end Teufel
