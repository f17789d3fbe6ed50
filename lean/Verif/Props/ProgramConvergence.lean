import Verif.Spec.Charges
import Verif.Props.RadiationConvergence
import Verif.Props.ProgramComplete
import Verif.Props.ProgramHistory

/-!
# C94: the files of a run converge to the exact solution

The program is run with the time step `h`.  All constants are the same for all runs with the same lattice and beam.
-/

namespace Teufel
open Vec MeasureTheory Input

theorem track_alone_ok {dt : ℝ} {f : FieldFn} {q a1 a2 : Particle} {n : Nat} (h1 : (q.initTrajectory q.tCur q.XCur q.PCur q.ACur).InitVay dt f = .ok a1)
    (h2 : a1.steps (List.replicate n f) = .ok a2) : trackAlone dt f q n = .ok a2 := by
  unfold trackAlone
  rw [h1]
  simp only [dropState, bind, Except.bind, h2]

theorem init_reachable {q : Particle} (h : q.Reachable) (t : ℝ) (x p a : Vec) : (q.initTrajectory t x p a).Reachable := by
  have := h.exec (.init t x p a)
  simpa only [POp.exec, POp.result] using this

/-- the same constants for finitely many motions -/
theorem uniform_constants {α : Type} (P : α → ℝ → ℝ → Prop) (hmono : ∀ a C C' h h', P a C h → C ≤ C' → h' ≤ h → P a C' h') (l : List α)
    (hex : ∀ a ∈ l, ∃ C h, 0 < h ∧ P a C h) : ∃ C h, 0 ≤ C ∧ 0 < h ∧ ∀ a ∈ l, P a C h := by
  induction l with
  | nil => exact ⟨0, 1, le_rfl, one_pos, by simp⟩
  | cons a l ih =>
    obtain ⟨C, h, h1, h2⟩ := hex a (by simp)
    obtain ⟨C', h', h3, h4, h5⟩ := ih (fun b hb => hex b (by simp [hb]))
    refine ⟨max C C', min h h', le_max_of_le_right h3, lt_min h1 h4, ?_⟩
    intro b hb
    rcases List.mem_cons.mp hb with rfl | hb
    · exact hmono _ _ _ _ _ h2 (le_max_left _ _) (min_le_left _ _)
    · exact hmono _ _ _ _ _ (h5 b hb) (le_max_right _ _) (min_le_right _ _)

theorem new_getField {t0 dt : ℝ} {n i : Nat} (h : i < n) : (FieldTrace.new t0 dt n).getField i = .ok 0 := by
  simp [FieldTrace.getField, FieldTrace.new, List.getElem?_replicate, h]

theorem component_zero {φ : EMField → ℝ} (hφ : Particle.IsComponent φ) : φ 0 = 0 := by
  have := hφ.add 0 0
  simp at this
  exact this

theorem component_sum {φ : EMField → ℝ} (hφ : Particle.IsComponent φ) (l : List EMField) : φ l.sum = (l.map φ).sum := by
  induction l with
  | nil => simpa using component_zero hφ
  | cons a l ih => simp [hφ.add, ih]

/-- what the trace of one particle shows, if recording has errors of the size `err h` -/
theorem recorded_start (err : ℝ → ℝ) (field : FieldFn) (c : Charge) (T : ℝ) (obs : Vec) (φ : EMField → ℝ) (hφ : Particle.IsComponent φ)
    (hrec : ∃ C h0 : ℝ, 0 < h0 ∧ ∀ h : ℝ, 0 < h → h ≤ h0 → ∀ n : ℕ, n * h ≤ T →
      ∀ a : Particle, a.Reachable → a.getNP = 1 → a.Mass ≠ 0 → a.Charge / a.Mass * InvRestMass = c.qm → a.Charge * ElementaryCharge = c.q →
        a.TrajTime 0 = .ok c.t0 → a.TrajPoint 0 = .ok (c.x c.t0) → a.TrajMomentum 0 = .ok (c.p c.t0) →
        ∃ a1 a2, a.InitVay h field = .ok a1 ∧ a1.steps (List.replicate n field) = .ok a2 ∧
          ∀ tr : FieldTrace, tr.WF → 0 < tr.dt → 2 ≤ tr.N → ∃ tr', a2.integrateFieldTrace obs tr = .ok tr' ∧
            ∀ S : ℝ → EMField, Seen c.q c.x c.p obs c.t0 T S →
              ∀ (i : Nat) (f f' : EMField), tr.getField i = .ok f → tr'.getField i = .ok f' →
                |φ f' - φ f - (∫ θ in Set.Icc (arrival c.x obs c.t0) (arrival c.x obs (c.t0 + n * h)) ∩
                  Set.Icc (tr.t0 + ((i : ℝ) - 1 / 2) * tr.dt) (tr.t0 + ((i : ℝ) + 1 / 2) * tr.dt), φ (S θ)) / tr.dt| ≤ C / tr.dt * err h) :
    ∃ C h0 : ℝ, 0 < h0 ∧ ∀ h : ℝ, 0 < h → h ≤ h0 → ∀ n : ℕ, n * h ≤ T → ∀ q : Particle, q.Reachable → c.Starts q →
      ∃ a, trackAlone h field q n = .ok a ∧ ∀ (start dt : ℝ) (N : Nat), 0 < dt → 2 ≤ N →
        ∃ tr, a.integrateFieldTrace obs (FieldTrace.new start dt N) = .ok tr ∧
          ∀ S : ℝ → EMField, Seen c.q c.x c.p obs c.t0 T S → ∀ (i : Nat) (F : EMField), i < N → tr.getField i = .ok F →
            |φ F - (∫ θ in Set.Icc (arrival c.x obs c.t0) (arrival c.x obs (c.t0 + n * h)) ∩
              Set.Icc (start + ((i : ℝ) - 1 / 2) * dt) (start + ((i : ℝ) + 1 / 2) * dt), φ (S θ)) / dt| ≤ C / dt * err h := by
  obtain ⟨C, h0, hh0, H⟩ := hrec
  refine ⟨C, h0, hh0, ?_⟩
  intro h hh hle n hn q hq hs
  obtain ⟨a1, a2, e1, e2, rec⟩ := H h hh hle n hn (q.initTrajectory q.tCur q.XCur q.PCur q.ACur) (init_reachable hq _ _ _ _) rfl hs.mass hs.qm hs.q
    (by rw [← hs.time]; rfl) (by rw [← hs.position]; rfl) (by rw [← hs.momentum]; rfl)
  refine ⟨a2, track_alone_ok e1 e2, ?_⟩
  intro start dt N hdt hN
  obtain ⟨tr, h1, h2⟩ := rec (FieldTrace.new start dt N) (FieldTrace.new_wf _ _ _) hdt hN
  refine ⟨tr, h1, ?_⟩
  intro S hS i F hi hF
  have := h2 S hS i 0 F (new_getField hi) hF
  rw [component_zero hφ, sub_zero] at this
  exact this

/-- what the trace of one particle shows -/
theorem recorded_near (field : FieldFn) (c : Charge) (T : ℝ) (hT : 0 ≤ T) (hc : c.Moves field T) (he : c.NoElectric field T) (obs : Vec)
    (hobs : ∀ t, c.t0 ≤ t → t ≤ c.t0 + T → obs ≠ c.x t) (φ : EMField → ℝ) (hφ : Particle.IsComponent φ) :
    ∃ C h0 : ℝ, 0 < h0 ∧ ∀ h : ℝ, 0 < h → h ≤ h0 → ∀ n : ℕ, n * h ≤ T → ∀ q : Particle, q.Reachable → c.Starts q →
      ∃ a, trackAlone h field q n = .ok a ∧ ∀ (start dt : ℝ) (N : Nat), 0 < dt → 2 ≤ N →
        ∃ tr, a.integrateFieldTrace obs (FieldTrace.new start dt N) = .ok tr ∧
          ∀ S : ℝ → EMField, Seen c.q c.x c.p obs c.t0 T S → ∀ (i : Nat) (F : EMField), i < N → tr.getField i = .ok F →
            |φ F - (∫ θ in Set.Icc (arrival c.x obs c.t0) (arrival c.x obs (c.t0 + n * h)) ∩
              Set.Icc (start + ((i : ℝ) - 1 / 2) * dt) (start + ((i : ℝ) + 1 / 2) * dt), φ (S θ)) / dt| ≤ C / dt * h ^ 2 := by
  obtain ⟨r, L, Bm, hr, hL, ht⟩ := hc.tame
  exact recorded_start (fun h => h ^ 2) field c T obs φ hφ (C93_second_order c.qm c.q field c.x c.p c.t0 T r L Bm hc.motion hc.smooth ht hr hL hT he obs hobs φ hφ)

theorem key_sample {o : Observer} {k : Observer.Key} (hk : k ∈ o.keys) {dt : ℝ} {N : Nat} (hs : o.sampling k = .ok (dt, N)) {t : ℝ} {X : Vec}
    (hX : o.samplePoint k = .ok (t, X)) : k.2 < N ∧ ∃ start, t = start + k.2 * dt ∧
      ∀ a : Particle, o.particleSample k a = (a.integrateFieldTrace X (FieldTrace.new start dt N)).bind (fun tr => tr.getField k.2) := by
  cases o with
  | screen s =>
    simp only [Observer.sampling, Except.ok.injEq, Prod.mk.injEq] at hs
    simp only [Observer.samplePoint, Except.ok.injEq, Prod.mk.injEq] at hX
    obtain ⟨rfl, rfl⟩ := hs
    obtain ⟨rfl, rfl⟩ := hX
    obtain ⟨⟨ix, iy⟩, it⟩ := k
    exact ⟨(mem_samples.mp hk).2.2, _, rfl, fun a => rfl⟩
  | snapshot s => cases hs
  | point s =>
    simp only [Observer.sampling, Except.ok.injEq, Prod.mk.injEq] at hs
    simp only [Observer.samplePoint, Except.ok.injEq, Prod.mk.injEq] at hX
    obtain ⟨rfl, rfl⟩ := hs
    obtain ⟨rfl, rfl⟩ := hX
    simp only [Observer.keys, List.mem_map, List.mem_range] at hk
    obtain ⟨it, h1, rfl⟩ := hk
    exact ⟨h1, _, rfl, fun a => rfl⟩
  | mesh s =>
    simp only [Observer.keys, List.mem_flatMap, List.mem_map, List.mem_range] at hk
    obtain ⟨i, hi, it, hit, rfl⟩ := hk
    simp only [Observer.sampling, bind, Except.bind] at hs
    simp only [Observer.samplePoint, bind, Except.bind] at hX
    cases h1 : MeshObs.at' s.A i with
    | error e => rw [h1] at hs; cases hs
    | ok tr =>
      rw [h1] at hs hX
      cases h2 : MeshObs.at' s.points i with
      | error e => rw [h2] at hX; cases hX
      | ok pos =>
        rw [h2] at hX
        simp only [pure, Except.pure, Except.ok.injEq, Prod.mk.injEq] at hs hX
        obtain ⟨rfl, rfl⟩ := hs
        obtain ⟨rfl, rfl⟩ := hX
        refine ⟨hit, _, rfl, fun a => ?_⟩
        simp only [Observer.particleSample, bind, Except.bind, h1, h2]

theorem forall₂_comp3 {α β γ δ : Type} {R : α → β → Prop} {S : β → γ → Prop} {U : γ → δ → Prop} {V : α → δ → Prop} {l1 : List α} {l2 : List β} {l3 : List γ} {l4 : List δ}
    (h1 : List.Forall₂ R l1 l2) (h2 : List.Forall₂ S l2 l3) (h3 : List.Forall₂ U l3 l4) (H : ∀ a ∈ l1, ∀ b ∈ l2, ∀ c d, R a b → S b c → U c d → V a d) :
    List.Forall₂ V l1 l4 := by
  induction h1 generalizing l3 l4 with
  | nil => cases h2; cases h3; exact .nil
  | cons r1 t1 ih =>
    cases h2 with
    | cons r2 t2 =>
      cases h3 with
      | cons r3 t3 => exact .cons (H _ (by simp) _ (by simp) _ _ r1 r2 r3) (ih t2 t3 (fun a ha b hb => H a (by simp [ha]) b (by simp [hb])))

theorem sum_near {α : Type} {φ : EMField → ℝ} (hφ : Particle.IsComponent φ) (I : α → ℝ) (K : ℝ) {l : List α} {Fs : List EMField}
    (h : List.Forall₂ (fun c F => |φ F - I c| ≤ K) l Fs) : |φ Fs.sum - (l.map I).sum| ≤ l.length * K := by
  rw [component_sum hφ]
  induction h with
  | nil => simp
  | cons h t ih =>
    simp only [List.map_cons, List.sum_cons, List.length_cons, Nat.cast_add, Nat.cast_one]
    rw [add_sub_add_comm]
    refine (abs_add_le _ _).trans ?_
    linarith

/-- the particles of the beam of a run -/
theorem Lib.master_reachable {L : Lib} {rnd : Nat → (Nat → Nat → ℝ) × (Nat → Nat → Nat → ℝ)} {J : Indet} {doc : Xml} {p : Parsed} {m : Beam}
    (hp : (L.withRandom (rnd 0)).parse doc = .ok p) (hm : masterBeam p = .ok m) : m.WF ∧ ∀ q ∈ m.all, q.Reachable := by
  obtain ⟨ms, h1, h2, h3, h4⟩ := program_ok L rnd J 0 doc p hp m hm
  have hmwf := Beam.wf_reachable (h2 m (by simp))
  refine ⟨hmwf, ?_⟩
  intro q hq
  simp only [Beam.all, List.mem_flatMap] at hq
  obtain ⟨bu, b1, b2⟩ := hq
  exact (hmwf.2 bu b1).2 q b2

namespace Lib

/-- the files of observers, if the trace of each particle has errors of the size `err h` -/
theorem observation_of (err : ℝ → ℝ) (herr : ∀ h, 0 < h → 0 ≤ err h) (lat : Lattice) (cs : List Charge) (T : ℝ) (obs : Vec) (φ : EMField → ℝ) (hφ : Particle.IsComponent φ)
    (hnear : ∀ c ∈ cs,
    ∃ C h0 : ℝ, 0 < h0 ∧ ∀ h : ℝ, 0 < h → h ≤ h0 → ∀ n : ℕ, n * h ≤ T → ∀ q : Particle, q.Reachable → c.Starts q →
      ∃ a, trackAlone h (Lattice.field lat) q n = .ok a ∧ ∀ (start dt : ℝ) (N : Nat), 0 < dt → 2 ≤ N →
        ∃ tr, a.integrateFieldTrace obs (FieldTrace.new start dt N) = .ok tr ∧
          ∀ S : ℝ → EMField, Seen c.q c.x c.p obs c.t0 T S → ∀ (i : Nat) (F : EMField), i < N → tr.getField i = .ok F →
            |φ F - (∫ θ in Set.Icc (arrival c.x obs c.t0) (arrival c.x obs (c.t0 + n * h)) ∩
              Set.Icc (start + ((i : ℝ) - 1 / 2) * dt) (start + ((i : ℝ) + 1 / 2) * dt), φ (S θ)) / dt| ≤ C / dt * err h) :
    ∃ C h0 : ℝ, 0 < h0 ∧ ∀ (L : Lib) (rnd : Nat → (Nat → Nat → ℝ) × (Nat → Nat → Nat → ℝ)) (J : Indet) (nodes : Nat) (doc : Xml) (fs : List OutFile) (p : Parsed) (m : Beam),
      0 < nodes → L.program rnd J nodes doc = .ok fs → (L.withRandom (rnd 0)).parse doc = .ok p → masterBeam p = .ok m →
      p.lattice.lattice = lat → p.tracking.state.interactions = [] → List.Forall₂ Charge.Starts cs m.all →
      ∀ h : ℝ, p.tracking.timeStep = h → 0 < h → h ≤ h0 → ∀ n : ℕ, (n : Int) = p.tracking.NOTS → n * h ≤ T →
        ∃ before files : List OutFile, fs = before ++ files ∧ files.length = p.observers.observers.length ∧
          ∀ (i : Nat) (spec : ObserverSpec), p.observers.observers[i]? = some spec → ∃ d, files[i]? = some ⟨spec.file, d⟩ ∧
            (spec.source = .beam → ∀ k ∈ spec.observer.keys, ∀ t dt N, spec.observer.samplePoint k = .ok (t, obs) → spec.observer.sampling k = .ok (dt, N) →
              0 < dt → 2 ≤ N → ∃ F, Shows spec.observer d k obs F ∧
                ∀ S : Charge → ℝ → EMField, (∀ c ∈ cs, Seen c.q c.x c.p obs c.t0 T (S c)) →
                  |φ F - (cs.map (fun c => (∫ θ in Set.Icc (arrival c.x obs c.t0) (arrival c.x obs (c.t0 + n * h)) ∩ Set.Icc (t - dt / 2) (t + dt / 2), φ (S c θ)) / dt)).sum|
                    ≤ C / dt * err h) := by
  obtain ⟨C, h0, hC, hh0, H⟩ := uniform_constants (fun (c : Charge) (C h0 : ℝ) => ∀ h : ℝ, 0 < h → h ≤ h0 → ∀ n : ℕ, n * h ≤ T → ∀ q : Particle, q.Reachable → c.Starts q →
      ∃ a, trackAlone h (Lattice.field lat) q n = .ok a ∧ ∀ (start dt : ℝ) (N : Nat), 0 < dt → 2 ≤ N →
        ∃ tr, a.integrateFieldTrace obs (FieldTrace.new start dt N) = .ok tr ∧
          ∀ S : ℝ → EMField, Seen c.q c.x c.p obs c.t0 T S → ∀ (i : Nat) (F : EMField), i < N → tr.getField i = .ok F →
            |φ F - (∫ θ in Set.Icc (arrival c.x obs c.t0) (arrival c.x obs (c.t0 + n * h)) ∩
              Set.Icc (start + ((i : ℝ) - 1 / 2) * dt) (start + ((i : ℝ) + 1 / 2) * dt), φ (S θ)) / dt| ≤ C / dt * err h)
    (by
      intro c C C' h h' hP hC hh h1 hp1 hle n hn q hq hs
      obtain ⟨a, ha, hr⟩ := hP h1 hp1 (hle.trans hh) n hn q hq hs
      refine ⟨a, ha, fun start dt N hdt hN => ?_⟩
      obtain ⟨tr, g1, g2⟩ := hr start dt N hdt hN
      refine ⟨tr, g1, fun S hS i F hi hF => (g2 S hS i F hi hF).trans ?_⟩
      exact mul_le_mul_of_nonneg_right (div_le_div_of_nonneg_right hC hdt.le) (herr h1 hp1))
    cs hnear
  refine ⟨cs.length * C, h0, hh0, ?_⟩
  intro L rnd J nodes doc fs p m hN hrun hp hm hlat hint hstart h hh hpos hle n hn hnT
  obtain ⟨p', m', hp', hm', before, files, hfs, hlen, hfiles⟩ := C83_observers_partial L rnd J nodes hN doc fs hrun
  rw [hp] at hp'
  injection hp' with hp'
  subst hp'
  rw [hm] at hm'
  injection hm' with hm'
  subst hm'
  refine ⟨before, files, hfs, hlen, ?_⟩
  intro i spec hi
  obtain ⟨d, hd, hb, _⟩ := hfiles i spec hi
  refine ⟨d, hd, ?_⟩
  intro hsrc k hk t dt N hpt hsm hdt hN2
  obtain ⟨ps, hps, hsh⟩ := hb hsrc hint
  obtain ⟨t', X, Fs, e1, e2, e3⟩ := hsh k hk
  rw [hpt] at e1
  simp only [Except.ok.injEq, Prod.mk.injEq] at e1
  obtain ⟨rfl, rfl⟩ := e1
  refine ⟨Fs.sum, e3, ?_⟩
  intro S hS
  obtain ⟨hkN, start, ht, hsample⟩ := key_sample hk hsm hpt
  have hreach := (master_reachable (J := J) hp hm).2
  have htn : p.tracking.NOTS.toNat = n := by rw [← hn]; rfl
  rw [hh, hlat, htn] at hps
  have key := forall₂_comp3 hstart (mapM_forall₂.mp hps) (mapM_forall₂.mp e2)
    (V := fun c F => |φ F - (∫ θ in Set.Icc (arrival c.x obs c.t0) (arrival c.x obs (c.t0 + n * h)) ∩ Set.Icc (t - dt / 2) (t + dt / 2), φ (S c θ)) / dt| ≤ C / dt * err h) (by
      intro c hcs q hq a F hs ha hF
      obtain ⟨a', ha', hr⟩ := H c hcs h hpos hle n hnT q (hreach q hq) hs
      rw [ha] at ha'
      injection ha' with ha'
      subst ha'
      obtain ⟨tr, g1, g2⟩ := hr start dt N hdt hN2
      rw [hsample, g1] at hF
      have := g2 (S c) (hS c hcs) k.2 F hkN hF
      have e1 : start + ((k.2 : ℝ) - 1 / 2) * dt = t - dt / 2 := by rw [ht]; ring
      have e2 : start + ((k.2 : ℝ) + 1 / 2) * dt = t + dt / 2 := by rw [ht]; ring
      rw [e1, e2] at this
      exact this)
  have := sum_near hφ _ _ key
  calc _ ≤ _ := this
    _ = _ := by ring

/-- **C94 (observation).** Particles move in magnetic fields of the lattice.  The files the program writes for observers of the beam contain, for
every sample at the place `obs`, the sum of the Liénard-Wiechert fields of the exact motions of all particles, averaged over the time `dt` of the sample,
up to a constant times the square of the time step of the tracking - for every input, every number of nodes and whatever memory and
random generator contain.  The constant does not depend on any of these. -/
theorem C94_observation (lat : Lattice) (cs : List Charge) (T : ℝ) (hT : 0 ≤ T) (hc : ∀ c ∈ cs, c.Moves (Lattice.field lat) T ∧ c.NoElectric (Lattice.field lat) T)
    (obs : Vec) (hobs : ∀ c ∈ cs, ∀ t, c.t0 ≤ t → t ≤ c.t0 + T → obs ≠ c.x t) (φ : EMField → ℝ) (hφ : Particle.IsComponent φ) :
    ∃ C h0 : ℝ, 0 < h0 ∧ ∀ (L : Lib) (rnd : Nat → (Nat → Nat → ℝ) × (Nat → Nat → Nat → ℝ)) (J : Indet) (nodes : Nat) (doc : Xml) (fs : List OutFile) (p : Parsed) (m : Beam),
      0 < nodes → L.program rnd J nodes doc = .ok fs → (L.withRandom (rnd 0)).parse doc = .ok p → masterBeam p = .ok m →
      p.lattice.lattice = lat → p.tracking.state.interactions = [] → List.Forall₂ Charge.Starts cs m.all →
      ∀ h : ℝ, p.tracking.timeStep = h → 0 < h → h ≤ h0 → ∀ n : ℕ, (n : Int) = p.tracking.NOTS → n * h ≤ T →
        ∃ before files : List OutFile, fs = before ++ files ∧ files.length = p.observers.observers.length ∧
          ∀ (i : Nat) (spec : ObserverSpec), p.observers.observers[i]? = some spec → ∃ d, files[i]? = some ⟨spec.file, d⟩ ∧
            (spec.source = .beam → ∀ k ∈ spec.observer.keys, ∀ t dt N, spec.observer.samplePoint k = .ok (t, obs) → spec.observer.sampling k = .ok (dt, N) →
              0 < dt → 2 ≤ N → ∃ F, Shows spec.observer d k obs F ∧
                ∀ S : Charge → ℝ → EMField, (∀ c ∈ cs, Seen c.q c.x c.p obs c.t0 T (S c)) →
                  |φ F - (cs.map (fun c => (∫ θ in Set.Icc (arrival c.x obs c.t0) (arrival c.x obs (c.t0 + n * h)) ∩ Set.Icc (t - dt / 2) (t + dt / 2), φ (S c θ)) / dt)).sum|
                    ≤ C / dt * h ^ 2) := by
  exact observation_of (fun h => h ^ 2) (fun h _ => sq_nonneg h) lat cs T obs φ hφ (fun c hcs => recorded_near _ c T hT (hc c hcs).1 (hc c hcs).2 obs (hobs c hcs) φ hφ)

end Lib

theorem last_traj {a : Particle} (hc : a.Cons) (he : a.AtEnd) {k : Nat} (hn : a.getNP = k + 1) {t : ℝ} {X P : Vec} (h1 : a.TrajTime k = .ok t) (h2 : a.TrajPoint k = .ok X)
    (h3 : a.TrajMomentum k = .ok P) : a.tCur = t ∧ a.XCur = X ∧ a.PCur = P := by
  have hnp : a.NP = k + 1 := hn
  have g1 := get_of_TrajTime h1
  have g2 := get_of_TrajPoint h2
  have g3 := get_of_TrajMomentum h3
  have l1 := Particle.last_get (n := k + 1) (by rw [hc.1, hnp]) he.2.1
  have l2 := Particle.last_get (n := k + 1) (by rw [hc.2.1, hnp]) he.2.2.1
  have l3 := Particle.last_get (n := k + 1) (by rw [hc.2.2.1, hnp]) he.2.2.2.1
  simp only [Nat.add_sub_cancel] at l1 l2 l3
  rw [g1] at l1
  rw [g2] at l2
  rw [g3] at l3
  exact ⟨(Option.some.inj l1).symm, (Option.some.inj l2).symm, (Option.some.inj l3).symm⟩

/-- where one particle is after some steps, if the points of the trajectory have errors of the size `err h` -/
theorem moved_of_points (err : ℝ → ℝ) (herr : ∀ h, 0 < h → 0 ≤ err h) (field : FieldFn) (c : Charge) (T : ℝ)
    (hconv : ∃ C h0 : ℝ, 0 < h0 ∧ ∀ h : ℝ, 0 < h → h ≤ h0 → ∀ n : ℕ, n * h ≤ T →
      ∀ a : Particle, a.Reachable → a.Mass ≠ 0 → a.Charge / a.Mass * InvRestMass = c.qm →
        a.TrajTime (a.getNP - 1 : Nat) = .ok c.t0 → a.TrajPoint (a.getNP - 1 : Nat) = .ok (c.x c.t0) → a.TrajMomentum (a.getNP - 1 : Nat) = .ok (c.p c.t0) →
        ∃ a1 a2, a.InitVay h field = .ok a1 ∧ a1.steps (List.replicate n field) = .ok a2 ∧
          ∀ k : ℕ, k ≤ n → ∃ X P,
            a2.TrajTime (a.getNP - 1 + k : Nat) = .ok (c.t0 + k * h) ∧ a2.TrajPoint (a.getNP - 1 + k : Nat) = .ok X ∧
            a2.TrajMomentum (a.getNP - 1 + k : Nat) = .ok P ∧
            (X - c.x (c.t0 + k * h)).norm ≤ C * err h ∧ (P - c.p (c.t0 + k * h)).norm ≤ C * err h) :
    ∃ C h0 : ℝ, 0 < h0 ∧ ∀ h : ℝ, 0 < h → h ≤ h0 → ∀ n : ℕ, n * h ≤ T → ∀ q : Particle, q.Reachable → c.Starts q → ∀ a, AfterSteps h field q n a →
      a.tCur = c.t0 + n * h ∧ (a.XCur - c.x (c.t0 + n * h)).norm ≤ C * err h ∧ (a.PCur - c.p (c.t0 + n * h)).norm ≤ C * err h := by
  obtain ⟨C, h0, hh0, H⟩ := hconv
  refine ⟨max C 0, h0, hh0, ?_⟩
  intro h hh hle n hn q hq hs a ha
  have hC : C * err h ≤ max C 0 * err h := mul_le_mul_of_nonneg_right (le_max_left _ _) (herr h hh)
  rcases ha with ⟨rfl, rfl⟩ | ⟨h0n, ha⟩
  · have e : c.t0 + ((0 : ℕ) : ℝ) * h = c.t0 := by simp
    have h2 : 0 ≤ max C 0 * err h := mul_nonneg (le_max_right _ _) (herr h hh)
    rw [e, hs.time, hs.position, hs.momentum]
    refine ⟨rfl, ?_, ?_⟩ <;> simpa [Vec.norm_zero] using h2
  · obtain ⟨a1, a2, e1, e2, pts⟩ := H h hh hle n hn (q.initTrajectory q.tCur q.XCur q.PCur q.ACur) (init_reachable hq _ _ _ _) hs.mass hs.qm
      (by rw [← hs.time]; rfl) (by rw [← hs.position]; rfl) (by rw [← hs.momentum]; rfl)
    rw [track_alone_ok e1 e2] at ha
    injection ha with ha
    subst ha
    have hr0 := init_reachable hq q.tCur q.XCur q.PCur q.ACur
    have hnp : (q.initTrajectory q.tCur q.XCur q.PCur q.ACur).getNP = 1 := rfl
    obtain ⟨X, P, g1, g2, g3, g5, g6⟩ := pts n le_rfl
    rw [hnp] at g1 g2 g3
    simp only [Nat.sub_self, Nat.zero_add] at g1 g2 g3
    obtain ⟨hN2, -, -⟩ := C05_equidistant _ a1 a2 hr0 h field (List.replicate n field) c.t0 (by rw [← hs.time]; rfl) e1 e2
    rw [hnp, List.length_replicate] at hN2
    have hcons := cons_reachable (run_reachable hr0 e1 e2)
    have hend := (Particle.steps_facts e2).2.2.2.2.2.2.2.2 (Particle.atEnd_init e1)
    obtain ⟨k1, k2, k3⟩ := last_traj hcons hend (k := n) (by rw [hN2]; omega) g1 g2 g3
    rw [k1, k2, k3]
    exact ⟨rfl, g5.trans hC, g6.trans hC⟩

/-- where one particle is after some steps, if tracking has errors of the size `err h` -/
theorem moved_of (err : ℝ → ℝ) (herr : ∀ h, 0 < h → 0 ≤ err h) (field : FieldFn) (c : Charge) (T : ℝ)
    (hconv : ∃ C h0 : ℝ, 0 < h0 ∧ ∀ h : ℝ, 0 < h → h ≤ h0 → ∀ n : ℕ, n * h ≤ T →
      ∀ a : Particle, a.Reachable → a.Mass ≠ 0 → a.Charge / a.Mass * InvRestMass = c.qm →
        a.TrajTime (a.getNP - 1 : Nat) = .ok c.t0 → a.TrajPoint (a.getNP - 1 : Nat) = .ok (c.x c.t0) → a.TrajMomentum (a.getNP - 1 : Nat) = .ok (c.p c.t0) →
        ∃ a1 a2, a.InitVay h field = .ok a1 ∧ a1.steps (List.replicate n field) = .ok a2 ∧
          ∀ k : ℕ, k ≤ n → ∃ X P A,
            a2.TrajTime (a.getNP - 1 + k : Nat) = .ok (c.t0 + k * h) ∧ a2.TrajPoint (a.getNP - 1 + k : Nat) = .ok X ∧
            a2.TrajMomentum (a.getNP - 1 + k : Nat) = .ok P ∧ a2.TrajAccel (a.getNP - 1 + k : Nat) = .ok A ∧
            (X - c.x (c.t0 + k * h)).norm ≤ C * err h ∧ (P - c.p (c.t0 + k * h)).norm ≤ C * err h ∧
            ∀ v, HasVelocity c.p v (c.t0 + k * h) → (A - v).norm ≤ C * err h) :
    ∃ C h0 : ℝ, 0 < h0 ∧ ∀ h : ℝ, 0 < h → h ≤ h0 → ∀ n : ℕ, n * h ≤ T → ∀ q : Particle, q.Reachable → c.Starts q → ∀ a, AfterSteps h field q n a →
      a.tCur = c.t0 + n * h ∧ (a.XCur - c.x (c.t0 + n * h)).norm ≤ C * err h ∧ (a.PCur - c.p (c.t0 + n * h)).norm ≤ C * err h := by
  obtain ⟨C, h0, hh0, H⟩ := hconv
  refine moved_of_points err herr field c T ⟨C, h0, hh0, ?_⟩
  intro h hh hle n hn a h1 h2 h3 h4 h5 h6
  obtain ⟨a1, a2, e1, e2, pts⟩ := H h hh hle n hn a h1 h2 h3 h4 h5 h6
  refine ⟨a1, a2, e1, e2, fun k hk => ?_⟩
  obtain ⟨X, P, A, g1, g2, g3, _, g5, g6, _⟩ := pts k hk
  exact ⟨X, P, g1, g2, g3, g5, g6⟩

/-- where one particle is after some steps -/
theorem moved_near (field : FieldFn) (c : Charge) (T : ℝ) (hT : 0 ≤ T) (hc : c.Moves field T) :
    ∃ C h0 : ℝ, 0 < h0 ∧ ∀ h : ℝ, 0 < h → h ≤ h0 → ∀ n : ℕ, n * h ≤ T → ∀ q : Particle, q.Reachable → c.Starts q → ∀ a, AfterSteps h field q n a →
      a.tCur = c.t0 + n * h ∧ (a.XCur - c.x (c.t0 + n * h)).norm ≤ C * h ^ 2 ∧ (a.PCur - c.p (c.t0 + n * h)).norm ≤ C * h ^ 2 := by
  obtain ⟨r, L, Bm, hr, hL, ht⟩ := hc.tame
  exact moved_of (fun h => h ^ 2) (fun h _ => sq_nonneg h) field c T (C92_second_order c.qm field c.x c.p c.t0 T r L Bm hc.motion hc.smooth ht hr hL hT)

theorem uniform_moved (err : ℝ → ℝ) (herr : ∀ h, 0 < h → 0 ≤ err h) (field : FieldFn) (cs : List Charge) (T : ℝ) (hnear : ∀ c ∈ cs,
    ∃ C h0 : ℝ, 0 < h0 ∧ ∀ h : ℝ, 0 < h → h ≤ h0 → ∀ n : ℕ, n * h ≤ T → ∀ q : Particle, q.Reachable → c.Starts q → ∀ a, AfterSteps h field q n a →
      a.tCur = c.t0 + n * h ∧ (a.XCur - c.x (c.t0 + n * h)).norm ≤ C * err h ∧ (a.PCur - c.p (c.t0 + n * h)).norm ≤ C * err h) :
    ∃ C h0 : ℝ, 0 ≤ C ∧ 0 < h0 ∧ ∀ c ∈ cs, ∀ h : ℝ, 0 < h → h ≤ h0 → ∀ n : ℕ, n * h ≤ T → ∀ q : Particle, q.Reachable → c.Starts q → ∀ a, AfterSteps h field q n a →
      a.tCur = c.t0 + n * h ∧ (a.XCur - c.x (c.t0 + n * h)).norm ≤ C * err h ∧ (a.PCur - c.p (c.t0 + n * h)).norm ≤ C * err h := by
  refine uniform_constants (fun (c : Charge) (C h0 : ℝ) => ∀ h : ℝ, 0 < h → h ≤ h0 → ∀ n : ℕ, n * h ≤ T → ∀ q : Particle, q.Reachable → c.Starts q → ∀ a, AfterSteps h field q n a →
      a.tCur = c.t0 + n * h ∧ (a.XCur - c.x (c.t0 + n * h)).norm ≤ C * err h ∧ (a.PCur - c.p (c.t0 + n * h)).norm ≤ C * err h) ?_ cs hnear
  intro c C C' h h' hP hC hh h1 hp1 hle n hn q hq hs a ha
  obtain ⟨k1, k2, k3⟩ := hP h1 hp1 (hle.trans hh) n hn q hq hs a ha
  have : C * err h1 ≤ C' * err h1 := mul_le_mul_of_nonneg_right hC (herr h1 hp1)
  exact ⟨k1, k2.trans this, k3.trans this⟩

namespace Lib

/-- the files of watch points, if tracking has errors of the size `err h` -/
theorem watches_of (err : ℝ → ℝ) (herr : ∀ h, 0 < h → 0 ≤ err h) (lat : Lattice) (cs : List Charge) (T : ℝ) (hnear : ∀ c ∈ cs,
    ∃ C h0 : ℝ, 0 < h0 ∧ ∀ h : ℝ, 0 < h → h ≤ h0 → ∀ n : ℕ, n * h ≤ T → ∀ q : Particle, q.Reachable → c.Starts q → ∀ a, AfterSteps h (Lattice.field lat) q n a →
      a.tCur = c.t0 + n * h ∧ (a.XCur - c.x (c.t0 + n * h)).norm ≤ C * err h ∧ (a.PCur - c.p (c.t0 + n * h)).norm ≤ C * err h) :
    ∃ C h0 : ℝ, 0 < h0 ∧ ∀ (L : Lib) (rnd : Nat → (Nat → Nat → ℝ) × (Nat → Nat → Nat → ℝ)) (J : Indet) (nodes : Nat) (doc : Xml) (fs : List OutFile) (p : Parsed) (m : Beam),
      0 < nodes → L.program rnd J nodes doc = .ok fs → (L.withRandom (rnd 0)).parse doc = .ok p → masterBeam p = .ok m →
      p.lattice.lattice = lat → p.tracking.state.interactions = [] → List.Forall₂ Charge.Starts cs m.all →
      ∀ h : ℝ, p.tracking.timeStep = h → 0 < h → h ≤ h0 → ∀ w ∈ p.tracking.state.watches, ∀ k : ℕ, w.step = k → w.step ≤ p.tracking.NOTS → k * h ≤ T →
        ∃ d, (⟨w.filename, .watch d⟩ : OutFile) ∈ fs ∧
          (w.type = .hdf5 → ∃ pts : List (Vec × Vec), d = .hdf5 pts.length (pts.flatMap (fun b => [b.1.x, b.1.y, b.1.z, b.2.x, b.2.y, b.2.z])) ∧
            List.Forall₂ (fun (c : Charge) (b : Vec × Vec) => (b.1 - c.x (c.t0 + k * h)).norm ≤ C * err h ∧ (b.2 - c.p (c.t0 + k * h)).norm ≤ C * err h) cs pts) ∧
          (w.type = .sdds → ∃ charge rows, d = .sdds cs.length charge rows ∧
            List.Forall₂ (fun (c : Charge) (row : SddsRow) => row.t = c.t0 + k * h ∧ ((⟨row.x, row.y, row.z⟩ : Vec) - c.x (c.t0 + k * h)).norm ≤ C * err h ∧
              ((⟨row.px, row.py, row.pz⟩ : Vec) - c.p (c.t0 + k * h)).norm ≤ C * err h) cs rows) := by
  obtain ⟨C, h0, hC, hh0, H⟩ := uniform_moved err herr (Lattice.field lat) cs T hnear
  refine ⟨C, h0, hh0, ?_⟩
  intro L rnd J nodes doc fs p m hN hrun hp hm hlat hint hstart h hh hpos hle w hw k hk hkn hkT
  obtain ⟨p', m', hp', hm', hwatch⟩ := C85_watches_partial L rnd J nodes hN doc fs hrun
  rw [hp] at hp'
  injection hp' with hp'
  subst hp'
  rw [hm] at hm'
  injection hm' with hm'
  subst hm'
  obtain ⟨d, bs, d1, d2, d3, d4⟩ := hwatch hint w hw (by rw [hk]; exact Int.natCast_nonneg k) hkn
  have hreach := (master_reachable (J := J) hp hm).2
  have hkk : w.step.toNat = k := by rw [hk]; rfl
  rw [hh, hlat, hkk] at d2
  have hall : List.Forall₂ (fun (c : Charge) (a : Particle) => a.tCur = c.t0 + k * h ∧ (a.XCur - c.x (c.t0 + k * h)).norm ≤ C * err h ∧ (a.PCur - c.p (c.t0 + k * h)).norm ≤ C * err h) cs bs := by
    refine forall₂_comp3 hstart d2 (U := fun a b => a = b) (List.forall₂_same.mpr (fun _ _ => rfl)) ?_
    rintro c hcs q hq a a' hs ha rfl
    exact H c hcs h hpos hle k hkT q (hreach q hq) hs a ha
  refine ⟨d, d1, ?_, ?_⟩
  · intro ht
    refine ⟨bs.map (fun a => (a.XCur, a.PCur)), ?_, ?_⟩
    · rw [d3 ht, List.length_map, List.flatMap_map]
    · rw [List.forall₂_map_right_iff]
      exact hall.imp (fun c a h => ⟨h.2.1, h.2.2⟩)
  · intro ht
    obtain ⟨rows, e1, e2⟩ := d4 ht
    refine ⟨_, rows, by rw [e1, hall.length_eq], ?_⟩
    refine forall₂_comp3 hall (S := fun a b => a = b) (List.forall₂_same.mpr (fun _ _ => rfl)) e2 ?_
    rintro c hcs a ha a' row ⟨h1, h2, h3⟩ rfl ⟨r1, r2, r3, r4, r5, r6, r7, _⟩
    rw [r1, r2, r3, r4, r5, r6, r7]
    exact ⟨h1, h2, h3⟩

/-- **C94 (watch points).** The files of the watch points contain the exact positions and momenta of all particles at the time of the watch point, up to a
constant times the square of the time step - in electric and magnetic fields of the lattice, for every input and number of nodes. -/
theorem C94_watches (lat : Lattice) (cs : List Charge) (T : ℝ) (hT : 0 ≤ T) (hc : ∀ c ∈ cs, c.Moves (Lattice.field lat) T) :
    ∃ C h0 : ℝ, 0 < h0 ∧ ∀ (L : Lib) (rnd : Nat → (Nat → Nat → ℝ) × (Nat → Nat → Nat → ℝ)) (J : Indet) (nodes : Nat) (doc : Xml) (fs : List OutFile) (p : Parsed) (m : Beam),
      0 < nodes → L.program rnd J nodes doc = .ok fs → (L.withRandom (rnd 0)).parse doc = .ok p → masterBeam p = .ok m →
      p.lattice.lattice = lat → p.tracking.state.interactions = [] → List.Forall₂ Charge.Starts cs m.all →
      ∀ h : ℝ, p.tracking.timeStep = h → 0 < h → h ≤ h0 → ∀ w ∈ p.tracking.state.watches, ∀ k : ℕ, w.step = k → w.step ≤ p.tracking.NOTS → k * h ≤ T →
        ∃ d, (⟨w.filename, .watch d⟩ : OutFile) ∈ fs ∧
          (w.type = .hdf5 → ∃ pts : List (Vec × Vec), d = .hdf5 pts.length (pts.flatMap (fun b => [b.1.x, b.1.y, b.1.z, b.2.x, b.2.y, b.2.z])) ∧
            List.Forall₂ (fun (c : Charge) (b : Vec × Vec) => (b.1 - c.x (c.t0 + k * h)).norm ≤ C * h ^ 2 ∧ (b.2 - c.p (c.t0 + k * h)).norm ≤ C * h ^ 2) cs pts) ∧
          (w.type = .sdds → ∃ charge rows, d = .sdds cs.length charge rows ∧
            List.Forall₂ (fun (c : Charge) (row : SddsRow) => row.t = c.t0 + k * h ∧ ((⟨row.x, row.y, row.z⟩ : Vec) - c.x (c.t0 + k * h)).norm ≤ C * h ^ 2 ∧
              ((⟨row.px, row.py, row.pz⟩ : Vec) - c.p (c.t0 + k * h)).norm ≤ C * h ^ 2) cs rows) := by
  exact watches_of (fun h => h ^ 2) (fun h _ => sq_nonneg h) lat cs T (fun c hcs => moved_near _ c T hT (hc c hcs))

/-- the trajectory logs, if tracking has errors of the size `err h` -/
theorem trajectories_of (err : ℝ → ℝ) (lat : Lattice) (c : Charge) (T : ℝ) (hnear :
    ∃ C h0 : ℝ, 0 < h0 ∧ ∀ h : ℝ, 0 < h → h ≤ h0 → ∀ n : ℕ, n * h ≤ T → ∀ q : Particle, q.Reachable → c.Starts q → ∀ a, AfterSteps h (Lattice.field lat) q n a →
      a.tCur = c.t0 + n * h ∧ (a.XCur - c.x (c.t0 + n * h)).norm ≤ C * err h ∧ (a.PCur - c.p (c.t0 + n * h)).norm ≤ C * err h) :
    ∃ C h0 : ℝ, 0 < h0 ∧ ∀ (L : Lib) (rnd : Nat → (Nat → Nat → ℝ) × (Nat → Nat → Nat → ℝ)) (J : Indet) (nodes : Nat) (doc : Xml) (fs : List OutFile) (p : Parsed) (m : Beam),
      0 < nodes → L.program rnd J nodes doc = .ok fs → (L.withRandom (rnd 0)).parse doc = .ok p → masterBeam p = .ok m →
      p.lattice.lattice = lat → p.tracking.state.interactions = [] →
      ∀ b file step number, LogSpec.traj b file step number ∈ p.beam.logs → ∀ st num : Nat, (st : Int) = step % 2 ^ 32 → (num : Int) = number % 2 ^ 32 → 1 ≤ st →
        ∃ bu, m.B[b]? = some bu ∧
          ∃ F : H5File, (⟨file, .hdf5 F⟩ : OutFile) ∈ fs ∧
            ∀ h : ℝ, p.tracking.timeStep = h → 0 < h → h ≤ h0 → ∀ l j q, l * st ≤ p.tracking.NOTS.toNat → (l * st : ℕ) * h ≤ T → j < num → bu.P[j]? = some q → c.Starts q →
              ∃ X P : Vec, F.entry "Trajectories" [l, j, 0] = some X.x ∧ F.entry "Trajectories" [l, j, 1] = some X.y ∧ F.entry "Trajectories" [l, j, 2] = some X.z ∧
                F.entry "Trajectories" [l, j, 3] = some P.x ∧ F.entry "Trajectories" [l, j, 4] = some P.y ∧ F.entry "Trajectories" [l, j, 5] = some P.z ∧
                (X - c.x (c.t0 + (l * st : ℕ) * h)).norm ≤ C * err h ∧ (P - c.p (c.t0 + (l * st : ℕ) * h)).norm ≤ C * err h := by
  obtain ⟨C, h0, hh0, H⟩ := hnear
  refine ⟨C, h0, hh0, ?_⟩
  intro L rnd J nodes doc fs p m hN hrun hp hm hlat hint b file step number hlog st num hst hnum h1
  obtain ⟨p', m', hp', hm', htraj⟩ := C85_trajectory L rnd J nodes hN doc fs hrun
  rw [hp] at hp'
  injection hp' with hp'
  subst hp'
  rw [hm] at hm'
  injection hm' with hm'
  subst hm'
  obtain ⟨bu, hbu, _, F, f1, f2, f3⟩ := htraj hint b file step number hlog st num hst hnum h1
  refine ⟨bu, hbu, F, f1, ?_⟩
  intro h hh hpos hle l j q hl hlT hj hq hs
  obtain ⟨a, ha, k0, k1, k2, k3, k4, k5⟩ := f3 l j q hl hj hq
  have hreach := (master_reachable (J := J) hp hm).2 q (by
    simp only [Beam.all, List.mem_flatMap]
    exact ⟨bu, List.mem_of_getElem? hbu, List.mem_of_getElem? hq⟩)
  rw [hh, hlat] at ha
  obtain ⟨_, g2, g3⟩ := H h hpos hle (l * st) hlT q hreach hs a ha
  exact ⟨a.XCur, a.PCur, k0, k1, k2, k3, k4, k5, g2, g3⟩

/-- **C94 (trajectory logs).** The trajectory log of a bunch contains the exact trajectory of each of its particles, up to a constant times the square of the time
step. -/
theorem C94_trajectories (lat : Lattice) (c : Charge) (T : ℝ) (hT : 0 ≤ T) (hc : c.Moves (Lattice.field lat) T) :
    ∃ C h0 : ℝ, 0 < h0 ∧ ∀ (L : Lib) (rnd : Nat → (Nat → Nat → ℝ) × (Nat → Nat → Nat → ℝ)) (J : Indet) (nodes : Nat) (doc : Xml) (fs : List OutFile) (p : Parsed) (m : Beam),
      0 < nodes → L.program rnd J nodes doc = .ok fs → (L.withRandom (rnd 0)).parse doc = .ok p → masterBeam p = .ok m →
      p.lattice.lattice = lat → p.tracking.state.interactions = [] →
      ∀ b file step number, LogSpec.traj b file step number ∈ p.beam.logs → ∀ st num : Nat, (st : Int) = step % 2 ^ 32 → (num : Int) = number % 2 ^ 32 → 1 ≤ st →
        ∃ bu, m.B[b]? = some bu ∧
          ∃ F : H5File, (⟨file, .hdf5 F⟩ : OutFile) ∈ fs ∧
            ∀ h : ℝ, p.tracking.timeStep = h → 0 < h → h ≤ h0 → ∀ l j q, l * st ≤ p.tracking.NOTS.toNat → (l * st : ℕ) * h ≤ T → j < num → bu.P[j]? = some q → c.Starts q →
              ∃ X P : Vec, F.entry "Trajectories" [l, j, 0] = some X.x ∧ F.entry "Trajectories" [l, j, 1] = some X.y ∧ F.entry "Trajectories" [l, j, 2] = some X.z ∧
                F.entry "Trajectories" [l, j, 3] = some P.x ∧ F.entry "Trajectories" [l, j, 4] = some P.y ∧ F.entry "Trajectories" [l, j, 5] = some P.z ∧
                (X - c.x (c.t0 + (l * st : ℕ) * h)).norm ≤ C * h ^ 2 ∧ (P - c.p (c.t0 + (l * st : ℕ) * h)).norm ≤ C * h ^ 2 := by
  exact trajectories_of (fun h => h ^ 2) lat c T (moved_near _ c T hT hc)

/-! ### Example: a particle circulating in a magnetic field, observed at a point -/

/-- the file: the time step and the number of steps are given by names -/
def ringDoc : Xml :=
  .node "" [] [.node "teufel" []
    [.node "lattice" [] [.node "background" [] [.node "B" [("y", "1")] []]],
     .node "beam" [] [.node "particle" [("gamma", "2"), ("charge", "1"), ("cmr", "1")] [.node "position" [] [], .node "momentum" [("z", "1")] []]],
     .node "tracking" [("method", "Vay"), ("delta_t", "tau"), ("n", "steps")] [.node "watch" [("step", "steps"), ("file", "end.h5")] []],
     .node "observer" [] [.node "point" [("file", "point.sdds"), ("source", "beam")] [.node "position" [("x", "1")] [], .node "time" [("dt", "1"), ("n", "3")] []]]]]

/-- a calculator which knows these names -/
noncomputable def ringLib (h : ℝ) (n : Nat) : Lib :=
  { exampleLib with eval := fun env s => if s = "tau" then some h else if s = "steps" then some n else exampleLib.eval env s }

noncomputable def ringParsed (h : ℝ) (n : Nat) : Parsed :=
  ⟨⟨predefined, [HomogeneousField 0 ⟨0, 1, 0⟩], 1⟩, ⟨predefined, [singleParticle 2 1 1 0 ⟨0, 0, 0⟩ ⟨0, 0, 1⟩], [], none, 1⟩,
    ⟨h, n, ⟨predefined, [⟨n, "end.h5", .hdf5⟩], []⟩⟩, ⟨predefined, [⟨.point (PointObs.new ⟨1, 0, 0⟩ 0 1 3), .beam, "point.sdds"⟩]⟩⟩

theorem ringDoc_parse (h : ℝ) (n : Nat) (hn : n < 2 ^ 31) (r : (Nat → Nat → ℝ) × (Nat → Nat → Nat → ℝ)) : ((ringLib h n).withRandom r).parse ringDoc = .ok (ringParsed h n) := by
  have hc : ∀ env node, (∀ c ∈ node.children, c.name ≠ "calc") → ((ringLib h n).withRandom r).parseCalcChildren env node = env := by
    intro env node hn
    unfold parseCalcChildren
    generalize node.children = l at hn
    induction l generalizing env with
    | nil => rfl
    | cons c l ih =>
      rw [List.foldl_cons, if_neg (hn c (by simp))]
      exact ih env (fun c' hc' => hn c' (by simp [hc']))
  have e0 : ∀ env, ((ringLib h n).withRandom r).eval env "" = env "" := by intro env; simp [withRandom, ringLib, exampleLib]
  have e1 : ∀ env, ((ringLib h n).withRandom r).eval env "1" = some 1 := by intro env; simp [withRandom, ringLib, exampleLib]
  have e2 : ∀ env, ((ringLib h n).withRandom r).eval env "2" = some 2 := by intro env; simp [withRandom, ringLib, exampleLib]
  have e3 : ((ringLib h n).withRandom r).asInt "3" = 3 := by simp [withRandom, ringLib, exampleLib]
  have e4 : ∀ env, ((ringLib h n).withRandom r).eval env "tau" = some h := by intro env; simp [withRandom, ringLib]
  have e5 : ∀ env, ((ringLib h n).withRandom r).eval env "steps" = some (n : ℝ) := by intro env; simp [withRandom, ringLib]
  have hpe := predefined_empty
  have h2 : toInt32 (crint (n : ℝ)) = .ok (n : Int) := by
    have : crint (n : ℝ) = n := by simp [crint]
    rw [this]
    unfold toInt32
    rw [if_pos ⟨by omega, by omega⟩]
  unfold parse ringDoc
  simp only [Xml.child, Xml.children, Xml.name, List.find?, need, bind, Except.bind, pure, Except.pure, start, beq_self_eq_true]
  rw [hc _ _ (by simp [Xml.children, Xml.name])]
  simp only [parseLattice, parseBeam, parseTracking, parseObservers, Xml.child, Xml.children, Xml.name, List.find?, need, bind, Except.bind, pure, Except.pure]
  have p1 : ((ringLib h n).withRandom r).latticeStep ⟨predefined, [], 0⟩ (.node "background" [] [.node "B" [("y", "1")] []]) = .ok ⟨predefined, [HomogeneousField 0 ⟨0, 1, 0⟩], 1⟩ := by
    simp [latticeStep, latticeElement, Xml.name, parseCalcChildren, Xml.children, Except.map, Lattice.addElement, optVec, Xml.child, vec, num, Xml.value, Xml.attr, Xml.attrs, e0, e1, hpe]
  have p2 : ((ringLib h n).withRandom r).beamStep ⟨predefined, [], [], none, 0⟩ (.node "particle" [("gamma", "2"), ("charge", "1"), ("cmr", "1")] [.node "position" [] [], .node "momentum" [("z", "1")] []])
      = .ok ⟨predefined, [singleParticle 2 1 1 0 ⟨0, 0, 0⟩ ⟨0, 0, 1⟩], [], none, 1⟩ := by
    simp [beamStep, particleEntry, Xml.name, parseCalcChildren, Xml.children, Xml.child, need, bind, Except.bind, pure, Except.pure, parseLog, optNum, vec, num, Xml.value, Xml.attr, Xml.attrs, e0, e1, e2, hpe, List.lookup]
  have p3 : ∀ t, ((ringLib h n).withRandom r).trackStep t ⟨predefined, [], []⟩ (.node "watch" [("step", "steps"), ("file", "end.h5")] []) = .ok ⟨predefined, [⟨n, "end.h5", .hdf5⟩], []⟩ := by
    intro t
    simp [trackStep, watchEntry, Xml.name, need, bind, Except.bind, pure, Except.pure, int, num, Xml.value, Xml.attr, Xml.attrs, e5, h2, List.lookup]
  have p4 : ((ringLib h n).withRandom r).observerStep ⟨predefined, []⟩ (.node "point" [("file", "point.sdds"), ("source", "beam")] [.node "position" [("x", "1")] [], .node "time" [("dt", "1"), ("n", "3")] []])
      = .ok ⟨predefined, [⟨.point (PointObs.new ⟨1, 0, 0⟩ 0 1 3), .beam, "point.sdds"⟩]⟩ := by
    have hsrc : source (.node "point" [("file", "point.sdds"), ("source", "beam")] [.node "position" [("x", "1")] [], .node "time" [("dt", "1"), ("n", "3")] []]) = .ok .beam := by
      simp [source, Xml.attr, Xml.attrs, List.lookup]
    simp [observerStep, observerEntry, pointEntry, Xml.name, parseCalcChildren, Xml.children, Xml.child, need, bind, Except.bind, pure, Except.pure, hsrc, points, Except.map, vec, num, Xml.value, Xml.attr, Xml.attrs, e0, e1, e3, hpe, List.lookup]
  simp [p1, p2, Xml.value, Xml.attr, Xml.attrs, List.lookup, int, num, e1, e2, e4, e5, h2, ringParsed]
  simp [pure, Except.pure, bind, Except.bind, p3, p4]

theorem ringDoc_master (h : ℝ) (n : Nat) : masterBeam (ringParsed h n) = .ok { progBeam (Real.sqrt 3) ⟨0, 0, 1⟩ with dt := h, NOTS := n } := by
  have hone : Vec.norm (⟨0, 0, 1⟩ : Vec) = 1 := by simp [Vec.norm]
  have hn : normalizeE ⟨0, 0, 1⟩ = .ok ⟨0, 0, 1⟩ := by
    unfold normalizeE
    rw [if_neg]
    · unfold Vec.normalize
      rw [hone]
      congr 1
      ext <;> simp
    · intro h
      have := congrArg Vec.z h
      norm_num at this
  have hc : chargeMass (1 / ElementaryCharge) 1 = .ok (1 / ElementaryCharge, 1 / ElementaryCharge) := by
    unfold chargeMass
    rw [if_neg (by norm_num [ElementaryCharge]), div_one]
  have hb : betaGamma 2 = .ok (Real.sqrt 3) := by
    unfold betaGamma
    rw [if_neg (by norm_num)]
    norm_num
  simp only [masterBeam, ringParsed, singleParticle, hn, hc, hb, bind, Except.bind, pure, Except.pure, List.mapM_cons, List.mapM_nil, id, List.foldl]
  rfl

theorem ring_all (h : ℝ) (n : Nat) : ({ progBeam (Real.sqrt 3) ⟨0, 0, 1⟩ with dt := h, NOTS := n } : Beam).all = [progParticle (Real.sqrt 3) ⟨0, 0, 1⟩] := by
  simp [Beam.all, progBeam, Beam.Add, Beam.empty, Bunch.Add, Bunch.empty]

/-- the program runs -/
theorem ringDoc_runs (h : ℝ) (n : Nat) (hn : n < 2 ^ 31) (hh : 0 < h) (hT : n * h ≤ 1e-9) (rnd : Nat → (Nat → Nat → ℝ) × (Nat → Nat → Nat → ℝ)) (J : Indet) (nodes : Nat) (hN : 0 < nodes) :
    ∃ fs, (ringLib h n).program rnd J nodes ringDoc = .ok fs := by
  have hreach : (progParticle (Real.sqrt 3) ⟨0, 0, 1⟩).Reachable := ⟨_, [.init 0 ⟨0, 0, 0⟩ ((⟨0, 0, 1⟩ : Vec) * Real.sqrt 3) 0], Or.inl ⟨_, _, rfl⟩, rfl⟩
  refine C86_without_interactions _ rnd J nodes hN ringDoc _ _ (ringDoc_parse h n hn (rnd 0)) (ringDoc_master h n) (by simp [ringParsed]) (fun t X => ⟨_, rfl⟩) ?_ (by simp [ringParsed]) ?_ ?_ rfl
  · intro q hq
    rw [ring_all, List.mem_singleton] at hq
    subst hq
    show (1 / ElementaryCharge : ℝ) ≠ 0
    norm_num [ElementaryCharge]
  · intro pr hpr
    simp [ringParsed] at hpr
  · intro spec hspec
    simp only [ringParsed, List.mem_singleton] at hspec
    subst hspec
    refine ⟨⟨by simp [Observer.keys, PointObs.new, FieldTrace.new], by intro s hs; cases hs⟩, fun _ => ⟨hh, by show (0 : ℝ) < 1; norm_num, ?_⟩⟩
    intro q hq a ha
    rw [ring_all, List.mem_singleton] at hq
    subst hq
    refine clear_far (by intro s hs; cases hs) hreach hh (alone_moved ha) ?_
    intro key _ t X hX
    have hX' : X = ⟨1, 0, 0⟩ := by
      injection hX with hX
      exact (congrArg Prod.snd hX).symm
    have h0 : (progParticle (Real.sqrt 3) ⟨0, 0, 1⟩).XCur = ⟨0, 0, 0⟩ := rfl
    have hn' : (ringParsed h n).tracking.NOTS.toNat = n := rfl
    rw [hX', h0, hn']
    have : Vec.norm ((⟨1, 0, 0⟩ : Vec) - ⟨0, 0, 0⟩) = 1 := by simp [Vec.norm]
    rw [this]
    have hc := SpeedOfLight_pos
    calc SpeedOfLight * (n * h) ≤ SpeedOfLight * 1e-9 := by gcongr
      _ < 1 := by norm_num [SpeedOfLight]

/-- the exact motion: a circle -/
noncomputable def ringCharge : Charge where
  qm := InvRestMass
  q := 1
  p t := ⟨-(Real.sqrt 3 * Real.sin (InvRestMass / 2 * t)), 0, Real.sqrt 3 * Real.cos (InvRestMass / 2 * t)⟩
  x t := ⟨SpeedOfLight * Real.sqrt 3 / InvRestMass * (Real.cos (InvRestMass / 2 * t) - 1), 0, SpeedOfLight * Real.sqrt 3 / InvRestMass * Real.sin (InvRestMass / 2 * t)⟩
  t0 := 0

theorem ring_moves (T : ℝ) : ringCharge.Moves (Lattice.field [HomogeneousField 0 ⟨0, 1, 0⟩]) T ∧ ringCharge.NoElectric (Lattice.field [HomogeneousField 0 ⟨0, 1, 0⟩]) T := by
  have hf : ∀ t X, Lattice.field [HomogeneousField 0 ⟨0, 1, 0⟩] t X = .ok ⟨0, ⟨0, 1, 0⟩⟩ := by
    intro t X
    have : Lattice.field [HomogeneousField 0 ⟨0, 1, 0⟩] t X = .ok (0 + ⟨0, ⟨0, 1, 0⟩⟩) := rfl
    rw [this, zero_add]
  have hI := InvRestMass_pos
  have hl : ∀ t : ℝ, HasDerivAt (fun s => InvRestMass / 2 * s) (InvRestMass / 2) t := fun t => by simpa using (hasDerivAt_id t).const_mul (InvRestMass / 2)
  have h3 : Real.sqrt 3 * Real.sqrt 3 = 3 := Real.mul_self_sqrt (by norm_num)
  have hg : ∀ t, Real.sqrt (1 + (ringCharge.p t).abs2nd) = 2 := by
    intro t
    have : 1 + (ringCharge.p t).abs2nd = 2 ^ 2 := by
      have := Real.sin_sq_add_cos_sq (InvRestMass / 2 * t)
      simp only [ringCharge, abs2nd]
      linear_combination (Real.sin (InvRestMass / 2 * t) ^ 2 + Real.cos (InvRestMass / 2 * t) ^ 2) * h3 + 3 * this
    rw [this, Real.sqrt_sq (by norm_num)]
  refine ⟨⟨⟨?_, ?_⟩, ?_, 1, 0, 1, one_pos, le_rfl, ?_, ?_⟩, ?_⟩
  · intro t _ _
    unfold velOf
    rw [hg]
    refine ⟨?_, ?_, ?_⟩
    · have := (((hl t).cos).sub_const 1).const_mul (SpeedOfLight * Real.sqrt 3 / InvRestMass)
      refine this.congr_deriv ?_
      simp [ringCharge]
      field_simp
    · simpa [ringCharge] using hasDerivAt_const t (0 : ℝ)
    · have := ((hl t).sin).const_mul (SpeedOfLight * Real.sqrt 3 / InvRestMass)
      refine this.congr_deriv ?_
      simp [ringCharge]
      field_simp
  · intro t _ _
    refine ⟨_, hf _ _, ?_⟩
    unfold velOf
    rw [hg]
    have hc := SpeedOfLight_pos.ne'
    refine ⟨?_, ?_, ?_⟩
    · have := (((hl t).sin).const_mul (Real.sqrt 3)).neg
      refine this.congr_deriv ?_
      simp [ringCharge, cross]
      field_simp
    · simpa [ringCharge, cross] using hasDerivAt_const t (0 : ℝ)
    · have := ((hl t).cos).const_mul (Real.sqrt 3)
      refine this.congr_deriv ?_
      simp [ringCharge, cross]
      field_simp
  · refine Smooth.of_contDiff ?_ ?_ ?_
    · exact (contDiff_const.mul (Real.contDiff_sin.comp (contDiff_const.mul contDiff_id))).neg
    · exact contDiff_const
    · exact contDiff_const.mul (Real.contDiff_cos.comp (contDiff_const.mul contDiff_id))
  · intro t _ _ EB h
    rw [hf] at h
    cases h
    simp [Vec.norm, abs2nd]
  · intro t _ _ EB h X _
    rw [hf] at h
    cases h
    exact ⟨_, hf _ _, by simp [Vec.norm_zero], by simp [Vec.norm_zero]⟩
  · intro t _ _ EB h
    rw [hf] at h
    cases h
    rfl

theorem ring_starts (h : ℝ) (n : Nat) : List.Forall₂ Charge.Starts [ringCharge] ({ progBeam (Real.sqrt 3) ⟨0, 0, 1⟩ with dt := h, NOTS := n } : Beam).all := by
  rw [ring_all]
  refine .cons ⟨?_, ?_, ?_, rfl, ?_, ?_⟩ .nil
  · show (1 / ElementaryCharge : ℝ) ≠ 0
    norm_num [ElementaryCharge]
  · show (1 / ElementaryCharge : ℝ) / (1 / ElementaryCharge) * InvRestMass = InvRestMass
    rw [div_self (by norm_num [ElementaryCharge]), one_mul]
  · show (1 / ElementaryCharge : ℝ) * ElementaryCharge = 1
    exact one_div_mul_cancel (by norm_num [ElementaryCharge])
  · show (⟨0, 0, 0⟩ : Vec) = ringCharge.x 0
    ext <;> simp [ringCharge]
  · show (⟨0, 0, 1⟩ : Vec) * Real.sqrt 3 = ringCharge.p 0
    ext <;> simp [ringCharge]

/-- non-vacuity of C94: for all small time steps the program runs on any number of nodes, and the rows of the file show the field of the exact circle, up to a
constant times the square of the time step -/
example : ∃ C h0 : ℝ, 0 < h0 ∧ ∀ (h : ℝ) (n : Nat), 0 < h → h ≤ h0 → n < 2 ^ 31 → n * h ≤ 1e-9 →
    ∀ (rnd : Nat → (Nat → Nat → ℝ) × (Nat → Nat → Nat → ℝ)) (J : Indet) (nodes : Nat), 0 < nodes →
      ∃ fs before f, (ringLib h n).program rnd J nodes ringDoc = .ok fs ∧ fs = before ++ [⟨"point.sdds", .point f⟩] ∧
        ∀ i : Nat, i < 3 → ∃ F : EMField, f.rows[i]? = some [0 + (i : ℝ) * 1, F.E.x, F.E.y, F.E.z, F.B.x, F.B.y, F.B.z] ∧
          ∃ S : ℝ → EMField, Seen 1 ringCharge.x ringCharge.p ⟨1, 0, 0⟩ 0 1e-9 S ∧
            |F.E.y - ∫ θ in Set.Icc (arrival ringCharge.x ⟨1, 0, 0⟩ 0) (arrival ringCharge.x ⟨1, 0, 0⟩ (0 + n * h)) ∩ Set.Icc (0 + (i : ℝ) * 1 - 1 / 2) (0 + (i : ℝ) * 1 + 1 / 2), (S θ).E.y| ≤ C * h ^ 2 := by
  have hT : (0 : ℝ) ≤ 1e-9 := by norm_num
  have hI := InvRestMass_pos
  have hobs : ∀ t, ringCharge.t0 ≤ t → t ≤ ringCharge.t0 + 1e-9 → (⟨1, 0, 0⟩ : Vec) ≠ ringCharge.x t := by
    intro t _ _ h
    have h1 : (1 : ℝ) = SpeedOfLight * Real.sqrt 3 / InvRestMass * (Real.cos (InvRestMass / 2 * t) - 1) := congrArg Vec.x h
    have h2 := Real.cos_le_one (InvRestMass / 2 * t)
    have h3 : 0 < SpeedOfLight * Real.sqrt 3 / InvRestMass := by have := SpeedOfLight_pos; positivity
    nlinarith
  obtain ⟨hmv, hne⟩ := ring_moves 1e-9
  obtain ⟨C, h0, hh0, H⟩ := C94_observation [HomogeneousField 0 ⟨0, 1, 0⟩] [ringCharge] 1e-9 hT (by simpa using ⟨hmv, hne⟩) ⟨1, 0, 0⟩ (by simpa using hobs) (fun F => F.E.y) component_Ey
  obtain ⟨_, S, hS⟩ := C93_signal 1 ringCharge.x ringCharge.p 0 1e-9 hmv.motion.position hmv.smooth hT ⟨1, 0, 0⟩ hobs
  refine ⟨C, h0, hh0, ?_⟩
  intro h n hh hle hn hnT rnd J nodes hN
  obtain ⟨fs, hfs⟩ := ringDoc_runs h n hn hh hnT rnd J nodes hN
  obtain ⟨before, files, e1, e2, e3⟩ := H (ringLib h n) rnd J nodes ringDoc fs _ _ hN hfs (ringDoc_parse h n hn (rnd 0)) (ringDoc_master h n) rfl rfl (ring_starts h n) h rfl hh hle n rfl hnT
  obtain ⟨d, hd, hb⟩ := e3 0 ⟨.point (PointObs.new ⟨1, 0, 0⟩ 0 1 3), .beam, "point.sdds"⟩ rfl
  have hfl : files = [⟨"point.sdds", d⟩] := by
    have : files.length = 1 := e2
    obtain ⟨x, rfl⟩ := List.length_eq_one_iff.mp this
    simpa using hd
  have hrow := fun (i : Nat) (hi : i < 3) => hb rfl ((0, 0), i) (by simpa [Observer.keys, PointObs.new, FieldTrace.new] using hi) _ _ _ rfl rfl one_pos (by show 2 ≤ 3; norm_num)
  obtain ⟨F0, hF0, _⟩ := hrow 0 (by norm_num)
  obtain ⟨f, rfl⟩ : ∃ f, d = .point f := by
    cases d with
    | point f => exact ⟨f, rfl⟩
    | _ => exact hF0.elim
  refine ⟨fs, before, f, hfs, by rw [e1, hfl], ?_⟩
  intro i hi
  obtain ⟨F, f1, f2⟩ := hrow i hi
  refine ⟨F, f1, S, hS, ?_⟩
  have := f2 (fun _ => S) (by intro c hc; rw [List.mem_singleton.mp hc]; exact hS)
  simpa [PointObs.new, FieldTrace.new, ringCharge] using this

/-- non-vacuity of C94 for watch points: the file written after the last step shows the particle on the exact circle -/
example : ∃ C h0 : ℝ, 0 < h0 ∧ ∀ (h : ℝ) (n : Nat), 0 < h → h ≤ h0 → n < 2 ^ 31 → n * h ≤ 1e-9 →
    ∀ (rnd : Nat → (Nat → Nat → ℝ) × (Nat → Nat → Nat → ℝ)) (J : Indet) (nodes : Nat), 0 < nodes →
      ∃ fs, (ringLib h n).program rnd J nodes ringDoc = .ok fs ∧ ∃ X P : Vec, (⟨"end.h5", .watch (.hdf5 1 [X.x, X.y, X.z, P.x, P.y, P.z])⟩ : OutFile) ∈ fs ∧
        (X - ringCharge.x (n * h)).norm ≤ C * h ^ 2 ∧ (P - ringCharge.p (n * h)).norm ≤ C * h ^ 2 := by
  have hT : (0 : ℝ) ≤ 1e-9 := by norm_num
  obtain ⟨hmv, hne⟩ := ring_moves 1e-9
  obtain ⟨C, h0, hh0, H⟩ := C94_watches [HomogeneousField 0 ⟨0, 1, 0⟩] [ringCharge] 1e-9 hT (by simpa using hmv)
  refine ⟨C, h0, hh0, ?_⟩
  intro h n hh hle hn hnT rnd J nodes hN
  obtain ⟨fs, hfs⟩ := ringDoc_runs h n hn hh hnT rnd J nodes hN
  refine ⟨fs, hfs, ?_⟩
  obtain ⟨d, d1, d2, _⟩ := H (ringLib h n) rnd J nodes ringDoc fs _ _ hN hfs (ringDoc_parse h n hn (rnd 0)) (ringDoc_master h n) rfl rfl (ring_starts h n) h rfl hh hle
    ⟨n, "end.h5", .hdf5⟩ (by simp [ringParsed]) n rfl (by simp [ringParsed]) hnT
  obtain ⟨pts, e1, e2⟩ := d2 rfl
  cases e2 with
  | cons a b =>
    cases b
    have e0 : ringCharge.t0 + n * h = n * h := zero_add _
    rw [e0] at a
    refine ⟨_, _, ?_, a.1, a.2⟩
    rw [e1] at d1
    simpa using d1

end Lib
end Teufel
