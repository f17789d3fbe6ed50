import Verif.Props.ProgramProbe
import Verif.Props.EdgeFiles
import Verif.Props.Kinks
import Verif.Lemmas.Undulator

/-!
# C122: the probe file of a run and the exact motion
-/

namespace Teufel
open Vec Input

theorem trackAlone_zero {dt : ℝ} {f : FieldFn} {q a : Particle} (h : trackAlone dt f q 0 = .ok a) :
    dropState ((q.initTrajectory q.tCur q.XCur q.PCur q.ACur).InitVay dt f) = .ok a := by
  unfold trackAlone at h
  cases hi : dropState ((q.initTrajectory q.tCur q.XCur q.PCur q.ACur).InitVay dt f) with
  | error e => rw [hi] at h; cases h
  | ok b =>
    rw [hi] at h
    exact h

namespace Lib

/-- the probe log, if tracking has errors of the size `err h` -/
theorem probe_of (err : ℝ → ℝ) (lat : Lattice) (c : Charge) (T : ℝ) (hnear :
    ∃ C h0 : ℝ, 0 < h0 ∧ ∀ h : ℝ, 0 < h → h ≤ h0 → ∀ n : ℕ, n * h ≤ T → ∀ q : Particle, q.Reachable → c.Starts q → ∀ a, AfterSteps h (Lattice.field lat) q n a →
      a.tCur = c.t0 + n * h ∧ (a.XCur - c.x (c.t0 + n * h)).norm ≤ C * err h ∧ (a.PCur - c.p (c.t0 + n * h)).norm ≤ C * err h) :
    ∃ C h0 : ℝ, 0 < h0 ∧ ∀ (L : Lib) (rnd : Nat → (Nat → Nat → ℝ) × (Nat → Nat → Nat → ℝ)) (J : Indet) (nodes : Nat) (doc : Xml) (fs : List OutFile) (p : Parsed) (m : Beam),
      0 < nodes → L.program rnd J nodes doc = .ok fs → (L.withRandom (rnd 0)).parse doc = .ok p → masterBeam p = .ok m →
      p.lattice.lattice = lat → p.tracking.state.interactions = [] →
      ∀ pr, p.beam.probe = some pr → ∀ st num : Nat, (st : Int) = pr.step % 2 ^ 32 → (num : Int) = pr.number % 2 ^ 32 → 1 ≤ st →
        ∃ F : H5File, (⟨pr.file, .hdf5 F⟩ : OutFile) ∈ fs ∧
          ∀ h : ℝ, p.tracking.timeStep = h → 0 < h → h ≤ h0 → ∀ l j q, l * st ≤ p.tracking.NOTS.toNat → (l * st : ℕ) * h ≤ T → j < num → j < ⌈(m.all.length : ℚ) / nodes⌉₊ →
            m.all[j]? = some q → c.Starts q →
            ∃ X P : Vec, (∀ i x, [c.t0 + (l * st : ℕ) * h, X.x, X.y, X.z, P.x, P.y, P.z][i]? = some x → F.entry "Probe" [l, j, i] = some x) ∧
              (X - c.x (c.t0 + (l * st : ℕ) * h)).norm ≤ C * err h ∧ (P - c.p (c.t0 + (l * st : ℕ) * h)).norm ≤ C * err h := by
  obtain ⟨C, h0, hh0, H⟩ := hnear
  refine ⟨C, h0, hh0, ?_⟩
  intro L rnd J nodes doc fs p m hN hrun hp hm hlat hint pr hpr st num hst hnum h1
  obtain ⟨p', m', s, hp', hm', hs, hprobe⟩ := C122_probe L rnd J nodes hN doc fs hrun
  rw [hp] at hp'
  injection hp' with hp'
  subst hp'
  rw [hm] at hm'
  injection hm' with hm'
  subst hm'
  have hs0 : s = [] := by
    rw [hint] at hs
    injection hs with hs
    exact hs.symm
  subst hs0
  obtain ⟨F, f1, _, _, _, f3⟩ := hprobe pr hpr st num hst hnum h1
  refine ⟨F, f1, ?_⟩
  intro h hh hpos hle l j q hl hlT hj hj' hq hs
  obtain ⟨ps, S, a, G, A, E, B, e1, e2, -, -, -, e6⟩ := f3 l j q hl hj hj' hq
  have hreach := (master_reachable (J := J) hp hm).2 q (List.mem_of_getElem? hq)
  rw [hh, hlat] at e1
  obtain ⟨b, hb, hb'⟩ := mapM_get ((coupled_alone _ _ _ _ _ _).mp e1).1 j q hq
  rw [e2] at hb'
  cases hb'
  obtain ⟨g1, g2, g3⟩ : a.tCur = c.t0 + (l * st : ℕ) * h ∧ (a.XCur - c.x (c.t0 + (l * st : ℕ) * h)).norm ≤ C * err h ∧ (a.PCur - c.p (c.t0 + (l * st : ℕ) * h)).norm ≤ C * err h := by
    rcases Nat.eq_zero_or_pos (l * st) with h0 | h0
    · obtain ⟨g1, g2, g3⟩ := H h hpos hle (l * st) hlT q hreach hs q (Or.inl ⟨h0, rfl⟩)
      rw [h0] at hb
      obtain ⟨_, _, k1, k2, k3⟩ := init_keeps (trackAlone_zero hb)
      exact ⟨k1 ▸ g1, k2 ▸ g2, k3 ▸ g3⟩
    · exact H h hpos hle (l * st) hlT q hreach hs a (Or.inr ⟨h0, hb⟩)
  refine ⟨a.XCur, a.PCur, ?_, g2, g3⟩
  intro i x hx
  refine e6 i x ?_
  rw [← g1] at hx
  have h7 : i < 7 := (List.getElem?_eq_some_iff.mp hx).1
  have h8 := List.getElem?_append_left (l₁ := [a.tCur, a.XCur.x, a.XCur.y, a.XCur.z, a.PCur.x, a.PCur.y, a.PCur.z]) (l₂ := [A.x, A.y, A.z, E.x, E.y, E.z, B.x, B.y, B.z]) h7
  exact h8.trans hx

/-- **C122 (exact motion, smooth fields).** The probe file contains the time and, up to a constant times the square of the time step, the exact position and momentum of
each logged particle. -/
theorem C122_second_order (lat : Lattice) (c : Charge) (T : ℝ) (hT : 0 ≤ T) (hc : c.Moves (Lattice.field lat) T) :
    ∃ C h0 : ℝ, 0 < h0 ∧ ∀ (L : Lib) (rnd : Nat → (Nat → Nat → ℝ) × (Nat → Nat → Nat → ℝ)) (J : Indet) (nodes : Nat) (doc : Xml) (fs : List OutFile) (p : Parsed) (m : Beam),
      0 < nodes → L.program rnd J nodes doc = .ok fs → (L.withRandom (rnd 0)).parse doc = .ok p → masterBeam p = .ok m →
      p.lattice.lattice = lat → p.tracking.state.interactions = [] →
      ∀ pr, p.beam.probe = some pr → ∀ st num : Nat, (st : Int) = pr.step % 2 ^ 32 → (num : Int) = pr.number % 2 ^ 32 → 1 ≤ st →
        ∃ F : H5File, (⟨pr.file, .hdf5 F⟩ : OutFile) ∈ fs ∧
          ∀ h : ℝ, p.tracking.timeStep = h → 0 < h → h ≤ h0 → ∀ l j q, l * st ≤ p.tracking.NOTS.toNat → (l * st : ℕ) * h ≤ T → j < num → j < ⌈(m.all.length : ℚ) / nodes⌉₊ →
            m.all[j]? = some q → c.Starts q →
            ∃ X P : Vec, (∀ i x, [c.t0 + (l * st : ℕ) * h, X.x, X.y, X.z, P.x, P.y, P.z][i]? = some x → F.entry "Probe" [l, j, i] = some x) ∧
              (X - c.x (c.t0 + (l * st : ℕ) * h)).norm ≤ C * h ^ 2 ∧ (P - c.p (c.t0 + (l * st : ℕ) * h)).norm ≤ C * h ^ 2 := by
  exact probe_of (fun h => h ^ 2) lat c T (moved_near _ c T hT hc)

/-- **C122 (exact motion, fields with kinks).** In a lattice without hard-edge dipoles the same holds up to a constant times the time step. -/
theorem C122_first_order (lat : Lattice) (hl : ∀ e ∈ lat, Jumpless e) (c : Charge) (T : ℝ) (hT : 0 ≤ T) (hc : Motion c.qm (Lattice.field lat) c.x c.p c.t0 T) :
    ∃ C h0 : ℝ, 0 < h0 ∧ ∀ (L : Lib) (rnd : Nat → (Nat → Nat → ℝ) × (Nat → Nat → Nat → ℝ)) (J : Indet) (nodes : Nat) (doc : Xml) (fs : List OutFile) (p : Parsed) (m : Beam),
      0 < nodes → L.program rnd J nodes doc = .ok fs → (L.withRandom (rnd 0)).parse doc = .ok p → masterBeam p = .ok m →
      p.lattice.lattice = lat → p.tracking.state.interactions = [] →
      ∀ pr, p.beam.probe = some pr → ∀ st num : Nat, (st : Int) = pr.step % 2 ^ 32 → (num : Int) = pr.number % 2 ^ 32 → 1 ≤ st →
        ∃ F : H5File, (⟨pr.file, .hdf5 F⟩ : OutFile) ∈ fs ∧
          ∀ h : ℝ, p.tracking.timeStep = h → 0 < h → h ≤ h0 → ∀ l j q, l * st ≤ p.tracking.NOTS.toNat → (l * st : ℕ) * h ≤ T → j < num → j < ⌈(m.all.length : ℚ) / nodes⌉₊ →
            m.all[j]? = some q → c.Starts q →
            ∃ X P : Vec, (∀ i x, [c.t0 + (l * st : ℕ) * h, X.x, X.y, X.z, P.x, P.y, P.z][i]? = some x → F.entry "Probe" [l, j, i] = some x) ∧
              (X - c.x (c.t0 + (l * st : ℕ) * h)).norm ≤ C * h ∧ (P - c.p (c.t0 + (l * st : ℕ) * h)).norm ≤ C * h := by
  exact probe_of (fun h => h) lat c T (moved_of (fun h => h) (fun h hh => hh.le) _ c T
    (C118_first_order c.qm _ (C118_lattice lat hl) c.x c.p c.t0 T hT hc))

/-- **C122 (exact motion, hard edges).** The same holds in any lattice for particles which do not move within a face of a hard-edge dipole. -/
theorem C122_edges (lat : Lattice) (faces : List (Vec × Vec)) (hl : LatticeFaces lat faces) (c : Charge) (T : ℝ) (hT : 0 ≤ T)
    (hc : EdgeMotion c.qm (Lattice.field lat) faces c.x c.p c.t0 T) :
    ∃ C h0 : ℝ, 0 < h0 ∧ ∀ (L : Lib) (rnd : Nat → (Nat → Nat → ℝ) × (Nat → Nat → Nat → ℝ)) (J : Indet) (nodes : Nat) (doc : Xml) (fs : List OutFile) (p : Parsed) (m : Beam),
      0 < nodes → L.program rnd J nodes doc = .ok fs → (L.withRandom (rnd 0)).parse doc = .ok p → masterBeam p = .ok m →
      p.lattice.lattice = lat → p.tracking.state.interactions = [] →
      ∀ pr, p.beam.probe = some pr → ∀ st num : Nat, (st : Int) = pr.step % 2 ^ 32 → (num : Int) = pr.number % 2 ^ 32 → 1 ≤ st →
        ∃ F : H5File, (⟨pr.file, .hdf5 F⟩ : OutFile) ∈ fs ∧
          ∀ h : ℝ, p.tracking.timeStep = h → 0 < h → h ≤ h0 → ∀ l j q, l * st ≤ p.tracking.NOTS.toNat → (l * st : ℕ) * h ≤ T → j < num → j < ⌈(m.all.length : ℚ) / nodes⌉₊ →
            m.all[j]? = some q → c.Starts q →
            ∃ X P : Vec, (∀ i x, [c.t0 + (l * st : ℕ) * h, X.x, X.y, X.z, P.x, P.y, P.z][i]? = some x → F.entry "Probe" [l, j, i] = some x) ∧
              (X - c.x (c.t0 + (l * st : ℕ) * h)).norm ≤ C * h ∧ (P - c.p (c.t0 + (l * st : ℕ) * h)).norm ≤ C * h := by
  exact probe_of (fun h => h) lat c T (moved_of_points (fun h => h) (fun h hh => hh.le) _ c T (C120_first_order lat faces hl c.qm c.x c.p c.t0 T hT hc))

/-! ### Example: a particle circulating in a magnetic field -/

def ringProbeDoc : Xml :=
  .node "" [] [.node "teufel" []
    [.node "lattice" [] [.node "background" [] [.node "B" [("y", "1")] []]],
     .node "beam" [] [.node "particle" [("gamma", "2"), ("charge", "1"), ("cmr", "1")] [.node "position" [] [], .node "momentum" [("z", "1")] []], .node "probe" [("file", "probe.h5")] []],
     .node "tracking" [("method", "Vay"), ("delta_t", "tau"), ("n", "steps")] [],
     .node "observer" [] []]]

noncomputable def ringProbeParsed (h : ℝ) (n : Nat) : Parsed :=
  ⟨⟨predefined, [HomogeneousField 0 ⟨0, 1, 0⟩], 1⟩, ⟨predefined, [singleParticle 2 1 1 0 ⟨0, 0, 0⟩ ⟨0, 0, 1⟩], [], some ⟨"probe.h5", 1, 1⟩, 1⟩,
    ⟨h, n, ⟨predefined, [], []⟩⟩, ⟨predefined, []⟩⟩

theorem ringProbe_parse (h : ℝ) (n : Nat) (hn : n < 2 ^ 31) (r : (Nat → Nat → ℝ) × (Nat → Nat → Nat → ℝ)) : ((ringLib h n).withRandom r).parse ringProbeDoc = .ok (ringProbeParsed h n) := by
  have hc : ∀ env node, (∀ c ∈ node.children, c.name ≠ "calc") → ((ringLib h n).withRandom r).parseCalcChildren env node = env := by
    intro env node hn
    unfold parseCalcChildren
    generalize node.children = l at hn
    induction l generalizing env with
    | nil => rfl
    | cons c l ih =>
      rw [List.foldl_cons, if_neg (hn c (by simp))]
      exact ih env (fun c' hc' => hn c' (by simp [hc']))
  have e0 : ∀ env, ((ringLib h n).withRandom r).eval env "" = env "" := by intro env; simp [withRandom, ringLib, exampleLib]
  have e1 : ∀ env, ((ringLib h n).withRandom r).eval env "1" = some 1 := by intro env; simp [withRandom, ringLib, exampleLib]
  have e2 : ∀ env, ((ringLib h n).withRandom r).eval env "2" = some 2 := by intro env; simp [withRandom, ringLib, exampleLib]
  have e4 : ∀ env, ((ringLib h n).withRandom r).eval env "tau" = some h := by intro env; simp [withRandom, ringLib]
  have e5 : ∀ env, ((ringLib h n).withRandom r).eval env "steps" = some (n : ℝ) := by intro env; simp [withRandom, ringLib]
  have hpe := predefined_empty
  have h2 : toInt32 (crint (n : ℝ)) = .ok (n : Int) := by
    have : crint (n : ℝ) = n := by simp [crint]
    rw [this]
    unfold toInt32
    rw [if_pos ⟨by omega, by omega⟩]
  unfold parse ringProbeDoc
  simp only [Xml.child, Xml.children, Xml.name, List.find?, need, bind, Except.bind, pure, Except.pure, start, beq_self_eq_true]
  rw [hc _ _ (by simp [Xml.children, Xml.name])]
  simp only [parseLattice, parseBeam, parseTracking, parseObservers, Xml.child, Xml.children, Xml.name, List.find?, need, bind, Except.bind, pure, Except.pure]
  have p1 : ((ringLib h n).withRandom r).latticeStep ⟨predefined, [], 0⟩ (.node "background" [] [.node "B" [("y", "1")] []]) = .ok ⟨predefined, [HomogeneousField 0 ⟨0, 1, 0⟩], 1⟩ := by
    simp [latticeStep, latticeElement, Xml.name, parseCalcChildren, Xml.children, Except.map, Lattice.addElement, optVec, Xml.child, vec, num, Xml.value, Xml.attr, Xml.attrs, e0, e1, hpe]
  have p2 : ((ringLib h n).withRandom r).beamStep ⟨predefined, [], [], none, 0⟩ (.node "particle" [("gamma", "2"), ("charge", "1"), ("cmr", "1")] [.node "position" [] [], .node "momentum" [("z", "1")] []])
      = .ok ⟨predefined, [singleParticle 2 1 1 0 ⟨0, 0, 0⟩ ⟨0, 0, 1⟩], [], none, 1⟩ := by
    simp [beamStep, particleEntry, Xml.name, parseCalcChildren, Xml.children, Xml.child, need, bind, Except.bind, pure, Except.pure, parseLog, optNum, vec, num, Xml.value, Xml.attr, Xml.attrs, e0, e1, e2, hpe, List.lookup]
  have p3 : ∀ bs, ((ringLib h n).withRandom r).beamStep ⟨predefined, bs, [], none, 1⟩ (.node "probe" [("file", "probe.h5")] []) = .ok ⟨predefined, bs, [], some ⟨"probe.h5", 1, 1⟩, 1⟩ := by
    intro bs
    simp [beamStep, probeEntry, Xml.name, need, bind, Except.bind, pure, Except.pure, intOr, Xml.attr, Xml.attrs, List.lookup]
  simp [p1, p2, p3, Xml.value, Xml.attr, Xml.attrs, List.lookup, int, num, e1, e2, e4, e5, h2, ringProbeParsed]
  simp [pure, Except.pure, bind, Except.bind, p3]

theorem ringProbe_master (h : ℝ) (n : Nat) : masterBeam (ringProbeParsed h n) = .ok { progBeam (Real.sqrt 3) ⟨0, 0, 1⟩ with dt := h, NOTS := n } :=
  ringDoc_master h n

theorem ringProbe_runs (h : ℝ) (n : Nat) (hn : n < 2 ^ 27) (rnd : Nat → (Nat → Nat → ℝ) × (Nat → Nat → Nat → ℝ)) (J : Indet) (hJ : 1 ≤ J.fuel) (nodes : Nat) (hN : 0 < nodes) :
    ∃ fs, (ringLib h n).program rnd J nodes ringProbeDoc = .ok fs := by
  refine C86_without_interactions _ rnd J nodes hN ringProbeDoc _ _ (ringProbe_parse h n (by omega) (rnd 0)) (ringProbe_master h n) (by simp [ringProbeParsed]) (fun t X => ⟨_, rfl⟩) ?_ (by simp [ringProbeParsed]) ?_ ?_ rfl
  · intro q hq
    rw [ring_all, List.mem_singleton] at hq
    subst hq
    show (1 / ElementaryCharge : ℝ) ≠ 0
    norm_num [ElementaryCharge]
  · intro pr hpr
    simp only [ringProbeParsed, Option.some.injEq] at hpr
    subst hpr
    have u1 : toUnsigned 1 = 1 := by norm_num [toUnsigned]
    have hn' : (ringProbeParsed h n).tracking.NOTS.toNat = n := rfl
    refine ⟨by rw [u1], ?_⟩
    intro total _
    simp only [u1, hn', Nat.div_one]
    have h1 : min 1 ⌈(total : ℚ) / nodes⌉₊ ≤ 1 := min_le_left _ _
    refine ⟨by omega, ?_⟩
    calc (1 + n) * min 1 ⌈(total : ℚ) / nodes⌉₊ * 16 ≤ (1 + n) * 1 * 16 := by gcongr
      _ < 2 ^ 32 := by omega
  · intro spec hspec
    simp [ringProbeParsed] at hspec

/-- non-vacuity of C122: for all small time steps the program runs on any number of nodes, and the last record of the probe file shows the particle on the exact
circle, up to a constant times the square of the time step -/
example : ∃ C h0 : ℝ, 0 < h0 ∧ ∀ (h : ℝ) (n : Nat), 0 < h → h ≤ h0 → n < 2 ^ 27 → n * h ≤ 1e-9 →
    ∀ (rnd : Nat → (Nat → Nat → ℝ) × (Nat → Nat → Nat → ℝ)) (J : Indet), 1 ≤ J.fuel → ∀ nodes : Nat, 0 < nodes →
      ∃ fs, (ringLib h n).program rnd J nodes ringProbeDoc = .ok fs ∧ ∃ (F : H5File) (x : ℝ), (⟨"probe.h5", .hdf5 F⟩ : OutFile) ∈ fs ∧
        F.entry "Probe" [n, 0, 1] = some x ∧ |x - (ringCharge.x (n * h)).x| ≤ C * h ^ 2 := by
  have hT : (0 : ℝ) ≤ 1e-9 := by norm_num
  obtain ⟨hmv, hne⟩ := ring_moves 1e-9
  obtain ⟨C, h0, hh0, H⟩ := C122_second_order [HomogeneousField 0 ⟨0, 1, 0⟩] ringCharge 1e-9 hT hmv
  refine ⟨C, h0, hh0, ?_⟩
  intro h n hh hle hn hnT rnd J hJ nodes hN
  obtain ⟨fs, hfs⟩ := ringProbe_runs h n hn rnd J hJ nodes hN
  refine ⟨fs, hfs, ?_⟩
  obtain ⟨F, f1, f2⟩ := H (ringLib h n) rnd J nodes ringProbeDoc fs _ _ hN hfs (ringProbe_parse h n (by omega) (rnd 0)) (ringProbe_master h n) rfl rfl ⟨"probe.h5", 1, 1⟩ rfl 1 1
    (by norm_num) (by norm_num) le_rfl
  have hst := ring_starts h n
  rw [ring_all] at hst
  cases hst with
  | cons hs _ =>
    obtain ⟨X, P, e1, e2, _⟩ := f2 h rfl hh hle n 0 (progParticle (Real.sqrt 3) ⟨0, 0, 1⟩) (by simp [ringProbeParsed]) (by rw [mul_one]; exact hnT) (by norm_num)
      (by rw [ring_all, Nat.lt_ceil]; simpa using hN) (by rw [ring_all]; rfl) hs
    refine ⟨F, X.x, f1, e1 1 _ rfl, ?_⟩
    have h1 := (Und.comps_le (X - ringCharge.x (ringCharge.t0 + (n * 1 : ℕ) * h))).1
    have e0 : ringCharge.t0 + (n * 1 : ℕ) * h = n * h := by rw [mul_one]; exact zero_add _
    rw [e0] at h1 e2
    exact h1.trans e2

end Lib
end Teufel
