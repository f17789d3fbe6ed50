import Verif.Props.SnapshotConvergence
import Verif.Props.PlaneFiles

/-!
# C96: the snapshots in the files of a run converge to the field of the exact motion
-/

namespace Teufel
open Vec Input

/-- the field of one tracked particle at an observer -/
theorem snapshot_near (field : FieldFn) (c : Charge) (T : ℝ) (hT : 0 ≤ T) (hc : c.Moves field T) (he : c.NoElectric field T) (obs : Vec)
    (hobs : ∀ t, c.t0 ≤ t → t ≤ c.t0 + T → obs ≠ c.x t) (φ : EMField → ℝ) (hφ : Particle.IsComponent φ) :
    ∃ C h0 : ℝ, 0 < h0 ∧ ∀ h : ℝ, 0 < h → h ≤ h0 → ∀ n : ℕ, n * h ≤ T → ∀ q : Particle, q.Reachable → c.Starts q →
      ∃ a, trackAlone h field q n = .ok a ∧ ∀ s, c.t0 < s → s + C * h ^ 2 ≤ c.t0 + n * h →
        ∃ F, a.RetardedFieldAt (arrival c.x obs s) obs = .ok F ∧
          ∀ S : ℝ → EMField, Seen c.q c.x c.p obs c.t0 T S → |φ F - φ (S (arrival c.x obs s))| ≤ C * h ^ 2 := by
  obtain ⟨r, L, Bm, hr, hL, ht⟩ := hc.tame
  obtain ⟨C, h0, hh0, H⟩ := C96_second_order c.qm c.q field c.x c.p c.t0 T r L Bm hc.motion hc.smooth ht hr hL hT he obs hobs φ hφ
  refine ⟨C, h0, hh0, ?_⟩
  intro h hh hle n hn q hq hs
  obtain ⟨a1, a2, e1, e2, rec⟩ := H h hh hle n hn (q.initTrajectory q.tCur q.XCur q.PCur q.ACur) (init_reachable hq _ _ _ _) rfl hs.mass hs.qm hs.q
    (by rw [← hs.time]; rfl) (by rw [← hs.position]; rfl) (by rw [← hs.momentum]; rfl)
  exact ⟨a2, track_alone_ok e1 e2, rec⟩

namespace Lib

/-- **C96 (snapshots).** Particles move in magnetic fields of the lattice.  The value at the place `obs` in the file of a snapshot of the beam at the time
`t` is the sum of the Liénard-Wiechert fields of the exact motions of all particles at this time and place, up to a constant times the square of
the time step of the tracking - for every input, every number of nodes and whatever memory and random generator contain.  The signal of every
particle must have been sent during the tracking, but not within a time of the order of the square of the time step before its end. -/
theorem C96_snapshots (lat : Lattice) (cs : List Charge) (T : ℝ) (hT : 0 ≤ T) (hc : ∀ c ∈ cs, c.Moves (Lattice.field lat) T ∧ c.NoElectric (Lattice.field lat) T)
    (obs : Vec) (hobs : ∀ c ∈ cs, ∀ t, c.t0 ≤ t → t ≤ c.t0 + T → obs ≠ c.x t) (φ : EMField → ℝ) (hφ : Particle.IsComponent φ) :
    ∃ C h0 : ℝ, 0 < h0 ∧ ∀ (L : Lib) (rnd : Nat → (Nat → Nat → ℝ) × (Nat → Nat → Nat → ℝ)) (J : Indet) (nodes : Nat) (doc : Xml) (fs : List OutFile) (p : Parsed) (m : Beam),
      0 < nodes → L.program rnd J nodes doc = .ok fs → (L.withRandom (rnd 0)).parse doc = .ok p → masterBeam p = .ok m →
      p.lattice.lattice = lat → p.tracking.state.interactions = [] → List.Forall₂ Charge.Starts cs m.all →
      ∀ h : ℝ, p.tracking.timeStep = h → 0 < h → h ≤ h0 → ∀ n : ℕ, (n : Int) = p.tracking.NOTS → n * h ≤ T →
        ∃ before files : List OutFile, fs = before ++ files ∧ files.length = p.observers.observers.length ∧
          ∀ (i : Nat) (spec : ObserverSpec) (sn : Snapshot), p.observers.observers[i]? = some spec → spec.observer = .snapshot sn → spec.source = .beam →
            ∃ d, files[i]? = some ⟨spec.file, d⟩ ∧
              ∀ ix iy, ix < sn.Nx → iy < sn.Ny → sn.CellPosition ix iy = obs →
                (∀ c ∈ cs, ∃ s, c.t0 < s ∧ s + C * h ^ 2 ≤ c.t0 + n * h ∧ arrival c.x obs s = sn.tObs) →
                ∃ F, Shows spec.observer d ((ix, iy), 0) obs F ∧
                  ∀ S : Charge → ℝ → EMField, (∀ c ∈ cs, Seen c.q c.x c.p obs c.t0 T (S c)) →
                    |φ F - (cs.map (fun c => φ (S c sn.tObs))).sum| ≤ C * h ^ 2 := by
  obtain ⟨C, h0, hC, hh0, H⟩ := uniform_constants (fun (c : Charge) (C h0 : ℝ) => ∀ h : ℝ, 0 < h → h ≤ h0 → ∀ n : ℕ, n * h ≤ T → ∀ q : Particle, q.Reachable → c.Starts q →
      ∃ a, trackAlone h (Lattice.field lat) q n = .ok a ∧ ∀ s, c.t0 < s → s + C * h ^ 2 ≤ c.t0 + n * h →
        ∃ F, a.RetardedFieldAt (arrival c.x obs s) obs = .ok F ∧
          ∀ S : ℝ → EMField, Seen c.q c.x c.p obs c.t0 T S → |φ F - φ (S (arrival c.x obs s))| ≤ C * h ^ 2)
    (by
      intro c C C' h h' hP hC hh h1 hp1 hle n hn q hq hs
      obtain ⟨a, ha, hr⟩ := hP h1 hp1 (hle.trans hh) n hn q hq hs
      refine ⟨a, ha, fun s s1 s2 => ?_⟩
      have hle2 : C * h1 ^ 2 ≤ C' * h1 ^ 2 := by gcongr
      obtain ⟨F, g1, g2⟩ := hr s s1 (by linarith)
      exact ⟨F, g1, fun S hS => (g2 S hS).trans hle2⟩)
    cs (fun c hcs => snapshot_near _ c T hT (hc c hcs).1 (hc c hcs).2 obs (hobs c hcs) φ hφ)
  refine ⟨(cs.length + 1) * C, h0, hh0, ?_⟩
  intro L rnd J nodes doc fs p m hN hrun hp hm hlat hint hstart h hh hpos hle n hn hnT
  obtain ⟨p', m', hp', hm', before, files, hfs, hlen, hfiles⟩ := C83_observers_partial L rnd J nodes hN doc fs hrun
  rw [hp] at hp'
  injection hp' with hp'
  subst hp'
  rw [hm] at hm'
  injection hm' with hm'
  subst hm'
  refine ⟨before, files, hfs, hlen, ?_⟩
  intro i spec sn hi hsn hsrc
  obtain ⟨d, hd, hb, _⟩ := hfiles i spec hi
  refine ⟨d, hd, ?_⟩
  intro ix iy hix hiy hpos' hsent
  obtain ⟨ps, hps, hsh⟩ := hb hsrc hint
  have hk : (((ix, iy), 0) : Observer.Key) ∈ spec.observer.keys := by
    rw [hsn]
    simp only [Observer.keys, List.mem_map]
    exact ⟨(ix, iy), mem_cells.mpr ⟨hix, hiy⟩, rfl⟩
  obtain ⟨t', X, Fs, e1, e2, e3⟩ := hsh _ hk
  rw [hsn] at e1
  simp only [Observer.samplePoint, Except.ok.injEq, Prod.mk.injEq] at e1
  obtain ⟨rfl, rfl⟩ := e1
  rw [hpos'] at e3
  refine ⟨Fs.sum, e3, ?_⟩
  intro S hS
  have hreach := (master_reachable (J := J) hp hm).2
  have htn : p.tracking.NOTS.toNat = n := by rw [← hn]; rfl
  rw [hh, hlat, htn] at hps
  have hCh : 0 ≤ C * h ^ 2 := by positivity
  have key := forall₂_comp3 hstart (mapM_forall₂.mp hps) (mapM_forall₂.mp e2)
    (V := fun c F => |φ F - φ (S c sn.tObs)| ≤ C * h ^ 2) (by
      intro c hcs q hq a F hs ha hF
      obtain ⟨a', ha', hr⟩ := H c hcs h hpos hle n hnT q (hreach q hq) hs
      rw [ha] at ha'
      injection ha' with ha'
      subst ha'
      obtain ⟨s, s1, s2, s3⟩ := hsent c hcs
      have hlen : 0 ≤ (cs.length : ℝ) * (C * h ^ 2) := by positivity
      obtain ⟨F', g1, g2⟩ := hr s s1 (by linarith)
      rw [hsn] at hF
      simp only [Observer.particleSample, hpos'] at hF
      rw [s3, hF] at g1
      injection g1 with g1
      subst g1
      have := g2 (S c) (hS c hcs)
      rw [s3] at this
      exact this)
  have := sum_near hφ _ _ key
  linarith

/-! ### Example: the circulating particle of C94, with a snapshot of its field above the plane of the circle -/

/-- the file -/
def flashDoc : Xml :=
  .node "" [] [.node "teufel" []
    [.node "lattice" [] [.node "background" [] [.node "B" [("y", "1")] []]],
     .node "beam" [] [.node "particle" [("gamma", "2"), ("charge", "1"), ("cmr", "1")] [.node "position" [] [], .node "momentum" [("z", "1")] []]],
     .node "tracking" [("method", "Vay"), ("delta_t", "tau"), ("n", "steps")] [],
     .node "observer" [] [.node "snapshot" [("file", "flash.h5"), ("source", "beam")]
       [.node "time" [("t0", "when")] [], .node "position" [("y", "1")] [], .node "hpitch" [("x", "1"), ("n", "3")] [], .node "vpitch" [("z", "1"), ("n", "3")] []]]]]

/-- a calculator which knows the names in it -/
noncomputable def flashLib (h : ℝ) (n : Nat) (w : ℝ) : Lib :=
  { exampleLib with eval := fun env s => if s = "tau" then some h else if s = "steps" then some n else if s = "when" then some w else exampleLib.eval env s }

noncomputable def flash (w : ℝ) : Snapshot := Snapshot.new ⟨0, 1, 0⟩ ⟨1, 0, 0⟩ ⟨0, 0, 1⟩ 3 3 w

noncomputable def flashParsed (h : ℝ) (n : Nat) (w : ℝ) : Parsed :=
  ⟨⟨predefined, [HomogeneousField 0 ⟨0, 1, 0⟩], 1⟩, ⟨predefined, [singleParticle 2 1 1 0 ⟨0, 0, 0⟩ ⟨0, 0, 1⟩], [], none, 1⟩,
    ⟨h, n, ⟨predefined, [], []⟩⟩, ⟨predefined, [⟨.snapshot (flash w), .beam, "flash.h5"⟩]⟩⟩

theorem flashDoc_parse (h : ℝ) (n : Nat) (w : ℝ) (hn : n < 2 ^ 31) (r : (Nat → Nat → ℝ) × (Nat → Nat → Nat → ℝ)) :
    ((flashLib h n w).withRandom r).parse flashDoc = .ok (flashParsed h n w) := by
  have hc : ∀ env node, (∀ c ∈ node.children, c.name ≠ "calc") → ((flashLib h n w).withRandom r).parseCalcChildren env node = env := by
    intro env node hn
    unfold parseCalcChildren
    generalize node.children = l at hn
    induction l generalizing env with
    | nil => rfl
    | cons c l ih =>
      rw [List.foldl_cons, if_neg (hn c (by simp))]
      exact ih env (fun c' hc' => hn c' (by simp [hc']))
  have e0 : ∀ env, ((flashLib h n w).withRandom r).eval env "" = env "" := by intro env; simp [withRandom, flashLib, exampleLib]
  have e1 : ∀ env, ((flashLib h n w).withRandom r).eval env "1" = some 1 := by intro env; simp [withRandom, flashLib, exampleLib]
  have e2 : ∀ env, ((flashLib h n w).withRandom r).eval env "2" = some 2 := by intro env; simp [withRandom, flashLib, exampleLib]
  have e3 : ((flashLib h n w).withRandom r).asInt "3" = 3 := by simp [withRandom, flashLib, exampleLib]
  have e4 : ∀ env, ((flashLib h n w).withRandom r).eval env "tau" = some h := by intro env; simp [withRandom, flashLib]
  have e5 : ∀ env, ((flashLib h n w).withRandom r).eval env "steps" = some (n : ℝ) := by intro env; simp [withRandom, flashLib]
  have e6 : ∀ env, ((flashLib h n w).withRandom r).eval env "when" = some w := by intro env; simp [withRandom, flashLib]
  have hpe := predefined_empty
  have h2 : toInt32 (crint (n : ℝ)) = .ok (n : Int) := by
    have : crint (n : ℝ) = n := by simp [crint]
    rw [this]
    unfold toInt32
    rw [if_pos ⟨by omega, by omega⟩]
  unfold parse flashDoc
  simp only [Xml.child, Xml.children, Xml.name, List.find?, need, bind, Except.bind, pure, Except.pure, start, beq_self_eq_true]
  rw [hc _ _ (by simp [Xml.children, Xml.name])]
  simp only [parseLattice, parseBeam, parseTracking, parseObservers, Xml.child, Xml.children, Xml.name, List.find?, need, bind, Except.bind, pure, Except.pure]
  have p1 : ((flashLib h n w).withRandom r).latticeStep ⟨predefined, [], 0⟩ (.node "background" [] [.node "B" [("y", "1")] []]) = .ok ⟨predefined, [HomogeneousField 0 ⟨0, 1, 0⟩], 1⟩ := by
    simp [latticeStep, latticeElement, Xml.name, parseCalcChildren, Xml.children, Except.map, Lattice.addElement, optVec, Xml.child, vec, num, Xml.value, Xml.attr, Xml.attrs, e0, e1, hpe]
  have p2 : ((flashLib h n w).withRandom r).beamStep ⟨predefined, [], [], none, 0⟩ (.node "particle" [("gamma", "2"), ("charge", "1"), ("cmr", "1")] [.node "position" [] [], .node "momentum" [("z", "1")] []])
      = .ok ⟨predefined, [singleParticle 2 1 1 0 ⟨0, 0, 0⟩ ⟨0, 0, 1⟩], [], none, 1⟩ := by
    simp [beamStep, particleEntry, Xml.name, parseCalcChildren, Xml.children, Xml.child, need, bind, Except.bind, pure, Except.pure, parseLog, optNum, vec, num, Xml.value, Xml.attr, Xml.attrs, e0, e1, e2, hpe, List.lookup]
  have p4 : ((flashLib h n w).withRandom r).observerStep ⟨predefined, []⟩ (.node "snapshot" [("file", "flash.h5"), ("source", "beam")]
       [.node "time" [("t0", "when")] [], .node "position" [("y", "1")] [], .node "hpitch" [("x", "1"), ("n", "3")] [], .node "vpitch" [("z", "1"), ("n", "3")] []])
      = .ok ⟨predefined, [⟨.snapshot (flash w), .beam, "flash.h5"⟩]⟩ := by
    have hsrc : source (.node "snapshot" [("file", "flash.h5"), ("source", "beam")]
       [.node "time" [("t0", "when")] [], .node "position" [("y", "1")] [], .node "hpitch" [("x", "1"), ("n", "3")] [], .node "vpitch" [("z", "1"), ("n", "3")] []]) = .ok .beam := by
      simp [source, Xml.attr, Xml.attrs, List.lookup]
    simp [observerStep, observerEntry, snapshotEntry, Xml.name, parseCalcChildren, Xml.children, Xml.child, need, bind, Except.bind, pure, Except.pure, hsrc, points, Except.map, vec, num, Xml.value,
      Xml.attr, Xml.attrs, e0, e1, e3, e6, hpe, List.lookup, flash]
  simp [p1, p2, Xml.value, Xml.attr, Xml.attrs, List.lookup, int, num, e1, e2, e4, e5, h2, flashParsed]
  simp [pure, Except.pure, bind, Except.bind, p4]

theorem flashDoc_master (h : ℝ) (n : Nat) (w : ℝ) : masterBeam (flashParsed h n w) = .ok { progBeam (Real.sqrt 3) ⟨0, 0, 1⟩ with dt := h, NOTS := n } := by
  rw [← ringDoc_master h n]
  rfl

theorem flash_guides : Plane.horizontal.Guides (Lattice.field [HomogeneousField 0 ⟨0, 1, 0⟩]) := Plane.C99_lattice _ (by
  intro e he
  rw [List.mem_singleton.mp he]
  exact .background 0 ⟨0, 1, 0⟩ rfl rfl rfl)

/-- the program runs -/
theorem flashDoc_runs (h : ℝ) (n : Nat) (w : ℝ) (hn : n < 2 ^ 31) (hh : 0 < h) (rnd : Nat → (Nat → Nat → ℝ) × (Nat → Nat → Nat → ℝ)) (J : Indet) (nodes : Nat) (hN : 0 < nodes) :
    ∃ fs, (flashLib h n w).program rnd J nodes flashDoc = .ok fs := by
  have hreach : (progParticle (Real.sqrt 3) ⟨0, 0, 1⟩).Reachable := ⟨_, [.init 0 ⟨0, 0, 0⟩ ((⟨0, 0, 1⟩ : Vec) * Real.sqrt 3) 0], Or.inl ⟨_, _, rfl⟩, rfl⟩
  refine C86_without_interactions _ rnd J nodes hN flashDoc _ _ (flashDoc_parse h n w hn (rnd 0)) (flashDoc_master h n w) (by simp [flashParsed]) (fun t X => ⟨_, rfl⟩) ?_ (by simp [flashParsed]) ?_ ?_ rfl
  · intro q hq
    rw [ring_all, List.mem_singleton] at hq
    subst hq
    show (1 / ElementaryCharge : ℝ) ≠ 0
    norm_num [ElementaryCharge]
  · intro pr hpr
    simp [flashParsed] at hpr
  · intro spec hspec
    simp only [flashParsed, List.mem_singleton] at hspec
    subst hspec
    refine ⟨⟨?_, by intro s hs; cases hs⟩, fun _ => ⟨hh, trivial, ?_⟩⟩
    · simp [Observer.keys, flash, Snapshot.new, cells_length]
    intro q hq a ha
    rw [ring_all, List.mem_singleton] at hq
    subst hq
    have hled : Plane.Led Plane.horizontal h (progParticle (Real.sqrt 3) ⟨0, 0, 1⟩) a := by
      unfold trackAlone at ha
      cases h1 : ((progParticle (Real.sqrt 3) ⟨0, 0, 1⟩).initTrajectory (progParticle (Real.sqrt 3) ⟨0, 0, 1⟩).tCur (progParticle (Real.sqrt 3) ⟨0, 0, 1⟩).XCur (progParticle (Real.sqrt 3) ⟨0, 0, 1⟩).PCur
          (progParticle (Real.sqrt 3) ⟨0, 0, 1⟩).ACur).InitVay h (Lattice.field [HomogeneousField 0 ⟨0, 1, 0⟩]) with
      | error e =>
        simp only [flashParsed] at ha
        rw [h1] at ha; cases ha
      | ok b =>
        simp only [flashParsed] at ha
        rw [h1] at ha
        exact ⟨_, _, b, flash_guides, fun g hg => by rw [List.eq_of_mem_replicate hg]; exact flash_guides, h1, dropState_ok ha⟩
    obtain ⟨o1, _⟩ := Plane.led_orbit hreach (Plane.has_horizontal.mpr rfl) (Plane.along_horizontal.mpr (by show (0 : ℝ) * _ = 0; ring)) hled
    intro key _ t X hX
    refine Plane.orbit_offLines o1 ?_
    rw [Plane.has_horizontal]
    simp only [Observer.samplePoint, Except.ok.injEq, Prod.mk.injEq] at hX
    rw [← hX.2]
    simp [Snapshot.CellPosition, flash, Snapshot.new]

/-- non-vacuity of C96: for every time `s` at which a signal is sent there are a constant and a largest time step such that, for smaller time steps, the program runs on any number of nodes, and the
snapshot taken when the signal arrives shows the field of the exact circle in its central cell, up to the constant times the square of the time step -/
example (T s : ℝ) (hs : 0 < s) (hsT : s ≤ T) : ∃ C h0 : ℝ, 0 < h0 ∧ ∀ (h : ℝ) (n : Nat), 0 < h → h ≤ h0 → n < 2 ^ 31 → n * h ≤ T → s + C * h ^ 2 ≤ n * h →
    ∀ (rnd : Nat → (Nat → Nat → ℝ) × (Nat → Nat → Nat → ℝ)) (J : Indet) (nodes : Nat), 0 < nodes →
      ∃ fs before f, (flashLib h n (arrival ringCharge.x ⟨0, 1, 0⟩ s)).program rnd J nodes flashDoc = .ok fs ∧ fs = before ++ [⟨"flash.h5", .hdf5 f⟩] ∧
        ∃ F : EMField, f.field "ElMagField" [1, 1] F ∧ f.vec "ObservationPosition" [1, 1] ⟨0, 1, 0⟩ ∧
          ∃ S : ℝ → EMField, Seen 1 ringCharge.x ringCharge.p ⟨0, 1, 0⟩ 0 T S ∧ |F.E.x - (S (arrival ringCharge.x ⟨0, 1, 0⟩ s)).E.x| ≤ C * h ^ 2 := by
  have hT : (0 : ℝ) ≤ T := by linarith
  have hobs : ∀ t, ringCharge.t0 ≤ t → t ≤ ringCharge.t0 + T → (⟨0, 1, 0⟩ : Vec) ≠ ringCharge.x t := by
    intro t _ _ h
    have := congrArg Vec.y h
    simp [ringCharge] at this
  obtain ⟨hmv, hne⟩ := ring_moves T
  obtain ⟨C, h0, hh0, H⟩ := C96_snapshots [HomogeneousField 0 ⟨0, 1, 0⟩] [ringCharge] T hT (by simpa using ⟨hmv, hne⟩) ⟨0, 1, 0⟩ (by simpa using hobs) (fun F => F.E.x) component_Ex
  obtain ⟨_, S, hS⟩ := C93_signal 1 ringCharge.x ringCharge.p 0 T hmv.motion.position hmv.smooth hT ⟨0, 1, 0⟩ hobs
  refine ⟨C, h0, hh0, ?_⟩
  intro h n hh hle hn hnT hsend rnd J nodes hN
  obtain ⟨fs, hfs⟩ := flashDoc_runs h n (arrival ringCharge.x ⟨0, 1, 0⟩ s) hn hh rnd J nodes hN
  obtain ⟨before, files, e1, e2, e3⟩ := H _ rnd J nodes flashDoc fs _ _ hN hfs (flashDoc_parse h n _ hn (rnd 0)) (flashDoc_master h n _) rfl rfl (ring_starts h n) h rfl hh hle n rfl hnT
  obtain ⟨d, hd, hb⟩ := e3 0 ⟨.snapshot (flash (arrival ringCharge.x ⟨0, 1, 0⟩ s)), .beam, "flash.h5"⟩ (flash (arrival ringCharge.x ⟨0, 1, 0⟩ s)) rfl rfl rfl
  have hfl : files = [⟨"flash.h5", d⟩] := by
    have : files.length = 1 := e2
    obtain ⟨x, rfl⟩ := List.length_eq_one_iff.mp this
    simpa using hd
  have hpos : (flash (arrival ringCharge.x ⟨0, 1, 0⟩ s)).CellPosition 1 1 = ⟨0, 1, 0⟩ := by
    ext <;> simp [Snapshot.CellPosition, flash, Snapshot.new] <;> norm_num
  obtain ⟨F, f1, f2⟩ := hb 1 1 (by show 1 < 3; norm_num) (by show 1 < 3; norm_num) hpos (by
    intro c hc
    rw [List.mem_singleton.mp hc]
    exact ⟨s, hs, by show s + C * h ^ 2 ≤ 0 + n * h; linarith, rfl⟩)
  obtain ⟨f, rfl⟩ : ∃ f, d = .hdf5 f := by
    cases d with
    | hdf5 f => exact ⟨f, rfl⟩
    | _ => exact f1.elim
  refine ⟨fs, before, f, hfs, by rw [e1, hfl], F, f1.1, f1.2, S, hS, ?_⟩
  have := f2 (fun _ => S) (by intro c hc; rw [List.mem_singleton.mp hc]; exact hS)
  simpa [flash, Snapshot.new] using this

end Lib
end Teufel
