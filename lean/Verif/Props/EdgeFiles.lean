import Verif.Props.Edges
import Verif.Props.ProgramConvergence

/-!
# The files of a run in a beam line with hard-edge dipoles

C120 for the program: the watch files and the trajectory logs show the exact motion through the edges.
-/

namespace Teufel
open Vec

namespace Lib
open Input

/-- **C120 (watch files).** In any lattice, with or without hard-edge dipoles, the watch files contain the exact positions and momenta of all particles,
provided none of them moves within a face, up to a constant times the time step. -/
theorem C120_watches (lat : Lattice) (faces : List (Vec × Vec)) (hl : LatticeFaces lat faces) (cs : List Charge) (T : ℝ) (hT : 0 ≤ T)
    (hc : ∀ c ∈ cs, EdgeMotion c.qm (Lattice.field lat) faces c.x c.p c.t0 T) :
    ∃ C h0 : ℝ, 0 < h0 ∧ ∀ (L : Lib) (rnd : Nat → (Nat → Nat → ℝ) × (Nat → Nat → Nat → ℝ)) (J : Indet) (nodes : Nat) (doc : Xml) (fs : List OutFile) (p : Parsed) (m : Beam),
      0 < nodes → L.program rnd J nodes doc = .ok fs → (L.withRandom (rnd 0)).parse doc = .ok p → masterBeam p = .ok m →
      p.lattice.lattice = lat → p.tracking.state.interactions = [] → List.Forall₂ Charge.Starts cs m.all →
      ∀ h : ℝ, p.tracking.timeStep = h → 0 < h → h ≤ h0 → ∀ w ∈ p.tracking.state.watches, ∀ k : ℕ, w.step = k → w.step ≤ p.tracking.NOTS → k * h ≤ T →
        ∃ d, (⟨w.filename, .watch d⟩ : OutFile) ∈ fs ∧
          (w.type = .hdf5 → ∃ pts : List (Vec × Vec), d = .hdf5 pts.length (pts.flatMap (fun b => [b.1.x, b.1.y, b.1.z, b.2.x, b.2.y, b.2.z])) ∧
            List.Forall₂ (fun (c : Charge) (b : Vec × Vec) => (b.1 - c.x (c.t0 + k * h)).norm ≤ C * h ∧ (b.2 - c.p (c.t0 + k * h)).norm ≤ C * h) cs pts) ∧
          (w.type = .sdds → ∃ charge rows, d = .sdds cs.length charge rows ∧
            List.Forall₂ (fun (c : Charge) (row : SddsRow) => row.t = c.t0 + k * h ∧ ((⟨row.x, row.y, row.z⟩ : Vec) - c.x (c.t0 + k * h)).norm ≤ C * h ∧
              ((⟨row.px, row.py, row.pz⟩ : Vec) - c.p (c.t0 + k * h)).norm ≤ C * h) cs rows) := by
  exact watches_of (fun h => h) (fun h hh => hh.le) lat cs T (fun c hcs => moved_of_points (fun h => h) (fun h hh => hh.le) _ c T
    (C120_first_order lat faces hl c.qm c.x c.p c.t0 T hT (hc c hcs)))

/-- **C120 (trajectory logs).** In any lattice, with or without hard-edge dipoles, the trajectory log of a bunch contains the exact trajectory of each of its
particles that does not move within a face, up to a constant times the time step. -/
theorem C120_trajectories (lat : Lattice) (faces : List (Vec × Vec)) (hl : LatticeFaces lat faces) (c : Charge) (T : ℝ) (hT : 0 ≤ T) (hc : EdgeMotion c.qm (Lattice.field lat) faces c.x c.p c.t0 T) :
    ∃ C h0 : ℝ, 0 < h0 ∧ ∀ (L : Lib) (rnd : Nat → (Nat → Nat → ℝ) × (Nat → Nat → Nat → ℝ)) (J : Indet) (nodes : Nat) (doc : Xml) (fs : List OutFile) (p : Parsed) (m : Beam),
      0 < nodes → L.program rnd J nodes doc = .ok fs → (L.withRandom (rnd 0)).parse doc = .ok p → masterBeam p = .ok m →
      p.lattice.lattice = lat → p.tracking.state.interactions = [] →
      ∀ b file step number, LogSpec.traj b file step number ∈ p.beam.logs → ∀ st num : Nat, (st : Int) = step % 2 ^ 32 → (num : Int) = number % 2 ^ 32 → 1 ≤ st →
        ∃ bu, m.B[b]? = some bu ∧
          ∃ F : H5File, (⟨file, .hdf5 F⟩ : OutFile) ∈ fs ∧
            ∀ h : ℝ, p.tracking.timeStep = h → 0 < h → h ≤ h0 → ∀ l j q, l * st ≤ p.tracking.NOTS.toNat → (l * st : ℕ) * h ≤ T → j < num → bu.P[j]? = some q → c.Starts q →
              ∃ X P : Vec, F.entry "Trajectories" [l, j, 0] = some X.x ∧ F.entry "Trajectories" [l, j, 1] = some X.y ∧ F.entry "Trajectories" [l, j, 2] = some X.z ∧
                F.entry "Trajectories" [l, j, 3] = some P.x ∧ F.entry "Trajectories" [l, j, 4] = some P.y ∧ F.entry "Trajectories" [l, j, 5] = some P.z ∧
                (X - c.x (c.t0 + (l * st : ℕ) * h)).norm ≤ C * h ∧ (P - c.p (c.t0 + (l * st : ℕ) * h)).norm ≤ C * h := by
  exact trajectories_of (fun h => h) lat c T (moved_of_points (fun h => h) (fun h hh => hh.le) _ c T (C120_first_order lat faces hl c.qm c.x c.p c.t0 T hT hc))

/-! ### Example: a particle entering a hard-edge dipole -/

/-- the file: the particle starts on the entrance face of a dipole -/
def edgeDoc : Xml :=
  .node "" [] [.node "teufel" []
    [.node "lattice" [] [.node "dipole" [("type", "hard edge")] [.node "B" [("y", "1")] [], .node "p1" [] [], .node "n1" [("z", "-1")] [], .node "p2" [("z", "1")] [], .node "n2" [("z", "1")] []]],
     .node "beam" [] [.node "particle" [("gamma", "2"), ("charge", "1"), ("cmr", "1")] [.node "position" [] [], .node "momentum" [("z", "1")] []]],
     .node "tracking" [("method", "Vay"), ("delta_t", "tau"), ("n", "steps")] [.node "watch" [("step", "steps"), ("file", "end.h5")] []],
     .node "observer" [] [.node "point" [("file", "point.sdds"), ("source", "beam")] [.node "position" [("x", "1")] [], .node "time" [("dt", "1"), ("n", "3")] []]]]]

noncomputable def edgeLib (h : ℝ) (n : Nat) : Lib :=
  { ringLib h n with eval := fun env s => if s = "-1" then some (-1) else (ringLib h n).eval env s }

noncomputable def edgeDipole : HardEdgeDipole := ⟨⟨0, 1, 0⟩, ⟨0, 0, 0⟩, ⟨0, 0, -1⟩, ⟨0, 0, 1⟩, ⟨0, 0, 1⟩⟩
noncomputable def edgeLattice : Lattice := [LocalizedField edgeDipole.LocalField 0 0]
noncomputable def edgeFaces : List (Vec × Vec) := [(edgeDipole.p_1 + 0, edgeDipole.n_1), (edgeDipole.p_2 + 0, edgeDipole.n_2)]

theorem edgeLattice_faces : LatticeFaces edgeLattice edgeFaces := .cons (.hardEdge edgeDipole 0 0) .nil

theorem edgeLattice_total (t : ℝ) (X : Vec) : ∃ F, Lattice.field edgeLattice t X = .ok F := ⟨_, rfl⟩

open Classical in
theorem edgeLattice_field (t : ℝ) (X : Vec) : Lattice.field edgeLattice t X = .ok ⟨0, if 0 < X.z ∧ X.z < 1 then ⟨0, 1, 0⟩ else 0⟩ := by
  have h1 : dot (X - 0 - edgeDipole.p_1) edgeDipole.n_1 < 0 ↔ 0 < X.z := by simp [edgeDipole, dot]
  have h2 : dot (X - 0 - edgeDipole.p_2) edgeDipole.n_2 < 0 ↔ X.z < 1 := by simp [edgeDipole, dot]
  simp only [edgeLattice, Lattice.field, List.foldlM_cons, List.foldlM_nil, LocalizedField, HardEdgeDipole.LocalField, h1, h2]
  simp only [Except.map, bind, Except.bind, pure, Except.pure, edgeDipole]
  congr 1
  ext <;> simp

noncomputable def edgeParsed (h : ℝ) (n : Nat) : Parsed :=
  ⟨⟨predefined, edgeLattice, 1⟩, ⟨predefined, [singleParticle 2 1 1 0 ⟨0, 0, 0⟩ ⟨0, 0, 1⟩], [], none, 1⟩,
    ⟨h, n, ⟨predefined, [⟨n, "end.h5", .hdf5⟩], []⟩⟩, ⟨predefined, [⟨.point (PointObs.new ⟨1, 0, 0⟩ 0 1 3), .beam, "point.sdds"⟩]⟩⟩

theorem edgeDoc_parse (h : ℝ) (n : Nat) (hn : n < 2 ^ 31) (r : (Nat → Nat → ℝ) × (Nat → Nat → Nat → ℝ)) : ((edgeLib h n).withRandom r).parse edgeDoc = .ok (edgeParsed h n) := by
  have hc : ∀ env node, (∀ c ∈ node.children, c.name ≠ "calc") → ((edgeLib h n).withRandom r).parseCalcChildren env node = env := by
    intro env node hn
    unfold parseCalcChildren
    generalize node.children = l at hn
    induction l generalizing env with
    | nil => rfl
    | cons c l ih =>
      rw [List.foldl_cons, if_neg (hn c (by simp))]
      exact ih env (fun c' hc' => hn c' (by simp [hc']))
  have e0 : ∀ env, ((edgeLib h n).withRandom r).eval env "" = env "" := by intro env; simp [withRandom, edgeLib, ringLib, exampleLib]
  have e1 : ∀ env, ((edgeLib h n).withRandom r).eval env "1" = some 1 := by intro env; simp [withRandom, edgeLib, ringLib, exampleLib]
  have e2 : ∀ env, ((edgeLib h n).withRandom r).eval env "2" = some 2 := by intro env; simp [withRandom, edgeLib, ringLib, exampleLib]
  have em : ∀ env, ((edgeLib h n).withRandom r).eval env "-1" = some (-1) := by intro env; simp [withRandom, edgeLib]
  have e3 : ((edgeLib h n).withRandom r).asInt "3" = 3 := by simp [withRandom, edgeLib, ringLib, exampleLib]
  have e4 : ∀ env, ((edgeLib h n).withRandom r).eval env "tau" = some h := by intro env; simp [withRandom, edgeLib, ringLib]
  have e5 : ∀ env, ((edgeLib h n).withRandom r).eval env "steps" = some (n : ℝ) := by intro env; simp [withRandom, edgeLib, ringLib]
  have hpe := predefined_empty
  have h2 : toInt32 (crint (n : ℝ)) = .ok (n : Int) := by
    have : crint (n : ℝ) = n := by simp [crint]
    rw [this]
    unfold toInt32
    rw [if_pos ⟨by omega, by omega⟩]
  unfold parse edgeDoc
  simp only [Xml.child, Xml.children, Xml.name, List.find?, need, bind, Except.bind, pure, Except.pure, start, beq_self_eq_true]
  rw [hc _ _ (by simp [Xml.children, Xml.name])]
  simp only [parseLattice, parseBeam, parseTracking, parseObservers, Xml.child, Xml.children, Xml.name, List.find?, need, bind, Except.bind, pure, Except.pure]
  have p1 : ((edgeLib h n).withRandom r).latticeStep ⟨predefined, [], 0⟩ (.node "dipole" [("type", "hard edge")] [.node "B" [("y", "1")] [], .node "p1" [] [], .node "n1" [("z", "-1")] [], .node "p2" [("z", "1")] [], .node "n2" [("z", "1")] []])
      = .ok ⟨predefined, edgeLattice, 1⟩ := by
    simp [latticeStep, latticeElement, hardEdgeDipole, edgeLattice, edgeDipole, em, need, bind, Except.bind, pure, Except.pure, List.lookup, e2, e3, Xml.name, parseCalcChildren, Xml.children, Except.map, Lattice.addElement, optVec, Xml.child, vec, num, Xml.value, Xml.attr, Xml.attrs, e0, e1, hpe]
  have p2 : ((edgeLib h n).withRandom r).beamStep ⟨predefined, [], [], none, 0⟩ (.node "particle" [("gamma", "2"), ("charge", "1"), ("cmr", "1")] [.node "position" [] [], .node "momentum" [("z", "1")] []])
      = .ok ⟨predefined, [singleParticle 2 1 1 0 ⟨0, 0, 0⟩ ⟨0, 0, 1⟩], [], none, 1⟩ := by
    simp [beamStep, particleEntry, Xml.name, parseCalcChildren, Xml.children, Xml.child, need, bind, Except.bind, pure, Except.pure, parseLog, optNum, vec, num, Xml.value, Xml.attr, Xml.attrs, e0, e1, e2, hpe, List.lookup]
  have p3 : ∀ t, ((edgeLib h n).withRandom r).trackStep t ⟨predefined, [], []⟩ (.node "watch" [("step", "steps"), ("file", "end.h5")] []) = .ok ⟨predefined, [⟨n, "end.h5", .hdf5⟩], []⟩ := by
    intro t
    simp [trackStep, watchEntry, Xml.name, need, bind, Except.bind, pure, Except.pure, int, num, Xml.value, Xml.attr, Xml.attrs, e5, h2, List.lookup]
  have p4 : ((edgeLib h n).withRandom r).observerStep ⟨predefined, []⟩ (.node "point" [("file", "point.sdds"), ("source", "beam")] [.node "position" [("x", "1")] [], .node "time" [("dt", "1"), ("n", "3")] []])
      = .ok ⟨predefined, [⟨.point (PointObs.new ⟨1, 0, 0⟩ 0 1 3), .beam, "point.sdds"⟩]⟩ := by
    have hsrc : source (.node "point" [("file", "point.sdds"), ("source", "beam")] [.node "position" [("x", "1")] [], .node "time" [("dt", "1"), ("n", "3")] []]) = .ok .beam := by
      simp [source, Xml.attr, Xml.attrs, List.lookup]
    simp [observerStep, observerEntry, pointEntry, Xml.name, parseCalcChildren, Xml.children, Xml.child, need, bind, Except.bind, pure, Except.pure, hsrc, points, Except.map, vec, num, Xml.value, Xml.attr, Xml.attrs, e0, e1, e3, hpe, List.lookup]
  simp [p1, p2, Xml.value, Xml.attr, Xml.attrs, List.lookup, int, num, e1, e2, e4, e5, h2, edgeParsed]
  simp [pure, Except.pure, bind, Except.bind, p3, p4]

theorem edgeDoc_master (h : ℝ) (n : Nat) : masterBeam (edgeParsed h n) = .ok { progBeam (Real.sqrt 3) ⟨0, 0, 1⟩ with dt := h, NOTS := n } := by
  have hone : Vec.norm (⟨0, 0, 1⟩ : Vec) = 1 := by simp [Vec.norm]
  have hn : normalizeE ⟨0, 0, 1⟩ = .ok ⟨0, 0, 1⟩ := by
    unfold normalizeE
    rw [if_neg]
    · unfold Vec.normalize
      rw [hone]
      congr 1
      ext <;> simp
    · intro h
      have := congrArg Vec.z h
      norm_num at this
  have hc : chargeMass (1 / ElementaryCharge) 1 = .ok (1 / ElementaryCharge, 1 / ElementaryCharge) := by
    unfold chargeMass
    rw [if_neg (by norm_num [ElementaryCharge]), div_one]
  have hb : betaGamma 2 = .ok (Real.sqrt 3) := by
    unfold betaGamma
    rw [if_neg (by norm_num)]
    norm_num
  simp only [masterBeam, edgeParsed, singleParticle, hn, hc, hb, bind, Except.bind, pure, Except.pure, List.mapM_cons, List.mapM_nil, id, List.foldl]
  rfl

/-- the program runs -/
theorem edgeDoc_runs (h : ℝ) (n : Nat) (hn : n < 2 ^ 31) (hh : 0 < h) (hT : n * h ≤ 1e-11) (rnd : Nat → (Nat → Nat → ℝ) × (Nat → Nat → Nat → ℝ)) (J : Indet) (nodes : Nat) (hN : 0 < nodes) :
    ∃ fs, (edgeLib h n).program rnd J nodes edgeDoc = .ok fs := by
  have hreach : (progParticle (Real.sqrt 3) ⟨0, 0, 1⟩).Reachable := ⟨_, [.init 0 ⟨0, 0, 0⟩ ((⟨0, 0, 1⟩ : Vec) * Real.sqrt 3) 0], Or.inl ⟨_, _, rfl⟩, rfl⟩
  refine C86_without_interactions _ rnd J nodes hN edgeDoc _ _ (edgeDoc_parse h n hn (rnd 0)) (edgeDoc_master h n) (by simp [edgeParsed]) (fun t X => edgeLattice_total t X) ?_ (by simp [edgeParsed]) ?_ ?_ rfl
  · intro q hq
    rw [ring_all, List.mem_singleton] at hq
    subst hq
    show (1 / ElementaryCharge : ℝ) ≠ 0
    norm_num [ElementaryCharge]
  · intro pr hpr
    simp [edgeParsed] at hpr
  · intro spec hspec
    simp only [edgeParsed, List.mem_singleton] at hspec
    subst hspec
    refine ⟨⟨by simp [Observer.keys, PointObs.new, FieldTrace.new], by intro s hs; cases hs⟩, fun _ => ⟨hh, by show (0 : ℝ) < 1; norm_num, ?_⟩⟩
    intro q hq a ha
    rw [ring_all, List.mem_singleton] at hq
    subst hq
    refine clear_far (by intro s hs; cases hs) hreach hh (alone_moved ha) ?_
    intro key _ t X hX
    have hX' : X = ⟨1, 0, 0⟩ := by
      injection hX with hX
      exact (congrArg Prod.snd hX).symm
    have h0 : (progParticle (Real.sqrt 3) ⟨0, 0, 1⟩).XCur = ⟨0, 0, 0⟩ := rfl
    have hn' : (edgeParsed h n).tracking.NOTS.toNat = n := rfl
    rw [hX', h0, hn']
    have : Vec.norm ((⟨1, 0, 0⟩ : Vec) - ⟨0, 0, 0⟩) = 1 := by simp [Vec.norm]
    rw [this]
    have hc := SpeedOfLight_pos
    calc SpeedOfLight * (n * h) ≤ SpeedOfLight * 1e-11 := by gcongr
      _ < 1 := by norm_num [SpeedOfLight]

/-- the circle of C94 from the entrance face on is the exact motion into the dipole -/
theorem edge_motion : EdgeMotion ringCharge.qm (Lattice.field edgeLattice) edgeFaces ringCharge.x ringCharge.p ringCharge.t0 1e-11 := by
  obtain ⟨⟨hm, -, -⟩, -⟩ := ring_moves 1e-11
  have hI := InvRestMass_pos
  have hIle : InvRestMass ≤ 1.8e11 := by norm_num [InvRestMass, mecsquared, SpeedOfLight]
  have hIge : 1e11 ≤ InvRestMass := by norm_num [InvRestMass, mecsquared, SpeedOfLight]
  have hc := SpeedOfLight_pos
  have h3 : 0 < Real.sqrt 3 := by positivity
  have h3' : Real.sqrt 3 ≤ 2 := by rw [Real.sqrt_le_left (by norm_num)]; norm_num
  have ang : ∀ t, 0 ≤ t → t ≤ 1e-11 → 0 ≤ InvRestMass / 2 * t ∧ InvRestMass / 2 * t ≤ 1 := by
    intro t h0 h1
    refine ⟨by positivity, ?_⟩
    calc InvRestMass / 2 * t ≤ 1.8e11 / 2 * 1e-11 := by gcongr
      _ ≤ 1 := by norm_num
  have hpi := Real.pi_gt_d2
  have hpz : ∀ t, 0 ≤ t → t ≤ 1e-11 → 0 < (ringCharge.p t).z := by
    intro t h0 h1
    obtain ⟨a, b⟩ := ang t h0 h1
    exact mul_pos h3 (Real.cos_pos_of_mem_Ioo ⟨by linarith, by linarith⟩)
  have hxz : ∀ t, 0 < t → t ≤ 1e-11 → 0 < (ringCharge.x t).z ∧ (ringCharge.x t).z < 1 := by
    intro t h0 h1
    obtain ⟨a, b⟩ := ang t h0.le h1
    have a' : 0 < InvRestMass / 2 * t := by positivity
    have hs := Real.sin_pos_of_pos_of_lt_pi a' (by linarith)
    refine ⟨mul_pos (by positivity) hs, ?_⟩
    show SpeedOfLight * Real.sqrt 3 / InvRestMass * Real.sin (InvRestMass / 2 * t) < 1
    calc SpeedOfLight * Real.sqrt 3 / InvRestMass * Real.sin (InvRestMass / 2 * t) ≤ SpeedOfLight * 2 / 1e11 * 1 := by
          gcongr
          exact Real.sin_le_one _
      _ < 1 := by norm_num [SpeedOfLight]
  have hf : ∀ t X, Lattice.field [HomogeneousField 0 ⟨0, 1, 0⟩] t X = .ok ⟨0, ⟨0, 1, 0⟩⟩ := by
    intro t X
    have : Lattice.field [HomogeneousField 0 ⟨0, 1, 0⟩] t X = .ok (0 + ⟨0, ⟨0, 1, 0⟩⟩) := rfl
    rw [this, zero_add]
  have t0 : ringCharge.t0 = 0 := rfl
  refine ⟨hm.position, ?_, ?_, ?_⟩
  · refine ⟨?_, continuousOn_const, ?_⟩
    · exact ((continuous_const.mul (Real.continuous_sin.comp (continuous_const.mul continuous_id))).neg).continuousOn
    · exact (continuous_const.mul (Real.continuous_cos.comp (continuous_const.mul continuous_id))).continuousOn
  · intro t h0 h1 hoff
    rw [t0] at h0
    rw [t0, zero_add] at h1
    rcases h0.eq_or_lt with rfl | h0
    · exfalso
      refine hoff (edgeDipole.p_1 + 0, edgeDipole.n_1) (by simp [edgeFaces]) ?_
      simp [OnFace, ringCharge, edgeDipole, dot]
    · obtain ⟨EB, e1, e2⟩ := hm.momentum t (by rw [t0]; exact h0.le) (by rw [t0, zero_add]; exact h1)
      rw [hf] at e1
      injection e1 with e1
      subst e1
      refine ⟨_, ?_, e2⟩
      rw [edgeLattice_field, if_pos (hxz t h0 h1)]
  · intro t h0 h1 f hf' _
    rw [t0] at h0
    rw [t0, zero_add] at h1
    have := (show 0 < (velOf (ringCharge.p t)).z from div_pos (hpz t h0 h1) (Real.sqrt_pos.mpr (by have := abs2nd_nonneg (ringCharge.p t); linarith)))
    simp only [edgeFaces, List.mem_cons, List.not_mem_nil, or_false] at hf'
    rcases hf' with rfl | rfl
    · simp [edgeDipole, dot]
      exact this.ne'
    · simp [edgeDipole, dot]
      exact this.ne'

/-- non-vacuity of C120 for the program: for all small time steps the program runs on any number of nodes, and the watch file shows the particle on its circle in
the dipole, up to a constant times the time step -/
example : ∃ C h0 : ℝ, 0 < h0 ∧ ∀ (h : ℝ) (n : Nat), 0 < h → h ≤ h0 → n < 2 ^ 31 → n * h ≤ 1e-11 →
    ∀ (rnd : Nat → (Nat → Nat → ℝ) × (Nat → Nat → Nat → ℝ)) (J : Indet) (nodes : Nat), 0 < nodes →
      ∃ fs, (edgeLib h n).program rnd J nodes edgeDoc = .ok fs ∧
        ∃ X P : Vec, (⟨"end.h5", .watch (.hdf5 1 [X.x, X.y, X.z, P.x, P.y, P.z])⟩ : OutFile) ∈ fs ∧
          (X - ringCharge.x (n * h)).norm ≤ C * h ∧ (P - ringCharge.p (n * h)).norm ≤ C * h := by
  have hst : ∀ (h : ℝ) (n : Nat), List.Forall₂ Charge.Starts [ringCharge] ({ progBeam (Real.sqrt 3) ⟨0, 0, 1⟩ with dt := h, NOTS := n } : Beam).all := by
    intro h n
    rw [ring_all]
    refine .cons ⟨?_, ?_, ?_, rfl, ?_, ?_⟩ .nil
    · show (1 / ElementaryCharge : ℝ) ≠ 0
      norm_num [ElementaryCharge]
    · show (1 / ElementaryCharge : ℝ) / (1 / ElementaryCharge) * InvRestMass = InvRestMass
      rw [div_self (by norm_num [ElementaryCharge]), one_mul]
    · show (1 / ElementaryCharge : ℝ) * ElementaryCharge = 1
      exact one_div_mul_cancel (by norm_num [ElementaryCharge])
    · show (⟨0, 0, 0⟩ : Vec) = ringCharge.x 0
      simp [ringCharge]
    · show (⟨0, 0, 1⟩ : Vec) * Real.sqrt 3 = ringCharge.p 0
      ext <;> simp [ringCharge]
  obtain ⟨C, h0, hh0, H⟩ := C120_watches edgeLattice edgeFaces edgeLattice_faces [ringCharge] 1e-11 (by norm_num) (by simpa using edge_motion)
  refine ⟨C, h0, hh0, ?_⟩
  intro h n hh hle hn hnT rnd J nodes hN
  obtain ⟨fs, hfs⟩ := edgeDoc_runs h n hn hh hnT rnd J nodes hN
  obtain ⟨d', d1, d2, _⟩ := H (edgeLib h n) rnd J nodes edgeDoc fs _ _ hN hfs (edgeDoc_parse h n hn (rnd 0)) (edgeDoc_master h n) rfl rfl (hst h n) h rfl hh
    hle ⟨n, "end.h5", .hdf5⟩ (by simp [edgeParsed]) n rfl (by simp [edgeParsed]) hnT
  refine ⟨fs, hfs, ?_⟩
  obtain ⟨pts, g1, g2⟩ := d2 rfl
  cases g2 with
  | cons a b =>
    cases b
    have e0 : ringCharge.t0 + n * h = n * h := zero_add _
    rw [e0] at a
    refine ⟨_, _, ?_, a.1, a.2⟩
    rw [g1] at d1
    simpa using d1

end Lib
end Teufel
