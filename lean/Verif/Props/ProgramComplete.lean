import Verif.Props.CoupledRuns

/-!
# C86: inputs with observers and a probe log which run to completion
-/

namespace Teufel
open Vec Input

/-- the straight lines through consecutive points of the trajectory, and the one along the momentum at its start, do not meet the observer -/
def Particle.OffLines (p : Particle) (obs : Vec) : Prop :=
  (∀ x m, p.TrajPoint (0 : Nat) = .ok x → p.TrajMomentum (0 : Nat) = .ok m → ∀ s : ℝ, obs ≠ x + m * s) ∧
  ∀ (i : Nat) x y, p.TrajPoint i = .ok x → p.TrajPoint (i + 1 : Nat) = .ok y → ∀ s : ℝ, obs ≠ lerp x y s

/-- the samples of a trace have positive distance in time -/
def Observer.StepPositive : Observer → Prop
  | .screen s => 0 < s.dt
  | .snapshot _ => True
  | .point s => 0 < s.trace.dt
  | .mesh s => ∀ tr ∈ s.A, 0 < tr.dt

/-- the observer of a particle is never hit: for traces no point of the trajectory coincides with a place of observation, for snapshots
the places are not on the lines through the points of the trajectory -/
def Observer.Clear (o : Observer) (p : Particle) : Prop :=
  ∀ k ∈ o.keys, ∀ t X, o.samplePoint k = .ok (t, X) →
    match o with
    | .snapshot _ => p.OffLines X
    | _ => p.OffTrajectory X

/-- the numbers of samples and of cells are within the limits of the program -/
def Observer.Sized (o : Observer) : Prop := 6 * o.keys.length < 2 ^ 31 ∧ ∀ s, o = .screen s → 3 * (s.Nx * s.Ny) < 2 ^ 32

theorem traceShare_exists (p : Particle) (hp : p.Reachable) (hs : p.Subluminal) (X : Vec) (t0 dt : ℝ) (n : Nat) (hdt : 0 < dt) (hoff : 2 ≤ n → p.OffTrajectory X) :
    ∃ g, traceShare X t0 dt n p = .ok g := by
  unfold traceShare
  by_cases hn : n < 2
  · have : p.integrateFieldTrace X (FieldTrace.new t0 dt n) = .ok (FieldTrace.new t0 dt n) := by
      unfold Particle.integrateFieldTrace
      exact if_pos hn
    rw [this]
    exact ⟨_, rfl⟩
  · obtain ⟨tr, h, _⟩ := C14_no_index_error p hp hs X (hoff (by omega)) (FieldTrace.new t0 dt n) (by simp [FieldTrace.WF, FieldTrace.new]) hdt
    rw [h]
    exact ⟨_, rfl⟩

theorem pshare_exists {o : Observer} (ho : o.Fresh) (hpos : o.StepPositive) (p : Particle) (hp : p.Reachable) (hs : p.Subluminal) (hn : 1 ≤ p.getNP) (hc : o.Clear p)
    {c : Nat × Nat} (hcell : c ∈ o.cellsOf) : ∃ g, o.pshare c p = .ok g := by
  have hwf := ho.ok.1
  cases o with
  | screen s =>
    refine traceShare_exists p hp hs _ _ _ _ hpos ?_
    intro h2
    obtain ⟨h1, h3⟩ := mem_cells.mp hcell
    exact hc (c, 0) (mem_samples.mpr ⟨h1, h3, by omega⟩) _ _ rfl
  | snapshot s =>
    have := hc (c, 0) (List.mem_map.mpr ⟨c, hcell, rfl⟩) _ _ rfl
    obtain ⟨F, hF⟩ := C11_defined p hp hs hn s.tObs _ this.1 this.2
    simp only [Observer.pshare]
    rw [hF]
    exact ⟨_, rfl⟩
  | point s =>
    refine traceShare_exists p hp hs _ _ _ _ hpos ?_
    intro h2
    exact hc ((0, 0), 0) (by simp only [Observer.keys, List.mem_map, List.mem_range]; exact ⟨0, by omega, rfl⟩) _ _ rfl
  | mesh s =>
    simp only [Observer.cellsOf, List.mem_map, List.mem_range] at hcell
    obtain ⟨i, hi, rfl⟩ := hcell
    have hw : s.WF := hwf
    have hp1 : MeshObs.at' s.points i = .ok (s.points[i]'(by rw [hw.points]; exact hi)) := by
      unfold MeshObs.at'; rw [List.getElem?_eq_getElem (by rw [hw.points]; exact hi)]
    have hp2 : MeshObs.at' s.A i = .ok (s.A[i]'(by rw [hw.cellNum]; exact hi)) := by
      unfold MeshObs.at'; rw [List.getElem?_eq_getElem (by rw [hw.cellNum]; exact hi)]
    simp only [Observer.pshare, hp1, hp2, bind, Except.bind]
    refine traceShare_exists p hp hs _ _ _ _ (hpos _ (List.getElem_mem _)) ?_
    intro h2
    refine hc ((i, 0), 0) ?_ ((s.A[i]'(by rw [hw.cellNum]; exact hi)).t0 + (0 : Nat) * (s.A[i]'(by rw [hw.cellNum]; exact hi)).dt) _ (by simp only [Observer.samplePoint, hp1, hp2, bind, Except.bind, pure, Except.pure])
    simp only [Observer.keys, List.mem_flatMap, List.mem_map, List.mem_range]
    exact ⟨i, hi, 0, by omega, rfl⟩

theorem share_lattice {o : Observer} (ho : o.Fresh) (f : FieldFn) (hf : ∀ t X, ∃ F, f t X = .ok F) {c : Nat × Nat} (hcell : c ∈ o.cellsOf) :
    ∃ g, o.share (.lattice f) c = .ok g := by
  have hwf := ho.ok.1
  have key : ∀ pos t0 dt n, ∃ g, shareAt (.lattice f) pos t0 dt n = .ok g := by
    intro pos t0 dt n
    obtain ⟨l, hl⟩ := mapM_exists (fun it : Nat => f (t0 + it * dt) pos) (List.range n) (fun it _ => hf _ _)
    unfold shareAt
    simp only
    rw [hl]
    exact ⟨_, rfl⟩
  cases o with
  | screen s => exact key _ _ _ _
  | snapshot s =>
    obtain ⟨F, hF⟩ := hf s.tObs (s.CellPosition c.1 c.2)
    simp only [Observer.share, fieldShare]
    rw [hF]
    exact ⟨_, rfl⟩
  | point s => exact key _ _ _ _
  | mesh s =>
    simp only [Observer.cellsOf, List.mem_map, List.mem_range] at hcell
    obtain ⟨i, hi, rfl⟩ := hcell
    have hw : s.WF := hwf
    have hp1 : MeshObs.at' s.points i = .ok (s.points[i]'(by rw [hw.points]; exact hi)) := by
      unfold MeshObs.at'; rw [List.getElem?_eq_getElem (by rw [hw.points]; exact hi)]
    have hp2 : MeshObs.at' s.A i = .ok (s.A[i]'(by rw [hw.cellNum]; exact hi)) := by
      unfold MeshObs.at'; rw [List.getElem?_eq_getElem (by rw [hw.cellNum]; exact hi)]
    simp only [Observer.share, hp1, hp2, bind, Except.bind]
    exact key _ _ _ _

/-- an observer of traces farther away than light gets during the run is never hit -/
theorem clear_far {o : Observer} (ho : ∀ s, o ≠ .snapshot s) {dt : ℝ} {q a : Particle} {k : Nat} (hq : q.Reachable) (hdt : 0 < dt) (h : Moved dt q k a)
    (hfar : ∀ key ∈ o.keys, ∀ t X, o.samplePoint key = .ok (t, X) → SpeedOfLight * (k * dt) < Vec.norm (X - q.XCur)) : o.Clear a := by
  intro key hkey t X hX
  have hoff : a.OffTrajectory X := by
    rintro l x hx rfl
    have h1 := h.reach hq hdt l X hx
    have h2 := hfar key hkey t X hX
    obtain ⟨ra, _, hn, _⟩ := h.facts hq hdt
    have hl : l ≤ k := by
      have := (List.getElem?_eq_some_iff.mp (get_of_TrajPoint hx)).1
      have := (cons_reachable ra).2.1
      simp only [Particle.getNP] at hn
      omega
    have h3 : SpeedOfLight * ((l : ℝ) * dt) ≤ SpeedOfLight * (k * dt) := by
      apply mul_le_mul_of_nonneg_left _ (by norm_num [SpeedOfLight])
      apply mul_le_mul_of_nonneg_right _ hdt.le
      exact_mod_cast hl
    linarith
  cases o with
  | snapshot s => exact absurd rfl (ho s)
  | screen s => exact hoff
  | point s => exact hoff
  | mesh s => exact hoff

theorem store_ok {b : Beam} (h : b.WF) (s : Snapshot) (hc : ∀ p ∈ b.all, ∃ c, p.CoordinatesAtTime s.tObs = .ok c) :
    ∃ buf n, s.storeParticlePositions b = .ok { s with particleBuffer := buf, particlesStored := n } ∧ buf.length = 6 * n := by
  obtain ⟨xs, hx⟩ := mapM_exists (fun p : Particle => p.CoordinatesAtTime s.tObs) b.all hc
  have hl := snap_length xs
  rw [(mapM_except_length hx).1] at hl
  refine ⟨xs.flatMap (fun xp : Vec × Vec => Particle.comps xp.1 ++ Particle.comps xp.2), b.all.length, ?_, hl⟩
  unfold Snapshot.storeParticlePositions
  rw [nop_all h, traverse_all h]
  simp only [bind, Except.bind]
  rw [hx]
  simp only
  rw [fill_exact _ _ hl]
  rfl

theorem pshare_reserve (o : Observer) (c : Nat × Nat) (n : Int) (p : Particle) : o.pshare c (p.reserve n) = o.pshare c p := by
  cases o <;> rfl

/-- a logger of one of `n` bunches, or of at most `P` tracked particles -/
def Logger.UsableOn (n P fuel : Nat) : Logger → Prop
  | .param b L => b < n ∧ 1 ≤ L.stepsize
  | .traj b L => b < n ∧ 1 ≤ L.stepsize
  | .probe L => 1 ≤ L.stepsize ∧ L.NOP ≤ P ∧ L.NOP ≤ fuel

theorem Logger.usableOn_update (junk : Nat → ℝ) (fuel : Nat) {m : Beam} (h : m.WF) (dt : ℝ) (nots : Int) (ps : List Particle) (l : Logger) (hl : l.UsableOn m.B.length ps.length fuel) :
    ∃ l', l.update junk fuel m (oneBunch dt nots ps) = .ok l' ∧ l'.UsableOn m.B.length ps.length fuel := by
  cases l with
  | param b L =>
    obtain ⟨L', h1, h2⟩ := param_update_ok junk fuel (oneBunch dt nots ps) hl.1 L
    exact ⟨_, h1, hl.1, by rw [h2]; exact hl.2⟩
  | traj b L =>
    obtain ⟨L', h1, h2⟩ := traj_update_ok junk fuel h (oneBunch dt nots ps) hl.1 L
    exact ⟨_, h1, hl.1, by rw [h2]; exact hl.2⟩
  | probe L =>
    obtain ⟨h1, h2, h3⟩ := hl
    have hp := oneBunch_probe dt nots ps fuel 0 L.NOP (by omega)
    rw [if_pos h3] at hp
    have hu : L.update fuel (oneBunch dt nots ps) = .ok { L with data := L.data ++ [((ps.drop 0).take L.NOP).flatMap Particle.bufferProbe], NOTS := L.NOTS + 1 } := by
      unfold ProbeLog.update Beam.bufferProbe
      rw [hp]
      simp only [bind, Except.bind, pure, Except.pure]
      rw [if_pos]
      rw [probe_len, List.drop_zero, List.length_take]
      simp only [Beam.getProbeBufferSize]
      have : min L.NOP ps.length = L.NOP := by omega
      rw [this]
      try omega
    have hv : Logger.update junk fuel m (oneBunch dt nots ps) (.probe L) =
        .ok (.probe { L with data := L.data ++ [((ps.drop 0).take L.NOP).flatMap Particle.bufferProbe], NOTS := L.NOTS + 1 }) := by
      simp only [Logger.update, hu, Except.map]
    exact ⟨_, hv, h1, h2, h3⟩

theorem Logger.usableOn_maybe (junk : Nat → ℝ) (fuel k : Nat) {m : Beam} (h : m.WF) (dt : ℝ) (nots : Int) (ps : List Particle) (l : Logger) (hl : l.UsableOn m.B.length ps.length fuel) :
    ∃ l', l.maybe junk fuel k m (oneBunch dt nots ps) = .ok l' ∧ l'.UsableOn m.B.length ps.length fuel := by
  have hst : l.stepsize ≠ 0 := by
    cases l with
    | param b L => have := hl.2; show L.stepsize ≠ 0; omega
    | traj b L => have := hl.2; show L.stepsize ≠ 0; omega
    | probe L => have := hl.1; show L.stepsize ≠ 0; omega
  unfold Logger.maybe logRequested
  rw [if_neg hst]
  simp only [bind, Except.bind, pure, Except.pure]
  by_cases hd : k % l.stepsize = 0
  · simp only [hd, decide_true, if_true]
    exact Logger.usableOn_update junk fuel h dt nots ps l hl
  · simp only [hd, decide_false, Bool.false_eq_true, if_false]
    exact ⟨l, rfl, hl⟩

/-- output before the run does not fail -/
theorem start_usable (junk : Nat → ℝ) (fuel : Nat) {m : Beam} (h : m.WF) (dt : ℝ) (nots : Int) (ps : List Particle) (o : Output) (ho : ∀ l ∈ o.loggers, l.UsableOn m.B.length ps.length fuel) :
    ∃ o', Output.start junk fuel m (oneBunch dt nots ps) o = .ok o' ∧ ∀ l ∈ o'.loggers, l.UsableOn m.B.length ps.length fuel := by
  obtain ⟨o1, ho1⟩ := writeWatches_wf h 0 o
  obtain ⟨ls, e1, e2⟩ := mapM_exists_prop (Logger.update junk fuel m (oneBunch dt nots ps)) (Logger.UsableOn m.B.length ps.length fuel) o.loggers
    (fun l hl => Logger.usableOn_update junk fuel h dt nots ps l (ho l hl))
  refine ⟨{ o1 with loggers := ls }, ?_, e2⟩
  unfold Output.start
  rw [ho1]
  simp only [bind, Except.bind, (writeWatches_loggers ho1).1, e1]
  rfl

/-- output after a step does not fail -/
theorem step_usable (junk : Nat → ℝ) (fuel k : Nat) {m : Beam} (h : m.WF) (dt : ℝ) (nots : Int) (ps : List Particle) (o : Output) (ho : ∀ l ∈ o.loggers, l.UsableOn m.B.length ps.length fuel) :
    ∃ o', Output.step junk fuel k m (oneBunch dt nots ps) o = .ok o' ∧ ∀ l ∈ o'.loggers, l.UsableOn m.B.length ps.length fuel := by
  obtain ⟨ls, e1, e2⟩ := mapM_exists_prop (Logger.maybe junk fuel k m (oneBunch dt nots ps)) (Logger.UsableOn m.B.length ps.length fuel) o.loggers
    (fun l hl => Logger.usableOn_maybe junk fuel k h dt nots ps l (ho l hl))
  obtain ⟨o1, ho1⟩ := writeWatches_wf h k { o with loggers := ls }
  refine ⟨o1, ?_, by rw [(writeWatches_loggers ho1).1]; exact e2⟩
  unfold Output.step
  simp only [bind, Except.bind, e1]
  exact ho1

namespace Lib

/-- the file of an observer is written -/
theorem file_written (L : Lib) (r : (Nat → Nat → ℝ) × (Nat → Nat → Nat → ℝ)) (spec : ObserverSpec) (hl : (L.withRandom r).Loaded spec) (m : Beam) (hm : m.WF) (o' : Observer)
    (ha : spec.observer.After o') (hsz : spec.observer.Sized)
    (hc : ∀ s, spec.source = .beam → spec.observer = .snapshot s → ∀ p ∈ m.all, ∃ c, p.CoordinatesAtTime s.tObs = .ok c) :
    ∃ o2 d, storeParticles m spec.source o' = .ok o2 ∧ L.generateOutput spec.file o2 = .ok d := by
  obtain ⟨o, src, fn⟩ := spec
  obtain ⟨hfr, hmesh⟩ := hl
  obtain ⟨h31, hcells⟩ := hsz
  simp only at hfr hmesh ha h31 hcells hc ⊢
  have hbl := ha.blank hfr
  have hwf := (ha.reachable hfr).wf
  cases hfr with
  | screen position dx dy nx ny t0 dt dtx dty nots =>
    have hp : 3 * (nx * ny) < 2 ^ 32 := hcells _ rfl
    have hlen : (Observer.screen (Screen.new position dx dy nx ny t0 dt dtx dty nots)).keys.length = nx * ny * nots := samples_length _
    rw [hlen] at h31
    obtain ⟨s, f, e1, hw, _⟩ := C79_screen position dx dy nx ny t0 dt dtx dty nots _ ha (by omega) hp
    subst e1
    refine ⟨.screen s, .hdf5 f, by cases src <;> rfl, ?_⟩
    simp only [generateOutput, hw, Except.map]
  | snapshot position dx dy nx ny t =>
    obtain ⟨s0, e0, h1, h2, h3, h4, h5, h6, h7, hw⟩ := snapshot_after ha
    subst e0
    have hlen : (Observer.snapshot (Snapshot.new position dx dy nx ny t)).keys.length = nx * ny := by
      show ((cells nx ny).map _).length = _
      rw [List.length_map, cells_length]
    rw [hlen] at h31
    obtain ⟨g, hg⟩ := Observer.values (o := .snapshot s0) hw
    have hst : ∃ buf n, storeParticles m src (.snapshot s0) = .ok (.snapshot { s0 with particleBuffer := buf, particlesStored := n }) ∧ (n = 0 ∨ buf.length = 6 * n) := by
      cases src with
      | lattice => exact ⟨s0.particleBuffer, s0.particlesStored, rfl, Or.inl h7⟩
      | beam =>
        obtain ⟨buf, n, e1, e2⟩ := store_ok hm s0 (by
          rw [h6]
          exact hc _ rfl rfl)
        refine ⟨buf, n, ?_, Or.inr e2⟩
        simp only [storeParticles, e1, Except.map]
    obtain ⟨buf, n, e1, e2⟩ := hst
    generalize hs1 : ({ s0 with particleBuffer := buf, particlesStored := n } : Snapshot) = s1 at e1
    have hw1 : s1.WF := by subst hs1; exact ⟨hw.rows, hw.cols⟩
    have hg1 : ∀ k ∈ (Observer.snapshot s1).keys, (Observer.snapshot s1).get k = .ok (g k) := by subst hs1; exact hg
    have n1 : s1.Nx = nx := by subst hs1; exact h1
    have n2 : s1.Ny = ny := by subst hs1; exact h2
    have e2' : s1.particlesStored = 0 ∨ s1.particleBuffer.length = 6 * s1.particlesStored := by subst hs1; exact e2
    have hps : ∃ c, s1.particleSet = .ok c := by
      by_cases hpos : s1.particlesStored > 0
      · have hlen' : [s1.particlesStored, 6].prod ≤ s1.particleBuffer.length := by
          simp only [List.prod_cons, List.prod_nil]
          omega
        refine ⟨[⟨"ParticleCoordinates", [s1.particlesStored, 6], s1.particleBuffer.take [s1.particlesStored, 6].prod, [("N_particles", s1.particlesStored)], []⟩], ?_⟩
        unfold Snapshot.particleSet h5write
        rw [if_pos hpos, if_neg (by omega)]
        rfl
      · exact ⟨[], by unfold Snapshot.particleSet; rw [if_neg hpos]⟩
    obtain ⟨c, hc1⟩ := hps
    have hwr := Snapshot.writeFile_ok hw1 (by rw [n1, n2]; omega) g hg1 c hc1
    have hout : ∃ d, L.generateOutput fn (.snapshot s1) = .ok d := by
      simp only [generateOutput, hwr, Except.map]
      exact ⟨_, rfl⟩
    obtain ⟨d, hd⟩ := hout
    exact ⟨.snapshot s1, d, e1, hd⟩
  | point position t0 dt nots =>
    have hlen : (Observer.point (PointObs.new position t0 dt nots)).keys.length = nots := by simp [Observer.keys, PointObs.new, FieldTrace.new]
    rw [hlen] at h31
    obtain ⟨s, f, e1, hw, _⟩ := C79_point position t0 dt nots _ ha (by omega)
    subst e1
    refine ⟨.point s, .point f, by cases src <;> rfl, ?_⟩
    simp only [generateOutput, hw, Except.map]
  | mesh points t0s dt nt hpt =>
    obtain ⟨f, ms, hf, hof, hms⟩ := hmesh _ rfl
    obtain ⟨⟨c1, c2, c3, c4, c5⟩, _⟩ := C73_created f ms hof
    cases o' with
    | screen s => cases hbl
    | snapshot s => cases hbl
    | point s => cases hbl
    | mesh s =>
      rw [hms] at hbl
      injection hbl with hbl
      have b1 : s.Np = ms.Np := congrArg MeshObs.Np hbl
      have b2 : s.Nt = ms.Nt := congrArg MeshObs.Nt hbl
      have b4 : s.A.map bare = ms.zero.A.map bare := congrArg MeshObs.A hbl
      have hwf' : s.WF := hwf
      have hws : ({ ms with A := s.A } : Mesh).WellSampled := by
        refine ⟨c1, c2, c3, by rw [hwf'.cellNum, b1], ?_⟩
        intro tr htr
        obtain ⟨j, hj⟩ := List.getElem?_of_mem htr
        have h1 := hwf'.traces j tr (by unfold MeshObs.at'; rw [hj])
        refine ⟨h1.1, by rw [h1.2, b2], ?_⟩
        have h2 := congrArg (fun l => l[j]?) b4
        simp only [List.getElem?_map, hj, Option.map_some] at h2
        have hz : ms.zero.A = ms.A.map FieldTrace.zero := rfl
        rw [hz, List.getElem?_map] at h2
        cases hmj : ms.A[j]? with
        | none => rw [hmj] at h2; cases h2
        | some tr' =>
          rw [hmj] at h2
          simp only [Option.map_some, Option.some.injEq] at h2
          have h3 := (bare_eq h2).2.1
          rw [h3]
          exact (c5 tr' (List.mem_of_getElem? hmj)).2.2
      have hsize : ms.Np * ms.Nt * 6 < 2 ^ 31 := by
        rw [hms, Observer.mesh_keys_length] at h31
        change 6 * (ms.Np * ms.Nt) < 2 ^ 31 at h31
        omega
      have hwr := Mesh.writeFile_ok { ms with A := s.A } hws hsize
      have hneed : L.mesh fn = some f := hf
      have hout : ∃ d, L.generateOutput fn (.mesh s) = .ok d := by
        simp only [generateOutput, hneed, need, hof, bind, Except.bind, hwr, Except.map]
        exact ⟨_, rfl⟩
      obtain ⟨d, hd⟩ := hout
      exact ⟨.mesh s, d, by cases src <;> rfl, hd⟩

/-- the interactions of a document come from the constructor -/
theorem interactions_constructed (L : Lib) (doc : Xml) (p : Parsed) (h : L.parse doc = .ok p) (fs : List FEL) (hfs : p.tracking.state.interactions.mapM id = .ok fs) :
    ∀ f ∈ fs, FEL.Constructed f := by
  suffices H : ∀ f, .ok f ∈ p.tracking.state.interactions → FEL.Constructed f by
    intro f hf
    obtain ⟨r, hr, hrf⟩ := mapM_mem hfs f hf
    exact H f (by rw [← show r = .ok f from hrf]; exact hr)
  clear hfs fs
  unfold parse at h
  simp only [bind, Except.bind, pure, Except.pure] at h
  cases h1 : need (doc.child "teufel") with
  | error e => rw [h1] at h; cases h
  | ok root =>
  rw [h1] at h
  simp only at h
  cases h2 : L.parseLattice root (L.start root) [] with
  | error e => rw [h2] at h; cases h
  | ok lat =>
  rw [h2] at h
  simp only at h
  cases h3 : L.parseBeam root lat.env with
  | error e => rw [h3] at h; cases h
  | ok be =>
  rw [h3] at h
  simp only at h
  cases h4 : L.parseTracking root be.env with
  | error e => rw [h4] at h; cases h
  | ok tr =>
  rw [h4] at h
  simp only at h
  cases h5 : L.parseObservers root tr.state.env with
  | error e => rw [h5] at h; cases h
  | ok ob =>
  rw [h5] at h
  injection h with h
  subst h
  simp only
  unfold parseTracking at h4
  simp only [bind, Except.bind, pure, Except.pure] at h4
  cases h6 : need (root.child "tracking") with
  | error e => rw [h6] at h4; cases h4
  | ok track =>
  rw [h6] at h4
  simp only at h4
  split at h4
  · cases h4
  split at h4
  · cases h4
  split at h4
  · cases h4
  split at h4
  · cases h4
  cases h7 : track.children.foldlM (L.trackStep track) ⟨be.env, [], []⟩ with
  | error e => rw [h7] at h4; cases h4
  | ok st =>
  rw [h7] at h4
  injection h4 with h4
  subst h4
  simp only
  have key : ∀ (l : List Xml) (s s' : TrackState), l.foldlM (L.trackStep track) s = .ok s' →
      (∀ f, .ok f ∈ s.interactions → FEL.Constructed f) → ∀ f, .ok f ∈ s'.interactions → FEL.Constructed f := by
    intro l
    induction l with
    | nil =>
      intro s s' h hs
      injection h with h
      subst h
      exact hs
    | cons x l ih =>
      intro s s' h hs
      rw [List.foldlM_cons] at h
      cases hx : L.trackStep track s x with
      | error e => rw [hx] at h; cases h
      | ok s1 =>
        rw [hx] at h
        refine ih s1 s' h ?_
        unfold trackStep at hx
        have watch : ∀ ty, L.watchEntry ty s x = .ok s1 → s1.interactions = s.interactions := by
          intro ty hy
          unfold watchEntry at hy
          simp only [bind, Except.bind, pure, Except.pure] at hy
          split at hy
          · cases hy
          split at hy
          · cases hy
          split at hy
          · cases hy
          injection hy with hy
          rw [← hy]
        split_ifs at hx with c1 c2 c3 c4
        · injection hx with hx
          subst hx
          exact hs
        · unfold felEntry at hx
          simp only [bind, Except.bind, pure, Except.pure] at hx
          split at hx
          · cases hx
          next N hN =>
          split at hx
          · cases hx
          next r hr =>
          injection hx with hx
          rw [← hx]
          intro f hf
          simp only [List.mem_append, List.mem_singleton] at hf
          rcases hf with hf | hf
          · exact hs f hf
          · rw [← hf] at hr
            unfold keepPoisoned at hr
            split at hr
            · injection hr with hr; cases hr
            · cases hr
            next a ha =>
              injection hr with hr
              injection hr with hr
              rw [hr] at ha
              refine .ofInput ?_ ha
              intro n hn
              simp only [felInput] at hn
              subst hn
              unfold cellCount at hN
              split at hN
              · cases hN
              · unfold int at hN
                split at hN
                · simp only [Except.map] at hN
                  injection hN with hN
                  injection hN with hN
                  rw [← hN]
                  norm_num
                · unfold toInt32 at hN
                  split at hN
                  next hb =>
                    simp only [Except.map] at hN
                    injection hN with hN
                    injection hN with hN
                    rw [← hN]
                    exact hb.2
                  · cases hN
        · rw [watch _ hx]; exact hs
        · rw [watch _ hx]; exact hs
  exact key _ _ _ h7 (by simp)

/-- what an observer needs: sizes within the limits of the program and, for the field of the beam, positive time steps, and no particle passing
exactly through a place of observation; the particles are those of the serial calculation with the interactions `s` -/
def ObserverFits (p : Parsed) (m : Beam) (s : List FEL) (spec : ObserverSpec) : Prop :=
  spec.observer.Sized ∧ (spec.source = .beam → 0 < p.tracking.timeStep ∧ spec.observer.StepPositive ∧
    ∀ ps S, Coupled.after p.lattice.lattice p.tracking.timeStep m.all s p.tracking.NOTS.toNat = .ok (ps, S) → ∀ a ∈ ps, spec.observer.Clear a)

/-- what an interaction with a log needs: an output step and less than 2³¹ numbers in the file -/
def FelFits (NOTS : Nat) (f : FEL) : Prop := (∃ d, f.stepOutput = some d) ∧ f.N * (NOTS + 1) < 2 ^ 31

/-- what the probe log needs: a positive step size and at most 2³² numbers -/
def ProbeFits (m : Beam) (NOTS nodes fuel : Nat) (pr : ProbeSpec) : Prop :=
  1 ≤ toUnsigned pr.step ∧ ∀ total, m.getNOP = .ok total → min (toUnsigned pr.number) ⌈(total : ℚ) / nodes⌉₊ ≤ fuel ∧
    (1 + NOTS / toUnsigned pr.step) * min (toUnsigned pr.number) ⌈(total : ℚ) / nodes⌉₊ * 16 < 2 ^ 32

/-- the particles and interactions are tracked for as many steps as the serial calculation can be done, if the logs can be kept -/
theorem tracking_reaches (L : Lib) (r : (Nat → Nat → ℝ) × (Nat → Nat → Nat → ℝ)) (J : Indet) (N : Nat) (doc : Xml) (p : Parsed) (m : Beam) (hp : (L.withRandom r).parse doc = .ok p)
    (hm : masterBeam p = .ok m) (hlogs : ∀ l ∈ p.beam.logs, LogFits m p.tracking.NOTS.toNat l)
    (hprobe : ∀ pr, p.beam.probe = some pr → ProbeFits m p.tracking.NOTS.toNat (N + 1) J.fuel pr) (ms : List Beam) (h1 : ms.length = N)
    (h2 : ∀ b ∈ m :: ms, Beam.Reachable b) (h3 : ∀ b ∈ m :: ms, Beam.blank b = m.blank) (s : List FEL) (k : Nat)
    (hrun : ∃ r, Coupled.after p.lattice.lattice p.tracking.timeStep m.all s k = .ok r) :
    ∃ loggers w, p.beam.logs.mapM (LogSpec.create m) = .ok loggers ∧
      runSteps (tracking p J (N + 1)).run (m :: ms) s ⟨loggers, p.tracking.state.watches, []⟩ k = .ok w := by
  have hlen : (m :: ms).length = (tracking p J (N + 1)).run.nodes := by simp [h1]; rfl
  have hN' : 0 < (tracking p J (N + 1)).run.nodes := by show 0 < N + 1; omega
  have hnodes : (tracking p J (N + 1)).run.nodes = N + 1 := rfl
  have hbn := master_bunches hm
  have hlb := parse_logs _ doc p hp
  have hwf : ∀ b ∈ m :: ms, Beam.WF b := fun b hb => Beam.wf_reachable (h2 b hb)
  have hmwf := hwf m (by simp)
  have htot := nop_all hmwf
  have hsum : (m.B.map Bunch.getNOP).sum = m.all.length := by
    have hall : ∀ l : List Bunch, (∀ bu ∈ l, bu.WF) → (l.map Bunch.getNOP).sum = (l.flatMap (fun bu => bu.P)).length := by
      intro l
      induction l with
      | nil => intro _; rfl
      | cons x l ih =>
        intro h
        rw [List.map_cons, List.sum_cons, List.flatMap_cons, List.length_append, ih (fun b hb => h b (by simp [hb]))]
        have := (h x (by simp)).1
        simp only [Bunch.getNOP]
        omega
    exact hall m.B hmwf.2
  have hle : trackingNOP m.all.length (N + 1) ≤ m.all.length := trackingNOP_le _ _ (by omega)
  obtain ⟨P, hP⟩ : ∃ P, P = trackingNOP m.all.length (N + 1) := ⟨_, rfl⟩
  have hceil : ⌈(m.all.length : ℚ) / ((N + 1 : Nat) : ℚ)⌉₊ = P := by rw [hP, trackingNOP_ceil _ _ (by omega)]
  obtain ⟨loggers, hl, hus⟩ := mapM_exists_prop (LogSpec.create m) (Logger.UsableOn m.B.length P J.fuel) p.beam.logs (by
    intro l hl
    have hb := hlb l hl
    have hf := hlogs l hl
    rw [← hbn] at hb
    cases l with
    | param b f st bf => exact ⟨_, rfl, hb, hf⟩
    | traj b f st n =>
      have hb : b < m.B.length := hb
      have hbu := List.getElem?_eq_getElem hb
      refine ⟨.traj b (TrajLog.new m.B[b] (toUnsigned st) (toUnsigned n)), ?_, hb, hf.1⟩
      simp only [LogSpec.create, Particle.vecAt, hbu, Except.map]
      try rfl)
  have hstart : (tracking p J (N + 1)).run.startOut = match p.beam.probe with
      | none => Output.start J.traj J.fuel
      | some pr => Output.startProbe J.traj J.fuel (toUnsigned pr.step) (toUnsigned pr.number) := rfl
  have hsize : ∀ b : Beam, b.B.map Bunch.getNOP = m.B.map Bunch.getNOP → b.B.length = m.B.length := by
    intro b e
    simpa using congrArg List.length e
  have hshare : ∀ t, (tracking p J (N + 1)).run.FirstShare (m.B.map Bunch.getNOP) t → ∃ dt nots ps, t = oneBunch dt nots ps ∧ ps.length = P := by
    rintro t ⟨dt, nots, ps, e1, e2⟩
    refine ⟨dt, nots, ps, e1, ?_⟩
    rw [e2, hsum, hnodes, hP]
    omega
  obtain ⟨w, hw, _⟩ := coupled_progress (tracking p J (N + 1)) m (fun o => ∀ l ∈ o.loggers, l.UsableOn m.B.length P J.fuel) (fun o => ∀ l ∈ o.loggers, l.UsableOn m.B.length P J.fuel)
    (by
      intro b t o hbwf hsz hsh ho
      obtain ⟨dt, nots, ps, rfl, hps⟩ := hshare t hsh
      rw [hstart]
      rw [← hsize b hsz, ← hps] at ho ⊢
      cases hpr : p.beam.probe with
      | none => exact start_usable J.traj J.fuel hbwf dt nots ps o ho
      | some pr =>
        obtain ⟨f1, f2⟩ := hprobe pr hpr
        obtain ⟨f2, f3⟩ := f2 _ htot
        rw [hceil] at f2 f3
        simp only [Output.startProbe, ProbeLog.new, oneBunch_nop, bind, Except.bind, pure, Except.pure]
        refine start_usable J.traj J.fuel hbwf dt nots ps _ ?_
        intro l hl
        simp only [List.mem_append, List.mem_singleton] at hl
        rcases hl with hl | rfl
        · exact ho l hl
        · refine ⟨f1, ?_, ?_⟩
          · show (if ps.length > toUnsigned pr.number then toUnsigned pr.number else ps.length) ≤ ps.length
            split_ifs <;> omega
          · show (if ps.length > toUnsigned pr.number then toUnsigned pr.number else ps.length) ≤ J.fuel
            rw [← hps] at f2
            split_ifs <;> omega)
    (by
      intro k b t o _ hbwf hsz hsh ho
      obtain ⟨dt, nots, ps, rfl, hps⟩ := hshare t hsh
      rw [← hsize b hsz, ← hps] at ho ⊢
      exact step_usable J.traj J.fuel k hbwf dt nots ps o ho)
    hN' (m :: ms) hlen h2 rfl h3 (by
        unfold masterBeam at hm
        simp only [bind, Except.bind, pure, Except.pure] at hm
        split at hm
        · cases hm
        · injection hm with hm; rw [← hm]) s ⟨loggers, p.tracking.state.watches, []⟩ hus k (by rw [master_dt hm]; exact hrun)
  exact ⟨loggers, w, hl, hw⟩

/-- **C86 (from the serial calculation).** A document which can be parsed, with a non-negative number of steps, a lattice whose
field exists everywhere, logs with positive step size (and at most 2³² numbers), observers as described by `ObserverFits` and interactions with outputs as
described by `FelFits` runs to completion on any number of nodes and whatever the random numbers of other nodes and the contents of communication buffers are,
if the serial calculation of particles and interactions does. -/
theorem C86_coupled (L : Lib) (rnd : Nat → (Nat → Nat → ℝ) × (Nat → Nat → Nat → ℝ)) (J : Indet) (nodes : Nat) (hN : 0 < nodes) (doc : Xml) (p : Parsed) (m : Beam)
    (hp : (L.withRandom (rnd 0)).parse doc = .ok p) (hm : masterBeam p = .ok m) (hNOTS : 0 ≤ p.tracking.NOTS)
    (hlat : ∀ t X, ∃ F, Lattice.field p.lattice.lattice t X = .ok F)
    (hlogs : ∀ l ∈ p.beam.logs, LogFits m p.tracking.NOTS.toNat l)
    (hprobe : ∀ pr, p.beam.probe = some pr → ProbeFits m p.tracking.NOTS.toNat nodes J.fuel pr)
    (s : List FEL) (hint : p.tracking.state.interactions.mapM id = .ok s)
    (hfel : ∀ (i : Nat) (f : FEL) (name : String), s[i]? = some f → (felFiles doc)[i]? = some (some name) → FelFits p.tracking.NOTS.toNat f)
    (hobs : ∀ spec ∈ p.observers.observers, ObserverFits p m s spec)
    (hrun : ∃ r, Coupled.after p.lattice.lattice p.tracking.timeStep m.all s p.tracking.NOTS.toNat = .ok r) :
    ∃ fs, L.program rnd J nodes doc = .ok fs := by
  obtain ⟨N, rfl⟩ : ∃ N, nodes = N + 1 := ⟨nodes - 1, by omega⟩
  obtain ⟨ms, h1, h2, h3, h4⟩ := program_ok L rnd J N doc p hp m hm
  have hlen : (m :: ms).length = (tracking p J (N + 1)).run.nodes := by simp [h1]; rfl
  have hN' : 0 < (tracking p J (N + 1)).run.nodes := by show 0 < N + 1; omega
  have hnodes : (tracking p J (N + 1)).run.nodes = N + 1 := rfl
  have hbn := master_bunches hm
  have hlb := parse_logs _ doc p hp
  have hwf : ∀ b ∈ m :: ms, Beam.WF b := fun b hb => Beam.wf_reachable (h2 b hb)
  have hmwf := hwf m (by simp)
  have htot := nop_all hmwf
  obtain ⟨loggers, w, hl, hw⟩ := tracking_reaches L (rnd 0) J N doc p m hp hm hlogs hprobe ms h1 h2 h3 s _ hrun
  rw [h4, if_neg (by omega)]
  simp only [bind, Except.bind, hint, hl]
  have hw' : runAll (tracking p J (N + 1)).run (m :: ms) s ⟨loggers, p.tracking.state.watches, []⟩ = .ok w := hw
  rw [hw']
  simp only
  obtain ⟨hcount, hne⟩ := run_counted _ hN' (m :: ms) hlen hwf m rfl h3 s _ _ w hw
  obtain ⟨hnl, M, S, hT, hM⟩ := run_together (tracking p J (N + 1)) hN' (m :: ms) hlen h2 m rfl h3 s _ _ w hw
  obtain ⟨ps, hps, hflat, _⟩ := hT.now
  have hpast := hT.past
  rw [master_dt hm] at hps hpast
  have hdtm := master_dt hm
  have hcon := interactions_constructed _ doc p hp s hint
  have hat := after_at hcon hps
  have hmr : ∀ q ∈ m.all, q.Reachable := by
    intro q hq
    simp only [Beam.all, List.mem_flatMap] at hq
    obtain ⟨bu, b1, b2⟩ := hq
    exact (hmwf.2 bu b1).2 q b2
  unfold finish
  cases hn : w.nodes with
  | nil => exact absurd hn hne
  | cons root rest =>
    have hroot : w.root = some (root.master, root.tracked) := by simp [World.root, hn]
    obtain ⟨hrM, hri⟩ := hM root (by simp [hn])
    obtain ⟨logs, hlogs'⟩ := mapM_exists (fun nl : String × Logger => (nl.2.writeData root.master).map (fun d => (⟨nl.1, d⟩ : OutFile))) ((logFiles p).zip w.out.loggers) (by
      intro nl hnl
      obtain ⟨i, hi⟩ := List.getElem?_of_mem hnl
      obtain ⟨nm, lg⟩ := nl
      rw [List.getElem?_zip_eq_some] at hi
      obtain ⟨hi1, hi2⟩ := hi
      have hi2' : w.out.loggers[i]? = some lg := hi2
      unfold logFiles at hi1
      by_cases hlt : i < p.beam.logs.length
      · rw [List.getElem?_append_left (by simpa using hlt)] at hi1
        simp only [List.getElem?_map, Option.map_eq_some_iff] at hi1
        obtain ⟨sp, hsp, _⟩ := hi1
        obtain ⟨l0, c1, c2⟩ := mapM_get hl i sp hsp
        have hf := hlogs sp (List.mem_of_getElem? hsp)
        cases sp with
        | param b f st bf =>
          simp only [LogSpec.create] at c1
          injection c1 with c1
          subst c1
          obtain ⟨log, bu, F, g1, g2, g3, _⟩ := C81_parameter _ J.traj J.fuel (tracking_records p J (N + 1)) hN' (m :: ms) hlen h2 m rfl h3 s _ i b (toUnsigned st) bf hf c2 _ w hw root.master root.tracked hroot
          rw [hi2'] at g1
          injection g1 with g1
          subst g1
          simp only [g3, Except.map]
          exact ⟨_, rfl⟩
        | traj b f st n =>
          have hb : b < m.B.length := by rw [hbn]; exact hlb _ (List.mem_of_getElem? hsp)
          have hbu := List.getElem?_eq_getElem hb
          simp only [LogSpec.create, Particle.vecAt, hbu, Except.map] at c1
          injection c1 with c1
          subst c1
          have hnop : m.B[b].getNOP = m.B[b].P.length := (hmwf.2 _ (List.mem_of_getElem? hbu)).1
          obtain ⟨log, F, g1, g2, _⟩ := C81_trajectory_partial _ J.traj J.fuel (tracking_records p J (N + 1)) hN' (m :: ms) hlen h2 m rfl h3 s _ i b (toUnsigned st) (toUnsigned n) m.B[b] hbu hf.1 c2 _ w hw
            root.master (by rw [hnop]; exact hf.2 _ hbu)
          rw [hi2'] at g1
          injection g1 with g1
          subst g1
          simp only [g2, Except.map]
          exact ⟨_, rfl⟩
      · rw [List.getElem?_append_right (by simp; omega), List.length_map] at hi1
        cases hpr : p.beam.probe with
        | none => rw [hpr] at hi1; simp at hi1
        | some pr =>
          have hieq : i = p.beam.logs.length := by
            rw [hpr] at hi1
            have := (List.getElem?_eq_some_iff.mp hi1).1
            simp at this
            omega
          have hll : loggers.length = i := by rw [hieq]; exact (mapM_except_length hl).1
          obtain ⟨f1, f2⟩ := hprobe pr hpr
          obtain ⟨f2, f3⟩ := f2 _ htot
          have hrec := tracking_records p J (N + 1)
          rw [hpr] at hrec
          obtain ⟨log, F, g1, g2, _⟩ := C81_probe_partial _ J.traj J.fuel (toUnsigned pr.step) (toUnsigned pr.number) hrec hN' (m :: ms) hlen h2 m rfl h3 _ htot s ⟨loggers, p.tracking.state.watches, []⟩ f1 _ w hw
            root.master f3
          rw [hll, hi2'] at g1
          injection g1 with g1
          subst g1
          simp only [g2, Except.map]
          exact ⟨_, rfl⟩)
    obtain ⟨obs, hobs'⟩ := mapM_exists (L.observeSpec w p.lattice.lattice root.master) p.observers.observers (by
      intro spec hspec
      have hload := (parse_loaded _ doc p hp).1 spec hspec
      obtain ⟨ow, oz⟩ := hload.1.ok
      obtain ⟨hsz, hbeam⟩ := hobs spec hspec
      have rwf : root.master.WF := by rw [hrM]; exact hT.wf
      have hcoord : spec.source = .beam → ∀ (t : ℝ), ∀ q ∈ root.master.all, ∃ c, q.CoordinatesAtTime t = .ok c := by
        intro hsrc t q hq
        obtain ⟨hdt, _, _⟩ := hbeam hsrc
        have hqr : q.Reachable := by
          simp only [Beam.all, List.mem_flatMap] at hq
          obtain ⟨bu, b1, b2⟩ := hq
          exact (rwf.2 bu b1).2 q b2
        rw [hrM] at hq
        obtain ⟨i, hi⟩ := List.getElem?_of_mem hq
        have hil := (List.getElem?_eq_some_iff.mp hi).1
        obtain ⟨n1, n2, _, _⟩ := hT.np q hq
        have hlm : m.all.length = M.all.length := by
          have e1 := (hT.now.choose_spec.2.2).length_eq
          have e2 := (after_moved hT.now.choose_spec.1).length_eq
          rw [e1, e2]
        have hq0 : m.all[i]'(by omega) ∈ m.all := List.getElem_mem _
        have htimes : ∀ l : Nat, l ≤ p.tracking.NOTS.toNat → q.TrajTime l = .ok ((m.all[i]'(by omega)).tCur + l * p.tracking.timeStep) := by
          intro l hl
          obtain ⟨ps', S', e1, e2⟩ := hpast l hl
          have hm' := after_moved e1
          have hil' : i < ps'.length := by rw [← e2.length_eq]; exact hil
          have c1 := List.Forall₂.get e2 hil hil'
          have c2 := List.Forall₂.get hm' (by omega) hil'
          simp only [List.get_eq_getElem] at c1 c2
          have c3 := (c2.facts (hmr _ hq0) hdt).2.2.2.2
          rw [← c3]
          rw [List.getElem?_eq_getElem hil] at hi
          injection hi with hi
          rw [hi] at c1
          exact TrajTime_of_get (cons_reachable hqr) c1.1
        refine C10_defined q hqr ?_ t
        intro k l hkl tk tl hk hl
        have hll : l ≤ p.tracking.NOTS.toNat := by
          have := (List.getElem?_eq_some_iff.mp (get_of_TrajTime hl)).1
          omega
        rw [htimes k (by omega)] at hk
        rw [htimes l hll] at hl
        injection hk with hk
        injection hl with hl
        rw [← hk, ← hl]
        have : (k : ℝ) < l := by exact_mod_cast hkl
        nlinarith
      have hfin : ∀ o1, spec.observer.After o1 → ∃ o2 d, storeParticles root.master spec.source o1 = .ok o2 ∧ L.generateOutput spec.file o2 = .ok d := by
        intro o1 ha
        exact file_written L (rnd 0) spec hload root.master rwf o1 ha hsz (fun s e _ q hq => hcoord e s.tObs q hq)
      unfold observeSpec
      cases hsrc : spec.source with
      | beam =>
        obtain ⟨hdt, hpos, hclear⟩ := hbeam hsrc
        have hc : ∀ s ∈ w.nodes.map (fun n => RadSource.beam n.tracked), s.Counted := by
          intro s hs
          simp only [List.mem_map] at hs
          obtain ⟨n, hn, rfl⟩ := hs
          exact hcount n hn
        obtain ⟨o1, ho⟩ := (Observer.observe_spec ow oz _ (by simpa using hne) hc).2 ⟨hsz.1, by
          intro c hcell
          rw [sumM_nodes ow _ hcell, Observer.sumM_ok_iff, hflat]
          intro q hq
          obtain ⟨a, ha, rfl⟩ := List.mem_map.mp hq
          rw [pshare_reserve]
          obtain ⟨i, hi⟩ := List.getElem?_of_mem ha
          have hil := (List.getElem?_eq_some_iff.mp hi).1
          have hmv := after_moved hps
          have hil' : i < m.all.length := by rw [hmv.length_eq]; exact hil
          have c2 := List.Forall₂.get hmv hil' hil
          simp only [List.get_eq_getElem] at c2
          rw [List.getElem?_eq_getElem hil] at hi
          injection hi with hi
          rw [hi] at c2
          obtain ⟨r1, r2, r3, _⟩ := c2.facts (hmr _ (List.getElem_mem _)) hdt
          exact pshare_exists hload.1 hpos a r1 r2 (by omega) (hclear ps S hps a ha) hcell⟩
        obtain ⟨o2, d, e1, e2⟩ := hfin o1 (observe_after hload.1 _ (by simpa using hne) hc ho)
        rw [hsrc] at e1
        have ho' : observeBeam w spec.observer = .ok o1 := ho
        simp only [ho', bind, Except.bind, e1, e2, caught]
        exact ⟨_, rfl⟩
      | lattice =>
        have hc : ∀ s ∈ List.replicate w.nodes.length (RadSource.lattice (Lattice.field p.lattice.lattice)), s.Counted := by
          intro s hs
          rw [(List.mem_replicate.mp hs).2]
          trivial
        have hne' : List.replicate w.nodes.length (RadSource.lattice (Lattice.field p.lattice.lattice)) ≠ [] := by simp [hn]
        obtain ⟨o1, ho⟩ := (Observer.observe_spec ow oz _ hne' hc).2 ⟨hsz.1, by
          intro c hcell
          rw [Observer.sumM_ok_iff]
          intro s hs
          rw [(List.mem_replicate.mp hs).2]
          exact share_lattice hload.1 _ hlat hcell⟩
        obtain ⟨o2, d, e1, e2⟩ := hfin o1 (observe_after hload.1 _ hne' hc ho)
        rw [hsrc] at e1
        have ho' : observeLattice w.nodes.length p.lattice.lattice spec.observer = .ok o1 := ho
        simp only [ho', bind, Except.bind, e1, e2, caught]
        exact ⟨_, rfl⟩)
    obtain ⟨fels, hfels⟩ := mapM_exists felOutput (S.zip (felFiles doc)) (by
      intro fn hfn
      obtain ⟨i, hi⟩ := List.getElem?_of_mem hfn
      obtain ⟨f, name⟩ := fn
      rw [List.getElem?_zip_eq_some] at hi
      obtain ⟨hi1, hi2⟩ := hi
      cases name with
      | none => exact ⟨_, rfl⟩
      | some name =>
        have hil := (List.getElem?_eq_some_iff.mp hi1).1
        have hil' : i < s.length := by rw [hat.length_eq]; exact hil
        have c := List.Forall₂.get hat hil' hil
        simp only [List.get_eq_getElem] at c
        have hi1' := hi1
        rw [List.getElem?_eq_getElem hil] at hi1'
        injection hi1' with hi1'
        rw [hi1'] at c
        obtain ⟨⟨d, f1⟩, f2⟩ := hfel i _ name (List.getElem?_eq_getElem hil') hi2
        obtain ⟨o, ho, _⟩ := FEL.writeOutput_ok c.reach (d := d) (by rw [c.out]; exact f1) (by
          rw [c.N]
          have := Nat.mul_le_mul_left (s[i].N) c.records
          omega)
        simp only [felOutput, ho, Except.map]
        exact ⟨_, rfl⟩)
    simp only [bind, Except.bind]
    rw [hlogs', hri, hfels]
    simp only [pure, Except.pure]
    have hext : p.lattice.lattice.filter (fun e => e.isExternal) = p.lattice.lattice := by
      rw [List.filter_eq_self]
      exact (parse_loaded _ doc p hp).2
    rw [remove_all, hext]
    simp only
    rw [hobs']
    exact ⟨_, rfl⟩

/-- **C86.** A document which can be parsed, with a non-negative number of steps of positive length, particles with a mass which start at time 0, a lattice whose
field exists everywhere, logs with positive step size (and at most 2³² numbers), observers as described by `ObserverFits`, and interactions with a log, sensible
parameters and the time step of the tracking, on the grids of which every particle starts, not ahead of the head and at least two cells per step away from the end,
runs to completion on any number of nodes and whatever the random numbers of other nodes and the contents of communication buffers are. -/
theorem C86_complete (L : Lib) (rnd : Nat → (Nat → Nat → ℝ) × (Nat → Nat → Nat → ℝ)) (J : Indet) (nodes : Nat) (hN : 0 < nodes) (doc : Xml) (p : Parsed) (m : Beam)
    (hp : (L.withRandom (rnd 0)).parse doc = .ok p) (hm : masterBeam p = .ok m) (hNOTS : 0 ≤ p.tracking.NOTS) (hdt : 0 < p.tracking.timeStep)
    (hlat : ∀ t X, ∃ F, Lattice.field p.lattice.lattice t X = .ok F) (hparticles : ∀ q ∈ m.all, q.Mass ≠ 0 ∧ q.tCur = 0)
    (hlogs : ∀ l ∈ p.beam.logs, LogFits m p.tracking.NOTS.toNat l)
    (hprobe : ∀ pr, p.beam.probe = some pr → ProbeFits m p.tracking.NOTS.toNat nodes J.fuel pr)
    (s : List FEL) (hint : p.tracking.state.interactions.mapM id = .ok s)
    (hfel : ∀ f ∈ s, 2 ≤ f.N ∧ f.N * (p.tracking.NOTS.toNat + 1) < 2 ^ 31 ∧ f.zR ≠ 0 ∧ f.w0 ≠ 0 ∧ f.dt = p.tracking.timeStep ∧ (∃ d, f.stepOutput = some d ∧ d ≠ 0) ∧
      ∀ q ∈ m.all, 0 ≤ FEL.cellsBehindHead f q ∧ FEL.cellsBehindHead f q + 2 * p.tracking.NOTS.toNat ≤ (f.N : ℝ) - 1)
    (hobs : ∀ spec ∈ p.observers.observers, ObserverFits p m s spec) :
    ∃ fs, L.program rnd J nodes doc = .ok fs := by
  have hcon := interactions_constructed _ doc p hp s hint
  have hmr : ∀ q ∈ m.all, q.Reachable := by
    obtain ⟨N, rfl⟩ : ∃ N, nodes = N + 1 := ⟨nodes - 1, by omega⟩
    obtain ⟨ms, h1, h2, h3, h4⟩ := program_ok L rnd J N doc p hp m hm
    intro q hq
    simp only [Beam.all, List.mem_flatMap] at hq
    obtain ⟨bu, b1, b2⟩ := hq
    exact ((Beam.wf_reachable (h2 m (by simp))).2 bu b1).2 q b2
  refine C86_coupled L rnd J nodes hN doc p m hp hm hNOTS hlat hlogs hprobe s hint ?_ hobs ?_
  · intro i f name hi _
    obtain ⟨_, f2, _, _, _, ⟨d, f6, _⟩, _⟩ := hfel f (List.mem_of_getElem? hi)
    exact ⟨⟨d, f6⟩, f2⟩
  · refine C88_stays_on_grid _ hlat _ hdt _ (fun q hq => ⟨hmr q hq, hparticles q hq⟩) s ?_ p.tracking.NOTS.toNat ?_ _ le_rfl
    · intro f hf
      obtain ⟨f1, _, f3, f4, f5, f6, _⟩ := hfel f hf
      exact ⟨hcon f hf, f1, f3, f4, f5, f6⟩
    · intro q hq f hf
      exact (hfel f hf).2.2.2.2.2.2 q hq

/-- a particle can be tracked in a field which exists everywhere -/
theorem alone_exists {f : FieldFn} (hf : ∀ t X, ∃ F, f t X = .ok F) (dt : ℝ) (q : Particle) (hq : q.Mass ≠ 0) (k : Nat) : ∃ a, trackAlone dt f q k = .ok a := by
  induction k with
  | zero =>
    obtain ⟨F, hF⟩ := hf q.tCur q.XCur
    unfold trackAlone
    rw [init_single (p := q) rfl rfl rfl rfl rfl, if_neg (show (q.initTrajectory q.tCur q.XCur q.PCur q.ACur).Mass ≠ 0 from hq), hF]
    exact ⟨_, rfl⟩
  | succ k ih =>
    obtain ⟨a, ha⟩ := ih
    rw [trackAlone_succ, ha]
    exact step_exists a (fun b _ => hf _ _)

/-- what an observer needs if there are no interactions: as `ObserverFits`, for particles moved alone -/
def ObserverFitsAlone (p : Parsed) (m : Beam) (spec : ObserverSpec) : Prop :=
  spec.observer.Sized ∧ (spec.source = .beam → 0 < p.tracking.timeStep ∧ spec.observer.StepPositive ∧
    ∀ q ∈ m.all, ∀ a, trackAlone p.tracking.timeStep (Lattice.field p.lattice.lattice) q p.tracking.NOTS.toNat = .ok a → spec.observer.Clear a)

/-- **C86 (no interactions).** Without interactions, time steps and starting times may be arbitrary (time steps positive for observers of the beam). -/
theorem C86_without_interactions (L : Lib) (rnd : Nat → (Nat → Nat → ℝ) × (Nat → Nat → Nat → ℝ)) (J : Indet) (nodes : Nat) (hN : 0 < nodes) (doc : Xml) (p : Parsed) (m : Beam)
    (hp : (L.withRandom (rnd 0)).parse doc = .ok p) (hm : masterBeam p = .ok m) (hNOTS : 0 ≤ p.tracking.NOTS)
    (hlat : ∀ t X, ∃ F, Lattice.field p.lattice.lattice t X = .ok F) (hmass : ∀ q ∈ m.all, q.Mass ≠ 0)
    (hlogs : ∀ l ∈ p.beam.logs, LogFits m p.tracking.NOTS.toNat l)
    (hprobe : ∀ pr, p.beam.probe = some pr → ProbeFits m p.tracking.NOTS.toNat nodes J.fuel pr)
    (hobs : ∀ spec ∈ p.observers.observers, ObserverFitsAlone p m spec)
    (hint : p.tracking.state.interactions = []) :
    ∃ fs, L.program rnd J nodes doc = .ok fs := by
  obtain ⟨qs, hqs⟩ := mapM_exists (fun q => trackAlone p.tracking.timeStep (Lattice.field p.lattice.lattice) q p.tracking.NOTS.toNat) m.all
    (fun q hq => alone_exists hlat _ q (hmass q hq) _)
  refine C86_coupled L rnd J nodes hN doc p m hp hm hNOTS hlat hlogs hprobe [] (by rw [hint]; rfl) (by simp) ?_ ⟨_, (coupled_alone _ _ _ _ _ _).mpr ⟨hqs, rfl⟩⟩
  intro spec hspec
  obtain ⟨h1, h2⟩ := hobs spec hspec
  refine ⟨h1, fun hsrc => ?_⟩
  obtain ⟨a1, a2, a3⟩ := h2 hsrc
  refine ⟨a1, a2, ?_⟩
  intro ps S hps a ha
  obtain ⟨h3, _⟩ := (coupled_alone _ _ _ _ _ _).mp hps
  obtain ⟨q, hq, hqa⟩ := mapM_mem h3 a ha
  exact a3 q hq a hqa

/-! ### Example: a radiating particle, its probe log, and the observation of its field at a point -/

def farDoc : Xml :=
  .node "" [] [.node "teufel" []
    [.node "lattice" [] [.node "background" [] [.node "E" [("x", "1")] []]],
     .node "beam" [] [.node "particle" [("gamma", "2"), ("charge", "1"), ("cmr", "1")] [.node "position" [] [], .node "momentum" [("z", "1")] []], .node "probe" [("file", "probe.h5")] []],
     .node "tracking" [("method", "Vay"), ("delta_t", "_h"), ("n", "2")] [],
     .node "observer" [] [.node "point" [("file", "point.sdds"), ("source", "beam")] [.node "position" [("x", "1")] [], .node "time" [("dt", "1"), ("n", "3")] []]]]]

noncomputable def farParsed : Parsed :=
  ⟨⟨predefined, [HomogeneousField ⟨1, 0, 0⟩ 0], 1⟩, ⟨predefined, [singleParticle 2 1 1 0 ⟨0, 0, 0⟩ ⟨0, 0, 1⟩], [], some ⟨"probe.h5", 1, 1⟩, 1⟩,
    ⟨6.62607015e-34, 2, ⟨predefined, [], []⟩⟩, ⟨predefined, [⟨.point (PointObs.new ⟨1, 0, 0⟩ 0 1 3), .beam, "point.sdds"⟩]⟩⟩

theorem farDoc_parse (r : (Nat → Nat → ℝ) × (Nat → Nat → Nat → ℝ)) : (exampleLib.withRandom r).parse farDoc = .ok farParsed := by
  have hc : ∀ env node, (∀ c ∈ node.children, c.name ≠ "calc") → (exampleLib.withRandom r).parseCalcChildren env node = env := by
    intro env node hn
    unfold parseCalcChildren
    generalize node.children = l at hn
    induction l generalizing env with
    | nil => rfl
    | cons c l ih =>
      rw [List.foldl_cons, if_neg (hn c (by simp))]
      exact ih env (fun c' hc' => hn c' (by simp [hc']))
  have e0 : ∀ env, (exampleLib.withRandom r).eval env "" = env "" := by intro env; simp [withRandom, exampleLib]
  have e1 : ∀ env, (exampleLib.withRandom r).eval env "1" = some 1 := by intro env; simp [withRandom, exampleLib]
  have e2 : ∀ env, (exampleLib.withRandom r).eval env "2" = some 2 := by intro env; simp [withRandom, exampleLib]
  have e3 : (exampleLib.withRandom r).asInt "3" = 3 := by simp [withRandom, exampleLib]
  have e4 : (exampleLib.withRandom r).eval predefined "_h" = some 6.62607015e-34 := by simp [withRandom, exampleLib, predefined]
  have hpe := predefined_empty
  have h2 : toInt32 (crint 2) = .ok 2 := by simp [crint, toInt32]
  unfold parse farDoc
  simp only [Xml.child, Xml.children, Xml.name, List.find?, need, bind, Except.bind, pure, Except.pure, start, beq_self_eq_true]
  rw [hc _ _ (by simp [Xml.children, Xml.name])]
  simp only [parseLattice, parseBeam, parseTracking, parseObservers, Xml.child, Xml.children, Xml.name, List.find?, need, bind, Except.bind, pure, Except.pure]
  have p1 : (exampleLib.withRandom r).latticeStep ⟨predefined, [], 0⟩ (.node "background" [] [.node "E" [("x", "1")] []]) = .ok ⟨predefined, [HomogeneousField ⟨1, 0, 0⟩ 0], 1⟩ := by
    simp [latticeStep, latticeElement, Xml.name, parseCalcChildren, Xml.children, Except.map, Lattice.addElement, optVec, Xml.child, vec, num, Xml.value, Xml.attr, Xml.attrs, e0, e1, hpe]
  have p2 : (exampleLib.withRandom r).beamStep ⟨predefined, [], [], none, 0⟩ (.node "particle" [("gamma", "2"), ("charge", "1"), ("cmr", "1")] [.node "position" [] [], .node "momentum" [("z", "1")] []])
      = .ok ⟨predefined, [singleParticle 2 1 1 0 ⟨0, 0, 0⟩ ⟨0, 0, 1⟩], [], none, 1⟩ := by
    simp [beamStep, particleEntry, Xml.name, parseCalcChildren, Xml.children, Xml.child, need, bind, Except.bind, pure, Except.pure, parseLog, optNum, vec, num, Xml.value, Xml.attr, Xml.attrs, e0, e1, e2, hpe, List.lookup]
  have p3 : ∀ bs, (exampleLib.withRandom r).beamStep ⟨predefined, bs, [], none, 1⟩ (.node "probe" [("file", "probe.h5")] []) = .ok ⟨predefined, bs, [], some ⟨"probe.h5", 1, 1⟩, 1⟩ := by
    intro bs
    simp [beamStep, probeEntry, Xml.name, need, bind, Except.bind, pure, Except.pure, intOr, Xml.attr, Xml.attrs, List.lookup]
  have p4 : (exampleLib.withRandom r).observerStep ⟨predefined, []⟩ (.node "point" [("file", "point.sdds"), ("source", "beam")] [.node "position" [("x", "1")] [], .node "time" [("dt", "1"), ("n", "3")] []])
      = .ok ⟨predefined, [⟨.point (PointObs.new ⟨1, 0, 0⟩ 0 1 3), .beam, "point.sdds"⟩]⟩ := by
    have hsrc : source (.node "point" [("file", "point.sdds"), ("source", "beam")] [.node "position" [("x", "1")] [], .node "time" [("dt", "1"), ("n", "3")] []]) = .ok .beam := by
      simp [source, Xml.attr, Xml.attrs, List.lookup]
    simp [observerStep, observerEntry, pointEntry, Xml.name, parseCalcChildren, Xml.children, Xml.child, need, bind, Except.bind, pure, Except.pure, hsrc, points, Except.map, vec, num, Xml.value, Xml.attr, Xml.attrs, e0, e1, e3, hpe, List.lookup]
  simp [p1, p2, p3, Xml.value, Xml.attr, Xml.attrs, List.lookup, int, num, e1, e2, e4, h2, farParsed]
  simp [pure, Except.pure, bind, Except.bind, p3, p4]
  rw [e4]
  rfl

theorem farDoc_master : ∃ bg mom, masterBeam farParsed = .ok { progBeam bg mom with dt := 6.62607015e-34 } := by
  obtain ⟨bg, mom, h⟩ := progDoc_master .beam
  refine ⟨bg, mom, ?_⟩
  simp only [masterBeam, progParsed, farParsed, bind, Except.bind] at h ⊢
  split at h
  · cases h
  · next v hv =>
    injection h with h
    rw [hv]
    simp only [pure, Except.pure, Except.ok.injEq]
    rw [← h]

/-- non-vacuity of `C86_without_interactions` -/
theorem farDoc_runs (rnd : Nat → (Nat → Nat → ℝ) × (Nat → Nat → Nat → ℝ)) (J : Indet) (hJ : 1 ≤ J.fuel) (nodes : Nat) (hN : 0 < nodes) : ∃ fs, exampleLib.program rnd J nodes farDoc = .ok fs := by
  obtain ⟨bg, mom, hm⟩ := farDoc_master
  have hB : ({ progBeam bg mom with dt := 6.62607015e-34 } : Beam).all = [progParticle bg mom] := by
    simp [Beam.all, progBeam, Beam.Add, Beam.empty, Bunch.Add, Bunch.empty]
  have hreach : (progParticle bg mom).Reachable := ⟨_, [.init 0 ⟨0, 0, 0⟩ (mom * bg) 0], Or.inl ⟨_, _, rfl⟩, rfl⟩
  refine C86_without_interactions exampleLib rnd J nodes hN farDoc _ _ (farDoc_parse (rnd 0)) hm (by simp [farParsed]) (fun t X => ⟨_, rfl⟩) ?_ (by simp [farParsed]) ?_ ?_ rfl
  · intro q hq
    rw [hB, List.mem_singleton] at hq
    subst hq
    exact progBeam_mass bg mom 0 0 _ ⟨_, rfl, rfl⟩
  · intro pr hpr
    simp only [farParsed, Option.some.injEq] at hpr
    subst hpr
    have u1 : toUnsigned 1 = 1 := by norm_num [toUnsigned]
    have hn : farParsed.tracking.NOTS.toNat = 2 := rfl
    refine ⟨by rw [u1], ?_⟩
    intro total _
    simp only [u1, hn]
    have h1 : min 1 ⌈(total : ℚ) / nodes⌉₊ ≤ 1 := min_le_left _ _
    refine ⟨by omega, ?_⟩
    have : (1 + 2 / 1) * min 1 ⌈(total : ℚ) / nodes⌉₊ * 16 ≤ 48 := by omega
    exact lt_of_le_of_lt this (by norm_num)
  · intro spec hspec
    simp only [farParsed, List.mem_singleton] at hspec
    subst hspec
    refine ⟨⟨by simp [Observer.keys, PointObs.new, FieldTrace.new], by intro s hs; cases hs⟩, fun _ => ⟨by norm_num [farParsed], by show (0 : ℝ) < 1; norm_num, ?_⟩⟩
    intro q hq a ha
    rw [hB, List.mem_singleton] at hq
    subst hq
    refine clear_far (by intro s hs; cases hs) hreach (by norm_num [farParsed]) (alone_moved ha) ?_
    intro key _ t X hX
    have hX' : X = ⟨1, 0, 0⟩ := by
      injection hX with hX
      exact (congrArg Prod.snd hX).symm
    have h0 : (progParticle bg mom).XCur = ⟨0, 0, 0⟩ := rfl
    have hn : farParsed.tracking.NOTS.toNat = 2 := rfl
    rw [hX', h0, hn]
    have : Vec.norm ((⟨1, 0, 0⟩ : Vec) - ⟨0, 0, 0⟩) = 1 := by simp [Vec.norm]
    rw [this]
    norm_num [farParsed, SpeedOfLight]

/-- non-vacuity of C83 for the beam: on seven nodes the file of the observer shows the field of the particle tracked alone -/
example (rnd : Nat → (Nat → Nat → ℝ) × (Nat → Nat → Nat → ℝ)) (J : Indet) (hJ : 1 ≤ J.fuel) : ∃ fs before d, exampleLib.program rnd J 7 farDoc = .ok fs ∧
    fs = before ++ [⟨"point.sdds", d⟩] ∧ ∃ bg mom a, trackAlone 6.62607015e-34 (Lattice.field [HomogeneousField ⟨1, 0, 0⟩ 0]) (progParticle bg mom) 2 = .ok a ∧
      ∀ i < 3, ∃ F, (Observer.point (PointObs.new ⟨1, 0, 0⟩ 0 1 3)).particleSample ((0, 0), i) a = .ok F ∧ Shows (.point (PointObs.new ⟨1, 0, 0⟩ 0 1 3)) d ((0, 0), i) ⟨1, 0, 0⟩ F := by
  obtain ⟨fs, h⟩ := farDoc_runs rnd J hJ 7 (by norm_num)
  obtain ⟨p, m, hp, hm, before, files, hfs, hlen, hf⟩ := C83_observers_partial exampleLib rnd J 7 (by norm_num) farDoc fs h
  rw [farDoc_parse] at hp
  injection hp with hp
  subst hp
  obtain ⟨bg, mom, hm'⟩ := farDoc_master
  rw [hm'] at hm
  injection hm with hm
  have hB : m.all = [progParticle bg mom] := by
    rw [← hm]
    simp [Beam.all, progBeam, Beam.Add, Beam.empty, Bunch.Add, Bunch.empty]
  have hn : farParsed.tracking.NOTS.toNat = 2 := rfl
  obtain ⟨d, hd, hb, _⟩ := hf 0 ⟨.point (PointObs.new ⟨1, 0, 0⟩ 0 1 3), .beam, "point.sdds"⟩ rfl
  obtain ⟨ps, hps, hk⟩ := hb rfl rfl
  have hfl : files = [⟨"point.sdds", d⟩] := by
    have : files.length = 1 := hlen
    obtain ⟨x, rfl⟩ := List.length_eq_one_iff.mp this
    simpa using hd
  rw [hB, List.mapM_cons, List.mapM_nil, hn] at hps
  cases ha : trackAlone farParsed.tracking.timeStep (Lattice.field farParsed.lattice.lattice) (progParticle bg mom) 2 with
  | error e => rw [ha] at hps; cases hps
  | ok a =>
    rw [ha] at hps
    injection hps with hps
    refine ⟨fs, before, d, h, by rw [hfs, hfl], bg, mom, a, ha, ?_⟩
    intro i hi
    obtain ⟨t, X, Fs, k1, k2, k3⟩ := hk ((0, 0), i) (by simpa [Observer.keys, PointObs.new, FieldTrace.new] using hi)
    have hX' : X = ⟨1, 0, 0⟩ := by
      injection k1 with k1
      exact (congrArg Prod.snd k1).symm
    rw [← hps, List.mapM_cons, List.mapM_nil] at k2
    cases hF : (Observer.point (PointObs.new ⟨1, 0, 0⟩ 0 1 3)).particleSample ((0, 0), i) a with
    | error e => rw [hF] at k2; cases k2
    | ok F =>
      rw [hF] at k2
      injection k2 with k2
      refine ⟨F, rfl, ?_⟩
      rw [← k2, hX'] at k3
      simpa using k3

/-! ### Example: a particle and an interaction of four cells, seen by an observer of the lattice -/

def felNode : Xml :=
  .node "fel1d" [("N", "2*a")]
    [.node "calc" [("var", "a"), ("eq", "2")] [], .node "position" [] [], .node "prop" [("z", "1")] [], .node "pol" [("x", "1")] [],
     .node "log" [("file", "fel.h5")] [], .node "mode" [("zR", "1"), ("w0", "1"), ("zwaist", "1")] []]

def felDoc : Xml :=
  .node "" [] [.node "teufel" []
    [.node "lattice" [] [.node "background" [] [.node "E" [("x", "1")] []]],
     .node "beam" [] [.node "particle" [("gamma", "2"), ("charge", "1"), ("cmr", "1")] [.node "position" [] [], .node "momentum" [("z", "1")] []]],
     .node "tracking" [("method", "Vay"), ("delta_t", "1"), ("n", "1")] [felNode],
     .node "observer" [] []]]

noncomputable def felOne : FEL := FEL.setup 4 1 (1 * SpeedOfLight) ⟨0, 0, 0⟩ ⟨0, 0, 1⟩ ⟨1, 0, 0⟩ (cross ⟨0, 0, 1⟩ ⟨1, 0, 0⟩) (some 1) 1 1 1

noncomputable def felEnv : Env := Function.update predefined "a" (some 2)

noncomputable def felParsed : Parsed :=
  ⟨⟨predefined, [HomogeneousField ⟨1, 0, 0⟩ 0], 1⟩, ⟨predefined, [singleParticle 2 1 1 0 ⟨0, 0, 0⟩ ⟨0, 0, 1⟩], [], none, 1⟩,
    ⟨1, 1, ⟨felEnv, [], [.ok felOne]⟩⟩, ⟨felEnv, []⟩⟩

theorem felDoc_parse (r : (Nat → Nat → ℝ) × (Nat → Nat → Nat → ℝ)) : (exampleLib.withRandom r).parse felDoc = .ok felParsed := by
  have hc : ∀ env node, (∀ c ∈ node.children, c.name ≠ "calc") → (exampleLib.withRandom r).parseCalcChildren env node = env := by
    intro env node hn
    unfold parseCalcChildren
    generalize node.children = l at hn
    induction l generalizing env with
    | nil => rfl
    | cons c l ih =>
      rw [List.foldl_cons, if_neg (hn c (by simp))]
      exact ih env (fun c' hc' => hn c' (by simp [hc']))
  have e0 : ∀ env, (exampleLib.withRandom r).eval env "" = env "" := by intro env; simp [withRandom, exampleLib]
  have e1 : ∀ env, (exampleLib.withRandom r).eval env "1" = some 1 := by intro env; simp [withRandom, exampleLib]
  have e2 : ∀ env, (exampleLib.withRandom r).eval env "2" = some 2 := by intro env; simp [withRandom, exampleLib]
  have e3 : (exampleLib.withRandom r).eval felEnv "2*a" = some 4 := by
    simp [withRandom, exampleLib, felEnv]
    norm_num
  have e5 : (exampleLib.withRandom r).nameOk "a" = true := by simp [withRandom, exampleLib]
  have hpe := predefined_empty
  have hfe : felEnv "" = none := by simp [felEnv, hpe]
  have h1 : toInt32 (crint 1) = .ok 1 := by simp [crint, toInt32]
  have h4 : toInt32 (crint 4) = .ok 4 := by simp [crint, toInt32]
  unfold parse felDoc
  simp only [Xml.child, Xml.children, Xml.name, List.find?, need, bind, Except.bind, pure, Except.pure, start, beq_self_eq_true]
  rw [hc _ _ (by simp [Xml.children, Xml.name])]
  simp only [parseLattice, parseBeam, parseTracking, parseObservers, Xml.child, Xml.children, Xml.name, List.find?, need, bind, Except.bind, pure, Except.pure]
  have p1 : (exampleLib.withRandom r).latticeStep ⟨predefined, [], 0⟩ (.node "background" [] [.node "E" [("x", "1")] []]) = .ok ⟨predefined, [HomogeneousField ⟨1, 0, 0⟩ 0], 1⟩ := by
    simp [latticeStep, latticeElement, Xml.name, parseCalcChildren, Xml.children, Except.map, Lattice.addElement, optVec, Xml.child, vec, num, Xml.value, Xml.attr, Xml.attrs, e0, e1, hpe]
  have p2 : (exampleLib.withRandom r).beamStep ⟨predefined, [], [], none, 0⟩ (.node "particle" [("gamma", "2"), ("charge", "1"), ("cmr", "1")] [.node "position" [] [], .node "momentum" [("z", "1")] []])
      = .ok ⟨predefined, [singleParticle 2 1 1 0 ⟨0, 0, 0⟩ ⟨0, 0, 1⟩], [], none, 1⟩ := by
    simp [beamStep, particleEntry, Xml.name, parseCalcChildren, Xml.children, Xml.child, need, bind, Except.bind, pure, Except.pure, parseLog, optNum, vec, num, Xml.value, Xml.attr, Xml.attrs, e0, e1, e2, hpe, List.lookup]
  have p3 : (exampleLib.withRandom r).trackStep (.node "tracking" [("method", "Vay"), ("delta_t", "1"), ("n", "1")] [felNode]) ⟨predefined, [], []⟩ felNode = .ok ⟨felEnv, [], [.ok felOne]⟩ := by
    have c1 : (exampleLib.withRandom r).parseCalcChildren predefined felNode = felEnv := by
      simp [parseCalcChildren, felNode, Xml.children, Xml.name, parseCalc, Xml.value, Xml.attr, Xml.attrs, List.lookup, e2, e5, felEnv]
    have c2 : (exampleLib.withRandom r).cellCount felEnv felNode = .ok (some 4) := by
      simp [cellCount, felNode, Xml.attr, Xml.attrs, List.lookup, int, Xml.value, e3, h4, Except.map]
    have c3 : (exampleLib.withRandom r).felInput felEnv felNode (some 4) = ⟨some 4, some ⟨0, 0, 0⟩, some ⟨0, 0, 1⟩, some ⟨1, 0, 0⟩, some (true, none), some (1, 1, 1), none⟩ := by
      simp [felInput, felNode, Xml.child, Xml.children, Xml.name, vec, num, Xml.value, Xml.attr, Xml.attrs, List.lookup, e0, e1, hfe]
    have c4 : (exampleLib.withRandom r).num felEnv (.node "tracking" [("method", "Vay"), ("delta_t", "1"), ("n", "1")] [felNode]) "delta_t" = 1 := by
      simp [num, Xml.value, Xml.attr, Xml.attrs, List.lookup, e1]
    have g1 : normalizeE (⟨0, 0, 1⟩ : Vec) = .ok ⟨0, 0, 1⟩ := FEL.normalizeE_unit (by simp [Vec.norm, Vec.abs2nd])
    have g2 : (⟨1, 0, 0⟩ : Vec) - (⟨0, 0, 1⟩ : Vec) * dot (⟨1, 0, 0⟩ : Vec) ⟨0, 0, 1⟩ = ⟨1, 0, 0⟩ := by ext <;> simp [dot]
    have g3 : normalizeE (⟨1, 0, 0⟩ : Vec) = .ok ⟨1, 0, 0⟩ := FEL.normalizeE_unit (by simp [Vec.norm, Vec.abs2nd])
    have c5 : FEL.ofInput 1 ⟨some 4, some ⟨0, 0, 0⟩, some ⟨0, 0, 1⟩, some ⟨1, 0, 0⟩, some (true, none), some (1, 1, 1), none⟩ = .ok felOne := by
      unfold FEL.ofInput
      simp only [pure, Except.pure, bind, Except.bind, g1, g2, g3, FEL.logStep]
      rw [if_neg (by omega)]
      rfl
    unfold trackStep
    rw [if_neg (by simp [felNode, Xml.name]), if_pos (by simp [felNode, Xml.name])]
    simp only [felEntry, c1, c2, c3, c4, c5, keepPoisoned, bind, Except.bind, pure, Except.pure, List.nil_append]
  simp [p1, p2, Xml.value, Xml.attr, Xml.attrs, List.lookup, int, num, e1, h1, felParsed]
  simp [pure, Except.pure, bind, Except.bind, p3]

theorem felDoc_master : ∃ bg mom, masterBeam felParsed = .ok { progBeam bg mom with NOTS := 1 } := by
  obtain ⟨bg, mom, h⟩ := progDoc_master .beam
  refine ⟨bg, mom, ?_⟩
  simp only [masterBeam, progParsed, felParsed, bind, Except.bind] at h ⊢
  split at h
  · cases h
  · next v hv =>
    injection h with h
    rw [hv]
    simp only [pure, Except.pure, Except.ok.injEq]
    rw [← h]

/-- non-vacuity of `C86_complete`: a document with an interaction and its log -/
theorem felDoc_runs (rnd : Nat → (Nat → Nat → ℝ) × (Nat → Nat → Nat → ℝ)) (J : Indet) (nodes : Nat) (hN : 0 < nodes) :
    ∃ fs F, exampleLib.program rnd J nodes felDoc = .ok fs ∧ (⟨"fel.h5", .fel F⟩ : OutFile) ∈ fs := by
  obtain ⟨bg, mom, hm⟩ := felDoc_master
  have hB : ({ progBeam bg mom with NOTS := 1 } : Beam).all = [progParticle bg mom] := by
    simp [Beam.all, progBeam, Beam.Add, Beam.empty, Bunch.Add, Bunch.empty]
  have hrun : ∃ fs, exampleLib.program rnd J nodes felDoc = .ok fs := by
    refine C86_complete exampleLib rnd J nodes hN felDoc _ _ (felDoc_parse (rnd 0)) hm (by simp [felParsed]) (by simp [felParsed]) (fun t X => ⟨_, rfl⟩) ?_
      (by simp [felParsed]) (by simp [felParsed]) [felOne] rfl ?_ (by simp [felParsed])
    · intro q hq
      rw [hB, List.mem_singleton] at hq
      subst hq
      exact ⟨progBeam_mass bg mom 0 0 _ ⟨_, rfl, rfl⟩, rfl⟩
    · intro f hf
      rw [List.mem_singleton] at hf
      subst hf
      refine ⟨by simp [felOne, FEL.setup], by simp [felOne, FEL.setup, felParsed], by simp [felOne, FEL.setup], by simp [felOne, FEL.setup], rfl, ⟨1, rfl, by norm_num⟩, ?_⟩
      intro q hq
      rw [hB, List.mem_singleton] at hq
      subst hq
      have : FEL.cellsBehindHead felOne (progParticle bg mom) = 0 := by
        simp [FEL.cellsBehindHead, felOne, FEL.setup, progParticle, Particle.initTrajectory, dot]
      rw [this]
      refine ⟨le_refl _, ?_⟩
      show (0 : ℝ) + 2 * ((1 : Nat) : ℝ) ≤ ((4 : Nat) : ℝ) - 1
      norm_num
  obtain ⟨fs, hfs⟩ := hrun
  obtain ⟨p, m, s, ps, S, h1, h2, h3, h4, h5⟩ := C88_file exampleLib rnd J nodes hN felDoc fs hfs
  rw [felDoc_parse] at h1
  injection h1 with h1
  subst h1
  have h3' : (.ok [felOne] : Except Err (List FEL)) = .ok s := h3
  injection h3' with h3'
  subst h3'
  have hl := (after_length h4).2
  obtain ⟨f, hf⟩ : ∃ f, S[0]? = some f := ⟨_, List.getElem?_eq_getElem (by rw [hl]; simp)⟩
  obtain ⟨F, _, hF⟩ := h5 0 f "fel.h5" hf (by simp [felFiles, felDoc, felNode, Xml.child, Xml.children, Xml.name, Xml.attr, Xml.attrs, List.lookup])
  exact ⟨fs, F, hfs, hF⟩

end Lib
end Teufel
