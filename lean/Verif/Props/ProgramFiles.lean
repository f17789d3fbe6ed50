import Verif.Props.Program
import Verif.Lemmas.Coupled

/-!
# C83: contents of the files of observers
-/

namespace Teufel
open Vec Input

/-- what an observer records of a particle does not depend on the reserved size -/
theorem sample_reserve (o : Observer) (k : Observer.Key) (n : Int) (p : Particle) : o.particleSample k (p.reserve n) = o.particleSample k p := by
  cases o <;> rfl

theorem mapM_reserve (o : Observer) (k : Observer.Key) (n : Int) (ps : List Particle) : (ps.map (Particle.reserve n)).mapM (o.particleSample k) = ps.mapM (o.particleSample k) := by
  induction ps with
  | nil => rfl
  | cons p ps ih => rw [List.map_cons, List.mapM_cons, List.mapM_cons, ih, sample_reserve]

/-- the field of all samples of a mesh, one after the other -/
theorem mesh_entry {s : MeshObs} (hw : s.WF) {i it : Nat} {F : EMField} (hi : i < s.Np) (hit : it < s.Nt) (h : (Observer.mesh s).get ((i, 0), it) = .ok F) :
    (s.A.map (fun tr => tr.trace)).flatten[i * s.Nt + it]? = some F := by
  have hA : i < s.A.length := by rw [hw.cellNum]; exact hi
  have hat : MeshObs.at' s.A i = .ok s.A[i] := by unfold MeshObs.at'; rw [List.getElem?_eq_getElem hA]
  have htr : ∀ tr ∈ s.A, tr.trace.length = s.Nt := by
    intro tr htr
    obtain ⟨j, hj⟩ := List.getElem?_of_mem htr
    have := hw.traces j tr (by unfold MeshObs.at'; rw [hj])
    rw [this.1, this.2]
  rw [← List.flatMap_def, flatMap_get s.A (fun tr => tr.trace) s.Nt htr i s.A[i] (List.getElem?_eq_getElem hA) it hit]
  simp only [Observer.get, hat, bind, Except.bind] at h
  unfold FieldTrace.getField at h
  split_ifs at h
  split at h
  · next f hf =>
    injection h with h
    rw [hf, h]
  · cases h

namespace Lib

/-- what is written for an observer -/
theorem file_shows (L : Lib) (r : (Nat → Nat → ℝ) × (Nat → Nat → Nat → ℝ)) (spec : ObserverSpec) (hl : (L.withRandom r).Loaded spec) (m : Beam) (o' o2 : Observer)
    (ha : spec.observer.After o') (h31 : 6 * spec.observer.keys.length < 2 ^ 31) (hst : storeParticles m spec.source o' = .ok o2) (files : List OutFile)
    (hc : caught spec.file (L.generateOutput spec.file o2) = .ok files) :
    ∃ d, files = [⟨spec.file, d⟩] ∧ ∀ k ∈ spec.observer.keys, ∀ F, o'.get k = .ok F → ∃ t X, spec.observer.samplePoint k = .ok (t, X) ∧ Shows spec.observer d k X F := by
  obtain ⟨o, src, fn⟩ := spec
  obtain ⟨hfr, hmesh⟩ := hl
  simp only at hfr hmesh ha h31 hst hc ⊢
  have hbl := ha.blank hfr
  have hwf := (ha.reachable hfr).wf
  cases hfr with
  | screen position dx dy nx ny t0 dt dtx dty nots =>
    obtain ⟨s0, e0, _⟩ := screen_after ha
    subst e0
    have : o2 = .screen s0 := by
      cases src <;> (injection hst with hst; exact hst.symm)
    subst this
    by_cases hp : 3 * (nx * ny) < 2 ^ 32
    · have hlen : (Observer.screen (Screen.new position dx dy nx ny t0 dt dtx dty nots)).keys.length = nx * ny * nots := samples_length _
      rw [hlen] at h31
      obtain ⟨s, f, e1, hw, _, _, _, hf, _, hpos, _⟩ := C79_screen position dx dy nx ny t0 dt dtx dty nots _ ha (by omega) hp
      injection e1 with e1
      subst e1
      simp only [generateOutput, hw, Except.map, caught] at hc
      injection hc with hc
      refine ⟨_, hc.symm, ?_⟩
      rintro ⟨⟨ix, iy⟩, it⟩ hk F hF
      obtain ⟨h1, h2, h3⟩ := mem_samples.mp hk
      refine ⟨_, _, rfl, hf ix iy it F h1 h2 h3 hF, ?_⟩
      obtain ⟨s', e', _, _, _, _, g, _⟩ := C66_grid position dx dy nx ny t0 dt dtx dty nots _ .refl
      injection e' with e'
      simp only
      rw [e', g]
      exact hpos ix iy h1 h2
    · obtain ⟨s, e1, hw⟩ := C79_screen_overflow position dx dy nx ny t0 dt dtx dty nots _ ha (Or.inr (by omega))
      injection e1 with e1
      subst e1
      simp only [generateOutput, hw, Except.map, caught] at hc
      cases hc
  | snapshot position dx dy nx ny t =>
    obtain ⟨s0, e0, h1, h2, h3, h4, h5, h6, h7, hw⟩ := snapshot_after ha
    subst e0
    have hlen : (Observer.snapshot (Snapshot.new position dx dy nx ny t)).keys.length = nx * ny := by
      show ((cells nx ny).map _).length = _
      rw [List.length_map, cells_length]
    rw [hlen] at h31
    obtain ⟨g, hg⟩ := Observer.values (o := .snapshot s0) hw
    -- storing particles does not change anything else
    obtain ⟨buf, n, e⟩ : ∃ buf n, o2 = .snapshot { s0 with particleBuffer := buf, particlesStored := n } := by
      cases src with
      | lattice => injection hst with hst; exact ⟨_, _, hst.symm⟩
      | beam =>
        simp only [storeParticles] at hst
        cases hsp : s0.storeParticlePositions m with
        | error e => rw [hsp] at hst; cases hst
        | ok s1 =>
          rw [hsp] at hst
          injection hst with hst
          subst hst
          unfold Snapshot.storeParticlePositions at hsp
          simp only [bind, Except.bind, pure, Except.pure] at hsp
          split at hsp
          · cases hsp
          split at hsp
          · cases hsp
          split at hsp
          · cases hsp
          split at hsp
          · cases hsp
          injection hsp with hsp
          subst hsp
          exact ⟨_, _, rfl⟩
    subst e
    generalize hs1 : ({ s0 with particleBuffer := buf, particlesStored := n } : Snapshot) = s1 at hc
    have hw1 : s1.WF := by subst hs1; exact ⟨hw.rows, hw.cols⟩
    have hg1 : ∀ k ∈ (Observer.snapshot s1).keys, (Observer.snapshot s1).get k = .ok (g k) := by subst hs1; exact hg
    have n1 : s1.Nx = nx := by subst hs1; exact h1
    have n2 : s1.Ny = ny := by subst hs1; exact h2
    have hps : ∃ c, s1.particleSet = .ok c ∧ ∀ d ∈ c, d.data.length = d.dims.prod := by
      by_cases hpos : s1.particlesStored > 0
      · by_cases hlen' : [s1.particlesStored, 6].prod ≤ s1.particleBuffer.length
        · refine ⟨[⟨"ParticleCoordinates", [s1.particlesStored, 6], s1.particleBuffer.take [s1.particlesStored, 6].prod, [("N_particles", s1.particlesStored)], []⟩], ?_, ?_⟩
          · unfold Snapshot.particleSet h5write
            rw [if_pos hpos, if_neg (by omega)]
            rfl
          · intro d hd
            rw [List.mem_singleton] at hd
            subst hd
            exact List.length_take_of_le hlen'
        · exfalso
          have e : s1.particleSet = .error .ub := by
            unfold Snapshot.particleSet h5write
            rw [if_pos hpos, if_pos (by omega)]
            rfl
          have : s1.writeFile = .error .ub := by
            have hok := Snapshot.writeFile_ok (s := { s1 with particlesStored := 0 }) ⟨hw1.rows, hw1.cols⟩ (by simp only [n1, n2]; omega) g hg1 [] (by unfold Snapshot.particleSet; rw [if_neg (by simp)])
            unfold Snapshot.writeFile at hok ⊢
            simp only [bind, Except.bind] at hok ⊢
            rw [show s1.positionBuffer = ({ s1 with particlesStored := 0 } : Snapshot).positionBuffer from rfl]
            split at hok
            · cases hok
            split at hok
            · cases hok
            rw [show s1.getBuffer = ({ s1 with particlesStored := 0 } : Snapshot).getBuffer from rfl]
            split at hok
            · cases hok
            split at hok
            · cases hok
            rw [e]
          simp only [generateOutput, this, Except.map, caught] at hc
          cases hc
      · exact ⟨[], by unfold Snapshot.particleSet; rw [if_neg hpos], by simp⟩
    obtain ⟨c, hc1, hc2⟩ := hps
    have hwr := Snapshot.writeFile_ok hw1 (by rw [n1, n2]; omega) g hg1 c hc1
    have hfile := snapshotFile_of (position := position) (dx := dx) (dy := dy) (t := t) n1 n2 (by subst hs1; exact h3) (by subst hs1; exact h4) (by subst hs1; exact h5) (by subst hs1; exact h6) g hg1 c hc2
    simp only [generateOutput, hwr, Except.map, caught] at hc
    injection hc with hc
    refine ⟨_, hc.symm, ?_⟩
    rintro ⟨⟨ix, iy⟩, it⟩ hk F hF
    obtain ⟨⟨a, b⟩, hab, e⟩ := List.mem_map.mp hk
    simp only [Prod.mk.injEq] at e
    obtain ⟨⟨rfl, rfl⟩, rfl⟩ := e
    obtain ⟨k1, k2⟩ := mem_cells.mp hab
    obtain ⟨_, _, f1, _, f2, _⟩ := hfile
    refine ⟨_, _, rfl, f1 a b F k1 k2 (by subst hs1; exact hF), ?_⟩
    have e : (Snapshot.new position dx dy nx ny t).CellPosition a b = position + dx * ((a : ℝ) - ((nx : ℝ) - 1) / 2) + dy * ((b : ℝ) - ((ny : ℝ) - 1) / 2) := by
      unfold Snapshot.CellPosition Snapshot.new
      ext <;> simp <;> ring
    simp only
    rw [e]
    exact f2 a b k1 k2
  | point position t0 dt nots =>
    have hlen : (Observer.point (PointObs.new position t0 dt nots)).keys.length = nots := by simp [Observer.keys, PointObs.new, FieldTrace.new]
    rw [hlen] at h31
    obtain ⟨s, f, e1, hw, _, _, _, _, hf⟩ := C79_point position t0 dt nots _ ha (by omega)
    subst e1
    have : o2 = .point s := by
      cases src <;> (injection hst with hst; exact hst.symm)
    subst this
    simp only [generateOutput, hw, Except.map, caught] at hc
    injection hc with hc
    refine ⟨_, hc.symm, ?_⟩
    rintro ⟨⟨ix, iy⟩, it⟩ hk F hF
    simp only [Observer.keys, List.mem_map, List.mem_range, Prod.mk.injEq] at hk
    obtain ⟨a, h1, ⟨rfl, rfl⟩, rfl⟩ := hk
    exact ⟨_, _, rfl, hf a F h1 hF⟩
  | mesh points t0s dt nt hpt =>
    obtain ⟨f, ms, hf, hof, hms⟩ := hmesh _ rfl
    obtain ⟨⟨c1, c2, c3, c4, c5⟩, _⟩ := C73_created f ms hof
    cases o' with
    | screen s => cases hbl
    | snapshot s => cases hbl
    | point s => cases hbl
    | mesh s =>
      have : o2 = .mesh s := by
        cases src <;> (injection hst with hst; exact hst.symm)
      subst this
      rw [hms] at hbl
      injection hbl with hbl
      have b1 : s.Np = ms.Np := congrArg MeshObs.Np hbl
      have b2 : s.Nt = ms.Nt := congrArg MeshObs.Nt hbl
      have b3 : s.points = ms.points := congrArg MeshObs.points hbl
      have b4 : s.A.map bare = ms.zero.A.map bare := congrArg MeshObs.A hbl
      have hwf' : s.WF := hwf
      have hws : ({ ms with A := s.A } : Mesh).WellSampled := by
        refine ⟨c1, c2, c3, by rw [hwf'.cellNum, b1], ?_⟩
        intro tr htr
        obtain ⟨j, hj⟩ := List.getElem?_of_mem htr
        have h1 := hwf'.traces j tr (by unfold MeshObs.at'; rw [hj])
        refine ⟨h1.1, by rw [h1.2, b2], ?_⟩
        have h2 := congrArg (fun l => l[j]?) b4
        simp only [List.getElem?_map, hj, Option.map_some] at h2
        have hz : ms.zero.A = ms.A.map FieldTrace.zero := rfl
        rw [hz, List.getElem?_map] at h2
        cases hmj : ms.A[j]? with
        | none => rw [hmj] at h2; cases h2
        | some tr' =>
          rw [hmj] at h2
          simp only [Option.map_some, Option.some.injEq] at h2
          have h3 := (bare_eq h2).2.1
          rw [h3]
          exact (c5 tr' (List.mem_of_getElem? hmj)).2.2
      have hsize : ms.Np * ms.Nt * 6 < 2 ^ 31 := by
        rw [hms, Observer.mesh_keys_length] at h31
        change 6 * (ms.Np * ms.Nt) < 2 ^ 31 at h31
        omega
      have hwr := Mesh.writeFile_ok { ms with A := s.A } hws hsize
      have hneed : L.mesh fn = some f := hf
      simp only [generateOutput, hneed, need, hof, bind, Except.bind, hwr, Except.map, caught] at hc
      injection hc with hc
      refine ⟨_, hc.symm, ?_⟩
      rintro ⟨⟨i, z⟩, it⟩ hk F hF
      rw [hms] at hk ⊢
      simp only [Observer.keys, List.mem_flatMap, List.mem_map, List.mem_range, Prod.mk.injEq] at hk
      obtain ⟨i', hi, it', hit, ⟨rfl, rfl⟩, rfl⟩ := hk
      change i' < ms.Np at hi
      change it' < ms.Nt at hit
      have hpi : ms.points[i']? = some (ms.points[i']'(by omega)) := List.getElem?_eq_getElem _
      have hAi : ms.zero.A[i']? = some (ms.A[i']'(by omega)).zero := by
        show (ms.A.map FieldTrace.zero)[i']? = _
        rw [List.getElem?_map, List.getElem?_eq_getElem (by omega)]
        rfl
      refine ⟨(ms.A[i']'(by omega)).zero.t0 + it' * (ms.A[i']'(by omega)).zero.dt, ms.points[i']'(by omega), ?_, ?_, ?_⟩
      · simp only [Observer.samplePoint, Mesh.toObs, MeshObs.at', Mesh.zero] at hAi ⊢
        rw [hpi, hAi]
        rfl
      · have := mesh_entry hwf' (by rw [b1]; exact hi) (by rw [b2]; exact hit) hF
        rw [b2] at this
        exact this
      · exact hpi

/-- the samples of an observer of the lattice -/
theorem lattice_samples (lat : Lattice) (o : Observer) (ho : o.Fresh) (n : Nat) (hn : 0 < n) (o' : Observer) (h : observeLattice n lat o = .ok o') :
    ∀ k ∈ o.keys, ∃ t X F, o.samplePoint k = .ok (t, X) ∧ lat.field t X = .ok F ∧ o'.get k = .ok (F * (n : ℝ)) := by
  have hf := C38_factor_partial lat o ho n hn
  rw [h] at hf
  cases h1 : observeLattice 1 lat o with
  | error e => rw [h1] at hf; exact hf.elim
  | ok b =>
    rw [h1] at hf
    obtain ⟨_, _, h2⟩ := hf
    obtain ⟨_, h3⟩ := C38_single_node_partial lat o ho b h1
    intro k hk
    obtain ⟨f, g1, g2⟩ := h2 k hk
    obtain ⟨t, X, F, e1, e2, e3⟩ := h3 k hk
    rw [e3] at g1
    injection g1 with g1
    subst g1
    exact ⟨t, X, F, e1, e2, g2⟩

/-- a run without interactions is a run in the field of the lattice -/
theorem tracking_external (p : Parsed) (J : Indet) (nodes : Nat) : (tracking p J nodes).run.ExternalOn (Lattice.field p.lattice.lattice) (fun s => s = []) := by
  refine ⟨?_, ?_, ?_⟩
  · rintro s rfl
    show Lattice.field (p.lattice.lattice ++ []) = _
    rw [List.append_nil]
  · rintro b s s' rfl h
    change Except.ok [] = _ at h
    injection h with h
    exact h.symm
  · rintro b s s' rfl h
    change Except.ok [] = _ at h
    injection h with h
    exact h.symm

/-- the parts of a successful run of the program -/
theorem program_parts (L : Lib) (rnd : Nat → (Nat → Nat → ℝ) × (Nat → Nat → Nat → ℝ)) (J : Indet) (N : Nat) (doc : Xml) (fs : List OutFile)
    (h : L.program rnd J (N + 1) doc = .ok fs) :
    ∃ p m ms s loggers w root rest logs fels obs, (L.withRandom (rnd 0)).parse doc = .ok p ∧ masterBeam p = .ok m ∧ ms.length = N ∧
      (∀ b ∈ m :: ms, Beam.Reachable b) ∧ (∀ b ∈ m :: ms, Beam.blank b = m.blank) ∧ 0 ≤ p.tracking.NOTS ∧ p.tracking.state.interactions.mapM id = .ok s ∧
      p.beam.logs.mapM (LogSpec.create m) = .ok loggers ∧
      runSteps (tracking p J (N + 1)).run (m :: ms) s ⟨loggers, p.tracking.state.watches, []⟩ p.tracking.NOTS.toNat = .ok w ∧ w.nodes = root :: rest ∧
      (logFiles p |>.zip w.out.loggers).mapM (fun nl : String × Logger => (nl.2.writeData root.master).map (fun d => (⟨nl.1, d⟩ : OutFile))) = .ok logs ∧
      (root.inter.zip (felFiles doc)).mapM felOutput = .ok fels ∧
      p.observers.observers.mapM (L.observeSpec w p.lattice.lattice root.master) = .ok obs ∧
      fs = w.out.files.map (fun f => ⟨f.watch.filename, .watch f.data⟩) ++ logs ++ fels.flatten ++ obs.flatten := by
  by_cases hok : ∃ p, (L.withRandom (rnd 0)).parse doc = .ok p ∧ ∃ m, masterBeam p = .ok m
  · obtain ⟨p, hp, m, hm⟩ := hok
    obtain ⟨ms, h1, h2, h3, h4⟩ := program_ok L rnd J N doc p hp m hm
    rw [h4] at h
    split_ifs at h with hn
    simp only [bind, Except.bind] at h
    cases hs : p.tracking.state.interactions.mapM id with
    | error e => rw [hs] at h; cases h
    | ok s =>
    rw [hs] at h
    simp only at h
    cases hl : p.beam.logs.mapM (LogSpec.create m) with
    | error e => rw [hl] at h; cases h
    | ok loggers =>
    rw [hl] at h
    simp only at h
    cases hw : runAll (tracking p J (N + 1)).run (m :: ms) s ⟨loggers, p.tracking.state.watches, []⟩ with
    | error e => rw [hw] at h; cases h
    | ok w =>
    rw [hw] at h
    simp only at h
    unfold finish at h
    cases hwn : w.nodes with
    | nil => rw [hwn] at h; cases h
    | cons root rest =>
    rw [hwn] at h
    simp only [bind, Except.bind] at h
    have hext : p.lattice.lattice.filter (fun e => e.isExternal) = p.lattice.lattice := by
      rw [List.filter_eq_self]
      exact (parse_loaded _ doc p hp).2
    rw [remove_all, hext] at h
    cases hlo : (logFiles p |>.zip w.out.loggers).mapM (fun nl : String × Logger => (nl.2.writeData root.master).map (fun d => (⟨nl.1, d⟩ : OutFile))) with
    | error e => rw [hlo] at h; cases h
    | ok logs =>
    rw [hlo] at h
    simp only at h
    cases hfe : (root.inter.zip (felFiles doc)).mapM felOutput with
    | error e => rw [hfe] at h; cases h
    | ok fels =>
    rw [hfe] at h
    simp only at h
    cases hob : p.observers.observers.mapM (L.observeSpec w p.lattice.lattice root.master) with
    | error e => rw [hob] at h; cases h
    | ok obs =>
    rw [hob] at h
    injection h with h
    exact ⟨p, m, ms, s, loggers, w, root, rest, logs, fels, obs, hp, hm, h1, h2, h3, by omega, hs, hl, hw, hwn, hlo, hfe, hob, h.symm⟩
  · obtain ⟨e, he⟩ := program_error L rnd J N doc (fun p hp m hm => hok ⟨p, hp, m, hm⟩)
    rw [he] at h
    cases h

theorem master_dt {p : Parsed} {m : Beam} (h : masterBeam p = .ok m) : m.dt = p.tracking.timeStep := by
  unfold masterBeam at h
  cases hb : p.beam.bunches.mapM id with
  | error e => rw [hb] at h; cases h
  | ok bs =>
    rw [hb] at h
    injection h with h
    rw [← h]

/-- the parts of a run of the program and the files of the observers -/
theorem observer_parts (L : Lib) (rnd : Nat → (Nat → Nat → ℝ) × (Nat → Nat → Nat → ℝ)) (J : Indet) (N : Nat) (doc : Xml) (fs : List OutFile)
    (h : L.program rnd J (N + 1) doc = .ok fs) :
    ∃ p m ms s loggers w root rest logs fels obs, ((L.withRandom (rnd 0)).parse doc = .ok p ∧ masterBeam p = .ok m ∧ ms.length = N ∧
      (∀ b ∈ m :: ms, Beam.Reachable b) ∧ (∀ b ∈ m :: ms, Beam.blank b = m.blank) ∧ 0 ≤ p.tracking.NOTS ∧ p.tracking.state.interactions.mapM id = .ok s ∧
      p.beam.logs.mapM (LogSpec.create m) = .ok loggers ∧
      runSteps (tracking p J (N + 1)).run (m :: ms) s ⟨loggers, p.tracking.state.watches, []⟩ p.tracking.NOTS.toNat = .ok w ∧ w.nodes = root :: rest ∧
      (logFiles p |>.zip w.out.loggers).mapM (fun nl : String × Logger => (nl.2.writeData root.master).map (fun d => (⟨nl.1, d⟩ : OutFile))) = .ok logs ∧
      (root.inter.zip (felFiles doc)).mapM felOutput = .ok fels ∧
      p.observers.observers.mapM (L.observeSpec w p.lattice.lattice root.master) = .ok obs ∧
      fs = w.out.files.map (fun f => ⟨f.watch.filename, .watch f.data⟩) ++ logs ++ fels.flatten ++ obs.flatten) ∧
      obs.flatten.length = p.observers.observers.length ∧
        ∀ (i : Nat) (spec : ObserverSpec), p.observers.observers[i]? = some spec → ∃ d, obs.flatten[i]? = some ⟨spec.file, d⟩ ∧
          (spec.source = .beam →
            ∃ ps S, Coupled.after p.lattice.lattice p.tracking.timeStep m.all s p.tracking.NOTS.toNat = .ok (ps, S) ∧
              ∀ k ∈ spec.observer.keys, ∃ t X Fs, spec.observer.samplePoint k = .ok (t, X) ∧ ps.mapM (spec.observer.particleSample k) = .ok Fs ∧
                Shows spec.observer d k X Fs.sum) ∧
          (spec.source = .lattice →
            ∀ k ∈ spec.observer.keys, ∃ t X F, spec.observer.samplePoint k = .ok (t, X) ∧ Lattice.field p.lattice.lattice t X = .ok F ∧
              Shows spec.observer d k X (F * ((N + 1 : Nat) : ℝ))) := by
  obtain ⟨p, m, ms, s, loggers, w, root, rest, logs, fels, obs, hp, hm, h1, h2, h3, h4, hs, hl, hw, hwn, hlo, hfe, hob, hfs⟩ := program_parts L rnd J N doc fs h
  refine ⟨p, m, ms, s, loggers, w, root, rest, logs, fels, obs, ⟨hp, hm, h1, h2, h3, h4, hs, hl, hw, hwn, hlo, hfe, hob, hfs⟩, ?_⟩
  have hwf : ∀ b ∈ m :: ms, Beam.WF b := fun b hb => Beam.wf_reachable (h2 b hb)
  have hlen : (m :: ms).length = (tracking p J (N + 1)).run.nodes := by simp [h1]; rfl
  have hN' : 0 < (tracking p J (N + 1)).run.nodes := by show 0 < N + 1; omega
  obtain ⟨hcount, hne⟩ := run_counted _ hN' (m :: ms) hlen hwf m rfl h3 s _ _ w hw
  have hnl : w.nodes.length = N + 1 := by
    obtain ⟨M, hM, hMl, _, hdt, _, hMall, hlens, hset⟩ := setupMasters (m :: ms) m (hwf m (by simp)) hwf h3 (tracking p J (N + 1)).run.NOTS
    have hr := runSteps_abs (tracking p J (N + 1)).run hN' (m :: ms) hlen hwf m rfl h3 s ⟨loggers, p.tracking.state.watches, []⟩ M hM hMl hset p.tracking.NOTS.toNat
    rw [hr.1] at hw
    cases hA : absRun (tracking p J (N + 1)).run (trackingNOP M.all.length (tracking p J (N + 1)).run.nodes) M s ⟨loggers, p.tracking.state.watches, []⟩ p.tracking.NOTS.toNat with
    | error e => rw [hA] at hw; cases hw
    | ok A =>
      rw [hA] at hw
      injection hw with hw
      subst hw
      simp [Abs.world, chunks]
      rfl
  -- every observer has one file
  have key : ∀ spec ∈ p.observers.observers, ∀ files, L.observeSpec w p.lattice.lattice root.master spec = .ok files → ∃ d, files = [⟨spec.file, d⟩] ∧
          (spec.source = .beam →
            ∃ ps S, Coupled.after p.lattice.lattice p.tracking.timeStep m.all s p.tracking.NOTS.toNat = .ok (ps, S) ∧
              ∀ k ∈ spec.observer.keys, ∃ t X Fs, spec.observer.samplePoint k = .ok (t, X) ∧ ps.mapM (spec.observer.particleSample k) = .ok Fs ∧
                Shows spec.observer d k X Fs.sum) ∧
          (spec.source = .lattice →
            ∀ k ∈ spec.observer.keys, ∃ t X F, spec.observer.samplePoint k = .ok (t, X) ∧ Lattice.field p.lattice.lattice t X = .ok F ∧
              Shows spec.observer d k X (F * ((N + 1 : Nat) : ℝ))) := by
    intro spec hspec files hf
    have hload := (parse_loaded _ doc p hp).1 spec hspec
    obtain ⟨ow, oz⟩ := hload.1.ok
    unfold observeSpec at hf
    cases hsrc : spec.source with
    | beam =>
      simp only [hsrc, bind, Except.bind] at hf
      cases ho : observeBeam w spec.observer with
      | error e => rw [ho] at hf; cases hf
      | ok o1 =>
      rw [ho] at hf
      simp only at hf
      cases ho2 : storeParticles root.master .beam o1 with
      | error e => rw [ho2] at hf; cases hf
      | ok o2 =>
      rw [ho2] at hf
      simp only at hf
      have hc : ∀ s ∈ w.nodes.map (fun n => RadSource.beam n.tracked), s.Counted := by
        intro s hs
        simp only [List.mem_map] at hs
        obtain ⟨n, hn, rfl⟩ := hs
        exact hcount n hn
      have hafter := observe_after hload.1 _ (by simpa using hne) hc ho
      have h31 := ((Observer.observe_spec ow oz _ (by simpa using hne) hc).1 o1 ho).1
      obtain ⟨d, hd, hshow⟩ := file_shows L (rnd 0) spec hload root.master o1 o2 hafter h31 (by rw [hsrc]; exact ho2) files hf
      refine ⟨d, hd, ?_, by intro e; cases e⟩
      intro _
      obtain ⟨_, M, S, hT, _⟩ := run_together (tracking p J (N + 1)) hN' (m :: ms) hlen h2 m rfl h3 s _ _ w hw
      obtain ⟨ps, hps, hflat, _⟩ := hT.now
      rw [master_dt hm] at hps
      refine ⟨ps, S, hps, ?_⟩
      obtain ⟨_, hv⟩ := C37_value w hne hcount spec.observer hload.1 o1 ho
      intro k hk
      obtain ⟨Fs, g1, g2⟩ := hv k hk
      rw [hflat, mapM_reserve] at g1
      obtain ⟨t, X, e1, e2⟩ := hshow k hk _ g2
      exact ⟨t, X, Fs, e1, g1, e2⟩
    | lattice =>
      simp only [hsrc, bind, Except.bind] at hf
      cases ho : observeLattice w.nodes.length p.lattice.lattice spec.observer with
      | error e => rw [ho] at hf; cases hf
      | ok o1 =>
      rw [ho] at hf
      simp only at hf
      cases ho2 : storeParticles root.master .lattice o1 with
      | error e => rw [ho2] at hf; cases hf
      | ok o2 =>
      rw [ho2] at hf
      simp only at hf
      rw [hnl] at ho
      have hc : ∀ s ∈ List.replicate (N + 1) (RadSource.lattice (Lattice.field p.lattice.lattice)), s.Counted := by
        intro s hs
        rw [(List.mem_replicate.mp hs).2]
        trivial
      have hafter := observe_after hload.1 _ (by simp) hc ho
      have h31 := ((Observer.observe_spec ow oz _ (by simp) hc).1 o1 ho).1
      obtain ⟨d, hd, hshow⟩ := file_shows L (rnd 0) spec hload root.master o1 o2 hafter h31 (by rw [hsrc]; exact ho2) files hf
      refine ⟨d, hd, (by intro e; cases e), ?_⟩
      intro _ k hk
      obtain ⟨t, X, F, g1, g2, g3⟩ := lattice_samples p.lattice.lattice spec.observer hload.1 (N + 1) (by omega) o1 ho k hk
      obtain ⟨t', X', e1, e2⟩ := hshow k hk _ g3
      rw [g1] at e1
      simp only [Except.ok.injEq, Prod.mk.injEq] at e1
      rw [← e1.2] at e2
      exact ⟨t, X, F, g1, g2, e2⟩
  have hone : ∀ l ∈ obs, l.length = 1 := by
    intro l hl
    obtain ⟨spec, hspec, he⟩ := mapM_mem_ok hob hl
    obtain ⟨d, hd, _⟩ := key spec hspec l he
    rw [hd]
    rfl
  refine ⟨?_, ?_⟩
  · rw [Mesh.flatten_length _ 1 hone, mul_one]
    exact (mapM_except_length hob).1
  · intro i spec hi
    obtain ⟨l, g1, g2⟩ := mapM_get hob i spec hi
    obtain ⟨d, hd, hrest⟩ := key spec (List.mem_of_getElem? hi) l g1
    refine ⟨d, ?_, hrest⟩
    have := flatMap_get obs id 1 hone i l g2 0 (by norm_num)
    rw [List.flatMap_id, mul_one, add_zero, hd] at this
    rw [this]
    rfl

/-- **C83.** The last files written by the program are those of the observers, one for each observer of the input, in that order
and with the name given there.  The file of an observer of the beam contains for every sample the sum of the fields this observer
records of every single particle of the beam, moved for the given number of steps through the fields of the lattice and of the
interactions - whatever the number of nodes.  The file of an observer of the lattice contains the field of the lattice at the time and
place of the sample, multiplied by the number of nodes (C38). -/
theorem C83_coupled_partial (L : Lib) (rnd : Nat → (Nat → Nat → ℝ) × (Nat → Nat → Nat → ℝ)) (J : Indet) (nodes : Nat) (hN : 0 < nodes) (doc : Xml) (fs : List OutFile)
    (h : L.program rnd J nodes doc = .ok fs) :
    ∃ p m s, (L.withRandom (rnd 0)).parse doc = .ok p ∧ masterBeam p = .ok m ∧ p.tracking.state.interactions.mapM id = .ok s ∧
      ∃ before files : List OutFile, fs = before ++ files ∧ files.length = p.observers.observers.length ∧
        ∀ (i : Nat) (spec : ObserverSpec), p.observers.observers[i]? = some spec → ∃ d, files[i]? = some ⟨spec.file, d⟩ ∧
          (spec.source = .beam →
            ∃ ps S, Coupled.after p.lattice.lattice p.tracking.timeStep m.all s p.tracking.NOTS.toNat = .ok (ps, S) ∧
              ∀ k ∈ spec.observer.keys, ∃ t X Fs, spec.observer.samplePoint k = .ok (t, X) ∧ ps.mapM (spec.observer.particleSample k) = .ok Fs ∧
                Shows spec.observer d k X Fs.sum) ∧
          (spec.source = .lattice →
            ∀ k ∈ spec.observer.keys, ∃ t X F, spec.observer.samplePoint k = .ok (t, X) ∧ Lattice.field p.lattice.lattice t X = .ok F ∧
              Shows spec.observer d k X (F * (nodes : ℝ))) := by
  obtain ⟨N, rfl⟩ : ∃ N, nodes = N + 1 := ⟨nodes - 1, by omega⟩
  obtain ⟨p, m, ms, s, loggers, w, root, rest, logs, fels, obs, ⟨hp, hm, _, _, _, _, hs, _, _, _, _, _, _, hfs⟩, hlen, hfiles⟩ := observer_parts L rnd J N doc fs h
  exact ⟨p, m, s, hp, hm, hs, _, obs.flatten, hfs, hlen, hfiles⟩

/-- C83 without interactions: each particle is tracked alone through the lattice. -/
theorem C83_observers_partial (L : Lib) (rnd : Nat → (Nat → Nat → ℝ) × (Nat → Nat → Nat → ℝ)) (J : Indet) (nodes : Nat) (hN : 0 < nodes) (doc : Xml) (fs : List OutFile)
    (h : L.program rnd J nodes doc = .ok fs) :
    ∃ p m, (L.withRandom (rnd 0)).parse doc = .ok p ∧ masterBeam p = .ok m ∧
      ∃ before files : List OutFile, fs = before ++ files ∧ files.length = p.observers.observers.length ∧
        ∀ (i : Nat) (spec : ObserverSpec), p.observers.observers[i]? = some spec → ∃ d, files[i]? = some ⟨spec.file, d⟩ ∧
          (spec.source = .beam → p.tracking.state.interactions = [] →
            ∃ ps, m.all.mapM (fun q => trackAlone p.tracking.timeStep (Lattice.field p.lattice.lattice) q p.tracking.NOTS.toNat) = .ok ps ∧
              ∀ k ∈ spec.observer.keys, ∃ t X Fs, spec.observer.samplePoint k = .ok (t, X) ∧ ps.mapM (spec.observer.particleSample k) = .ok Fs ∧
                Shows spec.observer d k X Fs.sum) ∧
          (spec.source = .lattice →
            ∀ k ∈ spec.observer.keys, ∃ t X F, spec.observer.samplePoint k = .ok (t, X) ∧ Lattice.field p.lattice.lattice t X = .ok F ∧
              Shows spec.observer d k X (F * (nodes : ℝ))) := by
  obtain ⟨p, m, s, hp, hm, hs, before, files, hfs, hlen, hfiles⟩ := C83_coupled_partial L rnd J nodes hN doc fs h
  refine ⟨p, m, hp, hm, before, files, hfs, hlen, ?_⟩
  intro i spec hi
  obtain ⟨d, h1, h2, h3⟩ := hfiles i spec hi
  refine ⟨d, h1, ?_, h3⟩
  intro hb hint
  have hs0 : s = [] := by
    rw [hint] at hs
    injection hs with hs
    exact hs.symm
  subst hs0
  obtain ⟨ps, S, g1, g2⟩ := h2 hb
  exact ⟨ps, ((coupled_alone _ _ _ _ _ _).mp g1).1, g2⟩

/-- non-vacuity of C83: on five nodes the file shows five times the field of the lattice -/
example (rnd : Nat → (Nat → Nat → ℝ) × (Nat → Nat → Nat → ℝ)) (J : Indet) :
    ∃ f : PointFile, exampleLib.program rnd J 5 (progDoc "lattice") = .ok [⟨"point.sdds", .point f⟩] ∧ f.rows[0]? = some [0, ((4 + 1 : Nat) : ℝ), 0, 0, 0, 0, 0] :=
  progDoc_lattice rnd J 4

/-- C83: the full statement is false: on two nodes the observers of the lattice show twice its field. -/
theorem C83_full_statement_false : ¬ ∀ (L : Lib) (rnd : Nat → (Nat → Nat → ℝ) × (Nat → Nat → Nat → ℝ)) (J : Indet) (nodes : Nat) (doc : Xml) (fs : List OutFile) (p : Parsed),
    0 < nodes → L.program rnd J nodes doc = .ok fs → (L.withRandom (rnd 0)).parse doc = .ok p →
    ∀ (i : Nat) (spec : ObserverSpec) (d : FileData), p.observers.observers[i]? = some spec → spec.source = .lattice → (⟨spec.file, d⟩ : OutFile) ∈ fs →
      ∀ k ∈ spec.observer.keys, ∀ t X F, spec.observer.samplePoint k = .ok (t, X) → Lattice.field p.lattice.lattice t X = .ok F → Shows spec.observer d k X F := by
  intro hall
  obtain ⟨f, h1, h2⟩ := progDoc_lattice (fun _ => (fun _ _ => 0, fun _ _ _ => 0)) ⟨fun _ _ _ => 0, fun _ => 0, 0⟩ 1
  have hparse := progDoc_parse (fun _ _ => 0, fun _ _ _ => 0) "lattice" .lattice (Or.inr ⟨rfl, rfl⟩)
  obtain ⟨p, m, hp, hm, before, files, hfs, hlen, hfiles⟩ := C83_observers_partial exampleLib (fun _ => (fun _ _ => 0, fun _ _ _ => 0)) ⟨fun _ _ _ => 0, fun _ => 0, 0⟩ 2 (by norm_num)
    (progDoc "lattice") _ h1
  rw [hparse] at hp
  cases hp
  obtain ⟨d, hd, -, hlat⟩ := hfiles 0 ⟨.point (PointObs.new ⟨0, 0, 0⟩ 0 1 3), .lattice, "point.sdds"⟩ rfl
  have hmem : (⟨"point.sdds", d⟩ : OutFile) ∈ ([⟨"point.sdds", .point f⟩] : List OutFile) := by
    rw [hfs]
    exact List.mem_append_right _ (List.mem_of_getElem? hd)
  have hdf : d = .point f := by simpa using hmem
  subst hdf
  have hk : ((0, 0), 0) ∈ Observer.keys (.point (PointObs.new ⟨0, 0, 0⟩ 0 1 3)) := by
    simp [Observer.keys, PointObs.new, FieldTrace.new]
  obtain ⟨t, X, F, e1, e2, e3⟩ := hlat rfl _ hk
  have e4 := hall exampleLib (fun _ => (fun _ _ => 0, fun _ _ _ => 0)) ⟨fun _ _ _ => 0, fun _ => 0, 0⟩ 2 (progDoc "lattice") _ _ (by norm_num) h1 hparse 0 _ _ rfl rfl
    (List.mem_singleton.mpr rfl) _ hk t X F e1 e2
  simp only [Shows] at e3 e4
  rw [h2] at e3 e4
  simp only [Option.some.injEq, List.cons.injEq] at e3 e4
  have a := e3.2.1
  have b := e4.2.1
  have c : (F * ((2 : Nat) : ℝ)).E.x = F.E.x * 2 := by simp
  rw [c] at a
  push_cast at a b
  linarith

end Lib
end Teufel
