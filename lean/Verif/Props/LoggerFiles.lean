import Verif.Model.Program
import Verif.Lemmas.ObserverFiles
import Verif.Props.ProbeLog

/-! # C81: the files written by loggers -/

namespace Teufel
open Vec

variable {σ : Type}

/-- one row of the table of a parameter log: time, average position, average momentum, energy, relative momentum spread,
r.m.s. beam size, bunching factor -/
noncomputable def paramRow (bf : Option ℝ) (bu : Bunch) : List (Except Err ℝ) :=
  [bu.avgTime, bu.avgPosition.map Vec.x, bu.avgPosition.map Vec.y, bu.avgPosition.map Vec.z,
    bu.avgMomentum.map Vec.x, bu.avgMomentum.map Vec.y, bu.avgMomentum.map Vec.z, bu.avgGamma, bu.delta,
    bu.rmsPosition.map Vec.x, bu.rmsPosition.map Vec.y, bu.rmsPosition.map Vec.z, bunchingSpec bf bu]

theorem charge_sum {b : Bunch} (h : b.NOP = b.P.length) : b.getTotalCharge = .ok ((b.P.map (fun p => p.Charge * ElementaryCharge)).sum) := by
  unfold Bunch.getTotalCharge visited
  rw [if_pos (by omega), h, List.take_length]
  simp only [Except.map]
  congr 1
  have key : ∀ (l : List Particle) (a : ℝ), l.foldl (fun (c : ℝ) (p : Particle) => c + p.getCharge) a = a + (l.map (fun p => p.Charge * ElementaryCharge)).sum := by
    intro l
    induction l with
    | nil => intro a; simp
    | cons p l ih =>
      intro a
      rw [List.foldl_cons, ih, List.map_cons, List.sum_cons]
      unfold Particle.getCharge
      ring
  rw [key, zero_add]

/-- **C81.** The file of a parameter log with step size `st` on bunch `b`, written after `k` steps: the number of rows, the
number of particles and their total charge in Coulomb, the frequency for which the bunching is computed, and
`1+⌊k/st⌋` rows.  Row `l` describes the bunch after `l·st` steps. -/
theorem C81_parameter (R : Run σ Output) (junk : Nat → ℝ) (fuel : Nat) {probe : Option (Nat × Nat)} (hR : R.Records junk fuel probe)
    (hN : 0 < R.nodes) (ms : List Beam) (hlen : ms.length = R.nodes)
    (hreach : ∀ m ∈ ms, Beam.Reachable m) (m0 : Beam) (hm0 : ms.head? = some m0) (hblank : ∀ m ∈ ms, Beam.blank m = m0.blank)
    (s : σ) (out : Output) (i b st : Nat) (bf : Option ℝ)
    (hst : 1 ≤ st) (hl : out.loggers[i]? = some (.param b (ParamLog.new st bf))) (k : Nat) (w : World σ Output)
    (hw : runSteps R ms s out k = .ok w) (m t : Beam) (hroot : w.root = some (m, t)) :
    ∃ log bu F, w.out.loggers[i]? = some log ∧ m.B[b]? = some bu ∧ log.writeData m = .ok (.params F) ∧
      F.NumberTimeSteps = 1 + k / st ∧ F.NumberParticles = bu.P.length ∧
      F.TotalCharge = (bu.P.map (fun p => p.Charge * ElementaryCharge)).sum ∧ F.BunchingFrequency = bf ∧
      F.rows.length = 1 + k / st ∧
      ∀ l, l * st ≤ k → ∃ m' t' bu', RootAt R ms s out (l * st) m' t' ∧ m'.B[b]? = some bu' ∧ F.rows[l]? = some (paramRow bf bu') := by
  obtain ⟨H, l', h1, h2, h3, h4, h5⟩ := logger_history R junk fuel hR ms s out i _ hl hst k w hw
  obtain ⟨bus, g1, g2, rfl⟩ := param_fold junk fuel b H _ l' h3
  obtain ⟨c1, c2, c3, c4, c5, c6, c7, c8, c9, c10, c11⟩ := param_columns bus (ParamLog.new st bf)
  have hst' : (Logger.param b (ParamLog.new st bf)).stepsize = st := rfl
  rw [hst'] at h1 h2
  have hn : bus.length = 1 + k / st := g1.trans h1
  obtain ⟨n, hn1, rfl, _⟩ := root_mem hroot
  obtain ⟨q1, q2⟩ := run_sizes R hN ms hlen hreach m0 hm0 hblank s out k w hw n hn1
  -- the bunch exists
  have hpos : 0 < bus.length := by rw [hn]; exact Nat.lt_of_lt_of_le Nat.one_pos (Nat.le_add_right _ _)
  obtain ⟨bu, hbu⟩ : ∃ bu, n.master.B[b]? = some bu := by
    obtain ⟨r, hr1, hr2⟩ := g2 0 _ (List.getElem?_eq_getElem hpos)
    obtain ⟨w', hw', hroot'⟩ := h2 0 r hr1
    obtain ⟨n', hn', hm', _⟩ := root_mem hroot'
    have q2' := (run_sizes R hN ms hlen hreach m0 hm0 hblank s out _ w' hw' n' hn').2
    rw [hm'] at q2'
    have hb : b < r.1.B.length := (List.getElem?_eq_some_iff.mp hr2).1
    have e : r.1.B.length = n.master.B.length := by
      have := congrArg List.length (q2'.trans q2.symm)
      simpa using this
    exact ⟨_, List.getElem?_eq_getElem (by omega)⟩
  have hrow : ∀ j (hj : j < bus.length), (bus.foldl ParamLog.update (ParamLog.new st bf)).fileRow j = .ok (paramRow bf bus[j]) := by
    intro j hj
    have e : ∀ {α : Type} (c : List α) (f : Bunch → α), c = bus.map f → Particle.vecAt c j = .ok (f bus[j]) := by
      intro α c f hc
      subst hc
      unfold Particle.vecAt
      rw [List.getElem?_map, List.getElem?_eq_getElem hj]
      rfl
    unfold ParamLog.fileRow ParamLog.row
    rw [show Particle.vecAt (bus.foldl ParamLog.update (ParamLog.new st bf)).Time j = _ from e _ _ c3,
      show Particle.vecAt (bus.foldl ParamLog.update (ParamLog.new st bf)).Pos j = _ from e _ _ c4,
      show Particle.vecAt (bus.foldl ParamLog.update (ParamLog.new st bf)).BG j = _ from e _ _ c5,
      show Particle.vecAt (bus.foldl ParamLog.update (ParamLog.new st bf)).Gamma j = _ from e _ _ c7,
      show Particle.vecAt (bus.foldl ParamLog.update (ParamLog.new st bf)).Delta j = _ from e _ _ c11,
      show Particle.vecAt (bus.foldl ParamLog.update (ParamLog.new st bf)).PosRMS j = _ from e _ _ c6,
      show Particle.vecAt (bus.foldl ParamLog.update (ParamLog.new st bf)).BF j = _ from e _ _ c10]
    rfl
  have hNOTS : (bus.foldl ParamLog.update (ParamLog.new st bf)).NOTS = bus.length := by rw [c1]; simp [ParamLog.new]
  have hrows : (List.range bus.length).mapM (bus.foldl ParamLog.update (ParamLog.new st bf)).fileRow = .ok (bus.map (paramRow bf)) := by
    have e : bus.map (paramRow bf) = (List.range bus.length).map (fun j : Nat => if h : j < bus.length then paramRow bf bus[j] else []) := by
      apply List.ext_getElem
      · simp
      · intro j h1 h2
        simp at h1
        simp [h1]
    rw [e]
    apply mapM_ok_map
    intro j hj
    rw [List.mem_range] at hj
    rw [dif_pos hj]
    exact hrow j hj
  refine ⟨_, bu, ⟨bus.length, bu.getNOP, (bu.P.map (fun p => p.Charge * ElementaryCharge)).sum, bf, bus.map (paramRow bf)⟩, h5, hbu, ?_, hn, ?_, rfl, rfl, by simpa using hn, ?_⟩
  · have hP := (q1.2 bu (List.mem_of_getElem? hbu)).1
    simp only [Logger.writeData, Particle.vecAt, hbu, bind, Except.bind, ParamLog.writeData, charge_sum hP, hNOTS, hrows, pure, Except.pure, Except.map]
    have : (bus.foldl ParamLog.update (ParamLog.new st bf)).bunching = bf := c2
    rw [this]
  · exact (q1.2 bu (List.mem_of_getElem? hbu)).1
  · intro l hlk
    have hlt : l < bus.length := by
      rw [hn]
      have := (Nat.le_div_iff_mul_le (by omega)).mpr hlk
      omega
    have hb := List.getElem?_eq_getElem hlt
    obtain ⟨r, hr1, hr2⟩ := g2 l _ hb
    exact ⟨r.1, r.2, bus[l], h2 l r hr1, hr2, by simp only [List.getElem?_map, hb, Option.map_some]⟩

/-- an array written record by record -/
theorem records_entry {name : String} {n p c : Nat} {data : List (List ℝ)} {ints : List (String × Nat)} {reals : List (String × ℝ)}
    (hlen : data.length = n) (hd : ∀ v ∈ data, v.length = p * c) {l j a : Nat} {v : List ℝ} (hl : data[l]? = some v) (hj : j < p) (ha : a < c) :
    H5File.entry [⟨name, [n, p, c], data.flatten, ints, reals⟩] name [l, j, a] = v[j * c + a]? := by
  have hln : l < n := by rw [← hlen]; exact (List.getElem?_eq_some_iff.mp hl).1
  unfold H5File.entry H5File.dataset
  simp only [List.find?_cons, beq_self_eq_true]
  rw [rowMajor3 n p c l j a hln hj ha, Option.bind_some, List.flatten_eq_flatMap]
  have hlt : j * c + a < p * c := by
    calc j * c + a < j * c + c := by omega
      _ = (j + 1) * c := by ring
      _ ≤ p * c := Nat.mul_le_mul_right _ hj
  rw [show (l * p + j) * c + a = l * (p * c) + (j * c + a) by ring]
  exact flatMap_get data id (p * c) hd l v hl (j * c + a) hlt

theorem TrajLog.writeData_ok {L : TrajLog} (h : L.output = .ok L.data.flatten) (hl : L.data.flatten.length = L.NOTS * L.NOP * 6) (hf : L.NOTS * L.NOP * 6 < 2 ^ 32) :
    L.writeData = .ok [⟨"Trajectories", [L.NOTS, L.NOP, 6], L.data.flatten, [("NOTS", L.NOTS), ("NOP", L.NOP)], []⟩] := by
  unfold TrajLog.writeData
  rw [h]
  simp only [bind, Except.bind, pure, Except.pure]
  rw [Nat.mod_eq_of_lt hf, fill_exact _ _ hl]
  simp only
  rw [h5write_exact _ _ _ _ _ (by rw [hl]; simp; ring)]

theorem TrajLog.writeData_over {L : TrajLog} (h : L.output = .ok L.data.flatten) (hl : L.data.flatten.length = L.NOTS * L.NOP * 6) (hf : 2 ^ 32 ≤ L.NOTS * L.NOP * 6) :
    L.writeData = .error .ub := by
  unfold TrajLog.writeData
  rw [h]
  simp only [bind, Except.bind]
  have := Nat.mod_lt (L.NOTS * L.NOP * 6) (show 0 < 2 ^ 32 by norm_num)
  rw [fill_short _ _ (by omega)]

/-- the coordinates stored for a particle in a trajectory log -/
def trajCoordinates (p : Particle) : List ℝ := [p.XCur.x, p.XCur.y, p.XCur.z, p.PCur.x, p.PCur.y, p.PCur.z]

theorem traj_len (l : List Particle) : (l.flatMap trajCoordinates).length = l.length * 6 := flatMap_len _ _ 6 (fun _ _ => rfl)

/-- what is common to all trajectory logs -/
theorem traj_log (R : Run σ Output) (junk : Nat → ℝ) (fuel : Nat) {probe : Option (Nat × Nat)} (hR : R.Records junk fuel probe)
    (hN : 0 < R.nodes) (ms : List Beam) (hlen : ms.length = R.nodes)
    (hreach : ∀ m ∈ ms, Beam.Reachable m) (m0 : Beam) (hm0 : ms.head? = some m0) (hblank : ∀ m ∈ ms, Beam.blank m = m0.blank)
    (s : σ) (out : Output) (i b st number : Nat) (bu0 : Bunch) (hb0 : m0.B[b]? = some bu0)
    (hst : 1 ≤ st) (hl : out.loggers[i]? = some (.traj b (TrajLog.new bu0 st number))) (k : Nat) (w : World σ Output)
    (hw : runSteps R ms s out k = .ok w) :
    ∃ L, w.out.loggers[i]? = some (.traj b L) ∧ L.NOTS = 1 + k / st ∧ L.NOP = min number bu0.getNOP ∧ L.data.length = L.NOTS ∧ (∀ v ∈ L.data, v.length = L.NOP * 6) ∧
      L.output = .ok L.data.flatten ∧ L.data.flatten.length = L.NOTS * L.NOP * 6 ∧
      ∀ l, l * st ≤ k → ∃ m t bu, RootAt R ms s out (l * st) m t ∧ m.B[b]? = some bu ∧ bu.P.length = bu0.getNOP ∧ L.data[l]? = some ((bu.P.take L.NOP).flatMap trajCoordinates) := by
  obtain ⟨L, h1, h2, h3, h4, h5, h6, h7⟩ := C41_trajectory R junk fuel hR hN ms hlen hreach m0 hm0 hblank s out i b st number bu0 hb0 hst hl k w hw
  have hrec : ∀ l, l * st ≤ k → ∃ m t bu, RootAt R ms s out (l * st) m t ∧ m.B[b]? = some bu ∧ bu.P.length = bu0.getNOP ∧ L.data[l]? = some ((bu.P.take L.NOP).flatMap trajCoordinates) := by
    intro l hlk
    obtain ⟨m, t, bu, g1, g2, g3, g4⟩ := h5 l hlk
    obtain ⟨w', hw', hroot⟩ := g1
    obtain ⟨n, hn, hm, _⟩ := root_mem hroot
    have q1 := (run_sizes R hN ms hlen hreach m0 hm0 hblank s out _ w' hw' n hn).1
    rw [hm] at q1
    have hP := (q1.2 bu (List.mem_of_getElem? g2)).1
    exact ⟨m, t, bu, ⟨w', hw', hroot⟩, g2, by rw [← g3, ← hP]; rfl, g4⟩
  refine ⟨L, h1, h2, h4, h3.trans h2.symm, ?_, h6, h7, hrec⟩
  intro v hv
  obtain ⟨l, hl1⟩ := List.getElem?_of_mem hv
  have hlt := (List.getElem?_eq_some_iff.mp hl1).1
  rw [h3] at hlt
  have hlk : l * st ≤ k := (Nat.le_div_iff_mul_le (by omega)).mp (by omega)
  obtain ⟨m, t, bu, _, _, g3, g4⟩ := hrec l hlk
  rw [hl1] at g4
  injection g4 with g4
  rw [g4, traj_len, List.length_take, g3, h4]
  congr 1
  omega

/-- **C81 (partial).** The file of a trajectory log for up to `number` particles of bunch `b`: `Trajectories[l,j,:]` are
position and momentum of particle `j` of the bunch after `l·st` steps.
Missing: more than 2³² numbers, see below. -/
theorem C81_trajectory_partial (R : Run σ Output) (junk : Nat → ℝ) (fuel : Nat) {probe : Option (Nat × Nat)} (hR : R.Records junk fuel probe)
    (hN : 0 < R.nodes) (ms : List Beam) (hlen : ms.length = R.nodes)
    (hreach : ∀ m ∈ ms, Beam.Reachable m) (m0 : Beam) (hm0 : ms.head? = some m0) (hblank : ∀ m ∈ ms, Beam.blank m = m0.blank)
    (s : σ) (out : Output) (i b st number : Nat) (bu0 : Bunch) (hb0 : m0.B[b]? = some bu0)
    (hst : 1 ≤ st) (hl : out.loggers[i]? = some (.traj b (TrajLog.new bu0 st number))) (k : Nat) (w : World σ Output)
    (hw : runSteps R ms s out k = .ok w) (m : Beam) (hfit : (1 + k / st) * min number bu0.getNOP * 6 < 2 ^ 32) :
    ∃ log F, w.out.loggers[i]? = some log ∧ log.writeData m = .ok (.hdf5 F) ∧ F.Consistent ∧ F.map H5Dataset.name = ["Trajectories"] ∧
      F.extent "Trajectories" = some [1 + k / st, min number bu0.getNOP, 6] ∧
      F.intAttr "Trajectories" "NOTS" = some (1 + k / st) ∧ F.intAttr "Trajectories" "NOP" = some (min number bu0.getNOP) ∧
      ∀ l, l * st ≤ k → ∃ m' t' bu', RootAt R ms s out (l * st) m' t' ∧ m'.B[b]? = some bu' ∧ bu'.P.length = bu0.getNOP ∧
        ∀ j p, j < number → bu'.P[j]? = some p →
          F.entry "Trajectories" [l, j, 0] = some p.XCur.x ∧ F.entry "Trajectories" [l, j, 1] = some p.XCur.y ∧ F.entry "Trajectories" [l, j, 2] = some p.XCur.z ∧
          F.entry "Trajectories" [l, j, 3] = some p.PCur.x ∧ F.entry "Trajectories" [l, j, 4] = some p.PCur.y ∧ F.entry "Trajectories" [l, j, 5] = some p.PCur.z := by
  obtain ⟨L, h1, h2, h3, h4, h5, h6, h7, h8⟩ := traj_log R junk fuel hR hN ms hlen hreach m0 hm0 hblank s out i b st number bu0 hb0 hst hl k w hw
  have hwd := TrajLog.writeData_ok h6 h7 (by rw [h2, h3]; exact hfit)
  refine ⟨_, _, h1, by simp only [Logger.writeData, hwd, Except.map]; rfl, ?_, rfl, by rw [← h2, ← h3]; rfl, by rw [← h2]; rfl, by rw [← h3]; rfl, ?_⟩
  · intro d hd
    rw [List.mem_singleton] at hd
    subst hd
    simp only [h7]
    simp
    ring
  · intro l hlk
    obtain ⟨m', t', bu, g1, g2, g3, g4⟩ := h8 l hlk
    refine ⟨m', t', bu, g1, g2, g3, ?_⟩
    intro j p hj hp
    have hjb : j < bu.P.length := (List.getElem?_eq_some_iff.mp hp).1
    have hjn : j < L.NOP := by rw [h3]; omega
    have key : ∀ a < 6, H5File.entry [⟨"Trajectories", [L.NOTS, L.NOP, 6], L.data.flatten, [("NOTS", L.NOTS), ("NOP", L.NOP)], []⟩] "Trajectories" [l, j, a] = (trajCoordinates p)[a]? := by
      intro a ha
      rw [records_entry h4 h5 g4 hjn ha]
      exact flatMap_get _ trajCoordinates 6 (fun _ _ => rfl) j p (by rw [List.getElem?_take, if_pos hjn]; exact hp) a ha
    exact ⟨key 0 (by omega), key 1 (by omega), key 2 (by omega), key 3 (by omega), key 4 (by omega), key 5 (by omega)⟩

/-- C81: with more than 2³² numbers the memory for the output is too small and is overwritten. -/
theorem C81_trajectory_overflow (R : Run σ Output) (junk : Nat → ℝ) (fuel : Nat) {probe : Option (Nat × Nat)} (hR : R.Records junk fuel probe)
    (hN : 0 < R.nodes) (ms : List Beam) (hlen : ms.length = R.nodes)
    (hreach : ∀ m ∈ ms, Beam.Reachable m) (m0 : Beam) (hm0 : ms.head? = some m0) (hblank : ∀ m ∈ ms, Beam.blank m = m0.blank)
    (s : σ) (out : Output) (i b st number : Nat) (bu0 : Bunch) (hb0 : m0.B[b]? = some bu0)
    (hst : 1 ≤ st) (hl : out.loggers[i]? = some (.traj b (TrajLog.new bu0 st number))) (k : Nat) (w : World σ Output)
    (hw : runSteps R ms s out k = .ok w) (m : Beam) (hfit : 2 ^ 32 ≤ (1 + k / st) * min number bu0.getNOP * 6) :
    ∃ log, w.out.loggers[i]? = some log ∧ log.writeData m = .error .ub := by
  obtain ⟨L, h1, h2, h3, h4, h5, h6, h7, h8⟩ := traj_log R junk fuel hR hN ms hlen hreach m0 hm0 hblank s out i b st number bu0 hb0 hst hl k w hw
  exact ⟨_, h1, by simp only [Logger.writeData, TrajLog.writeData_over h6 h7 (by rw [h2, h3]; exact hfit), Except.map]⟩

/-- **C81, full statement refuted.** There is a run that tracks all its steps but fails to write the file of a trajectory log. -/
theorem C81_full_statement_false : ∃ (k : Nat) (w : World Unit Output) (log : Logger),
    runSteps (demoRun0.withOutput (fun _ => 0) 10) [demoVay, demoVay] () demoOutput k = .ok w ∧ log ∈ w.out.loggers ∧ ∀ m, log.writeData m = .error .ub := by
  obtain ⟨w, hw⟩ := demo_output_run (3 * 2 ^ 32)
  have h := fun m => C81_trajectory_overflow (demoRun0.withOutput (fun _ => 0) 10) (fun _ => 0) 10 (probe := none) ⟨rfl, rfl⟩ (by decide) [demoVay, demoVay] rfl
      (by intro m hm; simp at hm; rw [hm]; exact demoVay_reachable) demoVay rfl (by intro m hm; simp at hm; rw [hm])
      () demoOutput 1 1 3 5 (Bunch.ofCount 2 1 1) rfl (by omega) rfl (3 * 2 ^ 32) w hw m (by
        have e : min 5 (Bunch.ofCount 2 1 1).getNOP = 2 := rfl
        rw [e]
        norm_num)
  obtain ⟨log, l1, l2⟩ := h demoVay
  refine ⟨_, w, log, hw, List.mem_of_getElem? l1, ?_⟩
  intro m
  obtain ⟨log', l1', l2'⟩ := h m
  rw [l1] at l1'
  injection l1' with e
  rw [e]
  exact l2'

/-! ## probes -/

/-- the sixteen numbers of a probe: time, position, momentum, acceleration, electric and magnetic field -/
def probeNumbers (p : Particle) : List ℝ :=
  [p.tCur, p.XCur.x, p.XCur.y, p.XCur.z, p.PCur.x, p.PCur.y, p.PCur.z, p.ACur.x, p.ACur.y, p.ACur.z,
    p.ECur.x, p.ECur.y, p.ECur.z, p.BCur.x, p.BCur.y, p.BCur.z]

/-- the beam tracked by rank 0 -/
theorem root_tracked {ω} (R : Run σ ω) (hN : 0 < R.nodes) (ms : List Beam) (hlen : ms.length = R.nodes)
    (hreach : ∀ m ∈ ms, Beam.Reachable m) (m0 : Beam) (hm0 : ms.head? = some m0) (hblank : ∀ m ∈ ms, Beam.blank m = m0.blank)
    (total : Nat) (ht : m0.getNOP = .ok total) (s : σ) (out : ω) (k : Nat) (w : World σ ω) (hw : runSteps R ms s out k = .ok w) (m t : Beam) (hroot : w.root = some (m, t)) :
    ∃ dt nots ps, t = oneBunch dt nots ps ∧ ps.length = ⌈(total : ℚ) / R.nodes⌉₊ := by
  have hwf : ∀ m ∈ ms, Beam.WF m := fun m hm => Beam.wf_reachable (hreach m hm)
  have hm0wf := hwf m0 (List.mem_of_head? hm0)
  obtain ⟨M, hM, hMl, _, _, _, hMall, _, hset⟩ := setupMasters ms m0 hm0wf hwf hblank R.NOTS
  have hr := runSteps_abs R hN ms hlen hwf m0 hm0 hblank s out M hM hMl hset k
  rw [nop_all hm0wf] at ht
  injection ht with ht
  rw [hr.1] at hw
  cases hA : absRun R (trackingNOP M.all.length R.nodes) M s out k with
  | error e => rw [hA] at hw; cases hw
  | ok A =>
    rw [hA] at hw
    simp only [Except.map] at hw
    injection hw with hw
    subst hw
    obtain ⟨a1, a2⟩ := hr.2 A hA
    obtain ⟨N, hN'⟩ := Nat.exists_eq_succ_of_ne_zero (Nat.pos_iff_ne_zero.mp hN)
    simp only [World.root, Abs.world] at hroot
    rw [hN', chunks_succ] at hroot
    simp only [List.map_cons, List.head?_cons, Option.map_some, Option.some.injEq, Prod.mk.injEq] at hroot
    refine ⟨A.dt, A.nots, _, hroot.2.symm, ?_⟩
    have hle := trackingNOP_le M.all.length R.nodes hN
    rw [← hN', List.length_take, a1.2, a2, ← trackingNOP_ceil _ _ hN, ← ht, ← hMl]
    omega

theorem oneBunch_traverse (dt : ℝ) (nots : Int) (ps : List Particle) : (oneBunch dt nots ps).traverse = .ok ps := by
  unfold Beam.traverse oneBunch visited
  simp [bind, Except.bind, pure, Except.pure]

theorem probe_len (l : List Particle) : (l.flatMap Particle.bufferProbe).length = l.length * 16 := flatMap_len _ _ 16 (fun _ _ => rfl)

theorem probe_log (R : Run σ Output) (junk : Nat → ℝ) (fuel st number : Nat) (hR : R.Records junk fuel (some (st, number)))
    (hN : 0 < R.nodes) (ms : List Beam) (hlen : ms.length = R.nodes)
    (hreach : ∀ m ∈ ms, Beam.Reachable m) (m0 : Beam) (hm0 : ms.head? = some m0) (hblank : ∀ m ∈ ms, Beam.blank m = m0.blank)
    (total : Nat) (ht : m0.getNOP = .ok total) (s : σ) (out : Output) (hst : 1 ≤ st) (k : Nat) (w : World σ Output)
    (hw : runSteps R ms s out k = .ok w) :
    ∃ data, w.out.loggers[out.loggers.length]? = some (.probe ⟨st, min number ⌈(total : ℚ) / R.nodes⌉₊, 16, 1 + k / st, data⟩) ∧ data.length = 1 + k / st ∧
      ∀ l, l * st ≤ k → ∃ m t ps, RootAt R ms s out (l * st) m t ∧ t.traverse = .ok ps ∧ ps.length = ⌈(total : ℚ) / R.nodes⌉₊ ∧
        data[l]? = some ((ps.take (min number ⌈(total : ℚ) / R.nodes⌉₊)).flatMap Particle.bufferProbe) := by
  obtain ⟨l, H, l', h1, h2, ⟨r, hr0, hrQ⟩, h3, h4, h5⟩ := history R junk fuel hR.1 ms s out out.loggers.length st (fun _ t l => ∃ L, ProbeLog.new t st number = .ok L ∧ l = .probe L) (by
    intro m t o' ho
    rw [hR.2] at ho
    simp only [Output.startProbe] at ho
    cases hL : ProbeLog.new t st number with
    | error e => rw [hL] at ho; cases ho
    | ok L =>
      rw [hL] at ho
      simp only [bind, Except.bind] at ho
      obtain ⟨l', e1, e2⟩ := start_logger ho (i := out.loggers.length) (l := .probe L) (by simp)
      refine ⟨.probe L, l', ⟨L, hL.symm ▸ rfl, rfl⟩, ?_, e1, e2⟩
      unfold ProbeLog.new at hL
      cases hn : t.getNOP with
      | error e => rw [hn] at hL; cases hL
      | ok n =>
        rw [hn] at hL
        simp only [bind, Except.bind, pure, Except.pure] at hL
        injection hL with hL
        subst hL
        rfl) hst k w hw
  obtain ⟨L, hL, rfl⟩ := hrQ
  -- the beam of rank 0
  obtain ⟨w0, hw0, hroot0⟩ := h2 0 r hr0
  obtain ⟨dt, nots, ps, e1, e2⟩ := root_tracked R hN ms hlen hreach m0 hm0 hblank total ht s out _ w0 hw0 _ _ hroot0
  rw [e1] at hL
  unfold ProbeLog.new at hL
  rw [oneBunch_nop] at hL
  simp only [bind, Except.bind, pure, Except.pure] at hL
  injection hL with hL
  have hnop : (if ps.length > number then number else ps.length) = min number ⌈(total : ℚ) / R.nodes⌉₊ := by rw [← e2]; split_ifs <;> omega
  rw [hnop] at hL
  subst hL
  obtain ⟨recs, g1, g2, rfl⟩ := probe_fold junk fuel H _ l' h3
  have hn : recs.length = 1 + k / st := g1.trans h1
  refine ⟨recs, ?_, hn, ?_⟩
  · rw [h5]
    simp only [List.nil_append, Nat.zero_add, hn]
    rfl
  · intro l hlk
    have hlt : l < recs.length := by
      rw [hn]
      have := (Nat.le_div_iff_mul_le (by omega)).mpr hlk
      omega
    have hv := List.getElem?_eq_getElem hlt
    obtain ⟨r', r1, r2⟩ := g2 l _ hv
    have hra := h2 l r' r1
    obtain ⟨w', hw', hroot'⟩ := hra
    obtain ⟨dt', nots', ps', f1, f2⟩ := root_tracked R hN ms hlen hreach m0 hm0 hblank total ht s out _ w' hw' _ _ hroot'
    refine ⟨r'.1, r'.2, ps', ⟨w', hw', hroot'⟩, by rw [f1]; exact oneBunch_traverse _ _ _, f2, ?_⟩
    rw [hv]
    rw [f1] at r2
    simp only [Beam.bufferProbe] at r2
    rw [oneBunch_probe dt' nots' ps' fuel 0 _ (by rw [f2]; omega)] at r2
    split_ifs at r2 with hf
    injection r2 with r2
    rw [← r2, List.drop_zero]

theorem ProbeLog.output_ok {L : ProbeLog} (h1 : L.data.length = L.NOTS) (h2 : ∀ v ∈ L.data, v.length = L.NOP * L.NOD) : L.output = .ok L.data.flatten := by
  unfold ProbeLog.output
  have hm : (List.range L.NOTS).mapM (fun i : Nat => do
      let src ← Particle.vecAt L.data i
      if L.NOD * L.NOP ≤ src.length then return src.take (L.NOD * L.NOP) else Except.error Err.ub) = .ok L.data := by
    have e : L.data = (List.range L.NOTS).map (fun i : Nat => L.data.getD i []) := by
      apply List.ext_getElem
      · simp [h1]
      · intro j a1 a2
        simp [a1]
    conv_rhs => rw [e]
    apply mapM_ok_map
    intro j hj
    rw [List.mem_range, ← h1] at hj
    have hv := List.getElem?_eq_getElem hj
    have hl := h2 _ (List.getElem_mem hj)
    unfold Particle.vecAt
    rw [hv]
    simp only [bind, Except.bind, pure, Except.pure]
    rw [if_pos (by rw [hl, Nat.mul_comm]), List.take_of_length_le (by rw [hl, Nat.mul_comm])]
    simp [hv]
  rw [hm]
  rfl

theorem ProbeLog.flat_len {L : ProbeLog} (h1 : L.data.length = L.NOTS) (h2 : ∀ v ∈ L.data, v.length = L.NOP * L.NOD) : L.data.flatten.length = L.NOTS * L.NOP * L.NOD := by
  rw [List.flatten_eq_flatMap, flatMap_len L.data id (L.NOP * L.NOD) h2, h1, Nat.mul_assoc]

theorem ProbeLog.writeData_ok {L : ProbeLog} (h1 : L.data.length = L.NOTS) (h2 : ∀ v ∈ L.data, v.length = L.NOP * L.NOD) (hf : L.NOTS * L.NOP * L.NOD < 2 ^ 32) :
    L.writeData = .ok [⟨"Probe", [L.NOTS, L.NOP, L.NOD], L.data.flatten, [("NOTS", L.NOTS), ("NOP", L.NOP), ("NOD", L.NOD)], []⟩] := by
  have hl := L.flat_len h1 h2
  unfold ProbeLog.writeData
  rw [output_ok h1 h2]
  simp only [bind, Except.bind, pure, Except.pure]
  rw [Nat.mod_eq_of_lt hf, fill_exact _ _ hl]
  simp only
  rw [h5write_exact _ _ _ _ _ (by rw [hl]; simp; ring)]

theorem ProbeLog.writeData_over {L : ProbeLog} (h1 : L.data.length = L.NOTS) (h2 : ∀ v ∈ L.data, v.length = L.NOP * L.NOD) (hf : 2 ^ 32 ≤ L.NOTS * L.NOP * L.NOD) :
    L.writeData = .error .ub := by
  have hl := L.flat_len h1 h2
  unfold ProbeLog.writeData
  rw [output_ok h1 h2]
  simp only [bind, Except.bind]
  have := Nat.mod_lt (L.NOTS * L.NOP * L.NOD) (show 0 < 2 ^ 32 by norm_num)
  rw [fill_short _ _ (by omega)]

/-- **C81 (partial).** The file of the probe log, written after `k` steps: `Probe[l,j,:]` are the sixteen numbers of particle `j`
tracked by the first node after `l·st` steps.
Missing: more than 2³² numbers (the buffer is then too short, see `C81_probe_overflow`); the particles of other nodes are never
logged, see C70. -/
theorem C81_probe_partial (R : Run σ Output) (junk : Nat → ℝ) (fuel st number : Nat) (hR : R.Records junk fuel (some (st, number)))
    (hN : 0 < R.nodes) (ms : List Beam) (hlen : ms.length = R.nodes)
    (hreach : ∀ m ∈ ms, Beam.Reachable m) (m0 : Beam) (hm0 : ms.head? = some m0) (hblank : ∀ m ∈ ms, Beam.blank m = m0.blank)
    (total : Nat) (ht : m0.getNOP = .ok total) (s : σ) (out : Output) (hst : 1 ≤ st) (k : Nat) (w : World σ Output)
    (hw : runSteps R ms s out k = .ok w) (m : Beam) (hfit : (1 + k / st) * min number ⌈(total : ℚ) / R.nodes⌉₊ * 16 < 2 ^ 32) :
    ∃ log F, w.out.loggers[out.loggers.length]? = some log ∧ log.writeData m = .ok (.hdf5 F) ∧ F.Consistent ∧ F.map H5Dataset.name = ["Probe"] ∧
      F.extent "Probe" = some [1 + k / st, min number ⌈(total : ℚ) / R.nodes⌉₊, 16] ∧
      F.intAttr "Probe" "NOTS" = some (1 + k / st) ∧ F.intAttr "Probe" "NOP" = some (min number ⌈(total : ℚ) / R.nodes⌉₊) ∧ F.intAttr "Probe" "NOD" = some 16 ∧
      ∀ l, l * st ≤ k → ∃ m' t' ps, RootAt R ms s out (l * st) m' t' ∧ t'.traverse = .ok ps ∧ ps.length = ⌈(total : ℚ) / R.nodes⌉₊ ∧
        ∀ j p, j < number → ps[j]? = some p → ∀ a x, (probeNumbers p)[a]? = some x → F.entry "Probe" [l, j, a] = some x := by
  obtain ⟨data, h1, h2, h3⟩ := probe_log R junk fuel st number hR hN ms hlen hreach m0 hm0 hblank total ht s out hst k w hw
  generalize hP : ⌈(total : ℚ) / R.nodes⌉₊ = P at *
  have hd : ∀ v ∈ data, v.length = min number P * 16 := by
    intro v hv
    obtain ⟨l, hl1⟩ := List.getElem?_of_mem hv
    have hlt := (List.getElem?_eq_some_iff.mp hl1).1
    rw [h2] at hlt
    have hlk : l * st ≤ k := (Nat.le_div_iff_mul_le (by omega)).mp (by omega)
    obtain ⟨m', t', ps, _, _, g3, g4⟩ := h3 l hlk
    rw [hl1] at g4
    injection g4 with g4
    rw [g4, probe_len, List.length_take, g3]
    congr 1
    omega
  have hwd := ProbeLog.writeData_ok (L := ⟨st, min number P, 16, 1 + k / st, data⟩) h2 hd hfit
  refine ⟨_, _, h1, by simp only [Logger.writeData, hwd, Except.map]; rfl, ?_, rfl, rfl, rfl, rfl, rfl, ?_⟩
  · intro d hdm
    rw [List.mem_singleton] at hdm
    subst hdm
    have hl := ProbeLog.flat_len (L := ⟨st, min number P, 16, 1 + k / st, data⟩) h2 hd
    simp only [hl]
    simp
    ring
  · intro l hlk
    obtain ⟨m', t', ps, g1, g2, g3, g4⟩ := h3 l hlk
    refine ⟨m', t', ps, g1, g2, g3, ?_⟩
    intro j p hj hp a x hx
    have hjp : j < ps.length := (List.getElem?_eq_some_iff.mp hp).1
    have ha : a < 16 := (List.getElem?_eq_some_iff.mp hx).1
    have hjn : j < min number P := by omega
    rw [records_entry h2 hd g4 hjn ha, flatMap_get _ Particle.bufferProbe 16 (fun _ _ => rfl) j p (by rw [List.getElem?_take, if_pos hjn]; exact hp) a ha]
    exact hx

/-- C81: with more than 2³² numbers the memory for the output of the probe log is too small and is overwritten. -/
theorem C81_probe_overflow (R : Run σ Output) (junk : Nat → ℝ) (fuel st number : Nat) (hR : R.Records junk fuel (some (st, number)))
    (hN : 0 < R.nodes) (ms : List Beam) (hlen : ms.length = R.nodes)
    (hreach : ∀ m ∈ ms, Beam.Reachable m) (m0 : Beam) (hm0 : ms.head? = some m0) (hblank : ∀ m ∈ ms, Beam.blank m = m0.blank)
    (total : Nat) (ht : m0.getNOP = .ok total) (s : σ) (out : Output) (hst : 1 ≤ st) (k : Nat) (w : World σ Output)
    (hw : runSteps R ms s out k = .ok w) (m : Beam) (hfit : 2 ^ 32 ≤ (1 + k / st) * min number ⌈(total : ℚ) / R.nodes⌉₊ * 16) :
    ∃ log, w.out.loggers[out.loggers.length]? = some log ∧ log.writeData m = .error .ub := by
  obtain ⟨data, h1, h2, h3⟩ := probe_log R junk fuel st number hR hN ms hlen hreach m0 hm0 hblank total ht s out hst k w hw
  generalize hP : ⌈(total : ℚ) / R.nodes⌉₊ = P at *
  have hd : ∀ v ∈ data, v.length = min number P * 16 := by
    intro v hv
    obtain ⟨l, hl1⟩ := List.getElem?_of_mem hv
    have hlt := (List.getElem?_eq_some_iff.mp hl1).1
    rw [h2] at hlt
    have hlk : l * st ≤ k := (Nat.le_div_iff_mul_le (by omega)).mp (by omega)
    obtain ⟨m', t', ps, _, _, g3, g4⟩ := h3 l hlk
    rw [hl1] at g4
    injection g4 with g4
    rw [g4, probe_len, List.length_take, g3]
    congr 1
    omega
  exact ⟨_, h1, by simp only [Logger.writeData, ProbeLog.writeData_over (L := ⟨st, min number P, 16, 1 + k / st, data⟩) h2 hd hfit, Except.map]⟩

/-- the hypotheses are met by runs with any number of steps that fit -/
example (k : Nat) (hk : (1 + k) * 2 * 16 < 2 ^ 32) : ∃ w log F, runSteps (demoRun0.withProbe (fun _ => 0) 9 1 5) [demoVay, demoVay] () ⟨[], [], []⟩ k = .ok w ∧
    w.out.loggers[0]? = some log ∧ log.writeData demoVay = .ok (.hdf5 F) ∧ F.extent "Probe" = some [1 + k, 2, 16] := by
  obtain ⟨w, hw, _⟩ := probe_progress demoRun0 (fun _ _ _ => ⟨0, rfl⟩) (fun _ _ => ⟨_, rfl⟩) (fun _ _ => ⟨_, rfl⟩) (fun _ => 0) 9 1 5 le_rfl (by omega) (by decide) k
  have e2 : (demoRun0.withProbe (fun _ => 0) 9 1 5).nodes = 2 := rfl
  have e : ⌈((3 : ℕ) : ℚ) / ((demoRun0.withProbe (fun _ => 0) 9 1 5).nodes : ℕ)⌉₊ = 2 := by
    rw [← trackingNOP_ceil _ _ (by rw [e2]; omega), e2]
    rfl
  obtain ⟨log, F, h1, h2, _, _, h3, _⟩ := C81_probe_partial (demoRun0.withProbe (fun _ => 0) 9 1 5) (fun _ => 0) 9 1 5 ⟨rfl, rfl⟩ (by rw [e2]; omega) [demoVay, demoVay] rfl
    (by intro m hm; simp at hm; rw [hm]; exact demoVay_reachable) demoVay rfl (by intro m hm; simp at hm; rw [hm]) 3 rfl () ⟨[], [], []⟩ le_rfl k w hw demoVay
    (by rw [e]; simpa using hk)
  rw [e, Nat.div_one] at h3
  exact ⟨w, log, F, hw, h1, h2, h3⟩

/-- the file of a trajectory log of the demonstration has three records of two particles after seven steps, that of the parameter log four rows -/
example : ∃ w m t log log' F F', runSteps (demoRun0.withOutput (fun _ => 0) 10) [demoVay, demoVay] () demoOutput 7 = .ok w ∧ w.root = some (m, t) ∧
    w.out.loggers[1]? = some log ∧ log.writeData m = .ok (.hdf5 F) ∧ F.extent "Trajectories" = some [3, 2, 6] ∧
    w.out.loggers[0]? = some log' ∧ log'.writeData m = .ok (.params F') ∧ F'.rows.length = 4 := by
  obtain ⟨w, hw⟩ := demo_output_run 7
  obtain ⟨⟨m, t⟩, hroot⟩ := run_root _ _ _ _ _ w hw
  obtain ⟨log, F, h1, h2, _, _, h3, _⟩ := C81_trajectory_partial (demoRun0.withOutput (fun _ => 0) 10) (fun _ => 0) 10 (probe := none) ⟨rfl, rfl⟩ (by decide) [demoVay, demoVay] rfl
      (by intro m hm; simp at hm; rw [hm]; exact demoVay_reachable) demoVay rfl (by intro m hm; simp at hm; rw [hm])
      () demoOutput 1 1 3 5 (Bunch.ofCount 2 1 1) rfl (by omega) rfl 7 w hw m (by
        have e : min 5 (Bunch.ofCount 2 1 1).getNOP = 2 := rfl
        rw [e]
        norm_num)
  obtain ⟨log', bu, F', g1, g2, g3, g4, _, _, _, g5, _⟩ := C81_parameter (demoRun0.withOutput (fun _ => 0) 10) (fun _ => 0) 10 (probe := none) ⟨rfl, rfl⟩ (by decide) [demoVay, demoVay] rfl
      (by intro m hm; simp at hm; rw [hm]; exact demoVay_reachable) demoVay rfl (by intro m hm; simp at hm; rw [hm])
      () demoOutput 0 0 2 (some 1) (by omega) rfl 7 w hw m t hroot
  exact ⟨w, m, t, log, log', F, F', hw, hroot, h1, h2, h3, g1, g3, g5⟩

end Teufel
