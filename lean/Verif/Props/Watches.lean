import Verif.Props.Loggers

/-! # C42: watch points are written exactly once -/

namespace Teufel
open Vec

variable {σ : Type}

theorem writeWatches_files {k : Int} {m : Beam} {o o' : Output} (h : writeWatches k m o = .ok o') :
    ∃ new : List WatchFile, o'.files = o.files ++ new ∧ new.map WatchFile.watch = o.watches.filter (fun w => w.step = k) ∧
      ∀ f ∈ new, f.watch.step = k ∧ f.watch.write m = .ok f.data := by
  unfold writeWatches at h
  simp only [bind, Except.bind, pure, Except.pure] at h
  cases hm : (o.watches.filter (fun w => w.step = k)).mapM (fun w => (w.write m).map (fun d => (⟨w, d⟩ : WatchFile))) with
  | error e => rw [hm] at h; cases h
  | ok new =>
    rw [hm] at h
    simp only at h
    injection h with h
    subst h
    refine ⟨new, rfl, ?_, ?_⟩
    · have key : ∀ (l : List Watch) (new : List WatchFile),
          l.mapM (fun w => (w.write m).map (fun d => (⟨w, d⟩ : WatchFile))) = .ok new → new.map WatchFile.watch = l := by
        intro l
        induction l with
        | nil => intro new h; simp only [List.mapM_nil, pure, Except.pure] at h; injection h with h; subst h; rfl
        | cons a l ih =>
          intro new h
          rw [List.mapM_cons] at h
          cases ha : a.write m with
          | error e => rw [ha] at h; cases h
          | ok d =>
            rw [ha] at h
            cases hl : l.mapM (fun w => (w.write m).map (fun d => (⟨w, d⟩ : WatchFile))) with
            | error e => rw [hl] at h; cases h
            | ok rest =>
              rw [hl] at h
              simp only [bind, Except.bind, pure, Except.pure, Except.map] at h
              injection h with h
              subst h
              simp [ih rest hl]
      exact key _ _ hm
    · intro f hf
      obtain ⟨i, hi⟩ := List.getElem?_of_mem hf
      have hlen := (mapM_except_length hm).1
      have hlt := (List.getElem?_eq_some_iff.mp hi).1
      have hg := List.getElem?_eq_getElem (show i < (o.watches.filter (fun w => w.step = k)).length by omega)
      obtain ⟨b, hb1, hb2⟩ := mapM_get hm i _ hg
      rw [hi] at hb2
      injection hb2 with hb2
      subst hb2
      have hmem := List.mem_of_getElem? hg
      rw [List.mem_filter] at hmem
      cases hw : Watch.write (o.watches.filter (fun w => w.step = k))[i] m with
      | error e => rw [hw] at hb1; cases hb1
      | ok d =>
        rw [hw] at hb1
        simp only [Except.map] at hb1
        injection hb1 with hb1
        rw [← hb1]
        exact ⟨by simpa using hmem.2, hw⟩

theorem start_files {junk : Nat → ℝ} {fuel : Nat} {m t : Beam} {o o' : Output} (h : o.start junk fuel m t = .ok o') :
    o'.watches = o.watches ∧ ∃ new : List WatchFile, o'.files = o.files ++ new ∧ new.map WatchFile.watch = o.watches.filter (fun w => w.step = 0) ∧
      ∀ f ∈ new, f.watch.step = 0 ∧ f.watch.write m = .ok f.data := by
  unfold Output.start at h
  simp only [bind, Except.bind, pure, Except.pure] at h
  cases hw : writeWatches 0 m o with
  | error e => rw [hw] at h; cases h
  | ok o1 =>
    rw [hw] at h
    simp only at h
    cases hm : o1.loggers.mapM (Logger.update junk fuel m t) with
    | error e => rw [hm] at h; cases h
    | ok ls =>
      rw [hm] at h
      simp only at h
      injection h with h
      subst h
      exact ⟨(writeWatches_loggers hw).2, (writeWatches_files hw : _)⟩

theorem records_files {R : Run σ Output} {junk : Nat → ℝ} {fuel : Nat} {probe : Option (Nat × Nat)} (hR : R.Records junk fuel probe) {m t : Beam} {o o' : Output}
    (h : R.startOut m t o = .ok o') :
    o'.watches = o.watches ∧ ∃ new : List WatchFile, o'.files = o.files ++ new ∧ new.map WatchFile.watch = o.watches.filter (fun w => w.step = 0) ∧
      ∀ f ∈ new, f.watch.step = 0 ∧ f.watch.write m = .ok f.data := by
  rw [hR.2] at h
  cases probe with
  | none => exact start_files h
  | some p =>
    simp only [Output.startProbe] at h
    cases hL : ProbeLog.new t p.1 p.2 with
    | error e => rw [hL] at h; cases h
    | ok L =>
      rw [hL] at h
      simp only [bind, Except.bind] at h
      have := start_files h
      exact this

theorem step_files {junk : Nat → ℝ} {fuel : Nat} {k : Nat} {m t : Beam} {o o' : Output} (h : o.step junk fuel k m t = .ok o') :
    o'.watches = o.watches ∧ ∃ new : List WatchFile, o'.files = o.files ++ new ∧ new.map WatchFile.watch = o.watches.filter (fun w => w.step = (k : Int)) ∧
      ∀ f ∈ new, f.watch.step = k ∧ f.watch.write m = .ok f.data := by
  unfold Output.step at h
  simp only [bind, Except.bind] at h
  cases hm : o.loggers.mapM (Logger.maybe junk fuel k m t) with
  | error e => rw [hm] at h; cases h
  | ok ls =>
    rw [hm] at h
    simp only at h
    exact ⟨(writeWatches_loggers h).2, (writeWatches_files h : _)⟩

/-- C42: after `k` steps the files written are, up to order, one for each requested watch point with
`0 ≤ step ≤ k`, and none for any other; each contains what is written for the master beam after exactly the requested
number of steps. -/
theorem C42_watches (R : Run σ Output) (junk : Nat → ℝ) (fuel : Nat) {probe : Option (Nat × Nat)} (hR : R.Records junk fuel probe) (ms : List Beam) (s : σ) (out : Output) (hnew : out.files = [])
    (k : Nat) (w : World σ Output) (hw : runSteps R ms s out k = .ok w) :
    (w.out.files.map WatchFile.watch).Perm (out.watches.filter (fun x => 0 ≤ x.step ∧ x.step ≤ k)) ∧
    ∀ f ∈ w.out.files, ∃ m t, RootAt R ms s out f.watch.step.toNat m t ∧ f.watch.write m = .ok f.data := by
  suffices h : w.out.watches = out.watches ∧ (w.out.files.map WatchFile.watch).Perm (out.watches.filter (fun x => 0 ≤ x.step ∧ x.step ≤ k)) ∧
      ∀ f ∈ w.out.files, ∃ m t, RootAt R ms s out f.watch.step.toNat m t ∧ f.watch.write m = .ok f.data from h.2
  induction k generalizing w with
  | zero =>
    obtain ⟨m, t, h1, h2⟩ := run_start _ ms s out w hw
    obtain ⟨g1, new, g2, g3, g4⟩ := records_files hR h2
    rw [hnew, List.nil_append] at g2
    refine ⟨g1, ?_, ?_⟩
    · rw [g2, g3]
      apply List.Perm.of_eq
      apply List.filter_congr
      intro x _
      simp only [decide_eq_decide, Nat.cast_zero]
      omega
    · intro f hf
      rw [g2] at hf
      obtain ⟨e1, e2⟩ := g4 f hf
      exact ⟨m, t, ⟨w, by rw [e1]; exact hw, h1⟩, e2⟩
  | succ k ih =>
    obtain ⟨w', hw'⟩ := runSteps_prefix _ ms s out (k + 1) w hw k (by omega)
    obtain ⟨i1, i2, i3⟩ := ih w' hw'
    obtain ⟨m, t, h1, h2⟩ := run_next _ ms s out k w' w hw' (run_root _ ms s out k w' hw') hw
    rw [hR.1] at h2
    obtain ⟨g1, new, g2, g3, g4⟩ := step_files h2
    refine ⟨g1.trans i1, ?_, ?_⟩
    · rw [g2, List.map_append, g3, i1]
      refine (i2.append_right _).trans ?_
      have key : ∀ l : List Watch, (l.filter (fun x => 0 ≤ x.step ∧ x.step ≤ (k : Int)) ++ l.filter (fun x => x.step = ((k + 1 : Nat) : Int))).Perm
          (l.filter (fun x => 0 ≤ x.step ∧ x.step ≤ ((k + 1 : Nat) : Int))) := by
        intro l
        induction l with
        | nil => simp
        | cons a l ih2 =>
          by_cases ha : a.step = ((k + 1 : Nat) : Int)
          · rw [List.filter_cons_of_neg (by simp; omega), List.filter_cons_of_pos (by simpa using ha), List.filter_cons_of_pos (by simp; omega)]
            exact List.perm_middle.trans (ih2.cons a)
          · by_cases hb : 0 ≤ a.step ∧ a.step ≤ (k : Int)
            · rw [List.filter_cons_of_pos (by simpa using hb), List.filter_cons_of_neg (by simpa using ha), List.filter_cons_of_pos (by simp; omega)]
              exact ih2.cons a
            · rw [List.filter_cons_of_neg (by simpa using hb), List.filter_cons_of_neg (by simpa using ha), List.filter_cons_of_neg (by simp; omega)]
              exact ih2
      exact key out.watches
    · intro f hf
      rw [g2, List.mem_append] at hf
      rcases hf with hf | hf
      · exact i3 f hf
      · obtain ⟨e1, e2⟩ := g4 f hf
        exact ⟨m, t, ⟨w, by rw [e1]; exact hw, h1⟩, e2⟩

theorem coords_length (l : List Particle) : (l.flatMap (fun p => Particle.comps p.XCur ++ Particle.comps p.PCur)).length = l.length * 6 :=
  length_flatMap_const _ 6 l (fun _ _ => rfl)

theorem hdf5_fold (n : Nat) (bs : List Bunch) (hbs : ∀ bu ∈ bs, bu.NOP = bu.P.length) (acc : List Particle)
    (hn : (acc ++ bs.flatMap Bunch.P).length ≤ n) :
    bs.foldlM (hdf5Step n) (acc.flatMap (fun p => Particle.comps p.XCur ++ Particle.comps p.PCur), n - acc.length)
      = .ok ((acc ++ bs.flatMap Bunch.P).flatMap (fun p => Particle.comps p.XCur ++ Particle.comps p.PCur), n - (acc ++ bs.flatMap Bunch.P).length) := by
  induction bs generalizing acc with
  | nil => simp [pure, Except.pure]
  | cons bu bs ih =>
    have hb := hbs bu (by simp)
    rw [List.flatMap_cons, ← List.append_assoc] at hn ⊢
    have hle : bu.NOP ≤ n - acc.length := by
      simp only [List.length_append] at hn
      omega
    have hstep : hdf5Step n (acc.flatMap (fun p => Particle.comps p.XCur ++ Particle.comps p.PCur), n - acc.length) bu
        = .ok ((acc ++ bu.P).flatMap (fun p => Particle.comps p.XCur ++ Particle.comps p.PCur), n - (acc ++ bu.P).length) := by
      unfold hdf5Step Bunch.bufferCoordinates visited
      rw [if_neg (show ¬ bu.NOP > n - acc.length by omega), if_pos (by omega), hb, List.take_length]
      simp only [Except.map]
      rw [← List.flatMap_append, coords_length, Nat.mul_div_cancel _ (by omega)]
    rw [List.foldlM_cons, hstep]
    exact ih (fun x hx => hbs x (by simp [hx])) (acc ++ bu.P) hn

/-- specification: an HDF5 watch point file of beam `b` has one row for every particle of every bunch, in order, with
position and momentum -/
def HDF5Contents (b : Beam) (d : WatchData) : Prop :=
  ∃ nop buffer, d = .hdf5 nop buffer ∧ b.getNOP = .ok nop ∧ buffer.length = nop * 6 ∧
      ∀ i j p, b.Holds i j p →
        (buffer.drop (6 * (((b.B.take i).map Bunch.getNOP).sum + j))).take 6 = [p.XCur.x, p.XCur.y, p.XCur.z, p.PCur.x, p.PCur.y, p.PCur.z]

/-- specification: an SDDS watch point file of beam `b` has one row for every particle of every bunch, in order, with
time, position, momentum, slopes and Lorentz factor; the parameter `Charge` is the total charge in Coulomb multiplied once more by
the elementary charge (see C85) -/
def SDDSContents (b : Beam) (d : WatchData) : Prop :=
  ∃ nop rows, d = .sdds nop (ElementaryCharge * (b.all.map (fun p => p.Charge * ElementaryCharge)).sum) rows ∧ b.getNOP = .ok nop ∧ rows.length = nop ∧
      ∀ i j p, b.Holds i j p → ∃ row : SddsRow, rows[((b.B.take i).map Bunch.getNOP).sum + j]? = some row ∧
        row.t = p.tCur ∧ row.x = p.XCur.x ∧ row.y = p.XCur.y ∧ row.z = p.XCur.z ∧ row.px = p.PCur.x ∧ row.py = p.PCur.y ∧ row.pz = p.PCur.z ∧
        row.p ^ 2 = p.PCur.x ^ 2 + p.PCur.y ^ 2 + p.PCur.z ^ 2 ∧ 0 ≤ row.p ∧ row.gamma ^ 2 = 1 + row.p ^ 2 ∧ 1 ≤ row.gamma ∧
        (p.PCur.z ≠ 0 → row.xp = .ok (p.PCur.x / p.PCur.z) ∧ row.yp = .ok (p.PCur.y / p.PCur.z)) ∧ (p.PCur.z = 0 → row.xp = .error .nan ∧ row.yp = .error .nan)

theorem watchHDF5_all {b : Beam} (h : b.WF) : b.watchHDF5 = .ok (.hdf5 b.all.length (b.all.flatMap (fun p => Particle.comps p.XCur ++ Particle.comps p.PCur))) := by
  have hn := nop_all h
  unfold Beam.watchHDF5 visited
  rw [hn, if_pos (by rw [h.1]), h.1, List.take_length]
  simp only [bind, Except.bind, pure, Except.pure]
  have hf := hdf5_fold b.all.length b.B (fun bu hbu => (h.2 bu hbu).1) [] (by simp [Beam.all])
  simp only [List.flatMap_nil, List.length_nil, Nat.sub_zero, List.nil_append] at hf
  rw [hf]
  have hall' : b.B.flatMap Bunch.P = b.all := rfl
  simp only [hall']
  rw [if_pos (by rw [coords_length])]

theorem hdf5_wf {b : Beam} (h : b.WF) : ∃ d, b.watchHDF5 = .ok d ∧ HDF5Contents b d := by
  have hn := nop_all h
  refine ⟨.hdf5 b.all.length (b.all.flatMap (fun p => Particle.comps p.XCur ++ Particle.comps p.PCur)), watchHDF5_all h, _, _, rfl, hn, by rw [coords_length], ?_⟩
  · intro i j p hp
    have hi := all_index h hp
    generalize ((b.B.take i).map Bunch.getNOP).sum + j = idx at hi ⊢
    obtain ⟨l1, l2, hl, hlen⟩ : ∃ l1 l2, b.all = l1 ++ p :: l2 ∧ l1.length = idx := by
      obtain ⟨hlt, he⟩ := List.getElem?_eq_some_iff.mp hi
      refine ⟨b.all.take idx, b.all.drop (idx + 1), ?_, by simp; omega⟩
      rw [← he]
      simp
    rw [hl, List.flatMap_append, List.drop_append_of_le_length (by rw [coords_length]; omega),
      List.drop_of_length_le (by rw [coords_length]; omega), List.nil_append, List.flatMap_cons]
    rfl

theorem charge_total {b : Beam} (h : b.WF) : b.getTotalCharge = .ok ((b.all.map (fun p => p.Charge * ElementaryCharge)).sum) := by
  unfold Beam.getTotalCharge visited
  rw [if_pos (by rw [h.1]), h.1, List.take_length]
  simp only [bind, Except.bind]
  have hp : ∀ (l : List Particle) (a : ℝ), l.foldl (fun (c : ℝ) (p : Particle) => c + p.getCharge) a = a + (l.map (fun p => p.Charge * ElementaryCharge)).sum := by
    intro l
    induction l with
    | nil => intro a; simp
    | cons p l ih =>
      intro a
      rw [List.foldl_cons, ih, List.map_cons, List.sum_cons]
      unfold Particle.getCharge
      ring
  have key : ∀ (bs : List Bunch) (c : ℝ), (∀ bu ∈ bs, bu.NOP = bu.P.length) →
      bs.foldlM (fun (c : ℝ) (bu : Bunch) => (bu.getTotalCharge).map (fun q => c + q)) c = .ok (c + ((bs.flatMap Bunch.P).map (fun p => p.Charge * ElementaryCharge)).sum) := by
    intro bs
    induction bs with
    | nil => intro c _; simp [pure, Except.pure]
    | cons bu bs ih =>
      intro c hbs
      have hb : bu.getTotalCharge = .ok ((bu.P.map (fun p => p.Charge * ElementaryCharge)).sum) := by
        unfold Bunch.getTotalCharge visited
        rw [if_pos (by rw [hbs bu (by simp)]), hbs bu (by simp), List.take_length]
        simp only [Except.map]
        rw [hp, zero_add]
      rw [List.foldlM_cons, hb]
      refine (ih _ (fun x hx => hbs x (by simp [hx]))).trans ?_
      rw [List.flatMap_cons, List.map_append, List.sum_append, add_assoc]
  have := key b.B 0 (fun bu hbu => (h.2 bu hbu).1)
  rw [zero_add] at this
  exact this

theorem watchSDDS_all {b : Beam} (h : b.WF) :
    b.watchSDDS = .ok (.sdds b.all.length (ElementaryCharge * (b.all.map (fun p => p.Charge * ElementaryCharge)).sum) (b.all.map sddsRow)) := by
  unfold Beam.watchSDDS
  rw [nop_all h, charge_total h, traverse_all h]
  rfl

theorem sddsRow_spec (p : Particle) :
    (sddsRow p).p ^ 2 = p.PCur.x ^ 2 + p.PCur.y ^ 2 + p.PCur.z ^ 2 ∧ 0 ≤ (sddsRow p).p ∧ (sddsRow p).gamma ^ 2 = 1 + (sddsRow p).p ^ 2 ∧ 1 ≤ (sddsRow p).gamma ∧
      (p.PCur.z ≠ 0 → (sddsRow p).xp = .ok (p.PCur.x / p.PCur.z) ∧ (sddsRow p).yp = .ok (p.PCur.y / p.PCur.z)) ∧ (p.PCur.z = 0 → (sddsRow p).xp = .error .nan ∧ (sddsRow p).yp = .error .nan) := by
  refine ⟨?_, ?_, ?_, ?_, ?_, ?_⟩
  · simp only [sddsRow, Vec.norm]
    rw [Real.sq_sqrt (by nlinarith [mul_self_nonneg p.PCur.x, mul_self_nonneg p.PCur.y, mul_self_nonneg p.PCur.z])]
    ring
  · exact Real.sqrt_nonneg _
  · simp only [sddsRow, Vec.norm, Vec.abs2nd]
    rw [Real.sq_sqrt (by nlinarith [mul_self_nonneg p.PCur.x, mul_self_nonneg p.PCur.y, mul_self_nonneg p.PCur.z]),
      Real.sq_sqrt (by nlinarith [mul_self_nonneg p.PCur.x, mul_self_nonneg p.PCur.y, mul_self_nonneg p.PCur.z])]
  · simp only [sddsRow, Vec.abs2nd]
    rw [Real.one_le_sqrt]
    nlinarith [mul_self_nonneg p.PCur.x, mul_self_nonneg p.PCur.y, mul_self_nonneg p.PCur.z]
  · intro hz
    simp only [sddsRow, slope, if_neg hz]
    trivial
  · intro hz
    simp only [sddsRow, slope, if_pos hz]
    trivial

theorem sdds_wf {b : Beam} (h : b.WF) : ∃ d, b.watchSDDS = .ok d ∧ SDDSContents b d := by
  refine ⟨_, watchSDDS_all h, _, _, rfl, nop_all h, by simp, ?_⟩
  intro i j p hp
  exact ⟨sddsRow p, by rw [List.getElem?_map, all_index h hp]; rfl, rfl, rfl, rfl, rfl, rfl, rfl, rfl, sddsRow_spec p⟩

/-- C42: writing a watch point never fails in the program and the file has the specified contents. -/
theorem C42_file {b : Beam} (hr : b.Reachable) (w : Watch) :
    ∃ d, w.write b = .ok d ∧ (w.type = .hdf5 → HDF5Contents b d) ∧ (w.type = .sdds → SDDSContents b d) := by
  have h := Beam.wf_reachable hr
  unfold Watch.write
  cases hw : w.type with
  | hdf5 =>
    obtain ⟨d, h1, h2⟩ := hdf5_wf h
    exact ⟨d, h1, fun _ => h2, by simp⟩
  | sdds =>
    obtain ⟨d, h1, h2⟩ := sdds_wf h
    exact ⟨d, h1, by simp, fun _ => h2⟩

/-- C42: in a run every file contains the particles of the master beam after exactly the requested number of steps. -/
theorem C42_contents (R : Run σ Output) (junk : Nat → ℝ) (fuel : Nat) {probe : Option (Nat × Nat)} (hR : R.Records junk fuel probe) (hN : 0 < R.nodes) (ms : List Beam) (hlen : ms.length = R.nodes)
    (hreach : ∀ m ∈ ms, Beam.Reachable m) (m0 : Beam) (hm0 : ms.head? = some m0) (hblank : ∀ m ∈ ms, Beam.blank m = m0.blank)
    (s : σ) (out : Output) (hnew : out.files = []) (k : Nat) (w : World σ Output)
    (hw : runSteps R ms s out k = .ok w) :
    ∀ f ∈ w.out.files, ∃ m t, RootAt R ms s out f.watch.step.toNat m t ∧
      (f.watch.type = .hdf5 → HDF5Contents m f.data) ∧ (f.watch.type = .sdds → SDDSContents m f.data) := by
  intro f hf
  obtain ⟨m, t, hroot, hwr⟩ := (C42_watches R junk fuel hR ms s out hnew k w hw).2 f hf
  refine ⟨m, t, hroot, ?_⟩
  obtain ⟨w', hw', hr'⟩ := hroot
  obtain ⟨n, hn, hm, _⟩ := root_mem hr'
  obtain ⟨q1, _⟩ := run_sizes R hN ms hlen hreach m0 hm0 hblank s out _ w' hw' n hn
  rw [hm] at q1
  unfold Watch.write at hwr
  cases hw : f.watch.type with
  | hdf5 =>
    rw [hw] at hwr
    obtain ⟨d, h1, h2⟩ := hdf5_wf q1
    simp only at hwr
    rw [h1] at hwr
    injection hwr with hwr
    rw [← hwr]
    exact ⟨fun _ => h2, by simp⟩
  | sdds =>
    rw [hw] at hwr
    obtain ⟨d, h1, h2⟩ := sdds_wf q1
    simp only at hwr
    rw [h1] at hwr
    injection hwr with hwr
    rw [← hwr]
    exact ⟨by simp, fun _ => h2⟩

/-- what the demonstration knows about its output objects -/
def demoOutOK (o : Output) : Prop :=
  ∃ b L b' L', o.loggers = [.param b L, .traj b' L'] ∧ b < 2 ∧ b' < 2 ∧ L.stepsize = 2 ∧ L'.stepsize = 3

theorem watch_wf {m : Beam} (h : m.WF) (w : Watch) : ∃ d, w.write m = .ok d := by
  unfold Watch.write
  cases w.type with
  | hdf5 => obtain ⟨d, h1, _⟩ := hdf5_wf h; exact ⟨d, h1⟩
  | sdds => obtain ⟨d, h1, _⟩ := sdds_wf h; exact ⟨d, h1⟩

theorem writeWatches_wf {m : Beam} (h : m.WF) (k : Int) (o : Output) : ∃ o', writeWatches k m o = .ok o' := by
  unfold writeWatches
  obtain ⟨l, hl⟩ := mapM_exists (fun w : Watch => (w.write m).map (fun d => (⟨w, d⟩ : WatchFile))) (o.watches.filter (fun w => w.step = k)) (by
    intro w _
    obtain ⟨d, hd⟩ := watch_wf h w
    rw [hd]
    exact ⟨_, rfl⟩)
  rw [hl]
  exact ⟨_, rfl⟩

theorem param_update_ok (junk : Nat → ℝ) (fuel : Nat) {m : Beam} (t : Beam) {b : Nat} (hb : b < m.B.length) (L : ParamLog) :
    ∃ L', Logger.update junk fuel m t (.param b L) = .ok (.param b L') ∧ L'.stepsize = L.stepsize := by
  refine ⟨L.update m.B[b], ?_, rfl⟩
  simp only [Logger.update, Particle.vecAt, List.getElem?_eq_getElem hb]
  rfl

theorem traj_update_ok (junk : Nat → ℝ) (fuel : Nat) {m : Beam} (h : m.WF) (t : Beam) {b : Nat} (hb : b < m.B.length) (L : TrajLog) :
    ∃ L', Logger.update junk fuel m t (.traj b L) = .ok (.traj b L') ∧ L'.stepsize = L.stepsize := by
  have hP := (h.2 _ (List.getElem_mem hb)).1
  have hlen : ((m.B[b].P.take (min m.B[b].NOP L.NOP)).flatMap (fun p => Particle.comps p.XCur ++ Particle.comps p.PCur)).length ≤ L.NOP * 6 := by
    rw [coords_length, List.length_take]
    apply Nat.mul_le_mul_right
    omega
  have hv : m.B[b].bufferCoordinates L.NOP = .ok ((m.B[b].P.take (min m.B[b].NOP L.NOP)).flatMap (fun p => Particle.comps p.XCur ++ Particle.comps p.PCur)) := by
    unfold Bunch.bufferCoordinates visited
    have hn : (if m.B[b].NOP > L.NOP then L.NOP else m.B[b].NOP) = min m.B[b].NOP L.NOP := by split_ifs <;> omega
    rw [hn, if_pos (by omega)]
    rfl
  generalize (m.B[b].P.take (min m.B[b].NOP L.NOP)).flatMap (fun p => Particle.comps p.XCur ++ Particle.comps p.PCur) = vals at hv hlen
  refine ⟨{ L with data := L.data ++ [vals ++ (List.range (L.NOP * 6 - vals.length)).map junk], NOTS := L.NOTS + 1 }, ?_, rfl⟩
  simp only [Logger.update, Particle.vecAt, List.getElem?_eq_getElem hb, TrajLog.update, hv, bind, Except.bind, pure, Except.pure, if_pos hlen]

/-- non-vacuity of C41 and C42: two nodes, three particles, a parameter logger with step size 2, a trajectory logger
with step size 3, watch points at steps 0, 2 and 99 -/
noncomputable def demoOutput : Output :=
  ⟨[.param 0 (ParamLog.new 2 (some 1)), .traj 1 (TrajLog.new (Bunch.ofCount 2 1 1) 3 5)],
    [⟨0, "a", .hdf5⟩, ⟨2, "b", .sdds⟩, ⟨99, "c", .hdf5⟩], []⟩

noncomputable def demoRun0 : Run Unit Unit :=
  ⟨2, 5, fun _ _ _ => .ok 0, fun _ _ => .ok (), fun _ _ => .ok (), fun _ _ _ => .ok (), fun _ _ _ _ => .ok (), fun _ _ _ => 7⟩

theorem demo_output_run (k : Nat) : ∃ w, runSteps (demoRun0.withOutput (fun _ => 0) 10) [demoVay, demoVay] () demoOutput k = .ok w := by
  refine Exists.imp (fun _ h => h.1) <| C36_progress (demoRun0.withOutput (fun _ => 0) 10) demoVay demoOutOK demoOutOK ⟨?_, ?_, fun _ _ => ⟨_, rfl⟩, fun _ _ => ⟨_, rfl⟩⟩
      (fun _ _ _ => ⟨0, rfl⟩) (by decide) _ rfl ?_ rfl ?_ rfl demoVay_mass () demoOutput ⟨0, _, 1, _, rfl, by omega, by omega, rfl, rfl⟩ k
  · intro m t o hm hs _ ⟨b, L, b', L', ho, hb, hb', e1, e2⟩
    have hl : m.B.length = 2 := by
      have := congrArg List.length hs
      simpa [demoVay, demoBeam, Beam.Add, Beam.empty] using this
    show ∃ o', Output.start (fun _ => 0) 10 m t o = .ok o' ∧ demoOutOK o'
    unfold Output.start
    obtain ⟨o1, h1⟩ := writeWatches_wf hm 0 o
    obtain ⟨L1, g1, g2⟩ := param_update_ok (fun _ => 0) 10 t (by omega : b < m.B.length) L
    obtain ⟨L2, g3, g4⟩ := traj_update_ok (fun _ => 0) 10 hm t (by omega : b' < m.B.length) L'
    rw [h1]
    simp only [bind, Except.bind, (writeWatches_loggers h1).1, ho, List.mapM_cons, List.mapM_nil, g1, g3, pure, Except.pure]
    exact ⟨_, rfl, b, L1, b', L2, rfl, hb, hb', g2.trans e1, g4.trans e2⟩
  · intro k m t o hk hm hs _ ⟨b, L, b', L', ho, hb, hb', e1, e2⟩
    have hl : m.B.length = 2 := by
      have := congrArg List.length hs
      simpa [demoVay, demoBeam, Beam.Add, Beam.empty] using this
    show ∃ o', Output.step (fun _ => 0) 10 k m t o = .ok o' ∧ demoOutOK o'
    have hp : ∃ L1, Logger.maybe (fun _ => 0) 10 k m t (.param b L) = .ok (.param b L1) ∧ L1.stepsize = 2 := by
      obtain ⟨L1, g1, g2⟩ := param_update_ok (fun _ => 0) 10 t (by omega : b < m.B.length) L
      have e1' : (Logger.param b L).stepsize = 2 := e1
      unfold Logger.maybe logRequested
      rw [e1', if_neg (by omega)]
      simp only [bind, Except.bind, pure, Except.pure]
      by_cases hd : k % 2 = 0
      · simp only [hd, decide_true, if_true]; exact ⟨L1, g1, g2.trans e1⟩
      · simp only [hd, decide_false, Bool.false_eq_true, if_false]; exact ⟨L, rfl, e1⟩
    have ht : ∃ L2, Logger.maybe (fun _ => 0) 10 k m t (.traj b' L') = .ok (.traj b' L2) ∧ L2.stepsize = 3 := by
      obtain ⟨L2, g1, g2⟩ := traj_update_ok (fun _ => 0) 10 hm t (by omega : b' < m.B.length) L'
      have e2' : (Logger.traj b' L').stepsize = 3 := e2
      unfold Logger.maybe logRequested
      rw [e2', if_neg (by omega)]
      simp only [bind, Except.bind, pure, Except.pure]
      by_cases hd : k % 3 = 0
      · simp only [hd, decide_true, if_true]; exact ⟨L2, g1, g2.trans e2⟩
      · simp only [hd, decide_false, Bool.false_eq_true, if_false]; exact ⟨L', rfl, e2⟩
    obtain ⟨L1, g1, g2⟩ := hp
    obtain ⟨L2, g3, g4⟩ := ht
    unfold Output.step
    simp only [bind, Except.bind, ho, List.mapM_cons, List.mapM_nil, g1, g3, pure, Except.pure]
    obtain ⟨o1, h1⟩ := writeWatches_wf hm k { o with loggers := [.param b L1, .traj b' L2] }
    exact ⟨o1, h1, b, L1, b', L2, (writeWatches_loggers h1).1, hb, hb', g2, g4⟩
  · intro m hm; simp at hm; rw [hm]; exact demoVay_reachable
  · intro m hm; simp at hm; rw [hm]

/-- after seven steps the loggers have four and three records; two files were written -/
example : ∃ w, runSteps (demoRun0.withOutput (fun _ => 0) 10) [demoVay, demoVay] () demoOutput 7 = .ok w ∧
    (∃ L, w.out.loggers[0]? = some (.param 0 L) ∧ L.NOTS = 4) ∧ (∃ L, w.out.loggers[1]? = some (.traj 1 L) ∧ L.NOTS = 3) ∧
    w.out.files.length = 2 := by
  obtain ⟨w, hw⟩ := demo_output_run 7
  refine ⟨w, hw, ?_, ?_, ?_⟩
  · obtain ⟨L, h1, h2, _⟩ := C41_parameter (demoRun0.withOutput (fun _ => 0) 10) (fun _ => 0) 10 (probe := none) ⟨rfl, rfl⟩ _ () demoOutput 0 0 2 (some 1) (by omega) rfl 7 w hw
    exact ⟨L, h1, h2⟩
  · obtain ⟨L, h1, h2, _⟩ := C41_trajectory (demoRun0.withOutput (fun _ => 0) 10) (fun _ => 0) 10 (probe := none) ⟨rfl, rfl⟩ (by decide) [demoVay, demoVay] rfl
      (by intro m hm; simp at hm; rw [hm]; exact demoVay_reachable) demoVay rfl (by intro m hm; simp at hm; rw [hm])
      () demoOutput 1 1 3 5 (Bunch.ofCount 2 1 1) rfl (by omega) rfl 7 w hw
    exact ⟨L, h1, h2⟩
  · have := (C42_watches (demoRun0.withOutput (fun _ => 0) 10) (fun _ => 0) 10 (probe := none) ⟨rfl, rfl⟩ [demoVay, demoVay] () demoOutput rfl 7 w hw).1.length_eq
    rw [List.length_map] at this
    rw [this]
    simp [demoOutput]

end Teufel
