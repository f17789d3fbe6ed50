import Verif.Props.ProgramHistory
import Verif.Lemmas.Coupled

/-!
# C88 and C85 with interactions: particles and interactions advance together
-/

namespace Teufel
open Vec Input

theorem after_length {ext : Lattice} {dt : ℝ} {ps qs : List Particle} {s S : List FEL} {k : Nat} (h : Coupled.after ext dt ps s k = .ok (qs, S)) :
    qs.map Particle.Charge = ps.map Particle.Charge ∧ S.length = s.length := by
  induction k generalizing qs S with
  | zero =>
    unfold Coupled.after at h
    simp only [bind, Except.bind, pure, Except.pure] at h
    cases hq : ps.mapM (fun p => dropState ((p.initTrajectory p.tCur p.XCur p.PCur p.ACur).InitVay dt (Coupled.field ext s))) with
    | error e => rw [hq] at h; cases h
    | ok a =>
      rw [hq] at h
      simp only at h
      cases hi : s.mapM (FEL.init ⟨1, [⟨a.length, a⟩], 0, dt, .vay⟩) with
      | error e => rw [hi] at h; cases h
      | ok b =>
        rw [hi] at h
        simp only [Except.ok.injEq, Prod.mk.injEq] at h
        obtain ⟨rfl, rfl⟩ := h
        refine ⟨?_, (mapM_except_length hi).1⟩
        have hf := forall₂_mapM hq
        clear * - hf
        induction hf with
        | nil => rfl
        | cons hx _ ih => rw [List.map_cons, List.map_cons, ih, (init_keeps hx).1]
  | succ k ih =>
    unfold Coupled.after at h
    cases hb : Coupled.after ext dt ps s k with
    | error e => rw [hb] at h; cases h
    | ok r =>
      obtain ⟨a, c⟩ := r
      rw [hb] at h
      simp only [bind, Except.bind, pure, Except.pure] at h
      obtain ⟨i1, i2⟩ := ih hb
      cases hq : a.mapM (fun p => dropState (p.StepVay (Coupled.field ext c))) with
      | error e => rw [hq] at h; cases h
      | ok a' =>
        rw [hq] at h
        simp only at h
        cases hi : c.mapM (FEL.step ⟨1, [⟨a'.length, a'⟩], k + 1, dt, .vay⟩) with
        | error e => rw [hi] at h; cases h
        | ok b =>
          rw [hi] at h
          simp only [Except.ok.injEq, Prod.mk.injEq] at h
          obtain ⟨rfl, rfl⟩ := h
          refine ⟨?_, by rw [(mapM_except_length hi).1, i2]⟩
          rw [← i1]
          have hf := forall₂_mapM hq
          clear * - hf
          induction hf with
          | nil => rfl
          | cons hx _ ih => rw [List.map_cons, List.map_cons, ih, (step_keeps hx).1]

theorem Together.charges {ext : Lattice} {m0 M : Beam} {s S : List FEL} {NOTS k : Nat} {T : List Particle} (h : Together ext m0 s NOTS k M T S) :
    M.all.map Particle.Charge = m0.all.map Particle.Charge := by
  obtain ⟨ps, h1, _, h3⟩ := h.now
  rw [← (after_length h1).1]
  clear * - h3
  generalize M.all = l at h3
  induction h3 with
  | nil => rfl
  | cons hx _ ih => rw [List.map_cons, List.map_cons, ih, hx.1]

/-- the particles of one bunch among all particles -/
theorem bunch_slice (B : List Bunch) (b : Nat) (bu : Bunch) (h : B[b]? = some bu) :
    ((B.flatMap (fun c : Bunch => c.P)).drop ((B.take b).map (fun c : Bunch => c.P.length)).sum).take bu.P.length = bu.P := by
  induction B generalizing b with
  | nil => simp at h
  | cons c B ih =>
    cases b with
    | zero =>
      simp at h
      subst h
      simp
    | succ b =>
      simp only [List.getElem?_cons_succ] at h
      rw [List.take_succ_cons, List.map_cons, List.sum_cons, List.flatMap_cons, List.drop_append, List.drop_eq_nil_of_le (by omega), List.nil_append]
      rw [show c.P.length + ((B.take b).map (fun c : Bunch => c.P.length)).sum - c.P.length = ((B.take b).map (fun c : Bunch => c.P.length)).sum by omega]
      exact ih b h

theorem sizes_eq {m M : Beam} (hm : m.WF) (hM : M.WF) (h : M.B.map Bunch.getNOP = m.B.map Bunch.getNOP) :
    M.B.map (fun c : Bunch => c.P.length) = m.B.map (fun c : Bunch => c.P.length) := by
  have e : ∀ b : Beam, b.WF → b.B.map Bunch.getNOP = b.B.map (fun c : Bunch => c.P.length) := by
    intro b hb
    apply List.map_congr_left
    intro c hc
    exact (hb.2 c hc).1
  rw [← e M hM, ← e m hm, h]

/-- bunch `i` of the root's master beam after `k` steps -/
theorem bunch_together (P : FELProgram Output) (hN : 0 < P.nodes) (ms : List Beam) (hlen : ms.length = P.nodes)
    (hreach : ∀ m ∈ ms, Beam.Reachable m) (m0 : Beam) (hm0 : ms.head? = some m0) (hblank : ∀ m ∈ ms, Beam.blank m = m0.blank)
    (s : List FEL) (out : Output) (k : Nat) (m t : Beam) (h : RootAt P.run ms s out k m t) (i : Nat) (bu : Bunch) (hbu : m.B[i]? = some bu) :
    ∃ bu0, m0.B[i]? = some bu0 ∧ bu.NOP = bu.P.length ∧ bu.P.length = bu0.P.length ∧ bu.P.map Particle.Charge = bu0.P.map Particle.Charge ∧
      ∃ ps S, Coupled.after P.ext m0.dt m0.all s k = .ok (ps, S) ∧ List.Forall₂ SamePoint bu.P (Coupled.bunch m0 i ps) := by
  obtain ⟨w, hw, hr⟩ := h
  obtain ⟨n, hn, rfl, _⟩ := root_mem hr
  have hm0wf := Beam.wf_reachable (hreach m0 (List.mem_of_head? hm0))
  obtain ⟨_, M, S, hT, hM⟩ := run_together P hN ms hlen hreach m0 hm0 hblank s out k w hw
  rw [(hM n hn).1] at hbu
  obtain ⟨ps, h1, _, h3⟩ := hT.now
  have hsz := sizes_eq hm0wf hT.wf hT.sizes
  have hi : i < m0.B.length := by
    have := (List.getElem?_eq_some_iff.mp hbu).1
    have e := congrArg List.length hT.sizes
    simp only [List.length_map] at e
    omega
  have h0 := List.getElem?_eq_getElem hi
  have e3 : bu.P.length = m0.B[i].P.length := by
    have := congrArg (fun l => l[i]?) hsz
    simp only [List.getElem?_map, hbu, h0, Option.map_some, Option.some.injEq] at this
    exact this
  have hoff : ((M.B.take i).map (fun c : Bunch => c.P.length)).sum = ((m0.B.take i).map (fun c : Bunch => c.P.length)).sum := by
    rw [List.map_take, List.map_take, hsz]
  have hsl := bunch_slice M.B i bu hbu
  have hsl0 := bunch_slice m0.B i _ h0
  refine ⟨m0.B[i], h0, (hT.wf.2 bu (List.mem_of_getElem? hbu)).1, e3, ?_, ps, S, h1, ?_⟩
  · rw [← hsl, ← hsl0, hoff, e3]
    generalize ((m0.B.take i).map (fun c : Bunch => c.P.length)).sum = off
    rw [List.map_take, List.map_drop, List.map_take, List.map_drop]
    have := hT.charges
    unfold Beam.all at this
    rw [this]
  · have hpt : List.Forall₂ SamePoint M.all ps := h3.imp (fun _ _ c => ⟨c.2.2.1, c.2.2.2.1, c.2.2.2.2.1⟩)
    have := List.forall₂_take bu.P.length (List.forall₂_drop ((M.B.take i).map (fun c : Bunch => c.P.length)).sum hpt)
    unfold Beam.all at this
    rw [hsl] at this
    unfold Coupled.bunch
    rw [h0, ← hoff]
    simp only [Option.map_some, Option.getD_some]
    rw [← e3]
    exact this

namespace Lib

/-- **C85 (watch points, with interactions).** Every watch point with `0 ≤ step ≤ NOTS` has a file which contains the particles of the beam
in their order, each of them after `step` steps through the fields of lattice and interactions: as rows x, y, z, px, py, pz (HDF5), or as rows
with time, position, momentum, slopes and Lorentz factor (SDDS).
Missing: the parameter `Charge` of the SDDS file is not the charge, see `C85_full_statement_false`. -/
theorem C85_watches_coupled_partial (L : Lib) (rnd : Nat → (Nat → Nat → ℝ) × (Nat → Nat → Nat → ℝ)) (J : Indet) (nodes : Nat) (hN : 0 < nodes) (doc : Xml) (fs : List OutFile)
    (h : L.program rnd J nodes doc = .ok fs) :
    ∃ p m s, (L.withRandom (rnd 0)).parse doc = .ok p ∧ masterBeam p = .ok m ∧ p.tracking.state.interactions.mapM id = .ok s ∧
      ∀ x ∈ p.tracking.state.watches, 0 ≤ x.step → x.step ≤ p.tracking.NOTS →
        ∃ d bs S, (⟨x.filename, .watch d⟩ : OutFile) ∈ fs ∧ Coupled.after p.lattice.lattice p.tracking.timeStep m.all s x.step.toNat = .ok (bs, S) ∧
          (x.type = .hdf5 → d = .hdf5 bs.length (bs.flatMap (fun b => [b.XCur.x, b.XCur.y, b.XCur.z, b.PCur.x, b.PCur.y, b.PCur.z]))) ∧
          (x.type = .sdds → ∃ rows, d = .sdds bs.length (ElementaryCharge * (m.all.map (fun q => q.Charge * ElementaryCharge)).sum) rows ∧
            List.Forall₂ (fun (b : Particle) (row : SddsRow) => row.t = b.tCur ∧ row.x = b.XCur.x ∧ row.y = b.XCur.y ∧ row.z = b.XCur.z ∧
              row.px = b.PCur.x ∧ row.py = b.PCur.y ∧ row.pz = b.PCur.z ∧ row.p ^ 2 = b.PCur.x ^ 2 + b.PCur.y ^ 2 + b.PCur.z ^ 2 ∧ 0 ≤ row.p ∧
              row.gamma ^ 2 = 1 + row.p ^ 2 ∧ 1 ≤ row.gamma ∧
              (b.PCur.z ≠ 0 → row.xp = .ok (b.PCur.x / b.PCur.z) ∧ row.yp = .ok (b.PCur.y / b.PCur.z)) ∧ (b.PCur.z = 0 → row.xp = .error .nan ∧ row.yp = .error .nan)) bs rows) := by
  obtain ⟨N, rfl⟩ : ∃ N, nodes = N + 1 := ⟨nodes - 1, by omega⟩
  obtain ⟨p, m, ms, s, loggers, w, root, rest, logs, fels, obs, hp, hm, h1, h2, h3, h4, hs, hl, hw, hwn, hlo, hfe, hob, hfs⟩ := program_parts L rnd J N doc fs h
  refine ⟨p, m, s, hp, hm, hs, ?_⟩
  intro x hx hx0 hx1
  have hlen : (m :: ms).length = (tracking p J (N + 1)).run.nodes := by simp [h1]; rfl
  have hN' : 0 < (tracking p J (N + 1)).run.nodes := by show 0 < N + 1; omega
  obtain ⟨hperm, hwr⟩ := C42_watches _ J.traj J.fuel (tracking_records p J (N + 1)) (m :: ms) s _ rfl _ w hw
  have hmem : x ∈ w.out.files.map WatchFile.watch := by
    rw [hperm.mem_iff, List.mem_filter]
    refine ⟨hx, ?_⟩
    simp only [decide_eq_true_eq]
    omega
  rw [List.mem_map] at hmem
  obtain ⟨fl, hfl, rfl⟩ := hmem
  obtain ⟨mm, t, ⟨w', hw', hr'⟩, hwrite⟩ := hwr fl hfl
  obtain ⟨n, hn, rfl, _⟩ := root_mem hr'
  obtain ⟨_, M, S, hT, hM⟩ := run_together (tracking p J (N + 1)) hN' (m :: ms) hlen h2 m rfl h3 s _ _ w' hw'
  obtain ⟨bs, hbs, _, hcur⟩ := hT.now
  rw [master_dt hm] at hbs
  have hnM := (hM n hn).1
  have c1 : n.master.WF := by rw [hnM]; exact hT.wf
  rw [← hnM] at hcur
  have b2 : List.Forall₂ SamePoint n.master.all bs := hcur.imp (fun _ _ c => ⟨c.2.2.1, c.2.2.2.1, c.2.2.2.2.1⟩)
  have b3 : n.master.all.map Particle.Charge = m.all.map Particle.Charge := by
    rw [hnM]
    exact hT.charges
  refine ⟨fl.data, bs, S, ?_, hbs, ?_, ?_⟩
  · rw [hfs]
    simp only [List.mem_append, List.mem_map]
    exact Or.inl (Or.inl (Or.inl ⟨fl, hfl, rfl⟩))
  · intro ht
    unfold Watch.write at hwrite
    rw [ht] at hwrite
    simp only at hwrite
    rw [watchHDF5_all c1] at hwrite
    injection hwrite with hwrite
    rw [← hwrite, b2.length_eq]
    congr 1
    clear * - b2
    generalize n.master.all = l at b2 ⊢
    induction b2 with
    | nil => rfl
    | cons e _ ih => rw [List.flatMap_cons, List.flatMap_cons, ih, e.2.1, e.2.2]; rfl
  · intro ht
    unfold Watch.write at hwrite
    rw [ht] at hwrite
    simp only at hwrite
    rw [watchSDDS_all c1] at hwrite
    injection hwrite with hwrite
    have hch : n.master.all.map (fun q => q.Charge * ElementaryCharge) = m.all.map (fun q => q.Charge * ElementaryCharge) := by
      have := congrArg (List.map (fun c : ℝ => c * ElementaryCharge)) b3
      simpa [List.map_map, Function.comp_def] using this
    rw [hch, b2.length_eq] at hwrite
    refine ⟨_, hwrite.symm, ?_⟩
    clear * - b2
    generalize n.master.all = l at b2 ⊢
    induction b2 with
    | nil => exact .nil
    | cons e _ ih =>
      refine .cons ?_ ih
      rw [← e.1, ← e.2.1, ← e.2.2]
      exact ⟨rfl, rfl, rfl, rfl, rfl, rfl, rfl, sddsRow_spec _⟩

/-- **C85 (parameter logs, with interactions).** The file of a parameter log of a bunch has one row for every `st` steps, which
describes the particles of the bunch after so many steps through the fields of lattice and interactions. -/
theorem C85_parameter_coupled (L : Lib) (rnd : Nat → (Nat → Nat → ℝ) × (Nat → Nat → Nat → ℝ)) (J : Indet) (nodes : Nat) (hN : 0 < nodes) (doc : Xml) (fs : List OutFile)
    (h : L.program rnd J nodes doc = .ok fs) :
    ∃ p m s, (L.withRandom (rnd 0)).parse doc = .ok p ∧ masterBeam p = .ok m ∧ p.tracking.state.interactions.mapM id = .ok s ∧
      ∀ b file step bf, LogSpec.param b file step bf ∈ p.beam.logs → ∀ st : Nat, (st : Int) = step % 2 ^ 32 → 1 ≤ st →
        ∃ bu F, m.B[b]? = some bu ∧ (⟨file, .params F⟩ : OutFile) ∈ fs ∧
          F.NumberTimeSteps = 1 + p.tracking.NOTS.toNat / st ∧ F.NumberParticles = bu.P.length ∧
          F.TotalCharge = (bu.P.map (fun q => q.Charge * ElementaryCharge)).sum ∧ F.BunchingFrequency = bf ∧ F.rows.length = 1 + p.tracking.NOTS.toNat / st ∧
          ∀ l, l * st ≤ p.tracking.NOTS.toNat → ∃ ps S, Coupled.after p.lattice.lattice p.tracking.timeStep m.all s (l * st) = .ok (ps, S) ∧
            F.rows[l]? = some (paramRow bf ⟨bu.P.length, Coupled.bunch m b ps⟩) := by
  obtain ⟨N, rfl⟩ : ∃ N, nodes = N + 1 := ⟨nodes - 1, by omega⟩
  obtain ⟨p, m, ms, s, loggers, w, root, rest, logs, fels, obs, hp, hm, h1, h2, h3, h4, hs, hl, hw, hwn, hlo, hfe, hob, hfs⟩ := program_parts L rnd J N doc fs h
  refine ⟨p, m, s, hp, hm, hs, ?_⟩
  intro b file step bf hmem st hst' hst
  replace hst' := toUnsigned_of hst'
  have hlen : (m :: ms).length = (tracking p J (N + 1)).run.nodes := by simp [h1]; rfl
  have hN' : 0 < (tracking p J (N + 1)).run.nodes := by show 0 < N + 1; omega
  obtain ⟨i, hi⟩ := List.getElem?_of_mem hmem
  obtain ⟨lg, hlg, hlg'⟩ := mapM_get hl i _ hi
  simp only [LogSpec.create] at hlg
  injection hlg with hlg
  rw [hst'] at hlg
  subst hlg
  have hroot : w.root = some (root.master, root.tracked) := by simp [World.root, hwn]
  obtain ⟨log, bu', F, g1, g2, g3, g4, g5, g6, g7, g8, g9⟩ := C81_parameter _ J.traj J.fuel (tracking_records p J (N + 1)) hN' (m :: ms) hlen h2 m rfl h3 s _ i b st bf hst hlg' _ w hw
    root.master root.tracked hroot
  have hdt := master_dt hm
  have hat := fun k mm t (hr : RootAt _ (m :: ms) s _ k mm t) => bunch_together (tracking p J (N + 1)) hN' (m :: ms) hlen h2 m rfl h3 s ⟨loggers, p.tracking.state.watches, []⟩ k mm t hr b
  obtain ⟨bu, a1, a2, a3, b3, _⟩ := hat _ _ _ ⟨w, hw, hroot⟩ bu' g2
  have hch : bu'.P.map (fun q => q.Charge * ElementaryCharge) = bu.P.map (fun q => q.Charge * ElementaryCharge) := by
    have := congrArg (List.map (fun c : ℝ => c * ElementaryCharge)) b3
    simpa [List.map_map, Function.comp_def] using this
  refine ⟨bu, F, a1, ?_, g4, by rw [g5, a3], by rw [g6, hch], g7, g8, ?_⟩
  · have hz : ((logFiles p).zip w.out.loggers)[i]? = some (file, log) := by
      rw [List.getElem?_zip_eq_some]
      refine ⟨?_, g1⟩
      unfold logFiles
      rw [List.getElem?_append_left (by rw [List.length_map]; exact (List.getElem?_eq_some_iff.mp hi).1), List.getElem?_map, hi]
      rfl
    obtain ⟨o, ho, ho'⟩ := mapM_get hlo i _ hz
    simp only [g3, Except.map] at ho
    injection ho with ho
    rw [hfs, ho]
    have := List.mem_of_getElem? ho'
    simp only [List.mem_append]
    exact Or.inl (Or.inl (Or.inr this))
  · intro l hle
    obtain ⟨mm, t, bl, hr, k1, k2⟩ := g9 l hle
    obtain ⟨bu2, d1, d2, d3, _, ps, S, d5, d6⟩ := hat _ _ _ hr bl k1
    rw [a1] at d1
    injection d1 with d1
    subst d1
    rw [hdt] at d5
    refine ⟨ps, S, d5, ?_⟩
    rw [k2, paramRow_same (b' := ⟨bu.P.length, Coupled.bunch m b ps⟩) d2 (by simp only; rw [d2, d3]) d6]

/-- **C85 (trajectory logs, with interactions).** Entry `[l,j]` of the file of a trajectory log are position and momentum of particle `j` of
the bunch after `l·st` steps through the fields of lattice and interactions.
Files with 2³² numbers or more do not occur: the run fails (C81). -/
theorem C85_trajectory_coupled (L : Lib) (rnd : Nat → (Nat → Nat → ℝ) × (Nat → Nat → Nat → ℝ)) (J : Indet) (nodes : Nat) (hN : 0 < nodes) (doc : Xml) (fs : List OutFile)
    (h : L.program rnd J nodes doc = .ok fs) :
    ∃ p m s, (L.withRandom (rnd 0)).parse doc = .ok p ∧ masterBeam p = .ok m ∧ p.tracking.state.interactions.mapM id = .ok s ∧
      ∀ b file step number, LogSpec.traj b file step number ∈ p.beam.logs → ∀ st num : Nat, (st : Int) = step % 2 ^ 32 → (num : Int) = number % 2 ^ 32 → 1 ≤ st →
        ∃ bu, m.B[b]? = some bu ∧ (1 + p.tracking.NOTS.toNat / st) * min num bu.P.length * 6 < 2 ^ 32 ∧
          ∃ F : H5File, (⟨file, .hdf5 F⟩ : OutFile) ∈ fs ∧ F.extent "Trajectories" = some [1 + p.tracking.NOTS.toNat / st, min num bu.P.length, 6] ∧
            ∀ l j, l * st ≤ p.tracking.NOTS.toNat → j < num → j < bu.P.length →
              ∃ ps S a, Coupled.after p.lattice.lattice p.tracking.timeStep m.all s (l * st) = .ok (ps, S) ∧ (Coupled.bunch m b ps)[j]? = some a ∧
                F.entry "Trajectories" [l, j, 0] = some a.XCur.x ∧ F.entry "Trajectories" [l, j, 1] = some a.XCur.y ∧ F.entry "Trajectories" [l, j, 2] = some a.XCur.z ∧
                F.entry "Trajectories" [l, j, 3] = some a.PCur.x ∧ F.entry "Trajectories" [l, j, 4] = some a.PCur.y ∧ F.entry "Trajectories" [l, j, 5] = some a.PCur.z := by
  obtain ⟨N, rfl⟩ : ∃ N, nodes = N + 1 := ⟨nodes - 1, by omega⟩
  obtain ⟨p, m, ms, s, loggers, w, root, rest, logs, fels, obs, hp, hm, h1, h2, h3, h4, hs, hl, hw, hwn, hlo, hfe, hob, hfs⟩ := program_parts L rnd J N doc fs h
  refine ⟨p, m, s, hp, hm, hs, ?_⟩
  intro b file step number hmem st num hst' hnum hst
  replace hst' := toUnsigned_of hst'
  replace hnum := toUnsigned_of hnum
  have hlen : (m :: ms).length = (tracking p J (N + 1)).run.nodes := by simp [h1]; rfl
  have hN' : 0 < (tracking p J (N + 1)).run.nodes := by show 0 < N + 1; omega
  obtain ⟨i, hi⟩ := List.getElem?_of_mem hmem
  obtain ⟨lg, hlg, hlg'⟩ := mapM_get hl i _ hi
  simp only [LogSpec.create] at hlg
  cases hv : Particle.vecAt m.B b with
  | error e => rw [hv] at hlg; cases hlg
  | ok bu =>
  rw [hv, hst', hnum] at hlg
  simp only [Except.map] at hlg
  injection hlg with hlg
  subst hlg
  have hbu : m.B[b]? = some bu := by
    unfold Particle.vecAt at hv
    split at hv
    next a ha => injection hv with hv; rw [ha, hv]
    · cases hv
  have hnop : bu.getNOP = bu.P.length := ((Beam.wf_reachable (h2 m (by simp))).2 bu (List.mem_of_getElem? hbu)).1
  have hfit : (1 + p.tracking.NOTS.toNat / st) * min num bu.P.length * 6 < 2 ^ 32 := by
    by_contra hover
    obtain ⟨log, g1, g2⟩ := C81_trajectory_overflow _ J.traj J.fuel (tracking_records p J (N + 1)) hN' (m :: ms) hlen h2 m rfl h3 s _ i b st num bu hbu hst hlg' _ w hw
      root.master (by rw [hnop]; exact not_lt.mp hover)
    have hz : ((logFiles p).zip w.out.loggers)[i]? = some (file, log) := by
      rw [List.getElem?_zip_eq_some]
      refine ⟨?_, g1⟩
      unfold logFiles
      rw [List.getElem?_append_left (by rw [List.length_map]; exact (List.getElem?_eq_some_iff.mp hi).1), List.getElem?_map, hi]
      rfl
    obtain ⟨o, ho, -⟩ := mapM_get hlo i _ hz
    simp only [g2, Except.map] at ho
    cases ho
  refine ⟨bu, hbu, hfit, ?_⟩
  obtain ⟨log, F, g1, g2, g3, g4, g5, g6, g7, g8⟩ := C81_trajectory_partial _ J.traj J.fuel (tracking_records p J (N + 1)) hN' (m :: ms) hlen h2 m rfl h3 s _ i b st num bu hbu hst hlg' _ w hw
    root.master (by rw [hnop]; exact hfit)
  refine ⟨F, ?_, by rw [g5, hnop], ?_⟩
  · have hz : ((logFiles p).zip w.out.loggers)[i]? = some (file, log) := by
      rw [List.getElem?_zip_eq_some]
      refine ⟨?_, g1⟩
      unfold logFiles
      rw [List.getElem?_append_left (by rw [List.length_map]; exact (List.getElem?_eq_some_iff.mp hi).1), List.getElem?_map, hi]
      rfl
    obtain ⟨o, ho, ho'⟩ := mapM_get hlo i _ hz
    simp only [g2, Except.map] at ho
    injection ho with ho
    rw [hfs, ho]
    have := List.mem_of_getElem? ho'
    simp only [List.mem_append]
    exact Or.inl (Or.inl (Or.inr this))
  · intro l j hle hj hq
    obtain ⟨mm, t, bl, hr, k1, k2, k3⟩ := g8 l hle
    obtain ⟨bu2, d1, d2, d3, _, ps, S, d5, d6⟩ := bunch_together (tracking p J (N + 1)) hN' (m :: ms) hlen h2 m rfl h3 s _ _ mm t hr b bl k1
    rw [hbu] at d1
    injection d1 with d1
    subst d1
    rw [master_dt hm] at d5
    have hj1 : j < bl.P.length := by omega
    have hj2 : j < (Coupled.bunch m b ps).length := by rw [← d6.length_eq]; exact hj1
    have e1 := List.getElem?_eq_getElem hj1
    have e2 := List.getElem?_eq_getElem hj2
    have e3 : SamePoint bl.P[j] (Coupled.bunch m b ps)[j] := List.Forall₂.get d6 hj1 hj2
    refine ⟨ps, S, _, d5, e2, ?_⟩
    rw [← e3.2.1, ← e3.2.2]
    exact k3 j _ hj e1

end Lib
end Teufel
