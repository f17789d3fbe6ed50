import Verif.Props.ProgramNames
import Verif.Props.LoggerFiles

/-!
# C85: watch point and log files of a whole run
-/

namespace Teufel
open Vec Input

/-- particles at the same point of phase space -/
def SamePoint (p q : Particle) : Prop := p.tCur = q.tCur ∧ p.XCur = q.XCur ∧ p.PCur = q.PCur

theorem foldl_same {α : Type} [Add α] (f : Particle → α) (hf : ∀ p q, SamePoint p q → f p = f q) {l l' : List Particle} (h : List.Forall₂ SamePoint l l') (a : α) :
    l.foldl (fun (s : α) (p : Particle) => s + f p) a = l'.foldl (fun (s : α) (p : Particle) => s + f p) a := by
  induction h generalizing a with
  | nil => rfl
  | cons hx _ ih => rw [List.foldl_cons, List.foldl_cons, hf _ _ hx, ih]

theorem visited_same {n : Nat} {l l' : List Particle} (h : List.Forall₂ SamePoint l l') (hn : n = l.length) : visited n l = .ok l ∧ visited n l' = .ok l' := by
  have hl := h.length_eq
  unfold visited
  constructor
  · rw [if_pos (by omega), hn, List.take_length]
  · rw [if_pos (by omega), hn, hl, List.take_length]

theorem mean_same {b b' : Bunch} (hn : b.NOP = b.P.length) (hn' : b'.NOP = b.NOP) (h : List.Forall₂ SamePoint b.P b'.P) (f : Particle → ℝ)
    (hf : ∀ p q, SamePoint p q → f p = f q) : b.mean f = b'.mean f := by
  obtain ⟨v1, v2⟩ := visited_same h hn
  unfold Bunch.mean
  rw [hn', v1, v2]
  simp only [bind, Except.bind]
  rw [foldl_same f hf h]

theorem meanVec_same {b b' : Bunch} (hn : b.NOP = b.P.length) (hn' : b'.NOP = b.NOP) (h : List.Forall₂ SamePoint b.P b'.P) (f : Particle → Vec)
    (hf : ∀ p q, SamePoint p q → f p = f q) : b.meanVec f = b'.meanVec f := by
  obtain ⟨v1, v2⟩ := visited_same h hn
  unfold Bunch.meanVec
  rw [hn', v1, v2]
  simp only [bind, Except.bind]
  rw [foldl_same f hf h]

/-- the row of a parameter log depends on the points of the particles only -/
theorem paramRow_same {b b' : Bunch} (hn : b.NOP = b.P.length) (hn' : b'.NOP = b.NOP) (h : List.Forall₂ SamePoint b.P b'.P) (bf : Option ℝ) :
    paramRow bf b = paramRow bf b' := by
  have hX : b.avgPosition = b'.avgPosition := meanVec_same hn hn' h _ (fun p q e => e.2.1)
  have hP : b.avgMomentum = b'.avgMomentum := meanVec_same hn hn' h _ (fun p q e => e.2.2)
  have hT : b.avgTime = b'.avgTime := mean_same hn hn' h _ (fun p q e => e.1)
  have hG : b.avgGamma = b'.avgGamma := mean_same hn hn' h _ (fun p q e => by rw [e.2.2])
  have hR : b.rmsPosition = b'.rmsPosition := by
    unfold Bunch.rmsPosition
    rw [hX]
    cases b'.avgPosition with
    | error e => rfl
    | ok m =>
      simp only [bind, Except.bind]
      rw [meanVec_same hn hn' h _ (fun p q e => by rw [e.2.1])]
  have hD : b.delta = b'.delta := by
    unfold Bunch.delta
    rw [mean_same hn hn' h (fun p => p.PCur.norm) (fun p q e => by rw [e.2.2])]
    cases b'.mean (fun p => p.PCur.norm) with
    | error e => rfl
    | ok m =>
      simp only [bind, Except.bind]
      rw [mean_same hn hn' h _ (fun p q e => by rw [e.2.2])]
  have hB : bunchingSpec bf b = bunchingSpec bf b' := by
    cases bf with
    | none => rfl
    | some f =>
      obtain ⟨v1, v2⟩ := visited_same h hn
      unfold bunchingSpec Bunch.BunchingFactor
      simp only
      rw [hn', v1, v2]
      simp only [bind, Except.bind]
      rw [foldl_same (fun p => Complex.exp (2 * (Pi : ℂ) * Complex.I * f * p.XCur.z / SpeedOfLight)) (fun p q e => by rw [e.2.1]) h]
  unfold paramRow
  rw [hX, hP, hT, hG, hR, hD, hB]

section
variable {σ : Type}

/-- bunch `i` of the root's master beam after `k` steps -/
theorem bunch_at (R : Run σ Output) (f : FieldFn) (K : σ → Prop) (hE : R.ExternalOn f K) (hN : 0 < R.nodes) (ms : List Beam) (hlen : ms.length = R.nodes)
    (hreach : ∀ m ∈ ms, Beam.Reachable m) (m0 : Beam) (hm0 : ms.head? = some m0) (hblank : ∀ m ∈ ms, Beam.blank m = m0.blank)
    (s : σ) (hK : K s) (out : Output) (k : Nat) (m t : Beam) (h : RootAt R ms s out k m t) (i : Nat) (bu : Bunch) (hbu : m.B[i]? = some bu) :
    ∃ bu0, m0.B[i]? = some bu0 ∧ bu.NOP = bu.P.length ∧ bu.P.length = bu0.P.length ∧ bu0.NOP = bu0.P.length ∧
      ∀ (j : Nat) (p : Particle), bu0.P[j]? = some p → ∃ q b, bu.P[j]? = some q ∧ AfterSteps m0.dt f p k b ∧ q.Charge = p.Charge ∧ SamePoint q b := by
  obtain ⟨w, hw, hr⟩ := h
  obtain ⟨n, hn, rfl, _⟩ := root_mem hr
  obtain ⟨c1, c2, c3, c4⟩ := master_current R f K hE hN ms hlen hreach m0 hm0 hblank s hK out k w hw n hn
  have hm0wf := Beam.wf_reachable (hreach m0 (List.mem_of_head? hm0))
  have hi : i < m0.B.length := by
    have := (List.getElem?_eq_some_iff.mp hbu).1
    have e := congrArg List.length c2
    simp only [List.length_map] at e
    omega
  have h0 := List.getElem?_eq_getElem hi
  have e1 := (c1.2 bu (List.mem_of_getElem? hbu)).1
  have e2 := (hm0wf.2 _ (List.mem_of_getElem? h0)).1
  have e3 : bu.NOP = m0.B[i].NOP := by
    have := congrArg (fun l => l[i]?) c2
    simp only [List.getElem?_map, hbu, h0, Option.map_some, Option.some.injEq] at this
    exact this
  refine ⟨m0.B[i], h0, e1, by omega, e2, ?_⟩
  intro j p hp
  have hh : m0.Holds i j p := (holds_iff hm0wf i j p).mpr ⟨_, h0, hp⟩
  obtain ⟨q, b, g1, g2, g3, g4, g5, g6, _⟩ := c4 _ p (all_index hm0wf hh)
  obtain ⟨bu', k1, k2⟩ := (holds_iff c1 i j q).mp (holds_of_index hm0wf c1 c2 hh g1)
  rw [hbu] at k1
  injection k1 with k1
  subst k1
  exact ⟨q, b, k2, g2, g3, g4, g5, g6⟩

end

/-- the particles `l` after `k` steps, each alone in the field -/
def AllAfter (dt : ℝ) (f : FieldFn) (k : Nat) (l l' : List Particle) : Prop := List.Forall₂ (fun p b => AfterSteps dt f p k b) l l'

theorem all_after {dt : ℝ} {f : FieldFn} {k : Nat} {l0 l : List Particle} (hl : l.length = l0.length)
    (h : ∀ (j : Nat) (p : Particle), l0[j]? = some p → ∃ q b, l[j]? = some q ∧ AfterSteps dt f p k b ∧ q.Charge = p.Charge ∧ SamePoint q b) :
    ∃ l', AllAfter dt f k l0 l' ∧ List.Forall₂ SamePoint l l' ∧ l.map Particle.Charge = l0.map Particle.Charge := by
  induction l0 generalizing l with
  | nil =>
    rw [List.eq_nil_of_length_eq_zero hl]
    exact ⟨[], .nil, .nil, rfl⟩
  | cons p l0 ih =>
    cases l with
    | nil => simp at hl
    | cons q l =>
      obtain ⟨q', b, h1, h2, h3, h4⟩ := h 0 p rfl
      simp only [List.getElem?_cons_zero, Option.some.injEq] at h1
      subst h1
      obtain ⟨l', g1, g2, g3⟩ := ih (by simpa using hl) (fun j x hx => by simpa using h (j + 1) x (by simpa using hx))
      exact ⟨b :: l', .cons h2 g1, .cons h4 g2, by rw [List.map_cons, List.map_cons, h3, g3]⟩

namespace Lib

/-- **C85 (watch points).** Without interactions, every watch point with `0 ≤ step ≤ NOTS` has a file which contains the particles of the beam
in their order, each of them after `step` steps alone through the lattice: as rows x, y, z, px, py, pz (HDF5), or as rows with time, position, momentum,
slopes and Lorentz factor (SDDS).
Missing: the parameter `Charge` of the SDDS file is not the charge, see `C85_full_statement_false`; interactions. -/
theorem C85_watches_partial (L : Lib) (rnd : Nat → (Nat → Nat → ℝ) × (Nat → Nat → Nat → ℝ)) (J : Indet) (nodes : Nat) (hN : 0 < nodes) (doc : Xml) (fs : List OutFile)
    (h : L.program rnd J nodes doc = .ok fs) :
    ∃ p m, (L.withRandom (rnd 0)).parse doc = .ok p ∧ masterBeam p = .ok m ∧ (p.tracking.state.interactions = [] →
      ∀ x ∈ p.tracking.state.watches, 0 ≤ x.step → x.step ≤ p.tracking.NOTS →
        ∃ d bs, (⟨x.filename, .watch d⟩ : OutFile) ∈ fs ∧ AllAfter p.tracking.timeStep (Lattice.field p.lattice.lattice) x.step.toNat m.all bs ∧
          (x.type = .hdf5 → d = .hdf5 bs.length (bs.flatMap (fun b => [b.XCur.x, b.XCur.y, b.XCur.z, b.PCur.x, b.PCur.y, b.PCur.z]))) ∧
          (x.type = .sdds → ∃ rows, d = .sdds bs.length (ElementaryCharge * (m.all.map (fun q => q.Charge * ElementaryCharge)).sum) rows ∧
            List.Forall₂ (fun (b : Particle) (row : SddsRow) => row.t = b.tCur ∧ row.x = b.XCur.x ∧ row.y = b.XCur.y ∧ row.z = b.XCur.z ∧
              row.px = b.PCur.x ∧ row.py = b.PCur.y ∧ row.pz = b.PCur.z ∧ row.p ^ 2 = b.PCur.x ^ 2 + b.PCur.y ^ 2 + b.PCur.z ^ 2 ∧ 0 ≤ row.p ∧
              row.gamma ^ 2 = 1 + row.p ^ 2 ∧ 1 ≤ row.gamma ∧
              (b.PCur.z ≠ 0 → row.xp = .ok (b.PCur.x / b.PCur.z) ∧ row.yp = .ok (b.PCur.y / b.PCur.z)) ∧ (b.PCur.z = 0 → row.xp = .error .nan ∧ row.yp = .error .nan)) bs rows)) := by
  obtain ⟨N, rfl⟩ : ∃ N, nodes = N + 1 := ⟨nodes - 1, by omega⟩
  obtain ⟨p, m, ms, s, loggers, w, root, rest, logs, fels, obs, hp, hm, h1, h2, h3, h4, hs, hl, hw, hwn, hlo, hfe, hob, hfs⟩ := program_parts L rnd J N doc fs h
  refine ⟨p, m, hp, hm, ?_⟩
  intro hint x hx hx0 hx1
  have hs0 : s = [] := by
    rw [hint] at hs
    injection hs with hs
    exact hs.symm
  subst hs0
  have hlen : (m :: ms).length = (tracking p J (N + 1)).run.nodes := by simp [h1]; rfl
  have hN' : 0 < (tracking p J (N + 1)).run.nodes := by show 0 < N + 1; omega
  obtain ⟨hperm, hwr⟩ := C42_watches _ J.traj J.fuel (tracking_records p J (N + 1)) (m :: ms) [] _ rfl _ w hw
  have hmem : x ∈ w.out.files.map WatchFile.watch := by
    rw [hperm.mem_iff, List.mem_filter]
    refine ⟨hx, ?_⟩
    simp only [decide_eq_true_eq]
    omega
  rw [List.mem_map] at hmem
  obtain ⟨fl, hfl, rfl⟩ := hmem
  obtain ⟨mm, t, ⟨w', hw', hr'⟩, hwrite⟩ := hwr fl hfl
  obtain ⟨n, hn, rfl, _⟩ := root_mem hr'
  obtain ⟨c1, c2, c3, c4⟩ := master_current _ _ _ (tracking_external p J (N + 1)) hN' (m :: ms) hlen h2 m rfl h3 [] rfl _ _ w' hw' n hn
  rw [master_dt hm] at c4
  obtain ⟨bs, b1, b2, b3⟩ := all_after (l := n.master.all) (l0 := m.all) c3 (by
    intro j q hq
    obtain ⟨q', b, g1, g2, g3, g4, g5, g6, _⟩ := c4 j q hq
    exact ⟨q', b, g1, g2, g3, g4, g5, g6⟩)
  refine ⟨fl.data, bs, ?_, b1, ?_, ?_⟩
  · rw [hfs]
    simp only [List.mem_append, List.mem_map]
    exact Or.inl (Or.inl (Or.inl ⟨fl, hfl, rfl⟩))
  · intro ht
    unfold Watch.write at hwrite
    rw [ht] at hwrite
    simp only at hwrite
    rw [watchHDF5_all c1] at hwrite
    injection hwrite with hwrite
    rw [← hwrite, b2.length_eq]
    congr 1
    clear c3 c4 b1 b3
    generalize n.master.all = l at b2 ⊢
    induction b2 with
    | nil => rfl
    | cons e _ ih => rw [List.flatMap_cons, List.flatMap_cons, ih, e.2.1, e.2.2]; rfl
  · intro ht
    unfold Watch.write at hwrite
    rw [ht] at hwrite
    simp only at hwrite
    rw [watchSDDS_all c1] at hwrite
    injection hwrite with hwrite
    have hch : n.master.all.map (fun q => q.Charge * ElementaryCharge) = m.all.map (fun q => q.Charge * ElementaryCharge) := by
      have := congrArg (List.map (fun c : ℝ => c * ElementaryCharge)) b3
      simpa [List.map_map, Function.comp_def] using this
    rw [hch, b2.length_eq] at hwrite
    refine ⟨_, hwrite.symm, ?_⟩
    clear c3 c4 b1 b3 hwrite hch
    generalize n.master.all = l at b2 ⊢
    induction b2 with
    | nil => exact .nil
    | cons e _ ih =>
      refine .cons ?_ ih
      rw [← e.1, ← e.2.1, ← e.2.2]
      exact ⟨rfl, rfl, rfl, rfl, rfl, rfl, rfl, sddsRow_spec _⟩

theorem toUnsigned_of {n : Int} {k : Nat} (h : (k : Int) = n % 2 ^ 32) : toUnsigned n = k := by
  unfold toUnsigned
  rw [← h, Int.toNat_natCast]

/-- **C85 (parameter logs).** Without interactions, the file of a parameter log of a bunch has one row for every `st` steps, which
describes the particles of the bunch after so many steps alone through the lattice. -/
theorem C85_parameter (L : Lib) (rnd : Nat → (Nat → Nat → ℝ) × (Nat → Nat → Nat → ℝ)) (J : Indet) (nodes : Nat) (hN : 0 < nodes) (doc : Xml) (fs : List OutFile)
    (h : L.program rnd J nodes doc = .ok fs) :
    ∃ p m, (L.withRandom (rnd 0)).parse doc = .ok p ∧ masterBeam p = .ok m ∧ (p.tracking.state.interactions = [] →
      ∀ b file step bf, LogSpec.param b file step bf ∈ p.beam.logs → ∀ st : Nat, (st : Int) = step % 2 ^ 32 → 1 ≤ st →
        ∃ bu F, m.B[b]? = some bu ∧ (⟨file, .params F⟩ : OutFile) ∈ fs ∧
          F.NumberTimeSteps = 1 + p.tracking.NOTS.toNat / st ∧ F.NumberParticles = bu.P.length ∧
          F.TotalCharge = (bu.P.map (fun q => q.Charge * ElementaryCharge)).sum ∧ F.BunchingFrequency = bf ∧ F.rows.length = 1 + p.tracking.NOTS.toNat / st ∧
          ∀ l, l * st ≤ p.tracking.NOTS.toNat → ∃ bs, AllAfter p.tracking.timeStep (Lattice.field p.lattice.lattice) (l * st) bu.P bs ∧
            F.rows[l]? = some (paramRow bf ⟨bs.length, bs⟩)) := by
  obtain ⟨N, rfl⟩ : ∃ N, nodes = N + 1 := ⟨nodes - 1, by omega⟩
  obtain ⟨p, m, ms, s, loggers, w, root, rest, logs, fels, obs, hp, hm, h1, h2, h3, h4, hs, hl, hw, hwn, hlo, hfe, hob, hfs⟩ := program_parts L rnd J N doc fs h
  refine ⟨p, m, hp, hm, ?_⟩
  intro hint b file step bf hmem st hst' hst
  replace hst' := toUnsigned_of hst'
  have hs0 : s = [] := by
    rw [hint] at hs
    injection hs with hs
    exact hs.symm
  subst hs0
  have hlen : (m :: ms).length = (tracking p J (N + 1)).run.nodes := by simp [h1]; rfl
  have hN' : 0 < (tracking p J (N + 1)).run.nodes := by show 0 < N + 1; omega
  obtain ⟨i, hi⟩ := List.getElem?_of_mem hmem
  obtain ⟨lg, hlg, hlg'⟩ := mapM_get hl i _ hi
  simp only [LogSpec.create] at hlg
  injection hlg with hlg
  rw [hst'] at hlg
  subst hlg
  have hroot : w.root = some (root.master, root.tracked) := by simp [World.root, hwn]
  obtain ⟨log, bu', F, g1, g2, g3, g4, g5, g6, g7, g8, g9⟩ := C81_parameter _ J.traj J.fuel (tracking_records p J (N + 1)) hN' (m :: ms) hlen h2 m rfl h3 [] _ i b st bf hst hlg' _ w hw
    root.master root.tracked hroot
  have hdt := master_dt hm
  have hat := fun k mm t (hr : RootAt _ (m :: ms) [] _ k mm t) => bunch_at _ _ _ (tracking_external p J (N + 1)) hN' (m :: ms) hlen h2 m rfl h3 [] rfl ⟨loggers, p.tracking.state.watches, []⟩ k mm t hr b
  obtain ⟨bu, a1, a2, a3, a4, a5⟩ := hat _ _ _ ⟨w, hw, hroot⟩ bu' g2
  obtain ⟨_, _, _, b3⟩ := all_after a3 a5
  have hch : bu'.P.map (fun q => q.Charge * ElementaryCharge) = bu.P.map (fun q => q.Charge * ElementaryCharge) := by
    have := congrArg (List.map (fun c : ℝ => c * ElementaryCharge)) b3
    simpa [List.map_map, Function.comp_def] using this
  refine ⟨bu, F, a1, ?_, g4, by rw [g5, a3], by rw [g6, hch], g7, g8, ?_⟩
  · have hz : ((logFiles p).zip w.out.loggers)[i]? = some (file, log) := by
      rw [List.getElem?_zip_eq_some]
      refine ⟨?_, g1⟩
      unfold logFiles
      rw [List.getElem?_append_left (by rw [List.length_map]; exact (List.getElem?_eq_some_iff.mp hi).1), List.getElem?_map, hi]
      rfl
    obtain ⟨o, ho, ho'⟩ := mapM_get hlo i _ hz
    simp only [g3, Except.map] at ho
    injection ho with ho
    rw [hfs, ho]
    have := List.mem_of_getElem? ho'
    simp only [List.mem_append]
    exact Or.inl (Or.inl (Or.inr this))
  · intro l hle
    obtain ⟨mm, t, bl, hr, k1, k2⟩ := g9 l hle
    obtain ⟨bu2, d1, d2, d3, d4, d5⟩ := hat _ _ _ hr bl k1
    rw [a1] at d1
    injection d1 with d1
    subst d1
    rw [hdt] at d5
    obtain ⟨bs, e1, e2, _⟩ := all_after d3 d5
    refine ⟨bs, e1, ?_⟩
    rw [k2, paramRow_same (b' := ⟨bs.length, bs⟩) d2 (by simp only; rw [d2, e2.length_eq]) e2]

/-- **C85 (trajectory logs).** Without interactions, entry `[l,j]` of the file of a trajectory log are position and momentum of particle `j` of
the bunch after `l·st` steps alone through the lattice.  Files with 2³² numbers or more do not occur: the run fails (C81). -/
theorem C85_trajectory (L : Lib) (rnd : Nat → (Nat → Nat → ℝ) × (Nat → Nat → Nat → ℝ)) (J : Indet) (nodes : Nat) (hN : 0 < nodes) (doc : Xml) (fs : List OutFile)
    (h : L.program rnd J nodes doc = .ok fs) :
    ∃ p m, (L.withRandom (rnd 0)).parse doc = .ok p ∧ masterBeam p = .ok m ∧ (p.tracking.state.interactions = [] →
      ∀ b file step number, LogSpec.traj b file step number ∈ p.beam.logs → ∀ st num : Nat, (st : Int) = step % 2 ^ 32 → (num : Int) = number % 2 ^ 32 → 1 ≤ st →
        ∃ bu, m.B[b]? = some bu ∧ (1 + p.tracking.NOTS.toNat / st) * min num bu.P.length * 6 < 2 ^ 32 ∧
          ∃ F : H5File, (⟨file, .hdf5 F⟩ : OutFile) ∈ fs ∧ F.extent "Trajectories" = some [1 + p.tracking.NOTS.toNat / st, min num bu.P.length, 6] ∧
            ∀ l j q, l * st ≤ p.tracking.NOTS.toNat → j < num → bu.P[j]? = some q →
              ∃ a, AfterSteps p.tracking.timeStep (Lattice.field p.lattice.lattice) q (l * st) a ∧
                F.entry "Trajectories" [l, j, 0] = some a.XCur.x ∧ F.entry "Trajectories" [l, j, 1] = some a.XCur.y ∧ F.entry "Trajectories" [l, j, 2] = some a.XCur.z ∧
                F.entry "Trajectories" [l, j, 3] = some a.PCur.x ∧ F.entry "Trajectories" [l, j, 4] = some a.PCur.y ∧ F.entry "Trajectories" [l, j, 5] = some a.PCur.z) := by
  obtain ⟨N, rfl⟩ : ∃ N, nodes = N + 1 := ⟨nodes - 1, by omega⟩
  obtain ⟨p, m, ms, s, loggers, w, root, rest, logs, fels, obs, hp, hm, h1, h2, h3, h4, hs, hl, hw, hwn, hlo, hfe, hob, hfs⟩ := program_parts L rnd J N doc fs h
  refine ⟨p, m, hp, hm, ?_⟩
  intro hint b file step number hmem st num hst' hnum hst
  replace hst' := toUnsigned_of hst'
  replace hnum := toUnsigned_of hnum
  have hs0 : s = [] := by
    rw [hint] at hs
    injection hs with hs
    exact hs.symm
  subst hs0
  have hlen : (m :: ms).length = (tracking p J (N + 1)).run.nodes := by simp [h1]; rfl
  have hN' : 0 < (tracking p J (N + 1)).run.nodes := by show 0 < N + 1; omega
  obtain ⟨i, hi⟩ := List.getElem?_of_mem hmem
  obtain ⟨lg, hlg, hlg'⟩ := mapM_get hl i _ hi
  simp only [LogSpec.create] at hlg
  cases hv : Particle.vecAt m.B b with
  | error e => rw [hv] at hlg; cases hlg
  | ok bu =>
  rw [hv, hst', hnum] at hlg
  simp only [Except.map] at hlg
  injection hlg with hlg
  subst hlg
  have hbu : m.B[b]? = some bu := by
    unfold Particle.vecAt at hv
    split at hv
    next a ha => injection hv with hv; rw [ha, hv]
    · cases hv
  have hnop : bu.getNOP = bu.P.length := ((Beam.wf_reachable (h2 m (by simp))).2 bu (List.mem_of_getElem? hbu)).1
  have hfit : (1 + p.tracking.NOTS.toNat / st) * min num bu.P.length * 6 < 2 ^ 32 := by
    by_contra hover
    obtain ⟨log, g1, g2⟩ := C81_trajectory_overflow _ J.traj J.fuel (tracking_records p J (N + 1)) hN' (m :: ms) hlen h2 m rfl h3 [] _ i b st num bu hbu hst hlg' _ w hw
      root.master (by rw [hnop]; exact not_lt.mp hover)
    have hz : ((logFiles p).zip w.out.loggers)[i]? = some (file, log) := by
      rw [List.getElem?_zip_eq_some]
      refine ⟨?_, g1⟩
      unfold logFiles
      rw [List.getElem?_append_left (by rw [List.length_map]; exact (List.getElem?_eq_some_iff.mp hi).1), List.getElem?_map, hi]
      rfl
    obtain ⟨o, ho, -⟩ := mapM_get hlo i _ hz
    simp only [g2, Except.map] at ho
    cases ho
  refine ⟨bu, hbu, hfit, ?_⟩
  obtain ⟨log, F, g1, g2, g3, g4, g5, g6, g7, g8⟩ := C81_trajectory_partial _ J.traj J.fuel (tracking_records p J (N + 1)) hN' (m :: ms) hlen h2 m rfl h3 [] _ i b st num bu hbu hst hlg' _ w hw
    root.master (by rw [hnop]; exact hfit)
  refine ⟨F, ?_, by rw [g5, hnop], ?_⟩
  · have hz : ((logFiles p).zip w.out.loggers)[i]? = some (file, log) := by
      rw [List.getElem?_zip_eq_some]
      refine ⟨?_, g1⟩
      unfold logFiles
      rw [List.getElem?_append_left (by rw [List.length_map]; exact (List.getElem?_eq_some_iff.mp hi).1), List.getElem?_map, hi]
      rfl
    obtain ⟨o, ho, ho'⟩ := mapM_get hlo i _ hz
    simp only [g2, Except.map] at ho
    injection ho with ho
    rw [hfs, ho]
    have := List.mem_of_getElem? ho'
    simp only [List.mem_append]
    exact Or.inl (Or.inl (Or.inr this))
  · intro l j q hle hj hq
    obtain ⟨mm, t, bl, hr, k1, k2, k3⟩ := g8 l hle
    obtain ⟨bu2, d1, d2, d3, d4, d5⟩ := bunch_at _ _ _ (tracking_external p J (N + 1)) hN' (m :: ms) hlen h2 m rfl h3 [] rfl _ _ mm t hr b bl k1
    rw [hbu] at d1
    injection d1 with d1
    subst d1
    obtain ⟨q', a, e1, e2, _, e3⟩ := d5 j q hq
    rw [master_dt hm] at e2
    refine ⟨a, e2, ?_⟩
    rw [← e3.2.1, ← e3.2.2]
    exact k3 j q' hj e1

/-- **C85, full statement refuted**: for one particle of 1 C the parameter `Charge` (in C) of the file is the elementary charge. -/
theorem C85_full_statement_false : ¬ ∀ (L : Lib) (rnd : Nat → (Nat → Nat → ℝ) × (Nat → Nat → Nat → ℝ)) (J : Indet) (nodes : Nat) (doc : Xml) (fs : List OutFile) (p : Parsed) (m : Beam),
    0 < nodes → L.program rnd J nodes doc = .ok fs → (L.withRandom (rnd 0)).parse doc = .ok p → masterBeam p = .ok m → p.tracking.state.interactions = [] →
      ∀ name nop charge rows, (⟨name, .watch (.sdds nop charge rows)⟩ : OutFile) ∈ fs → charge = (m.all.map (fun q => q.Charge * ElementaryCharge)).sum := by
  intro hall
  let rnd : Nat → (Nat → Nat → ℝ) × (Nat → Nat → Nat → ℝ) := fun _ => (fun _ _ => 0, fun _ _ _ => 0)
  let J : Indet := ⟨fun _ _ _ => 0, fun _ => 0, 0⟩
  obtain ⟨fs, h⟩ := watchDoc_runs rnd J 0
  obtain ⟨p, m, hp, hm, hw⟩ := C85_watches_partial exampleLib rnd J 1 (by norm_num) watchDoc fs h
  have hp' := watchDoc_parse (rnd 0)
  rw [hp'] at hp
  injection hp with hp
  subst hp
  obtain ⟨d, bs, d1, d2, d3, d4⟩ := hw rfl ⟨1, "early.sdds", .sdds⟩ (by simp [watchParsed]) (by norm_num) (by simp [watchParsed])
  obtain ⟨rows, hd, _⟩ := d4 rfl
  rw [hd] at d1
  have := hall exampleLib rnd J 1 watchDoc fs _ m (by norm_num) h hp' hm rfl _ _ _ _ d1
  obtain ⟨bg, mom, hm'⟩ := progDoc_master .lattice
  have hm2 : masterBeam watchParsed = .ok (progBeam bg mom) := hm'
  rw [hm2] at hm
  injection hm with hm
  subst hm
  have hsum : ((progBeam bg mom).all.map (fun q => q.Charge * ElementaryCharge)).sum = 1 := by
    have : (progBeam bg mom).all = [progParticle bg mom] := by simp [progBeam, Beam.all, Beam.Add, Beam.empty, Bunch.Add, Bunch.empty]
    rw [this]
    have hc : (progParticle bg mom).Charge = 1 / ElementaryCharge := rfl
    simp only [List.map_cons, List.map_nil, List.sum_cons, List.sum_nil, hc]
    norm_num [ElementaryCharge]
  rw [hsum] at this
  norm_num [ElementaryCharge] at this

end Lib
end Teufel
