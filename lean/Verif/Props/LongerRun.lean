import Verif.Lemmas.LongerRun
import Verif.Props.ProgramProbe
import Verif.Props.ProgramConvergence
import Verif.Props.ProgramComplete

/-!
# C124: a longer run continues a shorter one

The input files of two runs differ in the number of time steps only.  The numbers of nodes and everything which is not determined (except for the random numbers
of the first node, from which the beam is made) may be different.
-/

namespace Teufel
open Vec Input

namespace Lib

/-- both runs start from the same beam in the same lattice with the same interactions -/
theorem other_setup {L : Lib} {doc doc' : Xml} (ho : OtherSteps doc doc') {p p' : Parsed} (hp : L.parse doc = .ok p) (hp' : L.parse doc' = .ok p') {m m' : Beam}
    (hm : masterBeam p = .ok m) (hm' : masterBeam p' = .ok m') :
    p'.lattice = p.lattice ∧ p'.beam = p.beam ∧ p'.tracking.timeStep = p.tracking.timeStep ∧ p'.tracking.state = p.tracking.state ∧ p'.observers = p.observers ∧
      m'.B = m.B ∧ m'.all = m.all := by
  have e := parse_other L ho hp hp'
  have e1 : p'.lattice = p.lattice := by rw [e]
  have e2 : p'.beam = p.beam := by rw [e]
  have e3 : p'.tracking.timeStep = p.tracking.timeStep := by rw [e]
  have e4 : p'.tracking.state = p.tracking.state := by rw [e]
  have e5 : p'.observers = p.observers := by rw [e]
  have hB : m'.B = m.B := by
    unfold masterBeam at hm hm'
    rw [e2] at hm'
    cases hb : p.beam.bunches.mapM id with
    | error e => rw [hb] at hm; cases hm
    | ok bs =>
      rw [hb] at hm hm'
      simp only [bind, Except.bind, pure, Except.pure, Except.ok.injEq] at hm hm'
      rw [← hm, ← hm']
  exact ⟨e1, e2, e3, e4, e5, hB, by unfold Beam.all; rw [hB]⟩

theorem row_unique {b : Particle} {row row' : SddsRow}
    (h : row.t = b.tCur ∧ row.x = b.XCur.x ∧ row.y = b.XCur.y ∧ row.z = b.XCur.z ∧ row.px = b.PCur.x ∧ row.py = b.PCur.y ∧ row.pz = b.PCur.z ∧
      row.p ^ 2 = b.PCur.x ^ 2 + b.PCur.y ^ 2 + b.PCur.z ^ 2 ∧ 0 ≤ row.p ∧ row.gamma ^ 2 = 1 + row.p ^ 2 ∧ 1 ≤ row.gamma ∧
      (b.PCur.z ≠ 0 → row.xp = .ok (b.PCur.x / b.PCur.z) ∧ row.yp = .ok (b.PCur.y / b.PCur.z)) ∧ (b.PCur.z = 0 → row.xp = .error .nan ∧ row.yp = .error .nan))
    (h' : row'.t = b.tCur ∧ row'.x = b.XCur.x ∧ row'.y = b.XCur.y ∧ row'.z = b.XCur.z ∧ row'.px = b.PCur.x ∧ row'.py = b.PCur.y ∧ row'.pz = b.PCur.z ∧
      row'.p ^ 2 = b.PCur.x ^ 2 + b.PCur.y ^ 2 + b.PCur.z ^ 2 ∧ 0 ≤ row'.p ∧ row'.gamma ^ 2 = 1 + row'.p ^ 2 ∧ 1 ≤ row'.gamma ∧
      (b.PCur.z ≠ 0 → row'.xp = .ok (b.PCur.x / b.PCur.z) ∧ row'.yp = .ok (b.PCur.y / b.PCur.z)) ∧ (b.PCur.z = 0 → row'.xp = .error .nan ∧ row'.yp = .error .nan)) :
    row' = row := by
  obtain ⟨a1, a2, a3, a4, a5, a6, a7, a8, a9, a10, a11, a12, a13⟩ := h
  obtain ⟨b1, b2, b3, b4, b5, b6, b7, b8, b9, b10, b11, b12, b13⟩ := h'
  have hp : row'.p = row.p := by
    have : row'.p ^ 2 = row.p ^ 2 := by rw [a8, b8]
    exact (pow_left_inj₀ b9 a9 two_ne_zero).mp this
  have hg : row'.gamma = row.gamma := by
    have : row'.gamma ^ 2 = row.gamma ^ 2 := by rw [a10, b10, hp]
    exact (pow_left_inj₀ (by linarith) (by linarith) two_ne_zero).mp this
  have hx : row'.xp = row.xp ∧ row'.yp = row.yp := by
    rcases eq_or_ne b.PCur.z 0 with h0 | h0
    · rw [(a13 h0).1, (a13 h0).2, (b13 h0).1, (b13 h0).2]; exact ⟨rfl, rfl⟩
    · rw [(a12 h0).1, (a12 h0).2, (b12 h0).1, (b12 h0).2]; exact ⟨rfl, rfl⟩
  cases row
  cases row'
  simp only at *
  obtain ⟨hx1, hx2⟩ := hx
  subst a1 a2 a3 a4 a5 a6 a7 hp hg hx1 hx2
  rw [b1, b2, b3, b4, b5, b6, b7]

/-- C124: a watch point which both runs reach writes the same file. -/
theorem C124_watches (L : Lib) (rnd rnd' : Nat → (Nat → Nat → ℝ) × (Nat → Nat → Nat → ℝ)) (hr : rnd' 0 = rnd 0) (J J' : Indet) (nodes nodes' : Nat) (hN : 0 < nodes) (hN' : 0 < nodes')
    (doc doc' : Xml) (ho : OtherSteps doc doc') (fs fs' : List OutFile) (h : L.program rnd J nodes doc = .ok fs) (h' : L.program rnd' J' nodes' doc' = .ok fs') :
    ∃ p p', (L.withRandom (rnd 0)).parse doc = .ok p ∧ (L.withRandom (rnd 0)).parse doc' = .ok p' ∧ p'.tracking.state.watches = p.tracking.state.watches ∧
      ∀ x ∈ p.tracking.state.watches, 0 ≤ x.step → x.step ≤ p.tracking.NOTS → x.step ≤ p'.tracking.NOTS →
        ∃ d, (⟨x.filename, .watch d⟩ : OutFile) ∈ fs ∧ (⟨x.filename, .watch d⟩ : OutFile) ∈ fs' := by
  obtain ⟨p, m, s, hp, hm, hs, hw⟩ := C85_watches_coupled_partial L rnd J nodes hN doc fs h
  obtain ⟨p', m', s', hp', hm', hs', hw'⟩ := C85_watches_coupled_partial L rnd' J' nodes' hN' doc' fs' h'
  rw [hr] at hp'
  obtain ⟨e1, e2, e3, e4, e5, e6, e7⟩ := other_setup ho hp hp' hm hm'
  rw [e4, hs] at hs'
  injection hs' with hs'
  subst hs'
  refine ⟨p, p', hp, hp', by rw [e4], ?_⟩
  intro x hx h0 h1 h2
  obtain ⟨d, bs, S, d1, d2, d3, d4⟩ := hw x hx h0 h1
  obtain ⟨d', bs', S', d1', d2', d3', d4'⟩ := hw' x (by rw [e4]; exact hx) h0 h2
  rw [e1, e3, e7, d2] at d2'
  cases d2'
  have : d' = d := by
    cases ht : x.type with
    | hdf5 => rw [d3 ht, d3' ht]
    | sdds =>
      obtain ⟨rows, r1, r2⟩ := d4 ht
      obtain ⟨rows', r1', r2'⟩ := d4' ht
      rw [r1, r1', e7]
      congr 1
      clear * - r2 r2'
      induction r2 generalizing rows' with
      | nil => cases r2'; rfl
      | cons hx _ ih =>
        cases r2' with
        | cons hy r2' => rw [row_unique hx hy, ih _ r2']
  subst this
  exact ⟨_, d1, d1'⟩

/-- C124: the log of beam parameters of a shorter run is the beginning of that of a longer one. -/
theorem C124_parameter (L : Lib) (rnd rnd' : Nat → (Nat → Nat → ℝ) × (Nat → Nat → Nat → ℝ)) (hr : rnd' 0 = rnd 0) (J J' : Indet) (nodes nodes' : Nat) (hN : 0 < nodes) (hN' : 0 < nodes')
    (doc doc' : Xml) (ho : OtherSteps doc doc') (fs fs' : List OutFile) (h : L.program rnd J nodes doc = .ok fs) (h' : L.program rnd' J' nodes' doc' = .ok fs') :
    ∃ p p', (L.withRandom (rnd 0)).parse doc = .ok p ∧ (L.withRandom (rnd 0)).parse doc' = .ok p' ∧ p'.beam.logs = p.beam.logs ∧
      (p.tracking.NOTS ≤ p'.tracking.NOTS → ∀ b file step bf, LogSpec.param b file step bf ∈ p.beam.logs → step % 2 ^ 32 ≠ 0 →
        ∃ F F' : ParamFile, (⟨file, .params F⟩ : OutFile) ∈ fs ∧ (⟨file, .params F'⟩ : OutFile) ∈ fs' ∧ F.rows <+: F'.rows ∧
          F.NumberParticles = F'.NumberParticles ∧ F.TotalCharge = F'.TotalCharge ∧ F.BunchingFrequency = F'.BunchingFrequency) := by
  obtain ⟨p, m, s, hp, hm, hs, hw⟩ := C85_parameter_coupled L rnd J nodes hN doc fs h
  obtain ⟨p', m', s', hp', hm', hs', hw'⟩ := C85_parameter_coupled L rnd' J' nodes' hN' doc' fs' h'
  rw [hr] at hp'
  obtain ⟨e1, e2, e3, e4, e5, e6, e7⟩ := other_setup ho hp hp' hm hm'
  rw [e4, hs] at hs'
  injection hs' with hs'
  subst hs'
  refine ⟨p, p', hp, hp', by rw [e2], ?_⟩
  intro hle b file step bf hmem hst
  have hpos : 0 ≤ step % 2 ^ 32 := Int.emod_nonneg _ (by norm_num)
  have hst1 : (((step % 2 ^ 32).toNat : Nat) : Int) = step % 2 ^ 32 := Int.toNat_of_nonneg hpos
  have hst2 : 1 ≤ (step % 2 ^ 32).toNat := by omega
  generalize (step % 2 ^ 32).toNat = st at hst1 hst2
  obtain ⟨bu, F, f1, f2, f3, f4, f5, f6, f7, f8⟩ := hw b file step bf hmem st hst1 hst2
  obtain ⟨bu', F', g1, g2, g3, g4, g5, g6, g7, g8⟩ := hw' b file step bf (by rw [e2]; exact hmem) st hst1 hst2
  rw [e6, f1] at g1
  cases g1
  have hNle : p.tracking.NOTS.toNat ≤ p'.tracking.NOTS.toNat := by omega
  refine ⟨F, F', f2, g2, ?_, by rw [f4, g4], by rw [f5, g5], by rw [f6, g6]⟩
  rw [List.prefix_iff_getElem?]
  intro l hl
  have hl' : l * st ≤ p.tracking.NOTS.toNat := by
    rw [f7] at hl
    have : l ≤ p.tracking.NOTS.toNat / st := by omega
    exact (Nat.le_div_iff_mul_le (by omega)).mp this
  obtain ⟨ps, S, k1, k2⟩ := f8 l hl'
  obtain ⟨ps', S', k1', k2'⟩ := g8 l (hl'.trans hNle)
  rw [e1, e3, e7, k1] at k1'
  cases k1'
  have hbu : Coupled.bunch m' b ps = Coupled.bunch m b ps := by unfold Coupled.bunch; rw [e6]
  rw [k2', hbu, ← k2, List.getElem?_eq_getElem hl]

/-- C124: the trajectories which a shorter run records are the beginning of those of a longer one. -/
theorem C124_trajectory (L : Lib) (rnd rnd' : Nat → (Nat → Nat → ℝ) × (Nat → Nat → Nat → ℝ)) (hr : rnd' 0 = rnd 0) (J J' : Indet) (nodes nodes' : Nat) (hN : 0 < nodes) (hN' : 0 < nodes')
    (doc doc' : Xml) (ho : OtherSteps doc doc') (fs fs' : List OutFile) (h : L.program rnd J nodes doc = .ok fs) (h' : L.program rnd' J' nodes' doc' = .ok fs') :
    ∃ p p', (L.withRandom (rnd 0)).parse doc = .ok p ∧ (L.withRandom (rnd 0)).parse doc' = .ok p' ∧ p'.beam.logs = p.beam.logs ∧
      (p.tracking.NOTS ≤ p'.tracking.NOTS → ∀ b file step number, LogSpec.traj b file step number ∈ p.beam.logs → step % 2 ^ 32 ≠ 0 →
        ∃ (F F' : H5File) (T T' N : Nat), (⟨file, .hdf5 F⟩ : OutFile) ∈ fs ∧ (⟨file, .hdf5 F'⟩ : OutFile) ∈ fs' ∧
          F.extent "Trajectories" = some [T, N, 6] ∧ F'.extent "Trajectories" = some [T', N, 6] ∧ T ≤ T' ∧
          ∀ l j i, l < T → j < N → i < 6 → ∃ v, F.entry "Trajectories" [l, j, i] = some v ∧ F'.entry "Trajectories" [l, j, i] = some v) := by
  obtain ⟨p, m, s, hp, hm, hs, hw⟩ := C85_trajectory_coupled L rnd J nodes hN doc fs h
  obtain ⟨p', m', s', hp', hm', hs', hw'⟩ := C85_trajectory_coupled L rnd' J' nodes' hN' doc' fs' h'
  rw [hr] at hp'
  obtain ⟨e1, e2, e3, e4, e5, e6, e7⟩ := other_setup ho hp hp' hm hm'
  rw [e4, hs] at hs'
  injection hs' with hs'
  subst hs'
  refine ⟨p, p', hp, hp', by rw [e2], ?_⟩
  intro hle b file step number hmem hst
  have hpos : 0 ≤ step % 2 ^ 32 := Int.emod_nonneg _ (by norm_num)
  have hst1 : (((step % 2 ^ 32).toNat : Nat) : Int) = step % 2 ^ 32 := Int.toNat_of_nonneg hpos
  have hst2 : 1 ≤ (step % 2 ^ 32).toNat := by omega
  have hnu : (((number % 2 ^ 32).toNat : Nat) : Int) = number % 2 ^ 32 := Int.toNat_of_nonneg (Int.emod_nonneg _ (by norm_num))
  generalize (step % 2 ^ 32).toNat = st at hst1 hst2
  generalize (number % 2 ^ 32).toNat = num at hnu
  obtain ⟨bu, f1, -, F, f2, f3, f4⟩ := hw b file step number hmem st num hst1 hnu hst2
  obtain ⟨bu', g1, -, F', g2, g3, g4⟩ := hw' b file step number (by rw [e2]; exact hmem) st num hst1 hnu hst2
  rw [e6, f1] at g1
  cases g1
  have hNle : p.tracking.NOTS.toNat ≤ p'.tracking.NOTS.toNat := by omega
  refine ⟨F, F', _, _, _, f2, g2, f3, g3, by have := Nat.div_le_div_right (c := st) hNle; omega, ?_⟩
  intro l j i hl hj hi
  have hl' : l * st ≤ p.tracking.NOTS.toNat := (Nat.le_div_iff_mul_le (by omega)).mp (by omega)
  obtain ⟨ps, S, a, k1, k2, k3⟩ := f4 l j hl' (by omega) (by omega)
  obtain ⟨ps', S', a', k1', k2', k3'⟩ := g4 l j (hl'.trans hNle) (by omega) (by omega)
  rw [e1, e3, e7, k1] at k1'
  cases k1'
  have hbu : Coupled.bunch m' b ps = Coupled.bunch m b ps := by unfold Coupled.bunch; rw [e6]
  rw [hbu, k2] at k2'
  cases k2'
  obtain ⟨v0, v1, v2, v3, v4, v5⟩ := k3
  obtain ⟨w0, w1, w2, w3, w4, w5⟩ := k3'
  match i, hi with
  | 0, _ => exact ⟨_, v0, w0⟩
  | 1, _ => exact ⟨_, v1, w1⟩
  | 2, _ => exact ⟨_, v2, w2⟩
  | 3, _ => exact ⟨_, v3, w3⟩
  | 4, _ => exact ⟨_, v4, w4⟩
  | 5, _ => exact ⟨_, v5, w5⟩

theorem acting_unique {ext : Lattice} {dt : ℝ} {ps : List Particle} {s : List FEL} {k : Nat} {G G' : FieldFn} (h : Coupled.Acting ext dt ps s k G)
    (h' : Coupled.Acting ext dt ps s k G') : G' = G := by
  rcases h with ⟨h0, h⟩ | ⟨i, qs, S, h0, h1, h⟩
  · rcases h' with ⟨_, h'⟩ | ⟨i', _, _, h0', _, _⟩
    · rw [h, h']
    · omega
  · rcases h' with ⟨h0', _⟩ | ⟨i', qs', S', h0', h1', h'⟩
    · omega
    · obtain rfl : i' = i := by omega
      rw [h1] at h1'
      cases h1'
      rw [h, h']

/-- C124: the records of the probe of a shorter run are the first ones of a longer run on the same number of nodes (which decides on the number of particles
written to this file). -/
theorem C124_probe (L : Lib) (rnd rnd' : Nat → (Nat → Nat → ℝ) × (Nat → Nat → Nat → ℝ)) (hr : rnd' 0 = rnd 0) (J J' : Indet) (nodes : Nat) (hN : 0 < nodes)
    (doc doc' : Xml) (ho : OtherSteps doc doc') (fs fs' : List OutFile) (h : L.program rnd J nodes doc = .ok fs) (h' : L.program rnd' J' nodes doc' = .ok fs') :
    ∃ p p' m, (L.withRandom (rnd 0)).parse doc = .ok p ∧ (L.withRandom (rnd 0)).parse doc' = .ok p' ∧ masterBeam p = .ok m ∧ p'.beam.probe = p.beam.probe ∧
      (p.tracking.NOTS ≤ p'.tracking.NOTS → ∀ pr, p.beam.probe = some pr → pr.step % 2 ^ 32 ≠ 0 →
        ∃ (F F' : H5File) (T T' N : Nat), (⟨pr.file, .hdf5 F⟩ : OutFile) ∈ fs ∧ (⟨pr.file, .hdf5 F'⟩ : OutFile) ∈ fs' ∧
          F.extent "Probe" = some [T, N, 16] ∧ F'.extent "Probe" = some [T', N, 16] ∧ T ≤ T' ∧
          ∀ l j i, l < T → j < N → j < m.all.length → i < 16 → ∃ v, F.entry "Probe" [l, j, i] = some v ∧ F'.entry "Probe" [l, j, i] = some v) := by
  obtain ⟨p, m, s, hp, hm, hs, hw⟩ := C122_probe L rnd J nodes hN doc fs h
  obtain ⟨p', m', s', hp', hm', hs', hw'⟩ := C122_probe L rnd' J' nodes hN doc' fs' h'
  rw [hr] at hp'
  obtain ⟨e1, e2, e3, e4, e5, e6, e7⟩ := other_setup ho hp hp' hm hm'
  rw [e4, hs] at hs'
  injection hs' with hs'
  subst hs'
  refine ⟨p, p', m, hp, hp', hm, by rw [e2], ?_⟩
  intro hle pr hpr hst
  have hpos : 0 ≤ pr.step % 2 ^ 32 := Int.emod_nonneg _ (by norm_num)
  have hst1 : (((pr.step % 2 ^ 32).toNat : Nat) : Int) = pr.step % 2 ^ 32 := Int.toNat_of_nonneg hpos
  have hst2 : 1 ≤ (pr.step % 2 ^ 32).toNat := by omega
  have hnu : (((pr.number % 2 ^ 32).toNat : Nat) : Int) = pr.number % 2 ^ 32 := Int.toNat_of_nonneg (Int.emod_nonneg _ (by norm_num))
  generalize (pr.step % 2 ^ 32).toNat = st at hst1 hst2
  generalize (pr.number % 2 ^ 32).toNat = num at hnu
  obtain ⟨F, f2, f3, -, -, f4⟩ := hw pr hpr st num hst1 hnu hst2
  obtain ⟨F', g2, g3, -, -, g4⟩ := hw' pr (by rw [e2]; exact hpr) st num hst1 hnu hst2
  rw [e7] at g3
  have hNle : p.tracking.NOTS.toNat ≤ p'.tracking.NOTS.toNat := by omega
  refine ⟨F, F', _, _, _, f2, g2, f3, g3, by have := Nat.div_le_div_right (c := st) hNle; omega, ?_⟩
  intro l j i hl hj hjm hi
  have hl' : l * st ≤ p.tracking.NOTS.toNat := (Nat.le_div_iff_mul_le (by omega)).mp (by omega)
  have hq := List.getElem?_eq_getElem hjm
  obtain ⟨ps, S, a, G, A, E, B, k1, k2, k3, k4, k5, k6⟩ := f4 l j _ hl' (lt_of_lt_of_le hj (min_le_left _ _)) (lt_of_lt_of_le hj (min_le_right _ _)) hq
  obtain ⟨ps', S', a', G', A', E', B', k1', k2', k3', k4', k5', k6'⟩ :=
    g4 l j _ (hl'.trans hNle) (lt_of_lt_of_le hj (min_le_left _ _)) (by rw [e7]; exact lt_of_lt_of_le hj (min_le_right _ _)) (by rw [e7]; exact hq)
  rw [e1, e3, e7] at k1' k3'
  rw [k1] at k1'
  cases k1'
  rw [k2] at k2'
  cases k2'
  rw [acting_unique k3 k3', k4] at k4'
  cases k4'
  rw [← k5] at k5'
  subst k5'
  have hg := List.getElem?_eq_getElem
    (show i < [a.tCur, a.XCur.x, a.XCur.y, a.XCur.z, a.PCur.x, a.PCur.y, a.PCur.z, A'.x, A'.y, A'.z, E.x, E.y, E.z, B.x, B.y, B.z].length from hi)
  exact ⟨_, k6 i _ hg, k6' i _ hg⟩

/-- the arrival of the last signal -/
theorem Moved.last {dt : ℝ} {q a : Particle} {k : Nat} (hq : q.Reachable) (hdt : 0 < dt) (h : Moved dt q k a) (X : Vec) :
    a.RetardedTime k X = .ok (a.tCur + Vec.norm (X - a.XCur) / SpeedOfLight) := by
  obtain ⟨r1, _, r3, _, _⟩ := h.facts hq hdt
  obtain ⟨f, fs, a0, rfl, h1, h2⟩ := h
  have hend := (Particle.steps_facts h2).2.2.2.2.2.2.2.2 (Particle.atEnd_init h1)
  have hc := cons_reachable r1
  have ⟨c1, c2, _, _⟩ := hc
  simp only [Particle.getNP] at r3
  have t1 := hend.2.1
  have t2 := hend.2.2.1
  rw [List.getLast?_eq_getElem?, c1, r3, Nat.add_sub_cancel] at t1
  rw [List.getLast?_eq_getElem?, c2, r3, Nat.add_sub_cancel] at t2
  exact RetardedTime_of (TrajTime_of_get hc t1) (TrajPoint_of_get hc t2)

/-- C124: until the last signal of the shorter run has arrived, the radiation recorded by screens, meshes and points is the same in both runs. -/
theorem C124_observers (L : Lib) (rnd rnd' : Nat → (Nat → Nat → ℝ) × (Nat → Nat → Nat → ℝ)) (hr : rnd' 0 = rnd 0) (J J' : Indet) (nodes nodes' : Nat) (hN : 0 < nodes) (hN' : 0 < nodes')
    (doc doc' : Xml) (ho : OtherSteps doc doc') (fs fs' : List OutFile) (h : L.program rnd J nodes doc = .ok fs) (h' : L.program rnd' J' nodes' doc' = .ok fs') :
    ∃ p p' m s, (L.withRandom (rnd 0)).parse doc = .ok p ∧ (L.withRandom (rnd 0)).parse doc' = .ok p' ∧ p'.observers.observers = p.observers.observers ∧
      masterBeam p = .ok m ∧ p.tracking.state.interactions.mapM id = .ok s ∧
      (p.tracking.NOTS ≤ p'.tracking.NOTS → 0 < p.tracking.timeStep → ∀ spec ∈ p.observers.observers, spec.source = .beam →
        ∃ as S bs S', Coupled.after p.lattice.lattice p.tracking.timeStep m.all s p.tracking.NOTS.toNat = .ok (as, S) ∧
          Coupled.after p.lattice.lattice p.tracking.timeStep m.all s p'.tracking.NOTS.toNat = .ok (bs, S') ∧
          ∃ d d', (⟨spec.file, d⟩ : OutFile) ∈ fs ∧ (⟨spec.file, d'⟩ : OutFile) ∈ fs' ∧
            ∀ k ∈ spec.observer.keys, ∀ t X δ, spec.observer.samplePoint k = .ok (t, X) → spec.observer.sampleStep k = some δ → 0 < δ →
              (∀ b ∈ bs, b.OffTrajectory X) → (∀ a ∈ as, t + δ / 2 ≤ a.tCur + Vec.norm (X - a.XCur) / SpeedOfLight) →
              ∃ F, Shows spec.observer d k X F ∧ Shows spec.observer d' k X F) := by
  obtain ⟨p, m, s, hp, hm, hs, bef, files, hfs, hlen, hw⟩ := C83_coupled_partial L rnd J nodes hN doc fs h
  obtain ⟨p', m', s', hp', hm', hs', bef', files', hfs', hlen', hw'⟩ := C83_coupled_partial L rnd' J' nodes' hN' doc' fs' h'
  rw [hr] at hp'
  obtain ⟨e1, e2, e3, e4, e5, e6, e7⟩ := other_setup ho hp hp' hm hm'
  rw [e4, hs] at hs'
  injection hs' with hs'
  subst hs'
  refine ⟨p, p', m, s, hp, hp', by rw [e5], hm, hs, ?_⟩
  intro hle hdt spec hspec hsrc
  obtain ⟨-, hreach⟩ := Lib.master_reachable (J := J) hp hm
  obtain ⟨i, hi⟩ := List.getElem?_of_mem hspec
  obtain ⟨d, q1, q2, -⟩ := hw i spec hi
  obtain ⟨d', q1', q2', -⟩ := hw' i spec (by rw [e5]; exact hi)
  obtain ⟨as, S, hA, z2⟩ := q2 hsrc
  obtain ⟨bs, S', hB, z2'⟩ := q2' hsrc
  rw [e1, e3, e7] at hB
  refine ⟨as, S, bs, S', hA, hB, d, d', by rw [hfs]; exact List.mem_append_right _ (List.mem_of_getElem? q1), by rw [hfs']; exact List.mem_append_right _ (List.mem_of_getElem? q1'), ?_⟩
  intro k hk t X δ hsp hst hδ hoff hlate
  obtain ⟨t1, X1, Fs, y1, y2, y3⟩ := z2 k hk
  obtain ⟨t2, X2, Fs', y1', y2', y3'⟩ := z2' k hk
  rw [hsp] at y1 y1'
  cases y1
  cases y1'
  have hNle : p.tracking.NOTS.toNat ≤ p'.tracking.NOTS.toNat := by omega
  have hbeg : List.Forall₂ Begins as bs := by
    obtain ⟨l, hl⟩ := Nat.exists_eq_add_of_le hNle
    rw [hl] at hB
    exact after_begins hA hB
  have hma := after_moved hA
  have hmb := after_moved hB
  have : Fs' = Fs := by
    generalize m.all = qs at hma hmb hreach
    clear * - hbeg hma hmb hreach hoff hlate y2 y2' hsp hst hδ hdt hNle
    induction hbeg generalizing qs Fs Fs' with
    | nil => cases y2; cases y2'; rfl
    | cons hx _ ih =>
      rename_i a b as bs _
      cases hma with
      | cons ha hma =>
      cases hmb with
      | cons hb hmb =>
      rename_i q qs
      rw [List.mapM_cons] at y2 y2'
      cases ga : spec.observer.particleSample k a with
      | error e => rw [ga] at y2; cases y2
      | ok f =>
      cases gb : spec.observer.particleSample k b with
      | error e => rw [gb] at y2'; cases y2'
      | ok f' =>
      rw [ga] at y2
      rw [gb] at y2'
      cases la : as.mapM (spec.observer.particleSample k) with
      | error e => rw [la] at y2; cases y2
      | ok Ga =>
      cases lb : bs.mapM (spec.observer.particleSample k) with
      | error e => rw [lb] at y2'; cases y2'
      | ok Gb =>
      rw [la] at y2
      rw [lb] at y2'
      simp only [bind, Except.bind, pure, Except.pure, Except.ok.injEq] at y2 y2'
      rw [← y2, ← y2', ih (fun b hb => hoff b (by simp [hb])) (fun a ha => hlate a (by simp [ha])) Ga la Gb lb qs hma hmb (fun q hq => hreach q (by simp [hq]))]
      have hq := hreach q (by simp)
      obtain ⟨r1, r2, r3, _⟩ := ha.facts hq hdt
      obtain ⟨r1', r2', r3', _⟩ := hb.facts hq hdt
      rw [sample_begins r1 r1' r2 r2' hx hsp hst hδ (hoff b (by simp)) r3 r3' hNle (Moved.last hq hdt ha X) (hlate a (by simp)) ga gb]
  subst this
  exact ⟨_, y3, y3'⟩

/-- C124 (snapshots): a snapshot taken by both runs shows the same field at every point which the signal emitted by each particle at the end of the shorter run
has not passed at the time of the snapshot. -/
theorem C124_snapshots (L : Lib) (rnd rnd' : Nat → (Nat → Nat → ℝ) × (Nat → Nat → Nat → ℝ)) (hr : rnd' 0 = rnd 0) (J J' : Indet) (nodes nodes' : Nat) (hN : 0 < nodes) (hN' : 0 < nodes')
    (doc doc' : Xml) (ho : OtherSteps doc doc') (fs fs' : List OutFile) (h : L.program rnd J nodes doc = .ok fs) (h' : L.program rnd' J' nodes' doc' = .ok fs') :
    ∃ p p' m s, (L.withRandom (rnd 0)).parse doc = .ok p ∧ (L.withRandom (rnd 0)).parse doc' = .ok p' ∧ p'.observers.observers = p.observers.observers ∧
      masterBeam p = .ok m ∧ p.tracking.state.interactions.mapM id = .ok s ∧
      (p.tracking.NOTS ≤ p'.tracking.NOTS → 0 < p.tracking.timeStep → ∀ spec ∈ p.observers.observers, spec.source = .beam → ∀ sn, spec.observer = .snapshot sn →
        ∃ as S bs S', Coupled.after p.lattice.lattice p.tracking.timeStep m.all s p.tracking.NOTS.toNat = .ok (as, S) ∧
          Coupled.after p.lattice.lattice p.tracking.timeStep m.all s p'.tracking.NOTS.toNat = .ok (bs, S') ∧
          ∃ d d', (⟨spec.file, d⟩ : OutFile) ∈ fs ∧ (⟨spec.file, d'⟩ : OutFile) ∈ fs' ∧
            ∀ k ∈ spec.observer.keys, ∀ t X, spec.observer.samplePoint k = .ok (t, X) →
              (∀ a ∈ as, t ≤ a.tCur + Vec.norm (X - a.XCur) / SpeedOfLight) →
              ∃ F, Shows spec.observer d k X F ∧ Shows spec.observer d' k X F) := by
  obtain ⟨p, m, s, hp, hm, hs, bef, files, hfs, hlen, hw⟩ := C83_coupled_partial L rnd J nodes hN doc fs h
  obtain ⟨p', m', s', hp', hm', hs', bef', files', hfs', hlen', hw'⟩ := C83_coupled_partial L rnd' J' nodes' hN' doc' fs' h'
  rw [hr] at hp'
  obtain ⟨e1, e2, e3, e4, e5, e6, e7⟩ := other_setup ho hp hp' hm hm'
  rw [e4, hs] at hs'
  injection hs' with hs'
  subst hs'
  refine ⟨p, p', m, s, hp, hp', by rw [e5], hm, hs, ?_⟩
  intro hle hdt spec hspec hsrc sn hsn
  obtain ⟨-, hreach⟩ := Lib.master_reachable (J := J) hp hm
  obtain ⟨i, hi⟩ := List.getElem?_of_mem hspec
  obtain ⟨d, q1, q2, -⟩ := hw i spec hi
  obtain ⟨d', q1', q2', -⟩ := hw' i spec (by rw [e5]; exact hi)
  obtain ⟨as, S, hA, z2⟩ := q2 hsrc
  obtain ⟨bs, S', hB, z2'⟩ := q2' hsrc
  rw [e1, e3, e7] at hB
  refine ⟨as, S, bs, S', hA, hB, d, d', by rw [hfs]; exact List.mem_append_right _ (List.mem_of_getElem? q1), by rw [hfs']; exact List.mem_append_right _ (List.mem_of_getElem? q1'), ?_⟩
  intro k hk t X hsp hlate
  obtain ⟨t1, X1, Fs, y1, y2, y3⟩ := z2 k hk
  obtain ⟨t2, X2, Fs', y1', y2', y3'⟩ := z2' k hk
  rw [hsp] at y1 y1'
  cases y1
  cases y1'
  have hNle : p.tracking.NOTS.toNat ≤ p'.tracking.NOTS.toNat := by omega
  have hbeg : List.Forall₂ Begins as bs := by
    obtain ⟨l, hl⟩ := Nat.exists_eq_add_of_le hNle
    rw [hl] at hB
    exact after_begins hA hB
  have hma := after_moved hA
  have hmb := after_moved hB
  have : Fs' = Fs := by
    generalize m.all = qs at hma hmb hreach
    clear * - hbeg hma hmb hreach hlate y2 y2' hsp hsn hdt hNle
    induction hbeg generalizing qs Fs Fs' with
    | nil => cases y2; cases y2'; rfl
    | cons hx _ ih =>
      rename_i a b as bs _
      cases hma with
      | cons ha hma =>
      cases hmb with
      | cons hb hmb =>
      rename_i q qs
      rw [List.mapM_cons] at y2 y2'
      cases ga : spec.observer.particleSample k a with
      | error e => rw [ga] at y2; cases y2
      | ok f =>
      cases gb : spec.observer.particleSample k b with
      | error e => rw [gb] at y2'; cases y2'
      | ok f' =>
      rw [ga] at y2
      rw [gb] at y2'
      cases la : as.mapM (spec.observer.particleSample k) with
      | error e => rw [la] at y2; cases y2
      | ok Ga =>
      cases lb : bs.mapM (spec.observer.particleSample k) with
      | error e => rw [lb] at y2'; cases y2'
      | ok Gb =>
      rw [la] at y2
      rw [lb] at y2'
      simp only [bind, Except.bind, pure, Except.pure, Except.ok.injEq] at y2 y2'
      rw [← y2, ← y2', ih (fun a ha => hlate a (by simp [ha])) Ga la Gb lb qs hma hmb (fun q hq => hreach q (by simp [hq]))]
      have hq := hreach q (by simp)
      obtain ⟨r1, r2, r3, _⟩ := ha.facts hq hdt
      obtain ⟨r1', r2', r3', _⟩ := hb.facts hq hdt
      have hfield := field_begins r1 r1' r2' hx r3 r3' hNle (Moved.last hq hdt ha X) (hlate a (by simp))
      rw [hsn] at ga gb hsp
      simp only [Observer.samplePoint, Except.ok.injEq, Prod.mk.injEq] at hsp
      obtain ⟨rfl, rfl⟩ := hsp
      simp only [Observer.particleSample] at ga gb
      rw [hfield, ga] at gb
      injection gb with gb
      rw [gb]
  subst this
  exact ⟨_, y3, y3'⟩

/-! ## Example: one step and two steps of a free particle -/

def spanDoc (n : String) : Xml :=
  .node "" [] [.node "teufel" []
    [.node "lattice" [] [],
     .node "beam" [] [.node "particle" [("gamma", "2"), ("charge", "1"), ("cmr", "1")] [.node "position" [] [], .node "momentum" [("z", "1")] [], .node "log" [("file", "log.sdds")] []], .node "probe" [("file", "probe.h5")] []],
     .node "tracking" [("method", "Vay"), ("delta_t", "1"), ("n", n)] [.node "watch-sdds" [("step", "1"), ("file", "early.sdds")] []],
     .node "observer" [] [.node "point" [("file", "point.sdds"), ("source", "beam")] [.node "position" [("x", "1")] [], .node "time" [("dt", "1"), ("n", "3")] []],
       .node "snapshot" [("file", "snap.h5"), ("source", "beam")] [.node "time" [("t0", "1")] [], .node "position" [("x", "1")] [], .node "hpitch" [("n", "3"), ("y", "1")] [], .node "vpitch" [("n", "3"), ("z", "1")] []]]]]

/-- the observers of the example, of which the second one is placed in a plane beside the particle -/
noncomputable def spanSnap : Snapshot := Snapshot.new ⟨1, 0, 0⟩ ⟨0, 1, 0⟩ ⟨0, 0, 1⟩ 3 3 1

noncomputable def spanParsed (n : Int) : Parsed :=
  ⟨⟨predefined, [], 0⟩, ⟨predefined, [singleParticle 2 1 1 0 ⟨0, 0, 0⟩ ⟨0, 0, 1⟩], [.param 0 "log.sdds" 1 none], some ⟨"probe.h5", 1, 1⟩, 1⟩,
    ⟨1, n, ⟨predefined, [⟨1, "early.sdds", .sdds⟩], []⟩⟩, ⟨predefined, [⟨.point (PointObs.new ⟨1, 0, 0⟩ 0 1 3), .beam, "point.sdds"⟩, ⟨.snapshot spanSnap, .beam, "snap.h5"⟩]⟩⟩

theorem spanDoc_other : OtherSteps (spanDoc "1") (spanDoc "2") := by
  refine ⟨_, _, rfl, rfl, ?_⟩
  refine .cons (Or.inl rfl) (.cons (Or.inl rfl) (.cons (Or.inr ⟨rfl, rfl, rfl, ?_⟩) (.cons (Or.inl rfl) .nil)))
  intro a ha
  simp only [Xml.attr, Xml.attrs, List.lookup]
  have : (a == "n") = false := by simpa using ha
  rw [this]

theorem spanDoc_parse (r : (Nat → Nat → ℝ) × (Nat → Nat → Nat → ℝ)) (s : String) (n : Int) (hn : (s = "1" ∧ n = 1) ∨ (s = "2" ∧ n = 2)) :
    (exampleLib.withRandom r).parse (spanDoc s) = .ok (spanParsed n) := by
  have hc : ∀ env node, (∀ c ∈ node.children, c.name ≠ "calc") → (exampleLib.withRandom r).parseCalcChildren env node = env := by
    intro env node hn
    unfold parseCalcChildren
    generalize node.children = l at hn
    induction l generalizing env with
    | nil => rfl
    | cons c l ih =>
      rw [List.foldl_cons, if_neg (hn c (by simp))]
      exact ih env (fun c' hc' => hn c' (by simp [hc']))
  have e0 : ∀ env, (exampleLib.withRandom r).eval env "" = env "" := by intro env; simp [withRandom, exampleLib]
  have e1 : ∀ env, (exampleLib.withRandom r).eval env "1" = some 1 := by intro env; simp [withRandom, exampleLib]
  have e2 : ∀ env, (exampleLib.withRandom r).eval env "2" = some 2 := by intro env; simp [withRandom, exampleLib]
  have e3 : (exampleLib.withRandom r).asInt "3" = 3 := by simp [withRandom, exampleLib]
  have hpe := predefined_empty
  have h1 : toInt32 (crint 1) = .ok 1 := by simp [crint, toInt32]
  have h2 : toInt32 (crint 2) = .ok 2 := by simp [crint, toInt32]
  unfold parse spanDoc
  simp only [Xml.child, Xml.children, Xml.name, List.find?, need, bind, Except.bind, pure, Except.pure, start, beq_self_eq_true]
  rw [hc _ _ (by simp [Xml.children, Xml.name])]
  simp only [parseLattice, parseBeam, parseTracking, parseObservers, Xml.child, Xml.children, Xml.name, List.find?, need, bind, Except.bind, pure, Except.pure]
  have p2 : (exampleLib.withRandom r).beamStep ⟨predefined, [], [], none, 0⟩ (.node "particle" [("gamma", "2"), ("charge", "1"), ("cmr", "1")] [.node "position" [] [], .node "momentum" [("z", "1")] [], .node "log" [("file", "log.sdds")] []])
      = .ok ⟨predefined, [singleParticle 2 1 1 0 ⟨0, 0, 0⟩ ⟨0, 0, 1⟩], [.param 0 "log.sdds" 1 none], none, 1⟩ := by
    simp [beamStep, particleEntry, intOr, Xml.name, parseCalcChildren, Xml.children, Xml.child, need, bind, Except.bind, pure, Except.pure, parseLog, optNum, vec, num, Xml.value, Xml.attr, Xml.attrs, e0, e1, e2, hpe, List.lookup]
  have p5 : ∀ bs ls, (exampleLib.withRandom r).beamStep ⟨predefined, bs, ls, none, 1⟩ (.node "probe" [("file", "probe.h5")] []) = .ok ⟨predefined, bs, ls, some ⟨"probe.h5", 1, 1⟩, 1⟩ := by
    intro bs ls
    simp [beamStep, probeEntry, Xml.name, need, bind, Except.bind, pure, Except.pure, intOr, Xml.attr, Xml.attrs, List.lookup]
  have p3 : ∀ t ws, (exampleLib.withRandom r).trackStep t ⟨predefined, ws, []⟩ (.node "watch-sdds" [("step", "1"), ("file", "early.sdds")] []) = .ok ⟨predefined, ws ++ [⟨1, "early.sdds", .sdds⟩], []⟩ := by
    intro t ws
    simp [trackStep, watchEntry, Xml.name, need, bind, Except.bind, pure, Except.pure, int, num, Xml.value, Xml.attr, Xml.attrs, e1, h1, List.lookup]
  have p4 : (exampleLib.withRandom r).observerStep ⟨predefined, []⟩ (.node "point" [("file", "point.sdds"), ("source", "beam")] [.node "position" [("x", "1")] [], .node "time" [("dt", "1"), ("n", "3")] []])
      = .ok ⟨predefined, [⟨.point (PointObs.new ⟨1, 0, 0⟩ 0 1 3), .beam, "point.sdds"⟩]⟩ := by
    have hsrc : source (.node "point" [("file", "point.sdds"), ("source", "beam")] [.node "position" [("x", "1")] [], .node "time" [("dt", "1"), ("n", "3")] []]) = .ok .beam := by
      simp [source, Xml.attr, Xml.attrs, List.lookup]
    simp [observerStep, observerEntry, pointEntry, Xml.name, parseCalcChildren, Xml.children, Xml.child, need, bind, Except.bind, pure, Except.pure, hsrc, points, Except.map, vec, num, Xml.value, Xml.attr, Xml.attrs, e0, e1, e3, hpe, List.lookup]
  have p6 : ∀ os, (exampleLib.withRandom r).observerStep ⟨predefined, os⟩ (.node "snapshot" [("file", "snap.h5"), ("source", "beam")] [.node "time" [("t0", "1")] [], .node "position" [("x", "1")] [], .node "hpitch" [("n", "3"), ("y", "1")] [], .node "vpitch" [("n", "3"), ("z", "1")] []])
      = .ok ⟨predefined, os ++ [⟨.snapshot spanSnap, .beam, "snap.h5"⟩]⟩ := by
    intro os
    have hsrc : source (.node "snapshot" [("file", "snap.h5"), ("source", "beam")] [.node "time" [("t0", "1")] [], .node "position" [("x", "1")] [], .node "hpitch" [("n", "3"), ("y", "1")] [], .node "vpitch" [("n", "3"), ("z", "1")] []]) = .ok .beam := by
      simp [source, Xml.attr, Xml.attrs, List.lookup]
    simp [observerStep, observerEntry, snapshotEntry, spanSnap, Xml.name, parseCalcChildren, Xml.children, Xml.child, need, bind, Except.bind, pure, Except.pure, hsrc, points, Except.map, vec, num, Xml.value, Xml.attr, Xml.attrs, e0, e1, e3, hpe, List.lookup]
  rcases hn with ⟨rfl, rfl⟩ | ⟨rfl, rfl⟩
  · simp [p2, Xml.value, Xml.attr, Xml.attrs, List.lookup, int, num, e1, h1, spanParsed]
    simp [pure, Except.pure, bind, Except.bind, p2, p5, p3, p4, p6]
  · simp [p2, Xml.value, Xml.attr, Xml.attrs, List.lookup, int, num, e1, e2, h2, spanParsed]
    simp [pure, Except.pure, bind, Except.bind, p2, p5, p3, p4, p6]

theorem spanDoc_master (n : Int) : ∃ m bg, masterBeam (spanParsed n) = .ok m ∧ m.all = [progParticle bg (Vec.normalize ⟨0, 0, 1⟩)] := by
  have hn : normalizeE ⟨0, 0, 1⟩ = .ok (Vec.normalize ⟨0, 0, 1⟩) := by
    unfold normalizeE
    rw [if_neg]
    intro h
    have := congrArg Vec.z h
    norm_num at this
  have hc : chargeMass (1 / ElementaryCharge) 1 = .ok (1 / ElementaryCharge, 1 / ElementaryCharge) := by
    unfold chargeMass
    rw [if_neg (by norm_num [ElementaryCharge]), div_one]
  have hb : betaGamma 2 = .ok (Real.sqrt (2 * 2 - 1)) := by
    unfold betaGamma
    rw [if_neg (by norm_num)]
  refine ⟨{ progBeam (Real.sqrt (2 * 2 - 1)) (Vec.normalize ⟨0, 0, 1⟩) with NOTS := n }, Real.sqrt (2 * 2 - 1), ?_, ?_⟩
  · simp only [masterBeam, spanParsed, singleParticle, hn, hc, hb, bind, Except.bind, pure, Except.pure, List.mapM_cons, List.mapM_nil, id, List.foldl]
    rfl
  · simp [Beam.all, progBeam, Beam.Add, Beam.empty, Bunch.Add, Bunch.empty]

/-- the particle stays on the axis -/
theorem span_axis {bg : ℝ} {k : Nat} {a : Particle} (h : trackAlone 1 (Lattice.field []) (progParticle bg (Vec.normalize ⟨0, 0, 1⟩)) k = .ok a) :
    a.Reachable ∧ (∀ (l : Nat) x, a.TrajPoint l = .ok x → x.x = 0) ∧ (∀ m, a.TrajMomentum (0 : Nat) = .ok m → m.x = 0) := by
  have hreach : (progParticle bg (Vec.normalize ⟨0, 0, 1⟩)).Reachable := ⟨_, [.init 0 ⟨0, 0, 0⟩ (Vec.normalize ⟨0, 0, 1⟩ * bg) 0], Or.inl ⟨_, _, rfl⟩, rfl⟩
  obtain ⟨r1, r2, r3, r4, r5⟩ := (alone_moved h).facts hreach one_pos
  unfold trackAlone at h
  generalize hq : progParticle bg (Vec.normalize ⟨0, 0, 1⟩) = q at *
  have r0 : (q.initTrajectory q.tCur q.XCur q.PCur q.ACur).Reachable := pres_exec hreach (.init _ _ _ _) (Or.inl rfl)
  cases h1 : (q.initTrajectory q.tCur q.XCur q.PCur q.ACur).InitVay 1 (Lattice.field []) with
  | error e => rw [h1] at h; cases h
  | ok a0 =>
  rw [h1] at h
  simp only [dropState, bind, Except.bind] at h
  cases h2 : a0.steps (List.replicate k (Lattice.field [])) with
  | error e => rw [h2] at h; cases h
  | ok a1 =>
  rw [h2] at h
  injection h with h
  subst h
  have hzero : ∀ f ∈ Lattice.field [] :: List.replicate k (Lattice.field []), ∀ t x EB, f t x = .ok EB → EB = 0 := by
    intro f hf t x EB hE
    have hf' : f = Lattice.field [] := by
      rcases List.mem_cons.mp hf with hf | hf
      · exact hf
      · exact List.eq_of_mem_replicate hf
    rw [hf'] at hE
    injection hE with hE
    exact hE.symm
  have hx0 : (q.initTrajectory q.tCur q.XCur q.PCur q.ACur).TrajPoint ((q.initTrajectory q.tCur q.XCur q.PCur q.ACur).getNP - 1 : Nat) = .ok q.XCur := rfl
  have hP0 : (q.initTrajectory q.tCur q.XCur q.PCur q.ACur).TrajMomentum ((q.initTrajectory q.tCur q.XCur q.PCur q.ACur).getNP - 1 : Nat) = .ok q.PCur := rfl
  obtain ⟨-, hk⟩ := C04_force_free _ a0 a1 r0 1 _ _ q.XCur q.PCur hx0 hP0 h1 h2 (by
    intro f hf t x EB hE
    rw [hzero f hf t x EB hE]
    show (0 : Vec) + cross _ 0 = 0
    ext <;> simp [cross])
  have hxx : q.XCur.x = 0 := by rw [← hq]; rfl
  have hpx : q.PCur.x = 0 := by
    rw [← hq]
    show (Vec.normalize ⟨0, 0, 1⟩ * bg).x = 0
    simp [Vec.normalize]
  have hN : ∀ l, (q.initTrajectory q.tCur q.XCur q.PCur q.ACur).getNP - 1 + l = l := by intro l; show 1 - 1 + l = l; omega
  refine ⟨r1, ?_, ?_⟩
  · intro l x hx
    have hl : l ≤ (List.replicate k (Lattice.field [])).length := by
      have := get_of_TrajPoint hx
      have c := (cons_reachable r1).2.1
      have := (List.getElem?_eq_some_iff.mp this).1
      simp only [Particle.getNP] at r3
      simp
      omega
    have := (hk l hl).1
    rw [hN, hx] at this
    injection this with this
    rw [this]
    simp [hxx, hpx]
  · intro m hm
    have := (hk 0 (Nat.zero_le _)).2.1
    rw [hN] at this
    rw [hm] at this
    injection this with this
    rw [this]
    exact hpx

/-- the particle does not meet the observers -/
theorem span_off {bg : ℝ} {k : Nat} {a : Particle} (h : trackAlone 1 (Lattice.field []) (progParticle bg (Vec.normalize ⟨0, 0, 1⟩)) k = .ok a) : a.OffTrajectory ⟨1, 0, 0⟩ := by
  intro l x hx hX
  have := (span_axis h).2.1 l x hx
  rw [← hX] at this
  norm_num at this

theorem span_offLines {bg : ℝ} {k : Nat} {a : Particle} (h : trackAlone 1 (Lattice.field []) (progParticle bg (Vec.normalize ⟨0, 0, 1⟩)) k = .ok a) {X : Vec} (hX : X.x = 1) : a.OffLines X := by
  obtain ⟨-, h1, h2⟩ := span_axis h
  refine ⟨?_, ?_⟩
  · intro x m hx hm s he
    have := congrArg Vec.x he
    simp [hX, h1 0 x hx, h2 m hm] at this
  · intro i x y hx hy s he
    have := congrArg Vec.x he
    simp [hX, lerp, h1 i x hx, h1 (i + 1) y hy] at this

theorem spanSnap_cell (c : Nat × Nat) : (spanSnap.CellPosition c.1 c.2).x = 1 := by simp [spanSnap, Snapshot.CellPosition, Snapshot.new]

theorem spanDoc_runs (rnd : Nat → (Nat → Nat → ℝ) × (Nat → Nat → Nat → ℝ)) (J : Indet) (hJ : 1 ≤ J.fuel) (nodes : Nat) (hN : 0 < nodes) (s : String) (n : Int) (hn : (s = "1" ∧ n = 1) ∨ (s = "2" ∧ n = 2)) :
    ∃ fs, exampleLib.program rnd J nodes (spanDoc s) = .ok fs := by
  obtain ⟨m, bg, hm, hB⟩ := spanDoc_master n
  refine C86_without_interactions exampleLib rnd J nodes hN (spanDoc s) _ _ (spanDoc_parse (rnd 0) s n hn) hm ?_ (fun t X => ⟨_, rfl⟩) ?_ ?_ ?_ ?_ rfl
  · show 0 ≤ n
    rcases hn with ⟨_, rfl⟩ | ⟨_, rfl⟩ <;> norm_num
  · intro q hq
    rw [hB, List.mem_singleton] at hq
    subst hq
    exact progBeam_mass bg _ 0 0 _ ⟨_, rfl, rfl⟩
  · intro l hl
    simp only [spanParsed, List.mem_singleton] at hl
    subst hl
    show 1 ≤ toUnsigned 1
    norm_num [toUnsigned]
  · intro pr hpr
    simp only [spanParsed, Option.some.injEq] at hpr
    subst hpr
    have u1 : toUnsigned 1 = 1 := by norm_num [toUnsigned]
    have hn' : (spanParsed n).tracking.NOTS.toNat ≤ 2 := by
      show n.toNat ≤ 2
      rcases hn with ⟨_, rfl⟩ | ⟨_, rfl⟩ <;> norm_num
    refine ⟨by rw [u1], ?_⟩
    intro total _
    simp only [u1]
    have h1 : min 1 ⌈(total : ℚ) / nodes⌉₊ ≤ 1 := min_le_left _ _
    refine ⟨by omega, ?_⟩
    generalize (spanParsed n).tracking.NOTS.toNat = N at hn'
    have : (1 + N / 1) * min 1 ⌈(total : ℚ) / nodes⌉₊ * 16 ≤ 48 := by
      rw [Nat.div_one]
      have := Nat.mul_le_mul (show 1 + N ≤ 3 by omega) h1
      omega
    exact lt_of_le_of_lt this (by norm_num)
  · intro spec hspec
    simp only [spanParsed, List.mem_cons, List.not_mem_nil, or_false] at hspec
    rcases hspec with rfl | rfl
    swap
    · refine ⟨⟨by simp [Observer.keys, cells, spanSnap, Snapshot.new], by intro s hs; cases hs⟩, fun _ => ⟨by norm_num [spanParsed], trivial, ?_⟩⟩
      intro q hq a ha
      rw [hB, List.mem_singleton] at hq
      subst hq
      intro k _ t X hX
      injection hX with hX
      have hX' := (congrArg Prod.snd hX).symm
      simp only at hX'
      rw [hX']
      exact span_offLines ha (spanSnap_cell _)
    refine ⟨⟨by simp [Observer.keys, PointObs.new, FieldTrace.new], by intro s hs; cases hs⟩, fun _ => ⟨by norm_num [spanParsed], by show (0 : ℝ) < 1; norm_num, ?_⟩⟩
    intro q hq a ha
    rw [hB, List.mem_singleton] at hq
    subst hq
    intro k _ t X hX
    have hX' : X = ⟨1, 0, 0⟩ := by
      injection hX with hX
      exact (congrArg Prod.snd hX).symm
    subst hX'
    exact span_off ha

/-- non-vacuity of C124: a run of one step on five nodes and a run of two steps on three nodes write the same file of the watch point, and the first
sample of the observer, which begins to receive signals after a few nanoseconds, is the same. -/
example (rnd : Nat → (Nat → Nat → ℝ) × (Nat → Nat → Nat → ℝ)) (J J' : Indet) (hJ : 1 ≤ J.fuel) (hJ' : 1 ≤ J'.fuel) :
    ∃ fs fs' d f f' F, exampleLib.program rnd J 5 (spanDoc "1") = .ok fs ∧ exampleLib.program rnd J' 3 (spanDoc "2") = .ok fs' ∧
      (⟨"early.sdds", .watch d⟩ : OutFile) ∈ fs ∧ (⟨"early.sdds", .watch d⟩ : OutFile) ∈ fs' ∧
      (⟨"point.sdds", f⟩ : OutFile) ∈ fs ∧ (⟨"point.sdds", f'⟩ : OutFile) ∈ fs' ∧
      Shows (.point (PointObs.new ⟨1, 0, 0⟩ 0 1 3)) f ((0, 0), 0) ⟨1, 0, 0⟩ F ∧ Shows (.point (PointObs.new ⟨1, 0, 0⟩ 0 1 3)) f' ((0, 0), 0) ⟨1, 0, 0⟩ F := by
  obtain ⟨fs, h⟩ := spanDoc_runs rnd J hJ 5 (by norm_num) "1" 1 (Or.inl ⟨rfl, rfl⟩)
  obtain ⟨fs', h'⟩ := spanDoc_runs rnd J' hJ' 3 (by norm_num) "2" 2 (Or.inr ⟨rfl, rfl⟩)
  obtain ⟨p, p', h1, h2, -, h3⟩ := C124_watches exampleLib rnd rnd rfl J J' 5 3 (by norm_num) (by norm_num) _ _ spanDoc_other fs fs' h h'
  obtain ⟨q, q', m, s, g1, g2, -, g3, g4, g5⟩ := C124_observers exampleLib rnd rnd rfl J J' 5 3 (by norm_num) (by norm_num) _ _ spanDoc_other fs fs' h h'
  rw [spanDoc_parse _ "1" 1 (Or.inl ⟨rfl, rfl⟩)] at h1 g1
  rw [spanDoc_parse _ "2" 2 (Or.inr ⟨rfl, rfl⟩)] at h2 g2
  cases h1
  cases h2
  cases g1
  cases g2
  obtain ⟨d, d1, d2⟩ := h3 ⟨1, "early.sdds", .sdds⟩ (by simp [spanParsed]) (by norm_num) (by simp [spanParsed]) (by simp [spanParsed])
  obtain ⟨as, S, bs, S', a1, a2, f, f', f1, f2, f3⟩ := g5 (by norm_num [spanParsed]) (by norm_num [spanParsed]) ⟨.point (PointObs.new ⟨1, 0, 0⟩ 0 1 3), .beam, "point.sdds"⟩ (by simp [spanParsed]) rfl
  obtain ⟨m0, bg, hm0, hB⟩ := spanDoc_master 1
  rw [g3] at hm0
  cases hm0
  have hs : s = [] := by
    have : (spanParsed 1).tracking.state.interactions.mapM id = (.ok [] : Except Err (List FEL)) := rfl
    rw [this] at g4
    injection g4 with g4
    exact g4.symm
  subst hs
  have b1 := ((coupled_alone _ _ _ _ _ _).mp a1).1
  have b2 := ((coupled_alone _ _ _ _ _ _).mp a2).1
  rw [hB] at b1 b2
  have hreach : (progParticle bg (Vec.normalize ⟨0, 0, 1⟩)).Reachable := ⟨_, [.init 0 ⟨0, 0, 0⟩ (Vec.normalize ⟨0, 0, 1⟩ * bg) 0], Or.inl ⟨_, _, rfl⟩, rfl⟩
  obtain ⟨F, F1, F2⟩ := f3 ((0, 0), 0) (by simp [Observer.keys, PointObs.new, FieldTrace.new]) 0 ⟨1, 0, 0⟩ 1 (by simp [Observer.samplePoint, PointObs.new, FieldTrace.new]) rfl one_pos
    (by
      intro b hb
      obtain ⟨q, hq, hqa⟩ := mapM_mem b2 b hb
      rw [List.mem_singleton] at hq
      subst hq
      exact span_off hqa)
    (by
      intro a ha
      obtain ⟨q, hq, hqa⟩ := mapM_mem b1 a ha
      rw [List.mem_singleton] at hq
      subst hq
      have ht := ((alone_moved hqa).facts hreach one_pos).2.2.2.2
      have ht' : a.tCur = 1 := by
        rw [ht]
        show (0 : ℝ) + ((1 : Nat) : ℝ) * 1 = 1
        norm_num
      rw [ht']
      have : 0 ≤ Vec.norm ((⟨1, 0, 0⟩ : Vec) - a.XCur) / SpeedOfLight := div_nonneg (Vec.norm_nonneg _) SpeedOfLight_pos.le
      linarith)
  exact ⟨fs, fs', d, f, f', F, h, h', d1, d2, f1, f2, F1, F2⟩

/-- and the log of the first run is the beginning of that of the second one, as are the records of the probe -/
example (rnd : Nat → (Nat → Nat → ℝ) × (Nat → Nat → Nat → ℝ)) (J J' : Indet) (hJ : 1 ≤ J.fuel) (hJ' : 1 ≤ J'.fuel) :
    ∃ fs fs' F F' G G' T T' N, exampleLib.program rnd J 3 (spanDoc "1") = .ok fs ∧ exampleLib.program rnd J' 3 (spanDoc "2") = .ok fs' ∧
      (⟨"log.sdds", .params F⟩ : OutFile) ∈ fs ∧ (⟨"log.sdds", .params F'⟩ : OutFile) ∈ fs' ∧ F.rows <+: F'.rows ∧
      (⟨"probe.h5", .hdf5 G⟩ : OutFile) ∈ fs ∧ (⟨"probe.h5", .hdf5 G'⟩ : OutFile) ∈ fs' ∧ G.extent "Probe" = some [T, N, 16] ∧ G'.extent "Probe" = some [T', N, 16] ∧ T ≤ T' := by
  obtain ⟨fs, h⟩ := spanDoc_runs rnd J hJ 3 (by norm_num) "1" 1 (Or.inl ⟨rfl, rfl⟩)
  obtain ⟨fs', h'⟩ := spanDoc_runs rnd J' hJ' 3 (by norm_num) "2" 2 (Or.inr ⟨rfl, rfl⟩)
  obtain ⟨p, p', h1, h2, -, h3⟩ := C124_parameter exampleLib rnd rnd rfl J J' 3 3 (by norm_num) (by norm_num) _ _ spanDoc_other fs fs' h h'
  obtain ⟨q, q', m, g1, g2, -, -, g3⟩ := C124_probe exampleLib rnd rnd rfl J J' 3 (by norm_num) _ _ spanDoc_other fs fs' h h'
  rw [spanDoc_parse _ "1" 1 (Or.inl ⟨rfl, rfl⟩)] at h1 g1
  rw [spanDoc_parse _ "2" 2 (Or.inr ⟨rfl, rfl⟩)] at h2 g2
  cases h1
  cases h2
  cases g1
  cases g2
  obtain ⟨F, F', a1, a2, a3, -⟩ := h3 (by norm_num [spanParsed]) 0 "log.sdds" 1 none (by simp [spanParsed]) (by norm_num)
  obtain ⟨G, G', T, T', N, b1, b2, b3, b4, b5, -⟩ := g3 (by norm_num [spanParsed]) ⟨"probe.h5", 1, 1⟩ rfl (by norm_num)
  exact ⟨fs, fs', F, F', G, G', T, T', N, h, h', a1, a2, a3, b1, b2, b3, b4, b5⟩

/-- and the snapshots, which are taken when the first run ends, are the same -/
example (rnd : Nat → (Nat → Nat → ℝ) × (Nat → Nat → Nat → ℝ)) (J J' : Indet) (hJ : 1 ≤ J.fuel) (hJ' : 1 ≤ J'.fuel) :
    ∃ fs fs' d d', exampleLib.program rnd J 5 (spanDoc "1") = .ok fs ∧ exampleLib.program rnd J' 3 (spanDoc "2") = .ok fs' ∧
      (⟨"snap.h5", d⟩ : OutFile) ∈ fs ∧ (⟨"snap.h5", d'⟩ : OutFile) ∈ fs' ∧
      ∀ c ∈ cells 3 3, ∃ F, Shows (.snapshot spanSnap) d (c, 0) (spanSnap.CellPosition c.1 c.2) F ∧ Shows (.snapshot spanSnap) d' (c, 0) (spanSnap.CellPosition c.1 c.2) F := by
  obtain ⟨fs, h⟩ := spanDoc_runs rnd J hJ 5 (by norm_num) "1" 1 (Or.inl ⟨rfl, rfl⟩)
  obtain ⟨fs', h'⟩ := spanDoc_runs rnd J' hJ' 3 (by norm_num) "2" 2 (Or.inr ⟨rfl, rfl⟩)
  obtain ⟨q, q', m, s, g1, g2, -, g3, g4, g5⟩ := C124_snapshots exampleLib rnd rnd rfl J J' 5 3 (by norm_num) (by norm_num) _ _ spanDoc_other fs fs' h h'
  rw [spanDoc_parse _ "1" 1 (Or.inl ⟨rfl, rfl⟩)] at g1
  rw [spanDoc_parse _ "2" 2 (Or.inr ⟨rfl, rfl⟩)] at g2
  cases g1
  cases g2
  obtain ⟨as, S, bs, S', a1, a2, f, f', f1, f2, f3⟩ := g5 (by norm_num [spanParsed]) (by norm_num [spanParsed]) ⟨.snapshot spanSnap, .beam, "snap.h5"⟩ (by simp [spanParsed]) rfl spanSnap rfl
  obtain ⟨m0, bg, hm0, hB⟩ := spanDoc_master 1
  rw [g3] at hm0
  cases hm0
  have hs : s = [] := by
    have : (spanParsed 1).tracking.state.interactions.mapM id = (.ok [] : Except Err (List FEL)) := rfl
    rw [this] at g4
    injection g4 with g4
    exact g4.symm
  subst hs
  have b1 := ((coupled_alone _ _ _ _ _ _).mp a1).1
  rw [hB] at b1
  have hreach : (progParticle bg (Vec.normalize ⟨0, 0, 1⟩)).Reachable := ⟨_, [.init 0 ⟨0, 0, 0⟩ (Vec.normalize ⟨0, 0, 1⟩ * bg) 0], Or.inl ⟨_, _, rfl⟩, rfl⟩
  refine ⟨fs, fs', f, f', h, h', f1, f2, ?_⟩
  intro c hc
  refine f3 (c, 0) (List.mem_map.mpr ⟨c, hc, rfl⟩) 1 _ rfl ?_
  intro a ha
  obtain ⟨q, hq, hqa⟩ := mapM_mem b1 a ha
  rw [List.mem_singleton] at hq
  subst hq
  have ht := ((alone_moved hqa).facts hreach one_pos).2.2.2.2
  have ht' : a.tCur = 1 := by
    rw [ht]
    show (0 : ℝ) + ((1 : Nat) : ℝ) * 1 = 1
    norm_num
  rw [ht']
  have : 0 ≤ Vec.norm (spanSnap.CellPosition c.1 c.2 - a.XCur) / SpeedOfLight := div_nonneg (Vec.norm_nonneg _) SpeedOfLight_pos.le
  linarith

end Lib
end Teufel
