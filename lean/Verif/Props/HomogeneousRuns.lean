import Verif.Props.Homogeneous
import Verif.Props.ProgramConvergence

/-! Property C108 for the program: watch points in a homogeneous magnetic field -/

namespace Teufel
open Vec

/-- the field of a lattice with one homogeneous magnetic field -/
theorem homogeneous_lattice (B : Vec) : Lattice.field [HomogeneousField 0 B] = (HomogeneousField 0 B).field := by
  funext t X
  have h : Lattice.field [HomogeneousField 0 B] t X = .ok ((0 : EMField) + ⟨0, B⟩) := rfl
  rw [h]
  show _ = Except.ok (⟨0, B⟩ : EMField)
  congr 1
  ext <;> simp

/-- a particle after some steps in a homogeneous magnetic field -/
theorem gyro_after (b : ℝ) (e : Vec) (he : e.norm = 1) (c : Charge) (T : ℝ) (hb : c.qm * b ≠ 0) (hm : Motion c.qm (HomogeneousField 0 (e * b)).field c.x c.p c.t0 T)
    (h : ℝ) (hh : 0 < h) (hw : |c.qm * b / Real.sqrt (1 + (c.p c.t0).abs2nd) * h| ≤ 1) (k : ℕ) (hkT : 2 * (k * h) ≤ T) (q : Particle) (hq : q.Reachable)
    (hs : c.Starts q) (a : Particle) (ha : AfterSteps h (HomogeneousField 0 (e * b)).field q k a) :
    a.tCur = c.t0 + k * h ∧ ∃ rate δ : ℝ, |rate - 1| ≤ (c.qm * b / Real.sqrt (1 + (c.p c.t0).abs2nd) * h) ^ 2 / 4 ∧
      a.PCur = c.p (c.t0 + rate * (k * h)) ∧ a.XCur = c.x (c.t0 + rate * (k * h)) + e * δ ∧
      |δ| ≤ SpeedOfLight * (k * h) * ((c.qm * b / Real.sqrt (1 + (c.p c.t0).abs2nd) * h) ^ 2 / 4) := by
  have hkh : 0 ≤ (k : ℝ) * h := by positivity
  rcases ha with ⟨rfl, rfl⟩ | ⟨h0n, ha⟩
  · refine ⟨by rw [hs.time]; simp, 1, 0, by simp; positivity, by rw [hs.momentum]; simp, ?_, by simp⟩
    rw [hs.position]
    simp only [Nat.cast_zero, zero_mul, mul_zero, add_zero]
    ext <;> simp
  · have hr0 := init_reachable hq q.tCur q.XCur q.PCur q.ACur
    obtain ⟨a1, e1⟩ := Particle.init_total (cons_reachable hr0) le_rfl hs.mass (dt := h) (f := (HomogeneousField 0 (e * b)).field) (fun t x => ⟨_, rfl⟩)
    obtain ⟨a2, e2⟩ := Particle.steps_total (p := a1) (fs := List.replicate k (HomogeneousField 0 (e * b)).field) (by
      intro f hf t x
      rw [List.eq_of_mem_replicate hf]
      exact ⟨_, rfl⟩)
    rw [track_alone_ok e1 e2] at ha
    injection ha with ha
    subst ha
    obtain ⟨rate, hrate, H⟩ := C108_on_orbit c.qm b e he hb c.x c.p c.t0 T hm h hh hw _ a1 a2 hr0 hs.qm (by rw [← hs.position]; rfl) (by rw [← hs.momentum]; rfl) k e1 e2
    have hy : (c.qm * b / Real.sqrt (1 + (c.p c.t0).abs2nd) * h) ^ 2 ≤ 1 := by rw [← sq_abs]; exact pow_le_one₀ (abs_nonneg _) hw
    have hrk : rate * (k * h) ≤ T := by
      have := (abs_le.mp hrate).2
      nlinarith
    obtain ⟨X, δ, g2, g3, g4, g5⟩ := H k le_rfl hrk
    have hnp : (q.initTrajectory q.tCur q.XCur q.PCur q.ACur).getNP = 1 := rfl
    rw [hnp] at g2 g3
    simp only [Nat.sub_self, Nat.zero_add] at g2 g3
    obtain ⟨hN2, hti, -⟩ := C05_equidistant _ a1 a2 hr0 h (HomogeneousField 0 (e * b)).field (List.replicate k (HomogeneousField 0 (e * b)).field) c.t0 (by rw [← hs.time]; rfl) e1 e2
    rw [hnp, List.length_replicate] at hN2
    have hcons := cons_reachable (run_reachable hr0 e1 e2)
    have hend := (Particle.steps_facts e2).2.2.2.2.2.2.2.2 (Particle.atEnd_init e1)
    have g1 := Particle.steps_tCur e2
    have ht1 : a1.tCur = c.t0 ∧ a1.dt = h := by
      obtain ⟨_, _, t, x', pm, EB, hT, _, _, _, _, er⟩ := Particle.InitVay_ok e1
      have : t = c.t0 := by
        rw [← hs.time]
        simp only [Particle.initTrajectory, List.getLast?_singleton, Option.some.injEq] at hT
        exact hT.symm
      rw [er]
      exact ⟨this, rfl⟩
    have hnp2 : a2.NP = k + 1 := by have : a2.getNP = a2.NP := rfl; rw [← this, hN2]; omega
    have l2 := Particle.last_get (n := k + 1) (by rw [hcons.2.1, hnp2]) hend.2.2.1
    have l3 := Particle.last_get (n := k + 1) (by rw [hcons.2.2.1, hnp2]) hend.2.2.2.1
    simp only [Nat.add_sub_cancel] at l2 l3
    rw [get_of_TrajPoint g2] at l2
    rw [get_of_TrajMomentum g3] at l3
    refine ⟨by rw [g1, ht1.1, ht1.2, List.length_replicate], rate, δ, hrate, (Option.some.inj l3).symm, ?_, g5⟩
    rw [← g4]; exact (Option.some.inj l2).symm

namespace Lib

/-- **C108 (program).** If the lattice is a homogeneous magnetic field, the files of the watch points show all particles exactly on their true orbits, however many steps
have been made: the momenta are momenta of the true motion, the positions are true ones up to a displacement along the field lines, both taken
at a time that is off by the fraction `(ωh)²/4` at most. -/
theorem C108_watches (L : Lib) (rnd : Nat → (Nat → Nat → ℝ) × (Nat → Nat → Nat → ℝ)) (J : Indet) (nodes : Nat) (hN : 0 < nodes) (doc : Xml) (fs : List OutFile) (p : Parsed)
    (m : Beam) (hrun : L.program rnd J nodes doc = .ok fs) (hp : (L.withRandom (rnd 0)).parse doc = .ok p) (hm : masterBeam p = .ok m) (e : Vec) (b : ℝ) (he : e.norm = 1)
    (hlat : p.lattice.lattice = [HomogeneousField 0 (e * b)]) (hint : p.tracking.state.interactions = []) (h : ℝ) (hh : p.tracking.timeStep = h) (hpos : 0 < h) (T : ℝ)
    (cs : List Charge) (hstart : List.Forall₂ Charge.Starts cs m.all)
    (hc : ∀ c ∈ cs, c.qm * b ≠ 0 ∧ Motion c.qm (HomogeneousField 0 (e * b)).field c.x c.p c.t0 T ∧ |c.qm * b / Real.sqrt (1 + (c.p c.t0).abs2nd) * h| ≤ 1)
    (w : Watch) (hw : w ∈ p.tracking.state.watches) (k : ℕ) (hk : w.step = k) (hkn : w.step ≤ p.tracking.NOTS) (hkT : 2 * (k * h) ≤ T) :
    ∃ d, (⟨w.filename, .watch d⟩ : OutFile) ∈ fs ∧ ∃ pts : List (ℝ × Vec × Vec),
      List.Forall₂ (fun (c : Charge) (s : ℝ × Vec × Vec) => s.1 = c.t0 + k * h ∧ ∃ rate δ : ℝ, |rate - 1| ≤ (c.qm * b / Real.sqrt (1 + (c.p c.t0).abs2nd) * h) ^ 2 / 4 ∧
        s.2.2 = c.p (c.t0 + rate * (k * h)) ∧ s.2.1 = c.x (c.t0 + rate * (k * h)) + e * δ ∧
        |δ| ≤ SpeedOfLight * (k * h) * ((c.qm * b / Real.sqrt (1 + (c.p c.t0).abs2nd) * h) ^ 2 / 4)) cs pts ∧
      (w.type = .hdf5 → d = .hdf5 pts.length (pts.flatMap (fun s => [s.2.1.x, s.2.1.y, s.2.1.z, s.2.2.x, s.2.2.y, s.2.2.z]))) ∧
      (w.type = .sdds → ∃ charge rows, d = .sdds pts.length charge rows ∧
        List.Forall₂ (fun (s : ℝ × Vec × Vec) (row : SddsRow) => row.t = s.1 ∧ (⟨row.x, row.y, row.z⟩ : Vec) = s.2.1 ∧ (⟨row.px, row.py, row.pz⟩ : Vec) = s.2.2) pts rows) := by
  obtain ⟨p', m', hp', hm', hwatch⟩ := C85_watches_partial L rnd J nodes hN doc fs hrun
  rw [hp] at hp'
  injection hp' with hp'
  subst hp'
  rw [hm] at hm'
  injection hm' with hm'
  subst hm'
  obtain ⟨d, bs, d1, d2, d3, d4⟩ := hwatch hint w hw (by rw [hk]; exact Int.natCast_nonneg k) hkn
  have hreach := (master_reachable (J := J) hp hm).2
  have hkk : w.step.toNat = k := by rw [hk]; rfl
  rw [hh, hlat, hkk, homogeneous_lattice] at d2
  refine ⟨d, d1, bs.map (fun a => (a.tCur, a.XCur, a.PCur)), ?_, ?_, ?_⟩
  · rw [List.forall₂_map_right_iff]
    refine forall₂_comp3 hstart d2 (U := fun a b => a = b) (List.forall₂_same.mpr (fun _ _ => rfl)) ?_
    rintro c hcs q hq a a' hs ha rfl
    obtain ⟨c1, c2, c3⟩ := hc c hcs
    exact gyro_after b e he c T c1 c2 h hpos c3 k hkT q (hreach q hq) hs a ha
  · intro ht
    rw [d3 ht, List.length_map, List.flatMap_map]
  · intro ht
    obtain ⟨rows, r1, r2⟩ := d4 ht
    refine ⟨_, rows, by rw [r1, List.length_map], ?_⟩
    rw [List.forall₂_map_left_iff]
    refine r2.imp ?_
    rintro a row ⟨s1, s2, s3, s4, s5, s6, s7, -⟩
    rw [s1, s2, s3, s4, s5, s6, s7]
    exact ⟨rfl, rfl, rfl⟩

/-- non-vacuity of C108 for watch points: for every time step up to the inverse gyration frequency the program runs, on any number of nodes, and the file
written after the last step shows the particle exactly on the circle -/
example (h : ℝ) (n : Nat) (hh : 0 < h) (hle : InvRestMass / 2 * h ≤ 1) (hn : n < 2 ^ 31) (hnT : n * h ≤ 1e-9) (rnd : Nat → (Nat → Nat → ℝ) × (Nat → Nat → Nat → ℝ))
    (J : Indet) (nodes : Nat) (hN : 0 < nodes) :
    ∃ fs, (ringLib h n).program rnd J nodes ringDoc = .ok fs ∧ ∃ X P : Vec, (⟨"end.h5", .watch (.hdf5 1 [X.x, X.y, X.z, P.x, P.y, P.z])⟩ : OutFile) ∈ fs ∧
      ∃ t : ℝ, |t - n * h| ≤ n * h * ((InvRestMass / 2 * h) ^ 2 / 4) ∧ P = ringCharge.p t ∧ X.x = (ringCharge.x t).x ∧ X.z = (ringCharge.x t).z := by
  have hI := InvRestMass_pos
  have he : ((⟨0, 1, 0⟩ : Vec) * (1 : ℝ)) = ⟨0, 1, 0⟩ := by ext <;> simp
  have hg : Real.sqrt (1 + (ringCharge.p ringCharge.t0).abs2nd) = 2 := by
    have h3 : Real.sqrt 3 * Real.sqrt 3 = 3 := Real.mul_self_sqrt (by norm_num)
    have : 1 + (ringCharge.p ringCharge.t0).abs2nd = 2 ^ 2 := by
      simp [ringCharge, Vec.abs2nd, h3]
      norm_num
    rw [this]
    exact Real.sqrt_sq (by norm_num)
  have hw : ringCharge.qm * 1 / Real.sqrt (1 + (ringCharge.p ringCharge.t0).abs2nd) * h = InvRestMass / 2 * h := by
    rw [hg, mul_one]; rfl
  obtain ⟨hmv, -⟩ := ring_moves 1
  obtain ⟨fs, hfs⟩ := ringDoc_runs h n hn hh hnT rnd J nodes hN
  refine ⟨fs, hfs, ?_⟩
  obtain ⟨d, d1, pts, d2, d3, -⟩ := C108_watches (ringLib h n) rnd J nodes hN ringDoc fs _ _ hfs (ringDoc_parse h n hn (rnd 0)) (ringDoc_master h n) ⟨0, 1, 0⟩ 1
    (by simp [Vec.norm]) (by rw [he]; rfl) rfl h rfl hh 1 [ringCharge] (ring_starts h n) (by
      intro c hc
      rw [List.mem_singleton.mp hc]
      refine ⟨by rw [mul_one]; exact hI.ne', ?_, ?_⟩
      · rw [he, ← homogeneous_lattice]; exact hmv.motion
      · rw [hw, abs_of_pos (by positivity)]; exact hle)
    ⟨n, "end.h5", .hdf5⟩ (by simp [ringParsed]) n rfl (by simp [ringParsed]) (by linarith)
  have d3 := d3 rfl
  cases d2 with
  | cons a b =>
    cases b
    obtain ⟨-, rate, δ, r1, r2, r3, -⟩ := a
    rw [hw] at r1
    have e0 : ringCharge.t0 = 0 := rfl
    rw [e0, zero_add] at r2 r3
    rw [d3] at d1
    refine ⟨_, _, by simpa using d1, rate * (n * h), ?_, r2, by rw [r3]; simp, by rw [r3]; simp⟩
    have : rate * (n * h) - n * h = (n * h) * (rate - 1) := by ring
    rw [this, abs_mul, abs_of_nonneg (by positivity : (0 : ℝ) ≤ n * h)]
    exact mul_le_mul_of_nonneg_left r1 (by positivity)

end Lib
end Teufel
