import Verif.Props.ProgramCoupled
import Verif.Props.ProgramComplete
import Verif.Lemmas.Moved
import Verif.Lemmas.EdgeJump

/-!
# C122: the probe file of a whole run
-/

namespace Teufel
open Vec Input

/-- the particle has just felt the field `G` and carries its own charge and mass -/
structure Feels (G : FieldFn) (q a : Particle) : Prop where
  charge : a.Charge = q.Charge
  mass : a.Mass = q.Mass
  qm : a.qm = q.Charge / q.Mass * InvRestMass
  field : G a.tCur a.XCur = .ok ⟨a.ECur, a.BCur⟩
  accel : a.ACur = Particle.vayAccel a.qm a.PCur a.ECur a.BCur

theorem Feels.init {dt : ℝ} {G : FieldFn} {q a : Particle} (h : dropState ((q.initTrajectory q.tCur q.XCur q.PCur q.ACur).InitVay dt G) = .ok a) : Feels G q a := by
  have hk := init_keeps h
  obtain ⟨_, _, t, x, pm, EB, _, _, _, _, hf, e⟩ := Particle.InitVay_ok (dropState_ok h)
  subst e
  exact ⟨hk.1, hk.2.1, rfl, hf, rfl⟩

theorem Feels.step {G G' : FieldFn} {q a b : Particle} (h : Feels G q a) (hs : dropState (a.StepVay G') = .ok b) : Feels G' q b := by
  have hk := step_keeps hs
  obtain ⟨EB, hf, e⟩ := Particle.StepVay_ok (dropState_ok hs)
  subst e
  exact ⟨hk.1.trans h.charge, hk.2.trans h.mass, h.qm, hf, rfl⟩

theorem Feels.steps {G G' : FieldFn} {ps as bs : List Particle} (h : List.Forall₂ (Feels G) ps as) (hs : List.Forall₂ (fun a b => dropState (a.StepVay G') = .ok b) as bs) :
    List.Forall₂ (Feels G') ps bs := by
  induction h generalizing bs with
  | nil => cases hs; exact .nil
  | cons hx _ ih =>
    cases hs with
    | cons hy hl => exact .cons (hx.step hy) (ih hl)

/-- the field which acts in the last of `k` steps -/
def Coupled.Acting (ext : Lattice) (dt : ℝ) (ps : List Particle) (s : List FEL) (k : Nat) (G : FieldFn) : Prop :=
  (k = 0 ∧ G = Coupled.field ext s) ∨ ∃ i qs S, k = i + 1 ∧ Coupled.after ext dt ps s i = .ok (qs, S) ∧ G = Coupled.field ext S

theorem after_feels {ext : Lattice} {dt : ℝ} {ps qs : List Particle} {s S : List FEL} {k : Nat} (h : Coupled.after ext dt ps s k = .ok (qs, S)) :
    ∃ G, Coupled.Acting ext dt ps s k G ∧ List.Forall₂ (Feels G) ps qs := by
  induction k generalizing qs S with
  | zero =>
    unfold Coupled.after at h
    simp only [bind, Except.bind, pure, Except.pure] at h
    cases hq : ps.mapM (fun p => dropState ((p.initTrajectory p.tCur p.XCur p.PCur p.ACur).InitVay dt (Coupled.field ext s))) with
    | error e => rw [hq] at h; cases h
    | ok a =>
      rw [hq] at h
      simp only at h
      cases hi : s.mapM (FEL.init ⟨1, [⟨a.length, a⟩], 0, dt, .vay⟩) with
      | error e => rw [hi] at h; cases h
      | ok b =>
        rw [hi] at h
        simp only [Except.ok.injEq, Prod.mk.injEq] at h
        obtain ⟨rfl, rfl⟩ := h
        exact ⟨_, Or.inl ⟨rfl, rfl⟩, (forall₂_mapM hq).imp fun _ _ => Feels.init⟩
  | succ k ih =>
    unfold Coupled.after at h
    cases hb : Coupled.after ext dt ps s k with
    | error e => rw [hb] at h; cases h
    | ok r =>
      obtain ⟨a, c⟩ := r
      rw [hb] at h
      simp only [bind, Except.bind, pure, Except.pure] at h
      obtain ⟨G, -, hG⟩ := ih hb
      cases hq : a.mapM (fun p => dropState (p.StepVay (Coupled.field ext c))) with
      | error e => rw [hq] at h; cases h
      | ok a' =>
        rw [hq] at h
        simp only at h
        cases hi : c.mapM (FEL.step ⟨1, [⟨a'.length, a'⟩], k + 1, dt, .vay⟩) with
        | error e => rw [hi] at h; cases h
        | ok b =>
          rw [hi] at h
          simp only [Except.ok.injEq, Prod.mk.injEq] at h
          obtain ⟨rfl, rfl⟩ := h
          refine ⟨_, Or.inr ⟨k, a, c, rfl, hb, rfl⟩, ?_⟩
          exact Feels.steps hG (forall₂_mapM hq)

/-- the particles of the first node are the first of the beam -/
theorem first_node (P : FELProgram Output) (hN : 0 < P.nodes) (ms : List Beam) (hlen : ms.length = P.nodes)
    (hreach : ∀ m ∈ ms, Beam.Reachable m) (m0 : Beam) (hm0 : ms.head? = some m0) (hblank : ∀ m ∈ ms, Beam.blank m = m0.blank) (total : Nat) (ht : m0.getNOP = .ok total)
    (s : List FEL) (out : Output) (k : Nat) (m t : Beam) (h : RootAt P.run ms s out k m t) {qs : List Particle} (hq : t.traverse = .ok qs) :
    ∃ ps S, Coupled.after P.ext m0.dt m0.all s k = .ok (ps, S) ∧
      ∀ (j : Nat) (q : Particle), qs[j]? = some q → ∃ a, ps[j]? = some a ∧ q = a.reserve (P.NOTS + 1) := by
  obtain ⟨w, hw, hr⟩ := h
  obtain ⟨dt, nots, ps0, h1, _⟩ := root_tracked P.run hN ms hlen hreach m0 hm0 hblank total ht s out k w hw m t hr
  rw [h1, oneBunch_traverse] at hq
  injection hq with hq
  subst hq
  obtain ⟨_, M, S, hT, _⟩ := run_together P hN ms hlen hreach m0 hm0 hblank s out k w hw
  obtain ⟨ps, g1, g2, _⟩ := hT.now
  refine ⟨ps, S, g1, ?_⟩
  intro j q hj
  have hget : (w.nodes.flatMap (fun n => n.tracked.all))[j]? = some q := by
    unfold World.root at hr
    cases hh : w.nodes with
    | nil => rw [hh] at hr; cases hr
    | cons n l =>
      rw [hh] at hr
      simp only [List.head?_cons, Option.map_some, Option.some.injEq, Prod.mk.injEq] at hr
      have e : n.tracked.all = ps0 := by rw [hr.2, h1]; simp [oneBunch, Beam.all]
      rw [List.flatMap_cons, e, List.getElem?_append_left (List.getElem?_eq_some_iff.mp hj).1]
      exact hj
  rw [g2, List.getElem?_map] at hget
  cases ha : ps[j]? with
  | none => rw [ha] at hget; cases hget
  | some a =>
    rw [ha] at hget
    simp only [Option.map_some, Option.some.injEq] at hget
    exact ⟨a, rfl, hget.symm⟩

namespace Lib

/-- **C122.** A run with a probe log for `num` particles, recording every `st` steps, writes a file with the sixteen numbers of the first `num` particles of the beam (as
far as these are tracked by the first node): time, position, momentum, acceleration, electric and magnetic field.  Record `l` describes the particles
after `l·st` steps through the fields of lattice and interactions; the fields are those acting on the particle in this step, at the time and position in the
same record, and the acceleration is q/m (E/c + β×B) with the momentum in the same record. -/
theorem C122_probe (L : Lib) (rnd : Nat → (Nat → Nat → ℝ) × (Nat → Nat → Nat → ℝ)) (J : Indet) (nodes : Nat) (hN : 0 < nodes) (doc : Xml) (fs : List OutFile)
    (h : L.program rnd J nodes doc = .ok fs) :
    ∃ p m s, (L.withRandom (rnd 0)).parse doc = .ok p ∧ masterBeam p = .ok m ∧ p.tracking.state.interactions.mapM id = .ok s ∧
      ∀ pr, p.beam.probe = some pr → ∀ st num : Nat, (st : Int) = pr.step % 2 ^ 32 → (num : Int) = pr.number % 2 ^ 32 → 1 ≤ st →
        ∃ F : H5File, (⟨pr.file, .hdf5 F⟩ : OutFile) ∈ fs ∧
          F.extent "Probe" = some [1 + p.tracking.NOTS.toNat / st, min num ⌈(m.all.length : ℚ) / nodes⌉₊, 16] ∧
          F.intAttr "Probe" "NOTS" = some (1 + p.tracking.NOTS.toNat / st) ∧ F.intAttr "Probe" "NOP" = some (min num ⌈(m.all.length : ℚ) / nodes⌉₊) ∧
          ∀ (l j : Nat) (q : Particle), l * st ≤ p.tracking.NOTS.toNat → j < num → j < ⌈(m.all.length : ℚ) / nodes⌉₊ → m.all[j]? = some q →
            ∃ (ps : List Particle) (S : List FEL) (a : Particle) (G : FieldFn) (A E B : Vec),
              Coupled.after p.lattice.lattice p.tracking.timeStep m.all s (l * st) = .ok (ps, S) ∧ ps[j]? = some a ∧
              Coupled.Acting p.lattice.lattice p.tracking.timeStep m.all s (l * st) G ∧ G a.tCur a.XCur = .ok ⟨E, B⟩ ∧
              A = (E / SpeedOfLight + cross (velOf a.PCur) B) * (q.Charge / q.Mass * InvRestMass) ∧
              ∀ i x, [a.tCur, a.XCur.x, a.XCur.y, a.XCur.z, a.PCur.x, a.PCur.y, a.PCur.z, A.x, A.y, A.z, E.x, E.y, E.z, B.x, B.y, B.z][i]? = some x →
                F.entry "Probe" [l, j, i] = some x := by
  obtain ⟨N, rfl⟩ : ∃ N, nodes = N + 1 := ⟨nodes - 1, by omega⟩
  obtain ⟨p, m, ms, s, loggers, w, root, rest, logs, fels, obs, hp, hm, h1, h2, h3, h4, hs, hl, hw, hwn, hlo, hfe, hob, hfs⟩ := program_parts L rnd J N doc fs h
  refine ⟨p, m, s, hp, hm, hs, ?_⟩
  intro pr hpr st num hst' hnum hst
  replace hst' := toUnsigned_of hst'
  replace hnum := toUnsigned_of hnum
  have hlen : (m :: ms).length = (tracking p J (N + 1)).run.nodes := by simp [h1]; rfl
  have hN' : 0 < (tracking p J (N + 1)).run.nodes := by show 0 < N + 1; omega
  have hnodes : (tracking p J (N + 1)).run.nodes = N + 1 := rfl
  have htot : m.getNOP = .ok m.all.length := nop_all (Beam.wf_reachable (h2 m (by simp)))
  have hrec : (tracking p J (N + 1)).run.Records J.traj J.fuel (some (st, num)) := by
    have := tracking_records p J (N + 1)
    rw [hpr, Option.map_some, hst', hnum] at this
    exact this
  have hll : loggers.length = p.beam.logs.length := (mapM_except_length hl).1
  have hz : ∀ log, w.out.loggers[loggers.length]? = some log → ((logFiles p).zip w.out.loggers)[loggers.length]? = some (pr.file, log) := by
    intro log g1
    rw [List.getElem?_zip_eq_some]
    refine ⟨?_, g1⟩
    unfold logFiles
    rw [List.getElem?_append_right (by rw [List.length_map, hll]), List.length_map, hll, Nat.sub_self, hpr]
    rfl
  have hfit : (1 + p.tracking.NOTS.toNat / st) * min num ⌈(m.all.length : ℚ) / (tracking p J (N + 1)).run.nodes⌉₊ * 16 < 2 ^ 32 := by
    by_contra hover
    obtain ⟨log, g1, g2⟩ := C81_probe_overflow _ J.traj J.fuel st num hrec hN' (m :: ms) hlen h2 m rfl h3 _ htot s _ hst _ w hw root.master (not_lt.mp hover)
    obtain ⟨o, ho, -⟩ := mapM_get hlo _ _ (hz log g1)
    simp only [g2, Except.map] at ho
    cases ho
  obtain ⟨log, F, g1, g2, g3, g4, g5, g6, g7, g8, g9⟩ := C81_probe_partial _ J.traj J.fuel st num hrec hN' (m :: ms) hlen h2 m rfl h3 _ htot s _ hst _ w hw root.master hfit
  rw [hnodes] at g5 g7 g9
  refine ⟨F, ?_, g5, g6, g7, ?_⟩
  · obtain ⟨o, ho, ho'⟩ := mapM_get hlo _ _ (hz log g1)
    simp only [g2, Except.map] at ho
    injection ho with ho
    rw [hfs, ho]
    have := List.mem_of_getElem? ho'
    simp only [List.mem_append]
    exact Or.inl (Or.inl (Or.inr this))
  · intro l j q hle hj hj' hq
    obtain ⟨mm, t, qs, hr, k1, k2, k3⟩ := g9 l hle
    obtain ⟨ps, S, e1, e2⟩ := first_node (tracking p J (N + 1)) hN' (m :: ms) hlen h2 m rfl h3 _ htot s _ _ mm t hr k1
    rw [master_dt hm] at e1
    have hjq : j < qs.length := by rw [k2]; exact hj'
    obtain ⟨a, a1, a2⟩ := e2 j _ (List.getElem?_eq_getElem hjq)
    obtain ⟨G, hG, hfe⟩ := after_feels e1
    have hfa : Feels G q a := by
      obtain ⟨hjl, rfl⟩ := List.getElem?_eq_some_iff.mp hq
      obtain ⟨hjp, rfl⟩ := List.getElem?_eq_some_iff.mp a1
      exact List.Forall₂.get hfe hjl hjp
    refine ⟨ps, S, a, G, a.ACur, a.ECur, a.BCur, e1, a1, hG, hfa.field, ?_, ?_⟩
    · have := Edge.vayAccel_eq a.qm a.PCur ⟨a.ECur, a.BCur⟩
      rw [hfa.accel, this, hfa.qm]
      rfl
    · intro i x hx
      refine k3 j _ hj (List.getElem?_eq_getElem hjq) i x ?_
      rw [a2]
      exact hx

/-- **C122 (without interactions).** The fields of a record are those of the lattice at the time and position of the record. -/
theorem C122_lattice_field (L : Lib) (rnd : Nat → (Nat → Nat → ℝ) × (Nat → Nat → Nat → ℝ)) (J : Indet) (nodes : Nat) (hN : 0 < nodes) (doc : Xml) (fs : List OutFile)
    (h : L.program rnd J nodes doc = .ok fs) :
    ∃ p m, (L.withRandom (rnd 0)).parse doc = .ok p ∧ masterBeam p = .ok m ∧ (p.tracking.state.interactions = [] →
      ∀ pr, p.beam.probe = some pr → ∀ st num : Nat, (st : Int) = pr.step % 2 ^ 32 → (num : Int) = pr.number % 2 ^ 32 → 1 ≤ st →
        ∃ F : H5File, (⟨pr.file, .hdf5 F⟩ : OutFile) ∈ fs ∧
          ∀ l j : Nat, l * st ≤ p.tracking.NOTS.toNat → j < num → j < ⌈(m.all.length : ℚ) / nodes⌉₊ →
            ∃ (t : ℝ) (X E B : Vec), Lattice.field p.lattice.lattice t X = .ok ⟨E, B⟩ ∧
              ([0, 1, 2, 3].map (fun i => F.entry "Probe" [l, j, i]) = [some t, some X.x, some X.y, some X.z]) ∧
              ([10, 11, 12, 13, 14, 15].map (fun i => F.entry "Probe" [l, j, i]) = [some E.x, some E.y, some E.z, some B.x, some B.y, some B.z])) := by
  obtain ⟨p, m, s, hp, hm, hs, H⟩ := C122_probe L rnd J nodes hN doc fs h
  refine ⟨p, m, hp, hm, fun hint pr hpr st num hst hnum h1 => ?_⟩
  obtain ⟨F, f1, _, _, _, f2⟩ := H pr hpr st num hst hnum h1
  refine ⟨F, f1, ?_⟩
  intro l j hl hj hj'
  have hs0 : s = [] := by
    rw [hint] at hs
    injection hs with hs
    exact hs.symm
  subst hs0
  have hjm : j < m.all.length := by
    rw [Nat.lt_ceil, lt_div_iff₀ (by exact_mod_cast hN)] at hj'
    have h2 : (1 : ℚ) ≤ nodes := by exact_mod_cast hN
    have h3 : (0 : ℚ) ≤ j := by positivity
    have : (j : ℚ) < m.all.length := by nlinarith
    exact_mod_cast this
  obtain ⟨ps, S, a, G, A, E, B, e1, e2, e3, e4, e5, e6⟩ := f2 l j _ hl hj hj' (List.getElem?_eq_getElem hjm)
  have hG : G = Coupled.field p.lattice.lattice [] := by
    rcases e3 with ⟨_, rfl⟩ | ⟨i, qs, S', _, hi, rfl⟩
    · rfl
    · have := (after_length hi).2
      rw [List.length_eq_zero_iff.mp this]
  refine ⟨a.tCur, a.XCur, E, B, ?_, ?_, ?_⟩
  · rw [hG] at e4
    unfold Coupled.field at e4
    cases hF : Lattice.field p.lattice.lattice a.tCur a.XCur with
    | error e => rw [hF] at e4; cases e4
    | ok F0 =>
      rw [hF] at e4
      simp only [bind, Except.bind, pure, Except.pure, List.mapM_nil, List.sum_nil, add_zero] at e4
      exact e4
  · simp only [List.map_cons, List.map_nil]
    rw [e6 0 _ rfl, e6 1 _ rfl, e6 2 _ rfl, e6 3 _ rfl]
  · simp only [List.map_cons, List.map_nil]
    rw [e6 10 _ rfl, e6 11 _ rfl, e6 12 _ rfl, e6 13 _ rfl, e6 14 _ rfl, e6 15 _ rfl]

/-- non-vacuity of C122: the probe file of the radiating particle in the homogeneous electric field, on three nodes, after the second step -/
example (rnd : Nat → (Nat → Nat → ℝ) × (Nat → Nat → Nat → ℝ)) (J : Indet) (hJ : 1 ≤ J.fuel) :
    ∃ fs, exampleLib.program rnd J 3 farDoc = .ok fs ∧ ∃ F : H5File, (⟨"probe.h5", .hdf5 F⟩ : OutFile) ∈ fs ∧
      [10, 11, 12, 13, 14, 15].map (fun i => F.entry "Probe" [2, 0, i]) = [some 1, some 0, some 0, some 0, some 0, some 0] := by
  obtain ⟨fs, h⟩ := farDoc_runs rnd J hJ 3 (by norm_num)
  refine ⟨fs, h, ?_⟩
  obtain ⟨p, m, hp, hm, H⟩ := C122_lattice_field exampleLib rnd J 3 (by norm_num) farDoc fs h
  rw [farDoc_parse] at hp
  injection hp with hp
  subst hp
  obtain ⟨bg, mom, hm'⟩ := farDoc_master
  rw [hm'] at hm
  injection hm with hm
  have hB : m.all = [progParticle bg mom] := by
    rw [← hm]
    simp [Beam.all, progBeam, Beam.Add, Beam.empty, Bunch.Add, Bunch.empty]
  obtain ⟨F, f1, f2⟩ := H rfl ⟨"probe.h5", 1, 1⟩ rfl 1 1 (by norm_num) (by norm_num) le_rfl
  refine ⟨F, f1, ?_⟩
  obtain ⟨t, X, E, B, e1, -, e2⟩ := f2 2 0 (le_refl 2) (by norm_num) (by rw [hB]; norm_num)
  rw [e2]
  have : (⟨⟨1, 0, 0⟩, 0⟩ : EMField) = ⟨E, B⟩ := by
    have hl : Lattice.field farParsed.lattice.lattice t X = .ok ⟨⟨1, 0, 0⟩, 0⟩ := by
      simp [Lattice.field, farParsed, HomogeneousField, bind, Except.bind, pure, Except.pure, Except.map]
    rw [hl] at e1
    injection e1
  injection this with h1 h2
  rw [← h1, ← h2]
  rfl

end Lib
end Teufel
