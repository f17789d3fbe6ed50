import Verif.Model.Program
import Verif.Props.FELField
import Verif.Props.HybridSerial

/-! # C44: the FEL interactions advance in lockstep with the beam -/

namespace Teufel
open Vec

section

variable {ω : Type}

/-- the same program without any of the time checks of the FEL interactions -/
noncomputable def FELProgram.runAnyTime (P : FELProgram ω) : Run (List FEL) ω :=
  { P.run with
    lattice := fun s => Lattice.field (P.ext ++ s.map (fun f : FEL => InteractionField f.FieldAnyTime))
    stepInter := fun b s => s.mapM (FEL.stepAnyTime b) }

namespace FEL

/-- `f` is the interaction that was `f0` at the beginning, `n` steps later -/
structure Later (f0 : FEL) (n : Nat) (f : FEL) : Prop where
  sized : f.Sized
  dt : f.dt = f0.dt
  ds : f.ds = f0.ds
  prop : f.prop = f0.prop
  steps : f.steps = n
  time : f.time = (n : ℝ) * f0.dt
  head : f.head = f0.head + f0.prop * ((n : ℝ) * f0.ds)

theorem Later.start {f : FEL} (h : f.Fresh) : Later f 0 f :=
  ⟨h.sized, rfl, rfl, rfl, h.steps, by rw [h.time]; simp, by ext <;> simp⟩

theorem Later.next {f0 f f' : FEL} {n : Nat} {J : Nat → ℝ} (h : Later f0 n f) (ha : f.Advanced f' J) : Later f0 (n + 1) f' :=
  ⟨ha.sized, by rw [ha.dt, h.dt], by rw [ha.ds, h.ds], by rw [ha.prop, h.prop], by rw [ha.steps, h.steps],
   by rw [ha.time, h.time, h.dt]; push_cast; ring, by rw [ha.head, h.head, h.prop, h.ds]; ext <;> simp <;> ring⟩

theorem step_inTime {f : FEL} {b : Beam} (hw : b.WF) (hdt : 0 ≤ f.dt) (hn : (b.NOTS : ℝ) * f.dt = f.time) (hp : ∀ p ∈ b.all, p.tCur = f.time) :
    f.step b = f.stepAnyTime b := by
  unfold step stepAnyTime
  rw [if_neg (by rw [hn, sub_self, abs_zero]; have : 0 ≤ 1 / 4 * f.dt := by positivity
                 exact not_lt.mpr this)]
  rw [traverse_all hw]
  have : b.all.map (fun p : Particle => { p with tCur := f.time }) = b.all := by
    conv_rhs => rw [← List.map_id b.all]
    apply List.map_congr_left
    intro p h
    rw [← hp p h]
    rfl
  simp only [pure, Except.pure, bind, Except.bind]
  rw [this]

end FEL

theorem field_inTime (L : Lattice) (s : List FEL) (t : ℝ) (h : ∀ f ∈ s, FEL.time f = t) (X : Vec) :
    Lattice.field (L ++ s.map (fun f : FEL => InteractionField f.Field)) t X
      = Lattice.field (L ++ s.map (fun f : FEL => InteractionField f.FieldAnyTime)) t X := by
  have key : ∀ a : EMField, (s.map (fun f : FEL => InteractionField f.Field)).foldlM (fun total e => (e.field t X).map (fun f => total + f)) a
      = (s.map (fun f : FEL => InteractionField f.FieldAnyTime)).foldlM (fun total e => (e.field t X).map (fun f => total + f)) a := by
    induction s with
    | nil => intro a; rfl
    | cons f s ih =>
      intro a
      have hf : f.Field t X = f.FieldAnyTime t X := by
        unfold FEL.FieldAnyTime; rw [h f (by simp)]
      rw [List.map_cons, List.map_cons, List.foldlM_cons, List.foldlM_cons]
      show (Except.map _ (f.Field t X)) >>= _ = (Except.map _ (f.FieldAnyTime t X)) >>= _
      rw [hf]
      congr 1
      funext b
      exact ih (fun g hg => h g (by simp [hg])) b
  unfold Lattice.field
  rw [List.foldlM_append, List.foldlM_append]
  congr 1
  funext a
  exact key a

theorem init_tracked (n : Int) (dt : ℝ) (q : Particle) : ∃ G : EMField → Particle, (∀ EB, ((G EB).tCur = q.tCur ∧ (G EB).dt = dt) ∧
      (G EB).XCur = q.XCur ∧ (G EB).VYp = Particle.vayMomentum (q.Charge / q.Mass * InvRestMass * 0.5 * dt) q.PCur EB.E EB.B) ∧
    ∀ f : FieldFn, dropState (((receive (Particle.ready n q) q).copy.preAllocate n).InitVay dt f)
      = if q.Mass = 0 then .error .nan else (f q.tCur q.XCur).map G := by
  obtain ⟨G, hG⟩ : ∃ G : EMField → Particle, G = (fun EB : EMField =>
        let qm := q.Charge / q.Mass * InvRestMass
        let a := Particle.vayAccel qm q.PCur EB.E EB.B
        ({ q.initTrajectory q.tCur q.XCur q.PCur q.ACur with
            dt := dt, qm := qm, qmt2 := qm * 0.5 * dt, tCur := q.tCur, XCur := q.XCur, PCur := q.PCur, ACur := a, ECur := EB.E
            BCur := EB.B, A := [a], VYp := Particle.vayMomentum (qm * 0.5 * dt) q.PCur EB.E EB.B
            VYgamma := Particle.vayGamma (qm * 0.5 * dt) q.PCur EB.E EB.B } : Particle).reserve n) := ⟨_, rfl⟩
  refine ⟨G, fun EB => by rw [hG]; exact ⟨⟨rfl, rfl⟩, rfl, rfl⟩, fun f => ?_⟩
  rw [init_reserve, init_single (p := q) rfl rfl rfl rfl rfl, hG]
  by_cases hm : q.Mass = 0
  · rw [if_pos (show (q.initTrajectory q.tCur q.XCur q.PCur q.ACur).Mass = 0 from hm), if_pos hm]; rfl
  · rw [if_neg (show ¬ (q.initTrajectory q.tCur q.XCur q.PCur q.ACur).Mass = 0 from hm), if_neg hm]
    cases f q.tCur q.XCur <;> rfl

/-- state of the reference program after `k` steps -/
structure Lock (dt : ℝ) (s0 : List FEL) (k : Nat) (A : Abs (List FEL) ω) : Prop where
  wf : A.M.WF
  len : A.T.length = A.M.all.length
  nots : A.M.NOTS = k
  tracked : ∀ p ∈ A.T, p.tCur = (k : ℝ) * dt ∧ p.dt = dt
  master : ∀ p ∈ A.M.all, p.tCur = (k : ℝ) * dt
  count : A.s.length = s0.length
  inter : ∀ (j : Nat) (f0 f : FEL), s0[j]? = some f0 → A.s[j]? = some f → f0.Later (k + 1) f

theorem mapM_mem {α β} {f : α → Except Err β} {l : List α} {l' : List β} (h : l.mapM f = .ok l') (b : β) (hb : b ∈ l') : ∃ a ∈ l, f a = .ok b := by
  obtain ⟨i, hi⟩ := List.mem_iff_getElem?.mp hb
  have hl := (mapM_except_length h).1
  have hlt : i < l.length := by rw [← hl]; exact (List.getElem?_eq_some_iff.mp hi).1
  obtain ⟨b', h1, h2⟩ := mapM_get h i l[i] (List.getElem?_eq_getElem hlt)
  rw [hi] at h2
  injection h2 with h2
  exact ⟨l[i], List.getElem_mem hlt, by rw [h2]; exact h1⟩

variable (P : FELProgram ω) (TN : Nat) (M : Beam) (hM : M.WF) (dt : ℝ) (hdt : 0 < dt) (hMdt : M.dt = dt) (hM0 : M.NOTS = 0)
  (s : List FEL) (hs : ∀ f ∈ s, FEL.Constructed f ∧ FEL.dt f = dt)
  (hall : ∀ p ∈ M.all, ∃ q : Particle, p = receive (Particle.ready (P.NOTS + 1) q) q ∧ q.tCur = 0)

include hM hMdt hM0 hs hall in
theorem setup_lock (out : ω) : absSetup P.run TN M s out = absSetup P.runAnyTime TN M s out ∧
    ∀ A, absSetup P.run TN M s out = .ok A → Lock dt s 0 A := by
  constructor
  · unfold absSetup
    have : (M.all.map (fun p => p.copy.preAllocate ((P.run.NOTS : Int) + 1))).mapM (fun p => dropState (p.InitVay M.dt (P.run.lattice s)))
        = (M.all.map (fun p => p.copy.preAllocate ((P.runAnyTime.NOTS : Int) + 1))).mapM (fun p => dropState (p.InitVay M.dt (P.runAnyTime.lattice s))) := by
      rw [mapM_map', mapM_map']
      apply mapM_congr_mem
      intro p hp
      obtain ⟨q, rfl, hq⟩ := hall p hp
      obtain ⟨G, -, hG⟩ := init_tracked ((P.NOTS : Int) + 1) M.dt q
      refine (hG _).trans (Eq.trans ?_ (hG _).symm)
      rw [show P.run.lattice s q.tCur q.XCur = P.runAnyTime.lattice s q.tCur q.XCur from
        field_inTime P.ext s q.tCur (fun f hf => by rw [hq]; exact (hs f hf).1.fresh.time) q.XCur]
    rw [this]
    rfl
  · intro A h
    unfold absSetup at h
    split at h
    · cases h
    · simp only [bind, Except.bind, pure, Except.pure] at h
      cases hT : (M.all.map (fun p => p.copy.preAllocate ((P.run.NOTS : Int) + 1))).mapM (fun p => dropState (p.InitVay M.dt (P.run.lattice s))) with
      | error e => rw [hT] at h; cases h
      | ok T =>
        rw [hT] at h
        simp only at h
        cases ho : P.run.startOut M (oneBunch M.dt 0 (T.take TN)) out with
        | error e => rw [ho] at h; cases h
        | ok o =>
          rw [ho] at h
          simp only at h
          cases hi : P.run.initInter M s with
          | error e => rw [hi] at h; cases h
          | ok s' =>
            rw [hi] at h
            simp only at h
            injection h with h
            subst h
            have hTl := (mapM_except_length hT).1
            rw [List.length_map] at hTl
            refine ⟨hM, hTl, hM0, ?_, ?_, (mapM_except_length hi).1, ?_⟩
            · intro p hp
              rw [mapM_map'] at hT
              obtain ⟨p0, h0, h1⟩ := mapM_mem hT p hp
              obtain ⟨q, rfl, hq⟩ := hall p0 h0
              obtain ⟨G, hG, hGf⟩ := init_tracked ((P.NOTS : Int) + 1) M.dt q
              have h1' := (hGf (P.run.lattice s)).symm.trans h1
              split at h1'
              · cases h1'
              · cases hF : P.run.lattice s q.tCur q.XCur with
                | error e => rw [hF] at h1'; cases h1'
                | ok EB =>
                  rw [hF] at h1'
                  injection h1' with h1'
                  rw [← h1']
                  exact ⟨by rw [(hG EB).1.1, hq]; simp, by rw [(hG EB).1.2, hMdt]⟩
            · intro p hp
              obtain ⟨q, rfl, hq⟩ := hall p hp
              simp [receive, Particle.setCurrentPoint, Particle.storeTrajectoryPoint, hq]
            · intro j f0 f h0 h1
              obtain ⟨f', e1, e2⟩ := mapM_get hi j f0 h0
              simp only at h1
              rw [h1] at e2
              injection e2 with e2
              subst e2
              have hfr := (hs f0 (List.mem_of_getElem? h0)).1.fresh
              obtain ⟨_, _, _, ha, _⟩ := FEL.init_inv hfr.sized e1
              exact (FEL.Later.start hfr).next ha

include hdt hs in
theorem step_lock (k : Nat) (A : Abs (List FEL) ω) (hA : Lock dt s k A) : absStep P.run TN A k = absStep P.runAnyTime TN A k ∧
    ∀ A', absStep P.run TN A k = .ok A' → Lock dt s (k + 1) A' := by
  have hlater : ∀ f ∈ A.s, ∃ f0 ∈ s, FEL.Later f0 (k + 1) f := by
    intro f hf
    obtain ⟨j, hj⟩ := List.mem_iff_getElem?.mp hf
    have hlt : j < s.length := by rw [← hA.count]; exact (List.getElem?_eq_some_iff.mp hj).1
    exact ⟨s[j], List.getElem_mem hlt, hA.inter j _ f (List.getElem?_eq_getElem hlt) hj⟩
  have htime : ∀ f ∈ A.s, FEL.time f = (k + 1) * dt ∧ FEL.dt f = dt := by
    intro f hf
    obtain ⟨f0, h0, hl⟩ := hlater f hf
    refine ⟨?_, by rw [hl.dt, (hs f0 h0).2]⟩
    rw [hl.time, (hs f0 h0).2]; push_cast; ring
  have hadv : ∀ (L : FieldFn) (p t : Particle), dropState (p.StepVay L) = .ok t → t.tCur = p.tCur + p.dt ∧ t.dt = p.dt := by
    intro L p t h
    unfold Particle.StepVay at h
    simp only at h
    cases hF : L (p.tCur + p.dt) (p.XCur + p.VYp / p.VYgamma * SpeedOfLight * p.dt) with
    | error e => rw [hF] at h; cases h
    | ok EB =>
      rw [hF] at h
      injection h with h
      rw [← h]
      exact ⟨rfl, rfl⟩
  have hT : A.T.mapM (fun p => dropState (p.StepVay (P.run.lattice A.s))) = A.T.mapM (fun p => dropState (p.StepVay (P.runAnyTime.lattice A.s))) := by
    apply mapM_congr_mem
    intro p hp
    unfold Particle.StepVay
    simp only
    rw [show P.run.lattice A.s (p.tCur + p.dt) (p.XCur + p.VYp / p.VYgamma * SpeedOfLight * p.dt)
        = P.runAnyTime.lattice A.s (p.tCur + p.dt) (p.XCur + p.VYp / p.VYgamma * SpeedOfLight * p.dt) from
      field_inTime P.ext A.s _ (fun f hf => by rw [(htime f hf).1, (hA.tracked p hp).1, (hA.tracked p hp).2]; ring) _]
  unfold absStep
  rw [← hT]
  cases hTm : A.T.mapM (fun p => dropState (p.StepVay (P.run.lattice A.s))) with
  | error e => exact ⟨rfl, fun A' h => by cases h⟩
  | ok T =>
    have hTl := (mapM_except_length hTm).1
    have hTt : ∀ p ∈ T, p.tCur = ((k + 1 : Nat) : ℝ) * dt ∧ p.dt = dt := by
      intro p hp
      obtain ⟨q, hq, h⟩ := mapM_mem hTm p hp
      obtain ⟨h1, h2⟩ := hadv _ _ _ h
      obtain ⟨h3, h4⟩ := hA.tracked q hq
      exact ⟨by rw [h1, h3, h4]; push_cast; ring, by rw [h2, h4]⟩
    obtain ⟨M', hset, hMwf, hMall, hnots, _, _, hlen, _⟩ := setStep_list hA.wf T (by rw [hTl, hA.len])
    have hset0 : A.M.setStepFromBuffer (T.flatMap Bunch.stepRecord) = .ok M' := by
      have := hset []
      rwa [List.append_nil] at this
    have hMt : ∀ p ∈ M'.all, p.tCur = ((k + 1 : Nat) : ℝ) * dt := by
      intro p hp
      rw [hMall] at hp
      obtain ⟨i, hi⟩ := List.mem_iff_getElem?.mp hp
      rw [List.getElem?_zipWith] at hi
      cases h1 : A.M.all[i]? with
      | none => rw [h1] at hi; cases hi
      | some q =>
        cases h2 : T[i]? with
        | none => rw [h1, h2] at hi; cases hi
        | some t =>
          rw [h1, h2] at hi
          injection hi with hi
          rw [← hi]
          exact (hTt t (List.mem_of_getElem? h2)).1
    have hint : P.run.stepInter M' A.s = P.runAnyTime.stepInter M' A.s := by
      apply mapM_congr_mem
      intro f hf
      obtain ⟨h1, h2⟩ := htime f hf
      apply FEL.step_inTime hMwf (by rw [h2]; exact hdt.le)
      · rw [hnots, hA.nots, h1, h2]; push_cast; ring
      · intro p hp; rw [hMt p hp, h1]; push_cast; ring
    simp only [bind, Except.bind, pure, Except.pure, hset0]
    rw [hint]
    refine ⟨rfl, ?_⟩
    intro A' h
    split at h
    · cases h
    · rename_i hck
      cases ho : P.run.stepOut (k + 1) M' (oneBunch A.dt (A.nots + 1) (T.take TN)) A.out with
      | error e => rw [ho] at h; cases h
      | ok o =>
        rw [ho] at h
        simp only at h
        rw [← hint] at h
        cases hi : P.run.stepInter M' A.s with
        | error e => rw [hi] at h; cases h
        | ok s' =>
          rw [hi] at h
          simp only at h
          injection h with h
          subst h
          have hsl := (mapM_except_length hi).1
          refine ⟨hMwf, by simp only; rw [hTl, hA.len, hlen], by simp only; rw [hnots, hA.nots]; push_cast; ring, hTt, hMt, by simp only; rw [hsl, hA.count], ?_⟩
          intro j f0 f h0 h1
          simp only at h1
          have hlt : j < A.s.length := by rw [← hsl]; exact (List.getElem?_eq_some_iff.mp h1).1
          obtain ⟨f', e1, e2⟩ := mapM_get hi j A.s[j] (List.getElem?_eq_getElem hlt)
          rw [h1] at e2
          injection e2 with e2
          subst e2
          have hl := hA.inter j f0 _ h0 (List.getElem?_eq_getElem hlt)
          obtain ⟨_, _, _, _, _, _, _, _, _, ha, _⟩ := FEL.step_inv hl.sized e1
          exact hl.next ha

include hM hdt hMdt hM0 hs hall in
theorem run_lock (out : ω) (k : Nat) : absRun P.run TN M s out k = absRun P.runAnyTime TN M s out k ∧
    ∀ A, absRun P.run TN M s out k = .ok A → Lock dt s k A := by
  obtain ⟨h1, h2⟩ := setup_lock P TN M hM dt hMdt hM0 s hs hall out
  unfold absRun
  rw [← h1]
  cases hA : absSetup P.run TN M s out with
  | error e => exact ⟨rfl, fun A h => by cases h⟩
  | ok A0 =>
    have h0 := h2 A0 hA
    simp only [bind, Except.bind]
    induction k with
    | zero =>
      refine ⟨rfl, ?_⟩
      intro A h
      injection h with h
      subst h
      exact h0
    | succ k ih =>
      obtain ⟨ih1, ih2⟩ := ih
      rw [List.range_succ, List.foldlM_append, List.foldlM_append, ← ih1]
      cases hk : (List.range k).foldlM (absStep P.run TN) A0 with
      | error e => exact ⟨rfl, fun A h => by cases h⟩
      | ok B =>
        obtain ⟨s1, s2⟩ := step_lock P TN dt hdt s hs k B (ih2 B hk)
        simp only [bind, Except.bind, List.foldlM_cons, List.foldlM_nil]
        rw [← s1]
        refine ⟨rfl, ?_⟩
        intro A h
        cases hst : absStep P.run TN B k with
        | error e => rw [hst] at h; cases h
        | ok C =>
          rw [hst] at h
          injection h with h
          subst h
          exact s2 C hst

end

section

variable {ω : Type}

/-- the master beam after the setup -/
theorem master_start (ms : List Beam) (m0 : Beam) (hm0 : m0.WF) (hwf : ∀ m ∈ ms, Beam.WF m) (hblank : ∀ m ∈ ms, Beam.blank m = m0.blank) (NOTS : Nat)
    (hstart : ∀ b ∈ m0.B, ∀ p ∈ b.P, p.tCur = 0) :
    ∃ M : Beam, M.WF ∧ M.all.length = m0.all.length ∧ M.dt = m0.dt ∧ M.NOTS = 0 ∧ M.tracker = m0.tracker ∧
      M.all = m0.all.map (fun q => receive (Particle.ready (NOTS + 1) q) q) ∧
      (∀ p ∈ M.all, ∃ q : Particle, p = receive (Particle.ready (NOTS + 1) q) q ∧ q.tCur = 0) ∧
      ∀ g, ms.mapM (fun m : Beam => setupMaster m (m0.all.flatMap Bunch.stepRecord ++ g) NOTS) = .ok (List.replicate ms.length M) := by
  obtain ⟨M, hM, hMl, htr, hdt, hn, hMall, _, hset⟩ := setupMasters ms m0 hm0 hwf hblank NOTS
  have hall : M.all = m0.all.map (fun q => receive (Particle.ready (NOTS + 1) q) q) := by
    rw [hMall, List.zipWith_map_left]
    induction m0.all with
    | nil => rfl
    | cons q l ih => simp [ih]
  refine ⟨M, hM, hMl, hdt, hn, htr, hall, ?_, hset⟩
  intro p hp
  rw [hall, List.mem_map] at hp
  obtain ⟨q, hq, rfl⟩ := hp
  refine ⟨q, rfl, ?_⟩
  unfold Beam.all at hq
  rw [List.mem_flatMap] at hq
  obtain ⟨b, hb, hq⟩ := hq
  exact hstart b hb q hq

/-- C44: if all particles start at t=0 and the interactions have been created for the time step of the beam, a
tracking run never meets a time mismatch: it is, for any number of steps, the run of the program without any
time checks, up to and including the error which might end it.  `ms` are the beams parsed by the nodes. -/
theorem C44_no_mismatch (P : FELProgram ω) (hN : 0 < P.nodes) (ms : List Beam) (hlen : ms.length = P.nodes)
    (hreach : ∀ m ∈ ms, Beam.Reachable m) (m0 : Beam) (hm0 : ms.head? = some m0) (hblank : ∀ m ∈ ms, Beam.blank m = m0.blank)
    (hstart : ∀ b ∈ m0.B, ∀ p ∈ b.P, p.tCur = 0) (hdt : 0 < m0.dt) (s : List FEL) (hs : ∀ f ∈ s, FEL.Constructed f ∧ f.dt = m0.dt) (out : ω) (k : Nat) :
    runSteps P.run ms s out k = runSteps P.runAnyTime ms s out k := by
  have hwf : ∀ m ∈ ms, Beam.WF m := fun m hm => Beam.wf_reachable (hreach m hm)
  obtain ⟨M, hM, hMl, hMdt, hMn, _, _, hall, hset⟩ := master_start ms m0 (hwf m0 (List.mem_of_head? hm0)) hwf hblank P.NOTS hstart
  obtain ⟨e1, _⟩ := runSteps_abs P.run hN ms hlen hwf m0 hm0 hblank s out M hM hMl hset k
  obtain ⟨e2, _⟩ := runSteps_abs P.runAnyTime hN ms hlen hwf m0 hm0 hblank s out M hM hMl hset k
  rw [e1, e2]
  have := (run_lock P (trackingNOP M.all.length P.nodes) M hM m0.dt hdt hMdt hMn s hs hall out k).1
  show Except.map _ (absRun P.run (trackingNOP M.all.length P.nodes) M s out k) = Except.map _ (absRun P.runAnyTime (trackingNOP M.all.length P.nodes) M s out k)
  rw [this]
  rfl

/-- C44: after `k` steps of such a run, on every node, the beam is at step `k` with all its particles at the time
`k dt`, and every interaction is exactly one step ahead: at time `(k+1) dt`, where its next evaluations will happen,
with its head at origin + (k+1) ds direction. -/
theorem C44_lockstep (P : FELProgram ω) (hN : 0 < P.nodes) (ms : List Beam) (hlen : ms.length = P.nodes)
    (hreach : ∀ m ∈ ms, Beam.Reachable m) (m0 : Beam) (hm0 : ms.head? = some m0) (hblank : ∀ m ∈ ms, Beam.blank m = m0.blank)
    (hstart : ∀ b ∈ m0.B, ∀ p ∈ b.P, p.tCur = 0) (hdt : 0 < m0.dt) (s : List FEL) (hs : ∀ f ∈ s, FEL.Constructed f ∧ f.dt = m0.dt) (out : ω) (k : Nat)
    (w : World (List FEL) ω) (hw : runSteps P.run ms s out k = .ok w) :
    w.nodes.length = P.nodes ∧ ∀ node ∈ w.nodes,
      node.master.NOTS = k ∧ (∀ b ∈ node.master.B, ∀ p ∈ b.P, p.tCur = (k : ℝ) * m0.dt) ∧
      (∀ p ∈ node.tracked.all, p.tCur = (k : ℝ) * m0.dt) ∧
      node.inter.length = s.length ∧
      ∀ (j : Nat) (f0 f : FEL), s[j]? = some f0 → node.inter[j]? = some f →
        f.dt = m0.dt ∧ f.time = ((k : ℝ) + 1) * m0.dt ∧ f.steps = k + 1 ∧ f.head = f0.head + f0.prop * (((k : ℝ) + 1) * f0.ds) := by
  have hwf : ∀ m ∈ ms, Beam.WF m := fun m hm => Beam.wf_reachable (hreach m hm)
  obtain ⟨M, hM, hMl, hMdt, hMn, _, _, hall, hset⟩ := master_start ms m0 (hwf m0 (List.mem_of_head? hm0)) hwf hblank P.NOTS hstart
  obtain ⟨e1, _⟩ := runSteps_abs P.run hN ms hlen hwf m0 hm0 hblank s out M hM hMl hset k
  have hl := (run_lock P (trackingNOP M.all.length P.nodes) M hM m0.dt hdt hMdt hMn s hs hall out k).2
  rw [e1] at hw
  change Except.map _ (absRun P.run (trackingNOP M.all.length P.nodes) M s out k) = _ at hw
  cases hA : absRun P.run (trackingNOP M.all.length P.nodes) M s out k with
  | error e => rw [hA] at hw; cases hw
  | ok A =>
    have hL := hl A hA
    rw [hA] at hw
    injection hw with hw
    subst hw
    refine ⟨by simp only [Abs.world, List.length_map, chunks, List.length_range]; rfl, ?_⟩
    intro node hnode
    simp only [Abs.world, List.mem_map] at hnode
    obtain ⟨r, hr, rfl⟩ := hnode
    refine ⟨hL.nots, ?_, ?_, hL.count, ?_⟩
    · intro b hb p hp
      exact hL.master p (List.mem_flatMap.mpr ⟨b, hb, hp⟩)
    · intro p hp
      have : p ∈ A.T := by
        simp only [oneBunch, Beam.all, List.flatMap_cons, List.flatMap_nil, List.append_nil] at hp
        unfold chunks at hr
        rw [List.mem_map] at hr
        obtain ⟨i, _, rfl⟩ := hr
        exact List.mem_of_mem_drop (List.mem_of_mem_take hp)
      exact (hL.tracked p this).1
    · intro j f0 f h0 h1
      have hj := hL.inter j f0 f h0 h1
      have hd := (hs f0 (List.mem_of_getElem? h0)).2
      refine ⟨by rw [hj.dt, hd], by rw [hj.time, hd]; push_cast; ring, hj.steps, by rw [hj.head]; push_cast; rfl⟩

/-- C44: a beam out of step by more than a quarter of the time step, or containing a particle that is, and an
evaluation of the field at any such time are rejected. -/
theorem C44_rejects {f : FEL} (hf : FEL.Reachable f) (hdt : 0 < f.dt) (hN : 2 ≤ f.N) (hz : f.zR ≠ 0) (hw : f.w0 ≠ 0) :
    (∀ b : Beam, b.Reachable → (1 / 4 * f.dt < |(b.NOTS : ℝ) * f.dt - f.time| ∨ ∃ bu ∈ b.B, ∃ p ∈ bu.P, 1 / 4 * f.dt < |p.tCur - f.time|) →
      f.step b = .error .io) ∧
    ∀ t X, 1 / 4 * f.dt < |t - f.time| → f.Field t X = .error .io := by
  constructor
  · intro b hb h
    have hinv := hf.inv
    have hsane : f.Sane := ⟨hN, hinv.int, hdt, hinv.ds, hz, hw⟩
    apply FEL.step_rejects hsane (traverse_all (Beam.wf_reachable hb))
    rintro ⟨h1, h2⟩
    rcases h with h | ⟨bu, hbu, p, hp, h⟩
    · exact absurd h1 (not_le.mpr h)
    · exact absurd (h2 p (List.mem_flatMap.mpr ⟨bu, hbu, hp⟩)).1 (not_le.mpr h)
  · intro t X h
    unfold FEL.Field
    rw [if_pos h]
    rfl

/-! ### a run with a particle exists -/

/-- an electron at rest -/
noncomputable def resting : Particle := (Particle.new 1 1).initTrajectory 0 0 0 0

noncomputable def restingBeam : Beam := { (Beam.empty.Add (Bunch.empty.Add resting)) with dt := 1, tracker := .vay }

theorem restingBeam_reachable : restingBeam.Reachable :=
  .setTracking .vay (.setTimeStep 1 (.Add _ .empty (.Add _ .empty ⟨Particle.new 1 1, [.init 0 0 0 0], Or.inl ⟨1, 1, rfl⟩, rfl⟩)))

/-- two nodes, a single interaction, no output -/
def restingProgram : FELProgram Unit :=
  { nodes := 2, NOTS := 1, ext := [], startOut := fun _ _ _ => .ok (), stepOut := fun _ _ _ _ => .ok (), junk := fun _ _ _ => 0 }

theorem FEL.Field_value {f : FEL} (hs : f.Sized) (hdt : 0 ≤ f.dt) (i : Nat) (hi : i < f.N) (hN : f.N = 4) {t : ℝ} (ht : t = f.time) (X : Vec)
    (hX : dot (f.head - X) f.prop / f.ds = ((i : Int) : ℝ)) (hds : f.ds ≠ 0) :
    f.Field t X = .ok ⟨f.ex * fval f.E i, f.ey * fval f.E i / SpeedOfLight⟩ := by
  unfold Field
  rw [if_neg (by rw [ht, sub_self, abs_zero]; have : 0 ≤ 1 / 4 * f.dt := by positivity
                 exact not_lt.mpr this), if_neg hds]
  simp only [pure, Except.pure, bind, Except.bind]
  have h32 : toInt32 (i : Int) = .ok (i : Int) := by
    rw [hN] at hi
    have hc : i = 0 ∨ i = 1 ∨ i = 2 ∨ i = 3 := by omega
    rcases hc with rfl | rfl | rfl | rfl <;> rfl
  rw [hX, crint_intCast, h32]
  simp only
  rw [if_neg (by omega), cellAt_ok (by rw [hs.E]; exact hi)]

theorem resting_run : ∃ f w, FEL.Constructed f ∧ FEL.dt f = restingBeam.dt ∧ runSteps restingProgram.run [restingBeam, restingBeam] [f] () 1 = .ok w := by
  obtain ⟨f, _, hc, hs, ho, hdt, _, hex, hprop, hhead, hN, _, _, _, hE⟩ := FEL.demoInput_constructed 0
  have hcp := SpeedOfLight_pos
  have hds : f.ds = SpeedOfLight := by rw [hs.ds, hdt, one_mul]
  have hwf := Beam.wf_reachable restingBeam_reachable
  obtain ⟨M, hM, hMl, hMdt, hMn, hMt, hMall, hall, hset⟩ := master_start [restingBeam, restingBeam] restingBeam hwf (by simpa using hwf) (by simp) 1
    (by simp [restingBeam, Beam.Add, Beam.empty, Bunch.Add, Bunch.empty, resting, Particle.initTrajectory])
  obtain ⟨e1, _⟩ := runSteps_abs restingProgram.run (by decide) [restingBeam, restingBeam] rfl (by simpa using hwf) restingBeam rfl (by simp) [f] () M hM hMl hset 1
  obtain ⟨h1, h2⟩ := run_lock restingProgram (trackingNOP M.all.length 2) M hM 1 one_pos hMdt hMn [f] (by simp [hc, hdt]) hall () 1
  suffices H : ∃ A, absRun restingProgram.run (trackingNOP M.all.length 2) M [f] () 1 = .ok A by
    obtain ⟨A, hA⟩ := H
    refine ⟨f, A.world (trackingNOP M.all.length 2) 2, hc, hdt, e1.trans ?_⟩
    · change Except.map _ (absRun restingProgram.run (trackingNOP M.all.length 2) M [f] () 1) = _
      rw [hA]; rfl
  clear e1 h1 h2
  have hMa : M.all = [receive (Particle.ready 2 resting) resting] := hMall
  obtain ⟨f1, i1, a1, _⟩ := FEL.init_ok hc.fresh.sized hs.two M hs.dt.ne' (by rw [hMdt, hdt]; simp [restingBeam]; norm_num)
  obtain ⟨G, hG, hGf⟩ := init_tracked 2 M.dt resting
  have hF : restingProgram.run.lattice [f] 0 0 = .ok ⟨0, 0⟩ := by
    have hv := FEL.Field_value hc.fresh.sized (by rw [hdt]; norm_num) 0 (by rw [hN]; norm_num) hN (t := 0) (by rw [hc.fresh.time]) 0 (by
      rw [hhead]; simp [dot]) (by rw [hds]; exact hcp.ne')
    have hz : fval f.E 0 = 0 := by rw [hE]; simp [fval]
    rw [hz] at hv
    show Lattice.field ([] ++ [InteractionField f.Field]) 0 0 = _
    simp only [Lattice.field, List.nil_append, List.foldlM_cons, List.foldlM_nil, InteractionField]
    rw [hv]
    simp only [Except.map, bind, Except.bind, pure, Except.pure]
    congr 1
    ext <;> simp
  have hT : (M.all.map (fun p => p.copy.preAllocate ((restingProgram.run.NOTS : Int) + 1))).mapM (fun p => dropState (p.InitVay M.dt (restingProgram.run.lattice [f])))
      = .ok [G ⟨0, 0⟩] := by
    rw [hMa]
    simp only [List.map_cons, List.map_nil, List.mapM_cons, List.mapM_nil]
    have := hGf (restingProgram.run.lattice [f])
    rw [if_neg (by simp [resting, Particle.initTrajectory, Particle.new]), show resting.tCur = 0 from rfl, show resting.XCur = 0 from rfl, hF] at this
    change (dropState _ >>= _) = _
    erw [this]
    rfl
  have hsetup : absSetup restingProgram.run (trackingNOP M.all.length 2) M [f] () = .ok ⟨M, [G ⟨0, 0⟩], M.dt, 0, [f1], ()⟩ := by
    unfold absSetup
    rw [if_neg (by rw [hMt]; simp [restingBeam]), hT]
    simp only [bind, Except.bind, pure, Except.pure]
    show Except.bind (restingProgram.run.initInter M [f]) _ = _
    have : restingProgram.run.initInter M [f] = .ok [f1] := by
      show [f].mapM (FEL.init M) = _
      rw [List.mapM_cons, List.mapM_nil, i1]; rfl
    rw [this]
    rfl
  have hV : (G ⟨0, 0⟩).VYp = 0 := by
    rw [(hG _).2.2]
    unfold Particle.vayMomentum
    ext <;> simp [resting, Particle.initTrajectory, dot, cross]
  have hX : (G ⟨0, 0⟩).XCur + (G ⟨0, 0⟩).VYp / (G ⟨0, 0⟩).VYgamma * SpeedOfLight * (G ⟨0, 0⟩).dt = 0 := by
    rw [hV, (hG _).2.1]
    ext <;> simp [resting, Particle.initTrajectory]
  have ht : (G ⟨0, 0⟩).tCur + (G ⟨0, 0⟩).dt = 1 := by
    rw [(hG _).1.1, (hG _).1.2, hMdt]
    simp [resting, restingBeam, Particle.initTrajectory]
  have t1 : f1.time = 1 := by rw [a1.time, hc.fresh.time, hdt, zero_add]
  have hh1 : f1.head = ⟨0, 0, SpeedOfLight⟩ := by rw [a1.head, hhead, hprop, hds]; ext <;> simp
  obtain ⟨EB, hEB⟩ : ∃ EB, restingProgram.run.lattice [f1] 1 0 = .ok EB := by
    have hv := FEL.Field_value a1.sized (by rw [a1.dt, hdt]; norm_num) 1 (by rw [a1.N, hN]; norm_num) (by rw [a1.N, hN]) (t := 1) t1.symm 0 (by
      rw [hh1, a1.prop, hprop, a1.ds, hds]; simp [dot, hcp.ne']) (by rw [a1.ds, hds]; exact hcp.ne')
    refine ⟨0 + ⟨f1.ex * fval f1.E 1, f1.ey * fval f1.E 1 / SpeedOfLight⟩, ?_⟩
    show Lattice.field ([] ++ [InteractionField f1.Field]) 1 0 = _
    simp only [Lattice.field, List.nil_append, List.foldlM_cons, List.foldlM_nil, InteractionField]
    rw [hv]
    rfl
  obtain ⟨t, hts, htt, htX⟩ : ∃ t, dropState ((G ⟨0, 0⟩).StepVay (restingProgram.run.lattice [f1])) = .ok t ∧ t.tCur = 1 ∧ t.XCur = 0 := by
    unfold Particle.StepVay
    simp only
    rw [hX, ht, hEB]
    exact ⟨_, rfl, rfl, rfl⟩
  obtain ⟨M', hset', hMwf', hMall', hnots', _, _, hlen', _⟩ := setStep_list hM [t] (by rw [hMa]; rfl)
  have hset0 : M.setStepFromBuffer ([t].flatMap Bunch.stepRecord) = .ok M' := by
    have := hset' []
    rwa [List.append_nil] at this
  have hM'all : M'.all = [receive (receive (Particle.ready 2 resting) resting) t] := by rw [hMall', hMa]; rfl
  have s1 : f1.Sane := ⟨by rw [a1.N]; exact hs.two, by rw [a1.N]; exact hs.int, by rw [a1.dt]; exact hs.dt, by rw [a1.ds, a1.dt]; exact hs.ds, by rw [a1.zR]; exact hs.zR, by rw [a1.w0]; exact hs.w0⟩
  obtain ⟨J, _, _, _, j4⟩ := FEL.step_ok a1.sized s1 (traverse_all hMwf') (by rw [hnots', hMn, a1.dt, hdt, t1]; simp) (by
    intro p hp
    rw [hM'all, List.mem_singleton] at hp
    subst hp
    have hdep : f1.depth (receive (receive (Particle.ready 2 resting) resting) t).XCur = SpeedOfLight := by
      show f1.depth t.XCur = _
      unfold FEL.depth
      rw [htX, hh1, a1.prop, hprop]
      simp [dot]
    refine ⟨?_, by rw [hdep]; exact hcp.le, ?_⟩
    · rw [show (receive (receive (Particle.ready 2 resting) resting) t).tCur = t.tCur from rfl, htt, t1, a1.dt, hdt]; norm_num
    · rw [hdep, a1.N, a1.ds, hds, hN]; push_cast; linarith)
  have hr : f1.recordDue (f1.steps + 1) = .ok (decide (((f1.steps + 1 : Nat) : Int).tmod 2 = 0)) := by
    unfold FEL.recordDue
    rw [a1.out, ho]
    rfl
  obtain ⟨f2, e2, _⟩ := j4 _ hr
  refine ⟨⟨M', [t], M.dt, 1, [f2], ()⟩, ?_⟩
  unfold absRun
  rw [hsetup]
  simp only [bind, Except.bind, List.range_one, List.foldlM_cons, List.foldlM_nil, pure, Except.pure]
  have hstep : absStep restingProgram.run (trackingNOP M.all.length 2) ⟨M, [G ⟨0, 0⟩], M.dt, 0, [f1], ()⟩ 0 = .ok ⟨M', [t], M.dt, 1, [f2], ()⟩ := by
    unfold absStep
    simp only [List.mapM_cons, List.mapM_nil, bind, Except.bind, pure, Except.pure, hts, hset0]
    rw [if_neg (by rw [hnots', hMn]; simp)]
    have : restingProgram.run.stepInter M' [f1] = .ok [f2] := by
      show [f1].mapM (FEL.step M') = _
      rw [List.mapM_cons, List.mapM_nil, e2]; rfl
    rw [this]
    rfl
  rw [hstep]

/-- non-vacuity of C44: the premises hold and the run succeeds, for an electron at rest on two nodes -/
example : ∃ f w, (∀ m ∈ [restingBeam, restingBeam], Beam.Reachable m) ∧ (∀ b ∈ restingBeam.B, ∀ p ∈ b.P, p.tCur = 0) ∧ 0 < restingBeam.dt ∧
    (∀ g ∈ [f], FEL.Constructed g ∧ g.dt = restingBeam.dt) ∧ runSteps restingProgram.run [restingBeam, restingBeam] [f] () 1 = .ok w := by
  obtain ⟨f, w, h1, h2, h3⟩ := resting_run
  exact ⟨f, w, by simp [restingBeam_reachable], by simp [restingBeam, Beam.Add, Beam.empty, Bunch.Add, Bunch.empty, resting, Particle.initTrajectory],
    by simp [restingBeam], by simp [h1, h2], h3⟩

/-- non-vacuity of C44_rejects: a beam without particles one step late -/
example : ∃ f, FEL.Reachable f ∧ f.step (FEL.noParticles 1 1) = .error .io := by
  obtain ⟨f, _, hc, hs, _, hdt, _⟩ := FEL.demoInput_constructed 1
  refine ⟨f, .start hc, (C44_rejects (.start hc) hs.dt hs.two hs.zR hs.w0).1 _ (FEL.noParticles_reachable 1 1) (Or.inl ?_)⟩
  rw [hc.fresh.time, hdt]
  norm_num [FEL.noParticles]

end

end Teufel
