import Verif.Props.Hybrid

/-! # C36: the distributed program tracks every particle as if it was alone -/

namespace Teufel
open Vec

variable {σ ω : Type}

/-- specification: particle `p`, starting at its current point, tracked alone for `k` steps of the Vay algorithm
with time step `dt` in the field `f` -/
noncomputable def trackAlone (dt : ℝ) (f : FieldFn) (p : Particle) (k : Nat) : Except Err Particle := do
  let a ← dropState ((p.initTrajectory p.tCur p.XCur p.PCur p.ACur).InitVay dt f)
  dropState (a.steps (List.replicate k f))

/-- `b` is particle `p` after `k` steps alone in the field `f`, starting with `p` itself -/
def AfterSteps (dt : ℝ) (f : FieldFn) (p : Particle) (k : Nat) (b : Particle) : Prop :=
  (k = 0 ∧ b = p) ∨ (0 < k ∧ trackAlone dt f p k = .ok b)

theorem trackAlone_succ (dt : ℝ) (f : FieldFn) (p : Particle) (k : Nat) :
    trackAlone dt f p (k + 1) = (trackAlone dt f p k).bind (fun a => dropState (a.StepVay f)) := by
  unfold trackAlone
  cases hi : dropState ((p.initTrajectory p.tCur p.XCur p.PCur p.ACur).InitVay dt f) with
  | error e => rfl
  | ok a =>
    simp only [bind, Except.bind]
    unfold Particle.steps
    rw [List.replicate_succ', List.foldlM_append]
    cases hs : (List.replicate k f).foldlM (fun (p : Particle) (f : FieldFn) => p.StepVay f) a with
    | error e => rfl
    | ok b =>
      simp only [bind, Except.bind, List.foldlM_cons, List.foldlM_nil, dropState]
      cases b.StepVay f <;> rfl

/-- change of the reserved size -/
def Particle.reserve (n : Int) (p : Particle) : Particle := { p with Npre := n }

/-- `InitVay` of a particle with a single trajectory point -/
theorem init_single {dt : ℝ} {f : FieldFn} {p q : Particle} (h1 : q.NP = 1) (h2 : q.Time = [p.tCur]) (h3 : q.X = [p.XCur]) (h4 : q.P = [p.PCur])
    (h5 : q.A = [p.ACur]) :
    dropState (q.InitVay dt f) = if q.Mass = 0 then .error .nan else
      (f p.tCur p.XCur).map (fun EB =>
        let qm := q.Charge / q.Mass * InvRestMass
        let a := Particle.vayAccel qm p.PCur EB.E EB.B
        { q with dt := dt, qm := qm, qmt2 := qm * 0.5 * dt, tCur := p.tCur, XCur := p.XCur, PCur := p.PCur, ACur := a, ECur := EB.E, BCur := EB.B,
                 A := [a], VYp := Particle.vayMomentum (qm * 0.5 * dt) p.PCur EB.E EB.B, VYgamma := Particle.vayGamma (qm * 0.5 * dt) p.PCur EB.E EB.B }) := by
  unfold Particle.InitVay
  rw [if_neg (by omega)]
  by_cases hm : q.Mass = 0
  · rw [if_pos hm, if_pos hm]; rfl
  · rw [if_neg hm, if_neg hm, h2, h3, h4]
    simp only [List.getLast?_singleton, h5]
    cases f p.tCur p.XCur with
    | error e => rfl
    | ok EB => rfl

theorem init_reserve (n : Int) (dt : ℝ) (f : FieldFn) (p : Particle) :
    dropState (((receive (Particle.ready n p) p).copy.preAllocate n).InitVay dt f)
      = (dropState ((p.initTrajectory p.tCur p.XCur p.PCur p.ACur).InitVay dt f)).map (Particle.reserve n) := by
  have h : (receive (Particle.ready n p) p).copy.preAllocate n
      = { p.initTrajectory p.tCur p.XCur p.PCur p.ACur with Npre := n, ECur := 0, BCur := 0 } := by
    simp [receive, Particle.ready, Particle.copy, Particle.preAllocate, Particle.storeTrajectoryPoint, Particle.setCurrentPoint,
      Particle.clearTrajectory, Particle.initTrajectory]
  rw [h]
  rw [init_single (p := p) rfl rfl rfl rfl rfl, init_single (p := p) rfl rfl rfl rfl rfl]
  by_cases hm : p.Mass = 0
  · refine (if_pos hm).trans ?_
    rw [if_pos (show (p.initTrajectory p.tCur p.XCur p.PCur p.ACur).Mass = 0 from hm)]
    rfl
  · refine (if_neg hm).trans ?_
    rw [if_neg (show ¬ (p.initTrajectory p.tCur p.XCur p.PCur p.ACur).Mass = 0 from hm)]
    cases f p.tCur p.XCur with
    | error e => rfl
    | ok EB => rfl

theorem step_reserve (n : Int) (f : FieldFn) (p : Particle) :
    dropState ((p.reserve n).StepVay f) = (dropState (p.StepVay f)).map (Particle.reserve n) := by
  unfold Particle.StepVay
  simp only [Particle.reserve]
  cases f (p.tCur + p.dt) (p.XCur + p.VYp / p.VYgamma * SpeedOfLight * p.dt) <;> rfl

/-- what is known about particle number `idx` after `k` steps -/
structure Tracked (dt : ℝ) (f : FieldFn) (NOTS k : Nat) (p : Particle) (t q : Particle) : Prop where
  runs : ∃ a : Nat → Particle, (∀ s ≤ k, trackAlone dt f p s = .ok (a s)) ∧ t = (a k).reserve (NOTS + 1) ∧
    q.Time = p.tCur :: (List.range k).map (fun s : Nat => (a (s + 1)).tCur) ∧
    q.X = p.XCur :: (List.range k).map (fun s : Nat => (a (s + 1)).XCur) ∧
    q.P = p.PCur :: (List.range k).map (fun s : Nat => (a (s + 1)).PCur) ∧
    q.A = p.ACur :: (List.range k).map (fun s : Nat => (a (s + 1)).ACur)
  np : q.NP = k + 1
  charge : q.Charge = p.Charge
  mass : q.Mass = p.Mass
  cur : ∃ b, AfterSteps dt f p k b ∧ q.tCur = b.tCur ∧ q.XCur = b.XCur ∧ q.PCur = b.PCur ∧ q.ACur = b.ACur

theorem mapM_get {α β} {f : α → Except Err β} {l : List α} {l' : List β} (h : l.mapM f = .ok l') (i : Nat) (a : α) (ha : l[i]? = some a) :
    ∃ b, f a = .ok b ∧ l'[i]? = some b := by
  induction l generalizing l' i with
  | nil => simp at ha
  | cons x l ih =>
    rw [List.mapM_cons] at h
    cases hx : f x with
    | error e => rw [hx] at h; cases h
    | ok y =>
      rw [hx] at h
      cases hl : l.mapM f with
      | error e => rw [hl] at h; cases h
      | ok ys =>
        rw [hl] at h
        simp only [bind, Except.bind, pure, Except.pure] at h
        injection h with h
        subst h
        cases i with
        | zero => simp at ha; subst ha; exact ⟨y, hx, rfl⟩
        | succ i => simp only [List.getElem?_cons_succ] at ha ⊢; exact ih hl i ha

/-- as long as the interactions satisfy `K` the lattice is the external field `f` -/
structure Run.ExternalOn (R : Run σ ω) (f : FieldFn) (K : σ → Prop) : Prop where
  lattice : ∀ s, K s → R.lattice s = f
  init : ∀ b s s', K s → R.initInter b s = .ok s' → K s'
  step : ∀ b s s', K s → R.stepInter b s = .ok s' → K s'

theorem absRun_tracked_on (R : Run σ ω) (f : FieldFn) (K : σ → Prop) (hE : R.ExternalOn f K) (TN : Nat) (m0 M : Beam) (hM : M.WF)
    (hMl : M.all.length = m0.all.length) (hdt : M.dt = m0.dt) (hMall : M.all = List.zipWith receive (m0.all.map (Particle.ready (R.NOTS + 1))) m0.all)
    (s : σ) (hK : K s) (out : ω) (k : Nat) (A : Abs σ ω) (hA : absRun R TN M s out k = .ok A) :
    K A.s ∧ A.M.WF ∧ A.T.length = A.M.all.length ∧ A.M.all.length = m0.all.length ∧ A.M.B.map Bunch.getNOP = M.B.map Bunch.getNOP ∧
      ∀ (idx : Nat) (p : Particle), m0.all[idx]? = some p → ∃ t q, A.T[idx]? = some t ∧ A.M.all[idx]? = some q ∧ Tracked m0.dt f R.NOTS k p t q := by
  unfold absRun at hA
  cases hs : absSetup R TN M s out with
  | error e => rw [hs] at hA; cases hA
  | ok A0 =>
    rw [hs] at hA
    simp only [bind, Except.bind] at hA
    -- the state before the loop
    have base : K A0.s ∧ A0.M.WF ∧ A0.T.length = A0.M.all.length ∧ A0.M.all.length = m0.all.length ∧ A0.M.B.map Bunch.getNOP = M.B.map Bunch.getNOP ∧
        ∀ (idx : Nat) (p : Particle), m0.all[idx]? = some p → ∃ t q, A0.T[idx]? = some t ∧ A0.M.all[idx]? = some q ∧ Tracked m0.dt f R.NOTS 0 p t q := by
      unfold absSetup at hs
      split at hs
      · cases hs
      · simp only [bind, Except.bind, pure, Except.pure] at hs
        cases hT : (M.all.map (fun p => p.copy.preAllocate ((R.NOTS : Int) + 1))).mapM (fun p => dropState (p.InitVay M.dt (R.lattice s))) with
        | error e => rw [hT] at hs; cases hs
        | ok T =>
          rw [hT] at hs
          simp only at hs
          cases ho : R.startOut M (oneBunch M.dt 0 (T.take TN)) out with
          | error e => rw [ho] at hs; cases hs
          | ok o =>
            rw [ho] at hs
            simp only at hs
            cases hi : R.initInter M s with
            | error e => rw [hi] at hs; cases hs
            | ok s' =>
              rw [hi] at hs
              simp only at hs
              injection hs with hs
              subst hs
              have hTl := (mapM_except_length hT).1
              rw [List.length_map] at hTl
              refine ⟨hE.init _ _ _ hK hi, hM, hTl, hMl, rfl, ?_⟩
              intro idx p hp
              have hq : M.all[idx]? = some (receive (Particle.ready (R.NOTS + 1) p) p) := by
                rw [hMall, List.getElem?_zipWith, List.getElem?_map, hp]
                rfl
              obtain ⟨t, ht1, ht2⟩ := mapM_get hT idx ((receive (Particle.ready (R.NOTS + 1) p) p).copy.preAllocate (R.NOTS + 1)) (by
                rw [List.getElem?_map, hq]; rfl)
              rw [hE.lattice s hK, hdt, init_reserve] at ht1
              refine ⟨t, _, ht2, hq, ?_⟩
              cases hin : dropState ((p.initTrajectory p.tCur p.XCur p.PCur p.ACur).InitVay m0.dt f) with
              | error e => rw [hin] at ht1; cases ht1
              | ok a =>
                rw [hin] at ht1
                simp only [Except.map] at ht1
                injection ht1 with ht1
                refine ⟨⟨fun _ => a, ?_, ht1.symm, ?_, ?_, ?_, ?_⟩, ?_, rfl, rfl, p, Or.inl ⟨rfl, rfl⟩, rfl, rfl, rfl, rfl⟩
                · intro s hs'
                  have : s = 0 := by omega
                  subst this
                  unfold trackAlone
                  rw [hin]
                  rfl
                all_goals simp [receive, Particle.ready, Particle.clearTrajectory, Particle.preAllocate, Particle.setCurrentPoint,
                  Particle.storeTrajectoryPoint]
    clear hs
    induction k generalizing A with
    | zero =>
      simp only [List.range_zero, List.foldlM_nil, pure, Except.pure] at hA
      injection hA with hA
      subst hA
      exact base
    | succ k ih =>
      rw [List.range_succ, List.foldlM_append] at hA
      cases hk : (List.range k).foldlM (absStep R TN) A0 with
      | error e => rw [hk] at hA; cases hA
      | ok B =>
        rw [hk] at hA
        simp only [bind, Except.bind, List.foldlM_cons, List.foldlM_nil] at hA
        obtain ⟨i0, i1, i2, i3, i4, i5⟩ := ih B hk
        cases hst : absStep R TN B k with
        | error e => rw [hst] at hA; cases hA
        | ok C =>
          rw [hst] at hA
          simp only [pure, Except.pure] at hA
          injection hA with hA
          subst hA
          unfold absStep at hst
          simp only [bind, Except.bind, pure, Except.pure] at hst
          cases hT : B.T.mapM (fun p => dropState (p.StepVay (R.lattice B.s))) with
          | error e => rw [hT] at hst; cases hst
          | ok T =>
            have hTl := (mapM_except_length hT).1
            obtain ⟨M', hset, hMwf, hall, hnots, _, _, hlen, _, hlens⟩ := setStep_list i1 T (by omega)
            have hset0 : B.M.setStepFromBuffer (T.flatMap Bunch.stepRecord) = .ok M' := by
              have := hset []
              rwa [List.append_nil] at this
            rw [hT] at hst
            simp only [hset0] at hst
            split at hst
            · cases hst
            · try simp only at hst
              cases ho : R.stepOut (k + 1) M' (oneBunch B.dt (B.nots + 1) (T.take TN)) B.out with
              | error e => rw [ho] at hst; cases hst
              | ok o =>
                rw [ho] at hst
                simp only at hst
                cases hi : R.stepInter M' B.s with
                | error e => rw [hi] at hst; cases hst
                | ok s' =>
                  rw [hi] at hst
                  simp only at hst
                  injection hst with hst
                  subst hst
                  refine ⟨hE.step _ _ _ i0 hi, hMwf, by simp only; omega, by simp only; omega, by simp only; rw [hlens, i4], ?_⟩
                  intro idx p hp
                  obtain ⟨t, q, h1, h2, ⟨⟨a, ha1, ha2, ha3, ha4, ha5, ha6⟩, hnp, hch, hma⟩⟩ := i5 idx p hp
                  obtain ⟨t', ht1, ht2⟩ := mapM_get hT idx t h1
                  rw [hE.lattice _ i0, ha2, step_reserve] at ht1
                  cases hsv : dropState ((a k).StepVay f) with
                  | error e => rw [hsv] at ht1; cases ht1
                  | ok c =>
                    rw [hsv] at ht1
                    simp only [Except.map] at ht1
                    injection ht1 with ht1
                    refine ⟨t', receive q t', ht2, by rw [hall, List.getElem?_zipWith, h2, ht2], ?_⟩
                    have hlist : ∀ {β : Type} (g : Particle → β), (List.range (k + 1)).map (fun s : Nat => g (if s + 1 ≤ k then a (s + 1) else c))
                        = (List.range k).map (fun s : Nat => g (a (s + 1))) ++ [g c] := by
                      intro β g
                      rw [List.range_succ, List.map_append]
                      congr 1
                      · apply List.map_congr_left
                        intro s hs
                        rw [List.mem_range] at hs
                        rw [if_pos (by omega)]
                      · simp
                    refine ⟨⟨fun s => if s ≤ k then a s else c, ?_, ?_, ?_, ?_, ?_, ?_⟩, by simp only [receive, Particle.storeTrajectoryPoint, Particle.setCurrentPoint, hnp], hch, hma,
                      c, Or.inr ⟨by omega, by rw [trackAlone_succ, ha1 k le_rfl]; exact hsv⟩, by rw [← ht1]; rfl, by rw [← ht1]; rfl, by rw [← ht1]; rfl, by rw [← ht1]; rfl⟩
                    · intro s hs'
                      by_cases hle : s ≤ k
                      · simp only [if_pos hle]; exact ha1 s hle
                      · have : s = k + 1 := by omega
                        subst this
                        simp only [if_neg hle]
                        rw [trackAlone_succ, ha1 k le_rfl]
                        exact hsv
                    · simp only [if_neg (show ¬ k + 1 ≤ k by omega)]
                      exact ht1.symm
                    · show q.Time ++ [t'.tCur] = _
                      rw [ha3, hlist (fun p => p.tCur), ← ht1]
                      rfl
                    · show q.X ++ [t'.XCur] = _
                      rw [ha4, hlist (fun p => p.XCur), ← ht1]
                      rfl
                    · show q.P ++ [t'.PCur] = _
                      rw [ha5, hlist (fun p => p.PCur), ← ht1]
                      rfl
                    · show q.A ++ [t'.ACur] = _
                      rw [ha6, hlist (fun p => p.ACur), ← ht1]
                      rfl

theorem absRun_tracked (R : Run σ ω) (f : FieldFn) (hf : ∀ s, R.lattice s = f) (TN : Nat) (m0 M : Beam) (hM : M.WF)
    (hMl : M.all.length = m0.all.length) (hdt : M.dt = m0.dt) (hMall : M.all = List.zipWith receive (m0.all.map (Particle.ready (R.NOTS + 1))) m0.all)
    (s : σ) (out : ω) (k : Nat) (A : Abs σ ω) (hA : absRun R TN M s out k = .ok A) :
    A.M.WF ∧ A.T.length = A.M.all.length ∧ A.M.all.length = m0.all.length ∧ A.M.B.map Bunch.getNOP = M.B.map Bunch.getNOP ∧
      ∀ (idx : Nat) (p : Particle), m0.all[idx]? = some p → ∃ t q, A.T[idx]? = some t ∧ A.M.all[idx]? = some q ∧ Tracked m0.dt f R.NOTS k p t q :=
  (absRun_tracked_on R f (fun _ => True) ⟨fun s _ => hf s, fun _ _ _ _ _ => trivial, fun _ _ _ _ _ => trivial⟩ TN m0 M hM hMl hdt hMall s trivial out k A hA).2

theorem getElem_cons_range {α} (x : α) (g : Nat → α) (k s : Nat) (h1 : 1 ≤ s) (h2 : s ≤ k) :
    (x :: (List.range k).map (fun s : Nat => g (s + 1)))[s]? = some (g s) := by
  obtain ⟨s, rfl⟩ := Nat.exists_eq_succ_of_ne_zero (by omega : s ≠ 0)
  rw [Nat.succ_eq_add_one, List.getElem?_cons_succ, List.getElem?_map, List.getElem?_range (by omega)]
  rfl

/-- addresses correspond to positions in the list of all particles -/
theorem holds_of_index {b c : Beam} (hb : b.WF) (hc : c.WF) (hl : c.B.map Bunch.getNOP = b.B.map Bunch.getNOP) {i j : Nat} {p q : Particle}
    (hp : b.Holds i j p) (hq : c.all[((b.B.take i).map Bunch.getNOP).sum + j]? = some q) : c.Holds i j q := by
  obtain ⟨bu, h1, h2⟩ := (holds_iff hb i j p).mp hp
  have hi : i < b.B.length := (List.getElem?_eq_some_iff.mp h1).1
  have hlen : c.B.length = b.B.length := by simpa using congrArg List.length hl
  have hi' : i < c.B.length := by omega
  have hcu := List.getElem?_eq_getElem hi'
  have hn : c.B[i].getNOP = bu.getNOP := by
    have := congrArg (fun l => l[i]?) hl
    simp only [List.getElem?_map, hcu, h1, Option.map_some, Option.some.injEq] at this
    exact this
  have hj : j < c.B[i].P.length := by
    rw [← (hc.2 _ (List.getElem_mem hi')).1]
    show j < c.B[i].getNOP
    rw [hn]
    show j < bu.NOP
    rw [(hb.2 bu (List.mem_of_getElem? h1)).1]
    exact (List.getElem?_eq_some_iff.mp h2).1
  have hh : c.Holds i j (c.B[i].P[j]) := (holds_iff hc i j _).mpr ⟨_, hcu, List.getElem?_eq_getElem hj⟩
  have := all_index hc hh
  rw [List.map_take, hl, ← List.map_take, hq] at this
  injection this with this
  rw [this]
  exact hh

/-- C36 as long as the interactions have no field -/
theorem serial_on (R : Run σ ω) (f : FieldFn) (K : σ → Prop) (hE : R.ExternalOn f K) (hN : 0 < R.nodes) (ms : List Beam) (hlen : ms.length = R.nodes)
    (hreach : ∀ m ∈ ms, Beam.Reachable m) (m0 : Beam) (hm0 : ms.head? = some m0) (hblank : ∀ m ∈ ms, Beam.blank m = m0.blank)
    (s : σ) (hK : K s) (out : ω) (k : Nat) (w : World σ ω) (hw : runSteps R ms s out k = .ok w) :
    w.nodes.length = R.nodes ∧ ∀ n ∈ w.nodes, ∀ i j p, m0.Holds i j p →
      ∃ q, n.master.Holds i j q ∧ q.getNP = k + 1 ∧ q.Charge = p.Charge ∧ q.Mass = p.Mass ∧
        q.TrajTime 0 = .ok p.tCur ∧ q.TrajPoint 0 = .ok p.XCur ∧ q.TrajMomentum 0 = .ok p.PCur ∧
        ∀ l : Nat, 1 ≤ l → l ≤ k → ∃ a, trackAlone m0.dt f p l = .ok a ∧ q.TrajTime l = .ok a.tCur ∧ q.TrajPoint l = .ok a.XCur ∧
          q.TrajMomentum l = .ok a.PCur ∧ q.TrajAccel l = .ok a.ACur := by
  have hwf : ∀ m ∈ ms, Beam.WF m := fun m hm => Beam.wf_reachable (hreach m hm)
  have hm0wf := hwf m0 (List.mem_of_head? hm0)
  obtain ⟨M, hM, hMl, _, hdt, _, hMall, hlens, hset⟩ := setupMasters ms m0 hm0wf hwf hblank R.NOTS
  have hr := runSteps_abs R hN ms hlen hwf m0 hm0 hblank s out M hM hMl hset k
  rw [hr.1] at hw
  cases hA : absRun R (trackingNOP M.all.length R.nodes) M s out k with
  | error e => rw [hA] at hw; cases hw
  | ok A =>
    rw [hA] at hw
    simp only [Except.map] at hw
    injection hw with hw
    subst hw
    obtain ⟨_, t1, _, _, t4, t5⟩ := absRun_tracked_on R f K hE _ m0 M hM hMl hdt hMall s hK out k A hA
    refine ⟨by simp [Abs.world, chunks], ?_⟩
    intro n hn i j p hp
    simp only [Abs.world, List.mem_map] at hn
    obtain ⟨c, _, rfl⟩ := hn
    simp only
    obtain ⟨t, q, _, hq, ⟨⟨a, ha1, _, ha3, ha4, ha5, ha6⟩, hnp, hch, hma⟩⟩ := t5 _ p (all_index hm0wf hp)
    have h0 : (0 : Int) ≥ 0 ∧ (0 : Int) < (q.NP : Int) := by omega
    refine ⟨q, holds_of_index hm0wf t1 (t4.trans hlens) hp hq, hnp, hch, hma, ?_, ?_, ?_, ?_⟩
    · exact (if_pos h0).trans (by simp [Particle.vecAt, ha3])
    · exact (if_pos h0).trans (by simp [Particle.vecAt, ha4])
    · exact (if_pos h0).trans (by simp [Particle.vecAt, ha5])
    · intro l hl1 hl2
      have hl : (l : Int) ≥ 0 ∧ (l : Int) < (q.NP : Int) := by omega
      refine ⟨a l, ha1 l hl2, ?_, ?_, ?_, ?_⟩
      · refine (if_pos hl).trans ?_
        unfold Particle.vecAt
        rw [ha3, Int.toNat_natCast, getElem_cons_range _ (fun s => (a s).tCur) k l hl1 hl2]
      · refine (if_pos hl).trans ?_
        unfold Particle.vecAt
        rw [ha4, Int.toNat_natCast, getElem_cons_range _ (fun s => (a s).XCur) k l hl1 hl2]
      · refine (if_pos hl).trans ?_
        unfold Particle.vecAt
        rw [ha5, Int.toNat_natCast, getElem_cons_range _ (fun s => (a s).PCur) k l hl1 hl2]
      · refine (if_pos hl).trans ?_
        unfold Particle.vecAt
        rw [ha6, Int.toNat_natCast, getElem_cons_range _ (fun s => (a s).ACur) k l hl1 hl2]

/-- C36: in an external field `f`, after `k` steps on any number of nodes, the master beam of every node holds, for
every particle of the beam, its starting point followed by the points it has after 1, 2, ..., `k` steps when it is
tracked alone. -/
theorem C36_serial (R : Run σ ω) (f : FieldFn) (hf : ∀ s, R.lattice s = f) (hN : 0 < R.nodes) (ms : List Beam) (hlen : ms.length = R.nodes)
    (hreach : ∀ m ∈ ms, Beam.Reachable m) (m0 : Beam) (hm0 : ms.head? = some m0) (hblank : ∀ m ∈ ms, Beam.blank m = m0.blank)
    (s : σ) (out : ω) (k : Nat) (w : World σ ω) (hw : runSteps R ms s out k = .ok w) :
    w.nodes.length = R.nodes ∧ ∀ n ∈ w.nodes, ∀ i j p, m0.Holds i j p →
      ∃ q, n.master.Holds i j q ∧ q.getNP = k + 1 ∧ q.Charge = p.Charge ∧ q.Mass = p.Mass ∧
        q.TrajTime 0 = .ok p.tCur ∧ q.TrajPoint 0 = .ok p.XCur ∧ q.TrajMomentum 0 = .ok p.PCur ∧
        ∀ l : Nat, 1 ≤ l → l ≤ k → ∃ a, trackAlone m0.dt f p l = .ok a ∧ q.TrajTime l = .ok a.tCur ∧ q.TrajPoint l = .ok a.XCur ∧
          q.TrajMomentum l = .ok a.PCur ∧ q.TrajAccel l = .ok a.ACur :=
  serial_on R f (fun _ => True) ⟨fun s _ => hf s, fun _ _ _ _ _ => trivial, fun _ _ _ _ _ => trivial⟩ hN ms hlen hreach m0 hm0 hblank s trivial out k w hw

theorem mapM_of_get {α β} (f : α → Except Err β) (l : List α) (l' : List β) (hl : l'.length = l.length)
    (h : ∀ (i : Nat) (a : α), l[i]? = some a → ∃ b, l'[i]? = some b ∧ f a = .ok b) : l.mapM f = .ok l' := by
  induction l generalizing l' with
  | nil => rw [List.eq_nil_of_length_eq_zero hl]; rfl
  | cons x l ih =>
    cases l' with
    | nil => simp at hl
    | cons y l' =>
      obtain ⟨b, hb, hf⟩ := h 0 x rfl
      simp only [List.getElem?_cons_zero, Option.some.injEq] at hb
      subst hb
      rw [List.mapM_cons, hf, ih l' (by simpa using hl) (fun i a ha => by simpa using h (i + 1) a (by simpa using ha))]
      rfl

/-- the current points of the particles of the master beams -/
theorem master_current (R : Run σ ω) (f : FieldFn) (K : σ → Prop) (hE : R.ExternalOn f K) (hN : 0 < R.nodes) (ms : List Beam) (hlen : ms.length = R.nodes)
    (hreach : ∀ m ∈ ms, Beam.Reachable m) (m0 : Beam) (hm0 : ms.head? = some m0) (hblank : ∀ m ∈ ms, Beam.blank m = m0.blank)
    (s : σ) (hK : K s) (out : ω) (k : Nat) (w : World σ ω) (hw : runSteps R ms s out k = .ok w) :
    ∀ n ∈ w.nodes, n.master.WF ∧ n.master.B.map Bunch.getNOP = m0.B.map Bunch.getNOP ∧ n.master.all.length = m0.all.length ∧
      ∀ (idx : Nat) (p : Particle), m0.all[idx]? = some p → ∃ q b, n.master.all[idx]? = some q ∧ AfterSteps m0.dt f p k b ∧
        q.Charge = p.Charge ∧ q.tCur = b.tCur ∧ q.XCur = b.XCur ∧ q.PCur = b.PCur ∧ q.ACur = b.ACur := by
  have hwf : ∀ m ∈ ms, Beam.WF m := fun m hm => Beam.wf_reachable (hreach m hm)
  have hm0wf := hwf m0 (List.mem_of_head? hm0)
  obtain ⟨M, hM, hMl, _, hdt, _, hMall, hlens, hset⟩ := setupMasters ms m0 hm0wf hwf hblank R.NOTS
  have hr := runSteps_abs R hN ms hlen hwf m0 hm0 hblank s out M hM hMl hset k
  rw [hr.1] at hw
  cases hA : absRun R (trackingNOP M.all.length R.nodes) M s out k with
  | error e => rw [hA] at hw; cases hw
  | ok A =>
    rw [hA] at hw
    simp only [Except.map] at hw
    injection hw with hw
    subst hw
    obtain ⟨_, t1, t2, t3, t4, t5⟩ := absRun_tracked_on R f K hE _ m0 M hM hMl hdt hMall s hK out k A hA
    intro n hn
    simp only [Abs.world, List.mem_map] at hn
    obtain ⟨c, _, rfl⟩ := hn
    refine ⟨t1, t4.trans hlens, t3, ?_⟩
    intro idx p hp
    obtain ⟨t, q, _, hq, hT⟩ := t5 idx p hp
    obtain ⟨b, hb, hc⟩ := hT.cur
    exact ⟨q, b, hq, hb, hT.charge, hc⟩

/-- the particles tracked by all nodes together are those of the beam, each tracked alone -/
theorem tracked_alone (R : Run σ ω) (f : FieldFn) (K : σ → Prop) (hE : R.ExternalOn f K) (hN : 0 < R.nodes) (ms : List Beam) (hlen : ms.length = R.nodes)
    (hreach : ∀ m ∈ ms, Beam.Reachable m) (m0 : Beam) (hm0 : ms.head? = some m0) (hblank : ∀ m ∈ ms, Beam.blank m = m0.blank)
    (s : σ) (hK : K s) (out : ω) (k : Nat) (w : World σ ω) (hw : runSteps R ms s out k = .ok w) :
    ∃ ps, m0.all.mapM (fun p => trackAlone m0.dt f p k) = .ok ps ∧
      w.nodes.flatMap (fun n => n.tracked.all) = ps.map (Particle.reserve (R.NOTS + 1)) := by
  have hwf : ∀ m ∈ ms, Beam.WF m := fun m hm => Beam.wf_reachable (hreach m hm)
  have hm0wf := hwf m0 (List.mem_of_head? hm0)
  obtain ⟨M, hM, hMl, _, hdt, _, hMall, hlens, hset⟩ := setupMasters ms m0 hm0wf hwf hblank R.NOTS
  have hr := runSteps_abs R hN ms hlen hwf m0 hm0 hblank s out M hM hMl hset k
  rw [hr.1] at hw
  cases hA : absRun R (trackingNOP M.all.length R.nodes) M s out k with
  | error e => rw [hA] at hw; cases hw
  | ok A =>
    rw [hA] at hw
    simp only [Except.map] at hw
    injection hw with hw
    subst hw
    obtain ⟨_, t1, t2, t3, t4, t5⟩ := absRun_tracked_on R f K hE _ m0 M hM hMl hdt hMall s hK out k A hA
    have hflat : (A.world (trackingNOP M.all.length R.nodes) R.nodes).nodes.flatMap (fun n => n.tracked.all) = A.T := by
      unfold Abs.world
      simp only [List.flatMap_map]
      have : (fun c : List Particle => (oneBunch A.dt A.nots c).all) = id := by
        funext c
        simp [oneBunch, Beam.all]
      rw [this, ← List.flatten_eq_flatMap, chunks_flatten]
      rw [t2, t3, hMl]
      exact trackingNOP_ge _ _ hN
    rw [hflat]
    have hex : ∀ p ∈ m0.all, ∃ b, trackAlone m0.dt f p k = .ok b := by
      intro p hp
      obtain ⟨idx, hidx⟩ := List.getElem?_of_mem hp
      obtain ⟨t, q, _, _, ⟨⟨a, ha1, _⟩, _⟩⟩ := t5 idx p hidx
      exact ⟨a k, ha1 k le_rfl⟩
    obtain ⟨ps, hps⟩ : ∃ ps, m0.all.mapM (fun p => trackAlone m0.dt f p k) = .ok ps := by
      clear * - hex
      generalize m0.all = l at hex
      induction l with
      | nil => exact ⟨[], rfl⟩
      | cons x l ih =>
        obtain ⟨b, hb⟩ := hex x (by simp)
        obtain ⟨bs, hbs⟩ := ih (fun p hp => hex p (by simp [hp]))
        exact ⟨b :: bs, by rw [List.mapM_cons, hb, hbs]; rfl⟩
    refine ⟨ps, hps, ?_⟩
    have hl := (mapM_except_length hps).1
    apply List.ext_getElem?
    intro idx
    cases hp : m0.all[idx]? with
    | none =>
      rw [List.getElem?_eq_none_iff] at hp
      rw [List.getElem?_eq_none (by omega), List.getElem?_eq_none (by rw [List.length_map]; omega)]
    | some p =>
      obtain ⟨t, q, ht, _, ⟨⟨a, ha1, ha2, _⟩, _⟩⟩ := t5 idx p hp
      obtain ⟨b, hb1, hb2⟩ := mapM_get hps idx p hp
      rw [ha1 k le_rfl] at hb1
      injection hb1 with hb1
      rw [ht, ha2, List.getElem?_map, hb2, hb1]
      rfl

/-- the beam tracked by the first node for a beam with bunches of the given sizes -/
def Run.FirstShare (R : Run σ ω) (sizes : List Nat) (t : Beam) : Prop :=
  ∃ dt nots ps, t = oneBunch dt nots ps ∧ ps.length = min (trackingNOP sizes.sum R.nodes) sizes.sum

/-- output and interactions do not fail on beams with bunches of the given sizes; `I` is what is known about the
output objects, `I₀` before the run -/
structure Run.Quiet (R : Run σ ω) (sizes : List Nat) (I₀ I : ω → Prop) : Prop where
  start : ∀ m t o, Beam.WF m → m.B.map Bunch.getNOP = sizes → R.FirstShare sizes t → I₀ o → ∃ o', R.startOut m t o = .ok o' ∧ I o'
  step : ∀ k m t o, 1 ≤ k → Beam.WF m → m.B.map Bunch.getNOP = sizes → R.FirstShare sizes t → I o → ∃ o', R.stepOut k m t o = .ok o' ∧ I o'
  init : ∀ m s, ∃ s', R.initInter m s = .ok s'
  inter : ∀ m s, ∃ s', R.stepInter m s = .ok s'

theorem mapM_exists {α β} (f : α → Except Err β) (l : List α) (h : ∀ a ∈ l, ∃ b, f a = .ok b) : ∃ l', l.mapM f = .ok l' := by
  induction l with
  | nil => exact ⟨[], rfl⟩
  | cons a l ih =>
    obtain ⟨b, hb⟩ := h a (by simp)
    obtain ⟨l', hl⟩ := ih (fun x hx => h x (by simp [hx]))
    exact ⟨b :: l', by rw [List.mapM_cons, hb, hl]; rfl⟩

/-- the same, where `K` is what is known about the interactions -/
structure Run.QuietOn (R : Run σ ω) (sizes : List Nat) (I₀ I : ω → Prop) (K : σ → Prop) : Prop where
  start : ∀ m t o, Beam.WF m → m.B.map Bunch.getNOP = sizes → R.FirstShare sizes t → I₀ o → ∃ o', R.startOut m t o = .ok o' ∧ I o'
  step : ∀ k m t o, 1 ≤ k → Beam.WF m → m.B.map Bunch.getNOP = sizes → R.FirstShare sizes t → I o → ∃ o', R.stepOut k m t o = .ok o' ∧ I o'
  init : ∀ m s, K s → ∃ s', R.initInter m s = .ok s' ∧ K s'
  inter : ∀ m s, K s → ∃ s', R.stepInter m s = .ok s' ∧ K s'

theorem progress_on (R : Run σ ω) (m0 : Beam) (I₀ I : ω → Prop) (K : σ → Prop) (hQ : R.QuietOn (m0.B.map Bunch.getNOP) I₀ I K) (hf : ∀ s, K s → ∀ t x, ∃ F, R.lattice s t x = .ok F) (hN : 0 < R.nodes) (ms : List Beam)
    (hlen : ms.length = R.nodes) (hreach : ∀ m ∈ ms, Beam.Reachable m) (hm0 : ms.head? = some m0)
    (hblank : ∀ m ∈ ms, Beam.blank m = m0.blank) (htr : m0.tracker = .vay) (hmass : ∀ i j p, m0.Holds i j p → p.Mass ≠ 0)
    (s : σ) (out : ω) (hI : I₀ out) (hK : K s) (k : Nat) : ∃ w, runSteps R ms s out k = .ok w ∧ I w.out := by
  have hwf : ∀ m ∈ ms, Beam.WF m := fun m hm => Beam.wf_reachable (hreach m hm)
  have hm0wf := hwf m0 (List.mem_of_head? hm0)
  obtain ⟨M, hM, hMl, hMt, hdt, hn0, hMall, hlens, hset⟩ := setupMasters ms m0 hm0wf hwf hblank R.NOTS
  have hr := runSteps_abs R hN ms hlen hwf m0 hm0 hblank s out M hM hMl hset k
  rw [hr.1]
  suffices h : ∃ A, absRun R (trackingNOP M.all.length R.nodes) M s out k = .ok A ∧ A.M.NOTS = k ∧ A.Inv ∧
      A.M.B.map Bunch.getNOP = m0.B.map Bunch.getNOP ∧ I A.out ∧ K A.s by
    obtain ⟨A, hA, _, _, _, hIA, _⟩ := h
    rw [hA]
    exact ⟨_, rfl, hIA⟩
  clear hr
  have hmass' : ∀ p ∈ M.all, p.Mass ≠ 0 ∧ ∃ q, p = receive (Particle.ready (R.NOTS + 1) q) q := by
    intro p hp
    rw [hMall] at hp
    obtain ⟨i, hi⟩ := List.getElem?_of_mem hp
    rw [List.getElem?_zipWith, List.getElem?_map] at hi
    cases hq : m0.all[i]? with
    | none => rw [hq] at hi; simp at hi
    | some q =>
      rw [hq] at hi
      simp only [Option.map_some, Option.some.injEq] at hi
      refine ⟨?_, q, hi.symm⟩
      rw [← hi]
      show q.Mass ≠ 0
      have hqm : q ∈ m0.all := List.mem_of_getElem? hq
      unfold Beam.all at hqm
      rw [List.mem_flatMap] at hqm
      obtain ⟨bu, hb1, hb2⟩ := hqm
      obtain ⟨i, hi⟩ := List.getElem?_of_mem hb1
      obtain ⟨j, hj⟩ := List.getElem?_of_mem hb2
      exact hmass i j q ((holds_iff hm0wf i j q).mpr ⟨bu, hi, hj⟩)
  have hT : ∃ T, (M.all.map (fun p => p.copy.preAllocate ((R.NOTS : Int) + 1))).mapM (fun p => dropState (p.InitVay M.dt (R.lattice s))) = .ok T := by
    apply mapM_exists
    intro p hp
    rw [List.mem_map] at hp
    obtain ⟨p, hp, rfl⟩ := hp
    obtain ⟨hpm, q, rfl⟩ := hmass' p hp
    rw [init_reserve]
    rw [init_single (p := q) rfl rfl rfl rfl rfl, if_neg (show ¬ (q.initTrajectory q.tCur q.XCur q.PCur q.ACur).Mass = 0 from hpm)]
    obtain ⟨F, hF⟩ := hf s hK q.tCur q.XCur
    rw [hF]
    exact ⟨_, rfl⟩
  obtain ⟨T, hT⟩ := hT
  have hTl := (mapM_except_length hT).1
  rw [List.length_map] at hTl
  have hsum : (m0.B.map Bunch.getNOP).sum = M.all.length := by
    rw [← hlens, Beam.all, List.length_flatMap]
    congr 1
    apply List.map_congr_left
    intro c hc
    exact (hM.2 c hc).1
  have hshare : ∀ (dt : ℝ) (nots : Int) (T : List Particle), T.length = M.all.length →
      R.FirstShare (m0.B.map Bunch.getNOP) (oneBunch dt nots (T.take (trackingNOP M.all.length R.nodes))) := by
    intro dt nots T hT
    exact ⟨dt, nots, _, rfl, by rw [List.length_take, hsum, hT]⟩
  induction k with
  | zero =>
    unfold absRun absSetup
    obtain ⟨o, ho, hIo⟩ := hQ.start M (oneBunch M.dt 0 (T.take (trackingNOP M.all.length R.nodes))) out hM hlens (hshare _ _ _ hTl) hI
    obtain ⟨s', hs', hKs'⟩ := hQ.init M s hK
    simp only [hMt, htr, hT, ho, hs', bind, Except.bind, pure, Except.pure, ne_eq, not_true_eq_false, if_false, List.range_zero, List.foldlM_nil]
    exact ⟨_, rfl, by simpa using hn0, ⟨hM, hTl⟩, hlens, hIo, hKs'⟩
  | succ k ih =>
    obtain ⟨A, hA, hnots, hinv, hsz, hIA, hKA⟩ := ih
    have hAlen : A.M.all.length = M.all.length := by
      rw [← hsum, ← hsz, Beam.all, List.length_flatMap]
      congr 1
      apply List.map_congr_left
      intro c hc
      exact (hinv.1.2 c hc).1.symm
    unfold absRun at hA ⊢
    cases h0 : absSetup R (trackingNOP M.all.length R.nodes) M s out with
    | error e => rw [h0] at hA; cases hA
    | ok A0 =>
      rw [h0] at hA
      simp only [bind, Except.bind] at hA ⊢
      rw [List.range_succ, List.foldlM_append, hA]
      simp only [bind, Except.bind, List.foldlM_cons, List.foldlM_nil]
      obtain ⟨T', hT'⟩ := mapM_exists (fun p => dropState (p.StepVay (R.lattice A.s))) A.T (by
        intro p _
        unfold Particle.StepVay
        simp only
        obtain ⟨F, hF⟩ := hf A.s hKA (p.tCur + p.dt) (p.XCur + p.VYp / p.VYgamma * SpeedOfLight * p.dt)
        rw [hF]
        exact ⟨_, rfl⟩)
      have hTl' := (mapM_except_length hT').1
      obtain ⟨M', hset, hMwf, hall, hnots', _, _, hlen', _, hlens'⟩ := setStep_list hinv.1 T' (by rw [hTl', hinv.2])
      have hset0 : A.M.setStepFromBuffer (T'.flatMap Bunch.stepRecord) = .ok M' := by
        have := hset []
        rwa [List.append_nil] at this
      obtain ⟨o, ho, hIo⟩ := hQ.step (k + 1) M' (oneBunch A.dt (A.nots + 1) (T'.take (trackingNOP M.all.length R.nodes))) A.out (by omega) hMwf (hlens'.trans hsz) (hshare _ _ _ (by rw [hTl', hinv.2, hAlen])) hIA
      obtain ⟨s', hs', hKs'⟩ := hQ.inter M' A.s hKA
      have hn : ¬ M'.NOTS ≠ (k : Int) + 1 := by rw [hnots', hnots]; simp
      unfold absStep
      simp only [hT', hset0, ho, hs', bind, Except.bind, pure, Except.pure, if_neg hn]
      refine ⟨_, rfl, by simp only; rw [hnots', hnots]; push_cast; rfl, ⟨hMwf, by simp only; rw [hTl', hinv.2, hlen']⟩, hlens'.trans hsz, hIo, hKs'⟩

/-- C36: the run is not ended by an error when the field is defined everywhere, the particles have masses, the tracker
is the Vay algorithm and the output objects do not fail; so `C36_serial` describes every such run. -/
theorem C36_progress (R : Run σ ω) (m0 : Beam) (I₀ I : ω → Prop) (hQ : R.Quiet (m0.B.map Bunch.getNOP) I₀ I) (hf : ∀ s t x, ∃ F, R.lattice s t x = .ok F) (hN : 0 < R.nodes) (ms : List Beam)
    (hlen : ms.length = R.nodes) (hreach : ∀ m ∈ ms, Beam.Reachable m) (hm0 : ms.head? = some m0)
    (hblank : ∀ m ∈ ms, Beam.blank m = m0.blank) (htr : m0.tracker = .vay) (hmass : ∀ i j p, m0.Holds i j p → p.Mass ≠ 0)
    (s : σ) (out : ω) (hI : I₀ out) (k : Nat) : ∃ w, runSteps R ms s out k = .ok w ∧ I w.out :=
  progress_on R m0 I₀ I (fun _ => True) ⟨hQ.start, hQ.step, fun m s _ => (hQ.init m s).imp (fun _ h => ⟨h, trivial⟩), fun m s _ => (hQ.inter m s).imp (fun _ h => ⟨h, trivial⟩)⟩
    (fun s _ => hf s) hN ms hlen hreach hm0 hblank htr hmass s out hI trivial k

/-- non-vacuity: two nodes track three particles without fields; the second node was given other coordinates -/
noncomputable def demoRun : Run Unit Unit :=
  ⟨2, 5, fun _ _ _ => .ok 0, fun _ _ => .ok (), fun _ _ => .ok (), fun _ _ _ => .ok (), fun _ _ _ _ => .ok (), fun _ _ _ => 7⟩

noncomputable def demoVay : Beam := { demoBeam with tracker := .vay, dt := 1 }

theorem demoVay_reachable : demoVay.Reachable := .setTimeStep 1 (.setTracking .vay demoBeam_reachable)

theorem demoVay_mass : ∀ i j p, demoVay.Holds i j p → p.Mass ≠ 0 := by
  intro i j p h
  obtain ⟨bu, h1, h2⟩ := (holds_iff (Beam.wf_reachable demoVay_reachable) i j p).mp h
  have hb := List.mem_of_getElem? h1
  have hp := List.mem_of_getElem? h2
  simp [demoVay, demoBeam, Beam.Add, Beam.empty, Bunch.ofCount] at hb
  rcases hb with rfl | rfl <;> · simp [Particle.new] at hp; rw [hp]; norm_num

example (k : Nat) : demoRun.MasterOut ∧ demoVay.Holds 1 1 (Particle.new 1 1) ∧ ∃ w, runSteps demoRun [demoVay, demoVay] () () k = .ok w := by
  refine ⟨⟨fun _ _ _ _ => rfl, fun _ _ _ _ _ => rfl⟩, ?_, ?_⟩
  · exact (holds_iff (Beam.wf_reachable demoVay_reachable) 1 1 _).mpr ⟨_, rfl, rfl⟩
  · refine Exists.imp (fun _ h => h.1) <| C36_progress demoRun demoVay (fun _ => True) (fun _ => True) ⟨fun _ _ _ _ _ _ _ => ⟨_, rfl, trivial⟩, fun _ _ _ _ _ _ _ _ _ => ⟨_, rfl, trivial⟩, fun _ _ => ⟨_, rfl⟩, fun _ _ => ⟨_, rfl⟩⟩
      (fun _ _ _ => ⟨0, rfl⟩) (by decide) _ rfl ?_ rfl ?_ rfl demoVay_mass () () trivial k
    · intro m hm; simp at hm; rw [hm]; exact demoVay_reachable
    · intro m hm; simp at hm; rw [hm]

/-- the number of particles of every bunch does not change during the run -/
theorem run_sizes (R : Run σ ω) (hN : 0 < R.nodes) (ms : List Beam) (hlen : ms.length = R.nodes)
    (hreach : ∀ m ∈ ms, Beam.Reachable m) (m0 : Beam) (hm0 : ms.head? = some m0) (hblank : ∀ m ∈ ms, Beam.blank m = m0.blank)
    (s : σ) (out : ω) (k : Nat) (w : World σ ω) (hw : runSteps R ms s out k = .ok w) :
    ∀ n ∈ w.nodes, n.master.WF ∧ n.master.B.map Bunch.getNOP = m0.B.map Bunch.getNOP := by
  have hwf : ∀ m ∈ ms, Beam.WF m := fun m hm => Beam.wf_reachable (hreach m hm)
  have hm0wf := hwf m0 (List.mem_of_head? hm0)
  obtain ⟨M, hM, hMl, _, hdt, _, hMall, hlens, hset⟩ := setupMasters ms m0 hm0wf hwf hblank R.NOTS
  have hr := runSteps_abs R hN ms hlen hwf m0 hm0 hblank s out M hM hMl hset k
  rw [hr.1] at hw
  cases hA : absRun R (trackingNOP M.all.length R.nodes) M s out k with
  | error e => rw [hA] at hw; cases hw
  | ok A =>
    rw [hA] at hw
    simp only [Except.map] at hw
    injection hw with hw
    subst hw
    intro n hn
    simp only [Abs.world, List.mem_map] at hn
    obtain ⟨c, _, rfl⟩ := hn
    show A.M.WF ∧ A.M.B.map Bunch.getNOP = m0.B.map Bunch.getNOP
    rw [← hlens]
    have hk : ∀ j ≤ k, ∀ A', absRun R (trackingNOP M.all.length R.nodes) M s out j = .ok A' → A'.M.WF ∧ A'.M.B.map Bunch.getNOP = M.B.map Bunch.getNOP := by
      intro j
      induction j with
      | zero =>
        intro _ A' hA'
        have h2 := (setupRun_abs R hN ms hlen hwf m0 hm0 hblank s out M hM hMl hset).2 A'
        unfold absRun at hA'
        cases h0 : absSetup R (trackingNOP M.all.length R.nodes) M s out with
        | error e => rw [h0] at hA'; cases hA'
        | ok A0 =>
          rw [h0] at hA'
          simp only [bind, Except.bind, List.range_zero, List.foldlM_nil, pure, Except.pure] at hA'
          injection hA' with hA'
          subst hA'
          obtain ⟨h3, h4, _⟩ := h2 h0
          exact ⟨h3.1, by rw [h4]⟩
      | succ j ih =>
        intro hj A' hA'
        have hB := fun A => (runSteps_abs R hN ms hlen hwf m0 hm0 hblank s out M hM hMl hset j).2 A
        unfold absRun at hA' ih hB
        cases h0 : absSetup R (trackingNOP M.all.length R.nodes) M s out with
        | error e => rw [h0] at hA'; cases hA'
        | ok A0 =>
          rw [h0] at hA' ih hB
          simp only [bind, Except.bind] at hA' ih hB
          rw [List.range_succ, List.foldlM_append] at hA'
          cases hk : (List.range j).foldlM (absStep R (trackingNOP M.all.length R.nodes)) A0 with
          | error e => rw [hk] at hA'; cases hA'
          | ok B =>
            rw [hk] at hA'
            simp only [bind, Except.bind, List.foldlM_cons, List.foldlM_nil] at hA'
            obtain ⟨i1, i2⟩ := ih (by omega) B hk
            obtain ⟨hinv, _⟩ := hB B hk
            cases hst : absStep R (trackingNOP M.all.length R.nodes) B j with
            | error e => rw [hst] at hA'; cases hA'
            | ok C =>
              rw [hst] at hA'
              simp only [pure, Except.pure] at hA'
              injection hA' with hA'
              subst hA'
              unfold absStep at hst
              simp only [bind, Except.bind, pure, Except.pure] at hst
              cases hT : B.T.mapM (fun p => dropState (p.StepVay (R.lattice B.s))) with
              | error e => rw [hT] at hst; cases hst
              | ok T =>
                have hTl := (mapM_except_length hT).1
                obtain ⟨M', hset, hMwf, hall, hnots, _, _, hlen, _, hlens⟩ := setStep_list i1 T (by rw [hTl, hinv.2])
                have hset0 : B.M.setStepFromBuffer (T.flatMap Bunch.stepRecord) = .ok M' := by
                  have := hset []
                  rwa [List.append_nil] at this
                rw [hT] at hst
                simp only [hset0] at hst
                split at hst
                · cases hst
                · try simp only at hst
                  cases ho : R.stepOut (j + 1) M' (oneBunch B.dt (B.nots + 1) (T.take (trackingNOP M.all.length R.nodes))) B.out with
                  | error e => rw [ho] at hst; cases hst
                  | ok o =>
                    rw [ho] at hst
                    simp only at hst
                    cases hi : R.stepInter M' B.s with
                    | error e => rw [hi] at hst; cases hst
                    | ok s' =>
                      rw [hi] at hst
                      simp only at hst
                      injection hst with hst
                      subst hst
                      exact ⟨hMwf, hlens.trans i2⟩
    exact hk k le_rfl A hA

end Teufel
