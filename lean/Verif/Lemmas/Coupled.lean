import Verif.Spec.Coupled
import Verif.Props.HybridSerial

/-! # The reference program advances particles and interactions together -/

namespace Teufel
open Vec

theorem field_acc (s : List FEL) (t : ℝ) (X : Vec) (a : EMField) :
    (s.map (fun f : FEL => InteractionField f.Field)).foldlM (fun (total : EMField) (e : GeneralField) => (e.field t X).map (fun f => total + f)) a
      = (s.mapM (fun f : FEL => f.Field t X)).map (fun Gs => a + Gs.sum) := by
  induction s generalizing a with
  | nil => simp [Except.map, pure, Except.pure]
  | cons f s ih =>
    rw [List.map_cons, List.foldlM_cons, List.mapM_cons]
    have h1 : (InteractionField f.Field).field = f.Field := rfl
    rw [h1]
    cases f.Field t X with
    | error e => rfl
    | ok G =>
      have h2 : Except.map (fun f => a + f) (Except.ok G : Except Err EMField) = .ok (a + G) := rfl
      rw [h2]
      simp only [bind, Except.bind, pure, Except.pure]
      rw [ih]
      cases s.mapM (fun f : FEL => f.Field t X) with
      | error e => rfl
      | ok Gs => simp [Except.map, add_assoc]

/-- the lattice with the interactions has the sum of all fields -/
theorem coupled_field (ext : Lattice) (s : List FEL) :
    Lattice.field (ext ++ s.map (fun f : FEL => InteractionField f.Field)) = Coupled.field ext s := by
  funext t X
  unfold Lattice.field Coupled.field
  rw [List.foldlM_append]
  unfold Lattice.field
  simp only [bind, Except.bind, pure, Except.pure]
  cases ext.foldlM (fun (total : EMField) (e : GeneralField) => (e.field t X).map (fun f => total + f)) 0 with
  | error e => rfl
  | ok F =>
    simp only
    rw [field_acc]
    rfl

theorem deposit_same {f : FEL} {J : List ℝ} {q t : Particle} (h : SameState q t) : f.deposit J q = f.deposit J t := by
  unfold FEL.deposit
  rw [h.t, h.X, h.P, h.A]
  have : q.getCharge = t.getCharge := by unfold Particle.getCharge; rw [h.charge]
  rw [this]

theorem fel_step_same {b b' : Beam} {l l' : List Particle} (hb : b.traverse = .ok l) (hb' : b'.traverse = .ok l') (hn : b.NOTS = b'.NOTS)
    (h : List.Forall₂ SameState l l') : FEL.step b = FEL.step b' := by
  funext f
  unfold FEL.step
  rw [hn, hb, hb']
  have : ∀ J, l.foldlM f.deposit J = l'.foldlM f.deposit J := by
    intro J
    clear hb hb'
    induction h generalizing J with
    | nil => rfl
    | cons hx _ ih =>
      rw [List.foldlM_cons, List.foldlM_cons, deposit_same hx]
      congr 1
      funext J
      exact ih J
  simp only [bind, Except.bind, this]

theorem fel_init_same {b b' : Beam} (h : b.dt = b'.dt) : FEL.init b = FEL.init b' := by
  funext f
  unfold FEL.init
  rw [h]

theorem oneBunch_visits (dt : ℝ) (n : Int) (ps : List Particle) : (oneBunch dt n ps).traverse = .ok ps := by
  have hv : visited 1 [(⟨ps.length, ps⟩ : Bunch)] = .ok [⟨ps.length, ps⟩] := rfl
  unfold Beam.traverse oneBunch
  simp only [hv, bind, Except.bind, List.mapM_cons, List.mapM_nil, pure, Except.pure]
  rw [visited_all rfl]
  simp

theorem mapM_reserved {f : Particle → Except Err Particle} {n : Int} {l : List Particle} (h : ∀ p ∈ l, f (p.reserve n) = (f p).map (Particle.reserve n)) :
    (l.map (Particle.reserve n)).mapM f = (l.mapM f).map (List.map (Particle.reserve n)) := by
  induction l with
  | nil => rfl
  | cons x l ih =>
    rw [List.map_cons, List.mapM_cons, List.mapM_cons, h x (by simp), ih (fun p hp => h p (by simp [hp]))]
    cases f x with
    | error e => rfl
    | ok y =>
      cases l.mapM f <;> rfl

/-- what is known after `k` steps of the reference program: `ps` and the state of the interactions are those of the specification;
`hist l` are the particles after `l` steps -/
structure Together (ext : Lattice) (m0 : Beam) (s : List FEL) (NOTS k : Nat) (M : Beam) (T : List Particle) (S : List FEL) : Prop where
  wf : M.WF
  nots : M.NOTS = k
  sizes : M.B.map Bunch.getNOP = m0.B.map Bunch.getNOP
  now : ∃ ps, Coupled.after ext m0.dt m0.all s k = .ok (ps, S) ∧ T = ps.map (Particle.reserve (NOTS + 1)) ∧
    List.Forall₂ (fun q p => q.Charge = p.Charge ∧ q.Mass = p.Mass ∧ q.tCur = p.tCur ∧ q.XCur = p.XCur ∧ q.PCur = p.PCur ∧ (1 ≤ k → q.ACur = p.ACur)) M.all ps
  np : ∀ q ∈ M.all, q.NP = k + 1 ∧ q.Time.length = k + 1 ∧ q.X.length = k + 1 ∧ q.P.length = k + 1
  past : ∀ l ≤ k, ∃ ps S', Coupled.after ext m0.dt m0.all s l = .ok (ps, S') ∧
    List.Forall₂ (fun q p => q.Time[l]? = some p.tCur ∧ q.X[l]? = some p.XCur ∧ q.P[l]? = some p.PCur) M.all ps

theorem init_keeps {dt : ℝ} {f : FieldFn} {p a : Particle} (h : dropState ((p.initTrajectory p.tCur p.XCur p.PCur p.ACur).InitVay dt f) = .ok a) :
    a.Charge = p.Charge ∧ a.Mass = p.Mass ∧ a.tCur = p.tCur ∧ a.XCur = p.XCur ∧ a.PCur = p.PCur := by
  rw [init_single (p := p) rfl rfl rfl rfl rfl] at h
  split_ifs at h with hm
  cases hf : f p.tCur p.XCur with
  | error e => rw [hf] at h; cases h
  | ok F =>
    rw [hf] at h
    simp only [Except.map] at h
    injection h with h
    subst h
    exact ⟨rfl, rfl, rfl, rfl, rfl⟩

theorem step_keeps {f : FieldFn} {p a : Particle} (h : dropState (p.StepVay f) = .ok a) : a.Charge = p.Charge ∧ a.Mass = p.Mass := by
  unfold Particle.StepVay at h
  simp only at h
  cases hf : f (p.tCur + p.dt) (p.XCur + p.VYp / p.VYgamma * SpeedOfLight * p.dt) with
  | error e => rw [hf] at h; cases h
  | ok F =>
    rw [hf] at h
    simp only [dropState] at h
    injection h with h
    subst h
    exact ⟨rfl, rfl⟩

/-- the particles prepared for tracking -/
theorem init_list (n : Int) (dt : ℝ) (f : FieldFn) (l : List Particle) :
    ((List.zipWith receive (l.map (Particle.ready n)) l).map (fun p => p.copy.preAllocate n)).mapM (fun p => dropState (p.InitVay dt f))
      = (l.mapM (fun p => dropState ((p.initTrajectory p.tCur p.XCur p.PCur p.ACur).InitVay dt f))).map (List.map (Particle.reserve n)) := by
  induction l with
  | nil => rfl
  | cons x l ih =>
    rw [List.map_cons, List.zipWith_cons_cons, List.map_cons, List.mapM_cons, List.mapM_cons, init_reserve, ih]
    cases dropState ((x.initTrajectory x.tCur x.XCur x.PCur x.ACur).InitVay dt f) with
    | error e => rfl
    | ok y => cases l.mapM (fun p => dropState ((p.initTrajectory p.tCur p.XCur p.PCur p.ACur).InitVay dt f)) <;> rfl

theorem forall₂_mapM {α β : Type} {f : α → Except Err β} {l : List α} {l' : List β} (h : l.mapM f = .ok l') : List.Forall₂ (fun a b => f a = .ok b) l l' := by
  induction l generalizing l' with
  | nil => injection h with h; subst h; exact .nil
  | cons x l ih =>
    rw [List.mapM_cons] at h
    cases hx : f x with
    | error e => rw [hx] at h; cases h
    | ok y =>
      rw [hx] at h
      cases hl : l.mapM f with
      | error e => rw [hl] at h; cases h
      | ok ys =>
        rw [hl] at h
        simp only [bind, Except.bind, pure, Except.pure] at h
        injection h with h
        subst h
        exact .cons hx (ih hl)

/-- before the first step -/
theorem together_start {ext : Lattice} {m0 M : Beam} {s S : List FEL} {NOTS : Nat} {qs : List Particle} (hM : M.WF) (hn : M.NOTS = 0) (hdt : M.dt = m0.dt)
    (hMall : M.all = List.zipWith receive (m0.all.map (Particle.ready (NOTS + 1))) m0.all) (hlens : M.B.map Bunch.getNOP = m0.B.map Bunch.getNOP)
    (hqs : m0.all.mapM (fun p => dropState ((p.initTrajectory p.tCur p.XCur p.PCur p.ACur).InitVay m0.dt (Coupled.field ext s))) = .ok qs)
    (hS : s.mapM (FEL.init M) = .ok S) : Together ext m0 s NOTS 0 M (qs.map (Particle.reserve (NOTS + 1))) S := by
  have ha : Coupled.after ext m0.dt m0.all s 0 = .ok (qs, S) := by
    unfold Coupled.after
    rw [hqs]
    rw [fel_init_same (b' := ⟨1, [⟨qs.length, qs⟩], 0, m0.dt, .vay⟩) hdt] at hS
    simp only [bind, Except.bind, hS, pure, Except.pure]
  have hf := forall₂_mapM hqs
  refine ⟨hM, by simpa using hn, hlens, ⟨qs, ha, rfl, ?_⟩, ?_, ?_⟩
  · rw [hMall]
    clear hMall hqs ha
    generalize m0.all = l at hf
    induction hf with
    | nil => exact .nil
    | cons hx _ ih =>
      rw [List.map_cons, List.zipWith_cons_cons]
      obtain ⟨k1, k2, k3, k4, k5⟩ := init_keeps hx
      exact .cons ⟨k1.symm, k2.symm, k3.symm, k4.symm, k5.symm, by omega⟩ ih
  · intro q hq
    rw [hMall] at hq
    obtain ⟨i, hi⟩ := List.getElem?_of_mem hq
    rw [List.getElem?_zipWith, List.getElem?_map] at hi
    cases hp : m0.all[i]? with
    | none => rw [hp] at hi; simp at hi
    | some p =>
      rw [hp] at hi
      simp only [Option.map_some, Option.some.injEq] at hi
      subst hi
      simp [receive, Particle.ready, Particle.clearTrajectory, Particle.preAllocate, Particle.setCurrentPoint, Particle.storeTrajectoryPoint]
  · intro l hl
    obtain rfl : l = 0 := by omega
    refine ⟨qs, S, ha, ?_⟩
    rw [hMall]
    clear hMall hqs ha
    generalize m0.all = l at hf
    induction hf with
    | nil => exact .nil
    | cons hx _ ih =>
      rw [List.map_cons, List.zipWith_cons_cons]
      obtain ⟨k1, k2, k3, k4, k5⟩ := init_keeps hx
      refine .cons ?_ ih
      rw [k3, k4, k5]
      simp [receive, Particle.ready, Particle.clearTrajectory, Particle.preAllocate, Particle.setCurrentPoint, Particle.storeTrajectoryPoint]

/-- one step -/
theorem together_step {ext : Lattice} {m0 M : Beam} {s S : List FEL} {NOTS k : Nat} {T : List Particle} (h : Together ext m0 s NOTS k M T S)
    {ps qs : List Particle} (hps : Coupled.after ext m0.dt m0.all s k = .ok (ps, S))
    (hqs : ps.mapM (fun p => dropState (p.StepVay (Coupled.field ext S))) = .ok qs) :
    ∃ M', M.setStepFromBuffer ((qs.map (Particle.reserve (NOTS + 1))).flatMap Bunch.stepRecord) = .ok M' ∧ M'.NOTS = k + 1 ∧ M'.WF ∧
      M'.B.map Bunch.getNOP = m0.B.map Bunch.getNOP ∧
      FEL.step M' = FEL.step ⟨1, [⟨qs.length, qs⟩], k + 1, m0.dt, .vay⟩ ∧
      ∀ S', S.mapM (FEL.step M') = .ok S' → Together ext m0 s NOTS (k + 1) M' (qs.map (Particle.reserve (NOTS + 1))) S' := by
  obtain ⟨ps', e1, e2, e3⟩ := h.now
  rw [hps] at e1
  injection e1 with e1
  injection e1 with e1 _
  subst e1
  have hql := (mapM_except_length hqs).1
  obtain ⟨M', hset, hMwf, hall, hnots, _, _, hlen, _, hlens⟩ := setStep_list h.wf (qs.map (Particle.reserve (NOTS + 1))) (by rw [List.length_map, hql, e3.length_eq])
  have hset0 := hset []
  rw [List.append_nil] at hset0
  have hf := forall₂_mapM hqs
  have hcur : List.Forall₂ SameState M'.all qs := by
    rw [hall]
    clear * - e3 hf
    generalize M.all = l at e3
    induction e3 generalizing qs with
    | nil => cases hf; exact .nil
    | cons hx _ ih =>
      cases hf with
      | cons hy hf =>
        obtain ⟨k1, k2⟩ := step_keeps hy
        rw [List.map_cons, List.zipWith_cons_cons]
        exact .cons ⟨hx.1.trans k1.symm, hx.2.1.trans k2.symm, rfl, rfl, rfl, rfl⟩ (ih hf)
  have hstep : FEL.step M' = FEL.step ⟨1, [⟨qs.length, qs⟩], k + 1, m0.dt, .vay⟩ :=
    fel_step_same (traverse_all hMwf) (oneBunch_visits m0.dt (k + 1) qs) (by rw [hnots, h.nots]) hcur
  have hn' : M'.NOTS = k + 1 := by rw [hnots, h.nots]
  refine ⟨M', hset0, hn', hMwf, hlens.trans h.sizes, hstep, ?_⟩
  intro S' hS'
  have ha : Coupled.after ext m0.dt m0.all s (k + 1) = .ok (qs, S') := by
    unfold Coupled.after
    rw [hstep] at hS'
    simp only [hps, bind, Except.bind, hqs, hS', pure, Except.pure]
  have hget : ∀ q ∈ M'.all, ∃ q0 t, q0 ∈ M.all ∧ q = receive q0 t := by
    intro q hq
    rw [hall] at hq
    obtain ⟨i, hi⟩ := List.getElem?_of_mem hq
    rw [List.getElem?_zipWith] at hi
    cases hq0 : M.all[i]? with
    | none => rw [hq0] at hi; simp at hi
    | some q0 =>
      cases ht : (qs.map (Particle.reserve (NOTS + 1)))[i]? with
      | none => rw [hq0, ht] at hi; simp at hi
      | some t =>
        rw [hq0, ht] at hi
        simp only [Option.some.injEq] at hi
        exact ⟨q0, t, List.mem_of_getElem? hq0, hi.symm⟩
  refine ⟨hMwf, by rw [hn']; rfl, hlens.trans h.sizes, ⟨qs, ha, rfl, hcur.imp (fun _ _ c => ⟨c.charge, c.mass, c.t, c.X, c.P, fun _ => c.A⟩)⟩, ?_, ?_⟩
  · intro q hq
    obtain ⟨q0, t, h0, rfl⟩ := hget q hq
    obtain ⟨n1, n2, n3, n4⟩ := h.np q0 h0
    simp [receive, Particle.setCurrentPoint, Particle.storeTrajectoryPoint, n1, n2, n3, n4]
  · intro l hl
    by_cases hlk : l ≤ k
    · obtain ⟨ps', S'', p1, p2⟩ := h.past l hlk
      refine ⟨ps', S'', p1, ?_⟩
      rw [hall]
      have hnp := h.np
      have hlen2 : qs.length = M.all.length := by rw [hql, e3.length_eq]
      clear * - p2 hnp hlk hlen2
      generalize M.all = L at p2 hnp hlen2
      induction p2 generalizing qs with
      | nil => exact .nil
      | cons hx _ ih =>
        cases qs with
        | nil => simp at hlen2
        | cons t qs =>
          rw [List.map_cons, List.zipWith_cons_cons]
          refine .cons ?_ (ih (fun q hq => hnp q (by simp [hq])) (by simpa using hlen2))
          obtain ⟨_, n2, n3, n4⟩ := hnp _ (List.mem_cons_self ..)
          simp only [receive, Particle.setCurrentPoint, Particle.storeTrajectoryPoint]
          rw [List.getElem?_append_left (by omega), List.getElem?_append_left (by omega), List.getElem?_append_left (by omega)]
          exact hx
    · obtain rfl : l = k + 1 := by omega
      refine ⟨qs, S', ha, ?_⟩
      rw [hall]
      have hnp := h.np
      have hlen2 : qs.length = M.all.length := by rw [hql, e3.length_eq]
      clear * - hnp hlen2
      generalize M.all = L at hnp hlen2
      induction L generalizing qs with
      | nil => rw [List.eq_nil_of_length_eq_zero hlen2]; exact .nil
      | cons x L ih =>
        cases qs with
        | nil => simp at hlen2
        | cons t qs =>
          rw [List.map_cons, List.zipWith_cons_cons]
          refine .cons ?_ (ih (fun q hq => hnp q (by simp [hq])) (by simpa using hlen2))
          obtain ⟨_, n2, n3, n4⟩ := hnp x (List.mem_cons_self ..)
          simp only [receive, Particle.setCurrentPoint, Particle.storeTrajectoryPoint]
          rw [List.getElem?_append_right (by omega), List.getElem?_append_right (by omega), List.getElem?_append_right (by omega), n2, n3, n4]
          simp [Particle.reserve]

variable {ω : Type}

/-- the reference program keeps particles and interactions together -/
theorem absRun_together (P : FELProgram ω) (TN : Nat) (m0 M : Beam) (hM : M.WF) (hn : M.NOTS = 0) (hdt : M.dt = m0.dt)
    (hMall : M.all = List.zipWith receive (m0.all.map (Particle.ready (P.NOTS + 1))) m0.all) (hlens : M.B.map Bunch.getNOP = m0.B.map Bunch.getNOP)
    (s : List FEL) (out : ω) (k : Nat) (A : Abs (List FEL) ω) (hA : absRun P.run TN M s out k = .ok A) :
    Together P.ext m0 s P.NOTS k A.M A.T A.s := by
  unfold absRun at hA
  cases hs : absSetup P.run TN M s out with
  | error e => rw [hs] at hA; cases hA
  | ok A0 =>
    rw [hs] at hA
    simp only [bind, Except.bind] at hA
    have base : Together P.ext m0 s P.NOTS 0 A0.M A0.T A0.s := by
      unfold absSetup at hs
      split at hs
      · cases hs
      · simp only [bind, Except.bind, pure, Except.pure] at hs
        cases hT : (M.all.map (fun p => p.copy.preAllocate ((P.run.NOTS : Int) + 1))).mapM (fun p => dropState (p.InitVay M.dt (P.run.lattice s))) with
        | error e => rw [hT] at hs; cases hs
        | ok T =>
          rw [hT] at hs
          simp only at hs
          cases ho : P.run.startOut M (oneBunch M.dt 0 (T.take TN)) out with
          | error e => rw [ho] at hs; cases hs
          | ok o =>
            rw [ho] at hs
            simp only at hs
            cases hi : P.run.initInter M s with
            | error e => rw [hi] at hs; cases hs
            | ok s' =>
              rw [hi] at hs
              simp only at hs
              injection hs with hs
              subst hs
              have hlat : P.run.lattice s = Coupled.field P.ext s := coupled_field P.ext s
              rw [hMall, hlat, hdt] at hT
              rw [show P.run.NOTS = P.NOTS from rfl, init_list] at hT
              cases hq : m0.all.mapM (fun p => dropState ((p.initTrajectory p.tCur p.XCur p.PCur p.ACur).InitVay m0.dt (Coupled.field P.ext s))) with
              | error e => rw [hq] at hT; cases hT
              | ok qs =>
                rw [hq] at hT
                simp only [Except.map] at hT
                injection hT with hT
                subst hT
                exact together_start hM hn hdt hMall hlens hq hi
    clear hs
    induction k generalizing A with
    | zero =>
      simp only [List.range_zero, List.foldlM_nil, pure, Except.pure] at hA
      injection hA with hA
      subst hA
      exact base
    | succ k ih =>
      rw [List.range_succ, List.foldlM_append] at hA
      cases hk : (List.range k).foldlM (absStep P.run TN) A0 with
      | error e => rw [hk] at hA; cases hA
      | ok B =>
        rw [hk] at hA
        simp only [bind, Except.bind, List.foldlM_cons, List.foldlM_nil] at hA
        have hB := ih B hk
        cases hst : absStep P.run TN B k with
        | error e => rw [hst] at hA; cases hA
        | ok C =>
          rw [hst] at hA
          simp only [pure, Except.pure] at hA
          injection hA with hA
          subst hA
          obtain ⟨ps, e1, e2, _⟩ := hB.now
          unfold absStep at hst
          have hlat : P.run.lattice B.s = Coupled.field P.ext B.s := coupled_field P.ext B.s
          rw [hlat, e2, mapM_reserved (fun p _ => step_reserve _ _ _)] at hst
          simp only [bind, Except.bind, pure, Except.pure] at hst
          cases hq : ps.mapM (fun p => dropState (p.StepVay (Coupled.field P.ext B.s))) with
          | error e => rw [hq] at hst; cases hst
          | ok qs =>
            rw [hq] at hst
            simp only [Except.map] at hst
            obtain ⟨M', m1, m2, _, _, _, m4⟩ := together_step hB e1 hq
            rw [m1] at hst
            simp only at hst
            split at hst
            · cases hst
            · cases ho : P.run.stepOut (k + 1) M' (oneBunch B.dt (B.nots + 1) ((qs.map (Particle.reserve (P.NOTS + 1))).take TN)) B.out with
              | error e => rw [ho] at hst; cases hst
              | ok o =>
                rw [ho] at hst
                simp only at hst
                cases hi : P.run.stepInter M' B.s with
                | error e => rw [hi] at hst; cases hst
                | ok s' =>
                  rw [hi] at hst
                  simp only at hst
                  injection hst with hst
                  subst hst
                  exact m4 s' hi

/-- the whole distributed program keeps particles and interactions together -/
theorem run_together (P : FELProgram ω) (hN : 0 < P.nodes) (ms : List Beam) (hlen : ms.length = P.nodes)
    (hreach : ∀ m ∈ ms, Beam.Reachable m) (m0 : Beam) (hm0 : ms.head? = some m0) (hblank : ∀ m ∈ ms, Beam.blank m = m0.blank)
    (s : List FEL) (out : ω) (k : Nat) (w : World (List FEL) ω) (hw : runSteps P.run ms s out k = .ok w) :
    w.nodes.length = P.nodes ∧ ∃ M S, Together P.ext m0 s P.NOTS k M (w.nodes.flatMap (fun n => n.tracked.all)) S ∧ ∀ n ∈ w.nodes, n.master = M ∧ n.inter = S := by
  have hwf : ∀ m ∈ ms, Beam.WF m := fun m hm => Beam.wf_reachable (hreach m hm)
  have hm0wf := hwf m0 (List.mem_of_head? hm0)
  obtain ⟨M, hM, hMl, _, hdt, hn0, hMall, hlens, hset⟩ := setupMasters ms m0 hm0wf hwf hblank P.run.NOTS
  have hr := runSteps_abs P.run hN ms hlen hwf m0 hm0 hblank s out M hM hMl hset k
  rw [hr.1] at hw
  cases hA : absRun P.run (trackingNOP M.all.length P.run.nodes) M s out k with
  | error e => rw [hA] at hw; cases hw
  | ok A =>
    rw [hA] at hw
    simp only [Except.map] at hw
    injection hw with hw
    subst hw
    have hT := absRun_together P _ m0 M hM hn0 hdt hMall hlens s out k A hA
    have hflat : (A.world (trackingNOP M.all.length P.run.nodes) P.run.nodes).nodes.flatMap (fun n => n.tracked.all) = A.T := by
      unfold Abs.world
      simp only [List.flatMap_map]
      have : (fun c : List Particle => (oneBunch A.dt A.nots c).all) = id := by
        funext c
        simp [oneBunch, Beam.all]
      rw [this, ← List.flatten_eq_flatMap, chunks_flatten]
      rw [(hr.2 A hA).1.2, (hr.2 A hA).2]
      exact trackingNOP_ge _ _ hN
    refine ⟨by simp [Abs.world, chunks]; rfl, A.M, A.s, by rw [hflat]; exact hT, ?_⟩
    intro n hn
    simp only [Abs.world, List.mem_map] at hn
    obtain ⟨c, _, rfl⟩ := hn
    exact ⟨rfl, rfl⟩

/-- the program runs when particles and interactions run and the output objects do not fail -/
theorem coupled_progress (P : FELProgram ω) (m0 : Beam) (I₀ I : ω → Prop)
    (hstart : ∀ m t o, Beam.WF m → m.B.map Bunch.getNOP = m0.B.map Bunch.getNOP → P.run.FirstShare (m0.B.map Bunch.getNOP) t → I₀ o → ∃ o', P.run.startOut m t o = .ok o' ∧ I o')
    (hstep : ∀ k m t o, 1 ≤ k → Beam.WF m → m.B.map Bunch.getNOP = m0.B.map Bunch.getNOP → P.run.FirstShare (m0.B.map Bunch.getNOP) t → I o → ∃ o', P.run.stepOut k m t o = .ok o' ∧ I o')
    (hN : 0 < P.nodes) (ms : List Beam) (hlen : ms.length = P.nodes) (hreach : ∀ m ∈ ms, Beam.Reachable m) (hm0 : ms.head? = some m0)
    (hblank : ∀ m ∈ ms, Beam.blank m = m0.blank) (htr : m0.tracker = .vay)
    (s : List FEL) (out : ω) (hI : I₀ out) (k : Nat) (hC : ∃ r, Coupled.after P.ext m0.dt m0.all s k = .ok r) :
    ∃ w, runSteps P.run ms s out k = .ok w ∧ I w.out := by
  have hwf : ∀ m ∈ ms, Beam.WF m := fun m hm => Beam.wf_reachable (hreach m hm)
  have hm0wf := hwf m0 (List.mem_of_head? hm0)
  obtain ⟨M, hM, hMl, hMt, hdt, hn0, hMall, hlens, hset⟩ := setupMasters ms m0 hm0wf hwf hblank P.run.NOTS
  have hr := runSteps_abs P.run hN ms hlen hwf m0 hm0 hblank s out M hM hMl hset k
  rw [hr.1]
  suffices h : ∃ A, absRun P.run (trackingNOP M.all.length P.run.nodes) M s out k = .ok A ∧ I A.out by
    obtain ⟨A, hA, hIA⟩ := h
    rw [hA]
    exact ⟨_, rfl, hIA⟩
  clear hr
  have hsum : (m0.B.map Bunch.getNOP).sum = M.all.length := by
    rw [← hlens, Beam.all, List.length_flatMap]
    congr 1
    apply List.map_congr_left
    intro c hc
    exact (hM.2 c hc).1
  have hshare : ∀ (dt : ℝ) (nots : Int) (T : List Particle), T.length = M.all.length →
      P.run.FirstShare (m0.B.map Bunch.getNOP) (oneBunch dt nots (T.take (trackingNOP M.all.length P.run.nodes))) := by
    intro dt nots T hT
    exact ⟨dt, nots, _, rfl, by rw [List.length_take, hsum, hT]⟩
  induction k with
  | zero =>
    obtain ⟨r, hC⟩ := hC
    unfold Coupled.after at hC
    simp only [bind, Except.bind, pure, Except.pure] at hC
    cases hq : m0.all.mapM (fun p => dropState ((p.initTrajectory p.tCur p.XCur p.PCur p.ACur).InitVay m0.dt (Coupled.field P.ext s))) with
    | error e => rw [hq] at hC; cases hC
    | ok qs =>
      rw [hq] at hC
      simp only at hC
      cases hi : s.mapM (FEL.init ⟨1, [⟨qs.length, qs⟩], 0, m0.dt, .vay⟩) with
      | error e => rw [hi] at hC; cases hC
      | ok S =>
        have hi' : P.run.initInter M s = .ok S := by
          show s.mapM (FEL.init M) = .ok S
          rw [fel_init_same (b' := ⟨1, [⟨qs.length, qs⟩], 0, m0.dt, .vay⟩) hdt, hi]
        have hlat : P.run.lattice s = Coupled.field P.ext s := coupled_field P.ext s
        have hT : (M.all.map (fun p => p.copy.preAllocate ((P.run.NOTS : Int) + 1))).mapM (fun p => dropState (p.InitVay M.dt (P.run.lattice s)))
            = .ok (qs.map (Particle.reserve (P.run.NOTS + 1))) := by
          rw [hMall, hlat, hdt, init_list, hq]
          rfl
        have hl : (qs.map (Particle.reserve (P.run.NOTS + 1))).length = M.all.length := by
          rw [List.length_map, (mapM_except_length hq).1, hMl]
        obtain ⟨o, ho, hIo⟩ := hstart M (oneBunch M.dt 0 ((qs.map (Particle.reserve (P.run.NOTS + 1))).take (trackingNOP M.all.length P.run.nodes))) out hM hlens (hshare _ _ _ hl) hI
        unfold absRun absSetup
        simp only [hMt, htr, hT, ho, hi', bind, Except.bind, pure, Except.pure, ne_eq, not_true_eq_false, if_false, List.range_zero, List.foldlM_nil]
        exact ⟨_, rfl, hIo⟩
  | succ k ih =>
    obtain ⟨r, hC⟩ := hC
    unfold Coupled.after at hC
    cases hb : Coupled.after P.ext m0.dt m0.all s k with
    | error e => rw [hb] at hC; cases hC
    | ok before =>
      rw [hb] at hC
      simp only [bind, Except.bind, pure, Except.pure] at hC
      obtain ⟨A, hA, hIA⟩ := ih ⟨_, hb⟩
      have hT := absRun_together P _ m0 M hM hn0 hdt hMall hlens s out k A hA
      obtain ⟨ps, e1, e2, e3⟩ := hT.now
      rw [hb] at e1
      injection e1 with e1
      subst e1
      simp only at hC
      cases hq : ps.mapM (fun p => dropState (p.StepVay (Coupled.field P.ext A.s))) with
      | error e => rw [hq] at hC; cases hC
      | ok qs =>
        rw [hq] at hC
        simp only at hC
        obtain ⟨M', m1, m2, m3, m4, m5, _⟩ := together_step hT hb hq
        rw [← m5] at hC
        cases hi : A.s.mapM (FEL.step M') with
        | error e => rw [hi] at hC; cases hC
        | ok S =>
          have hi' : P.run.stepInter M' A.s = .ok S := hi
          have hAlen : A.M.all.length = M.all.length := by
            rw [← hsum, ← hT.sizes, Beam.all, List.length_flatMap]
            congr 1
            apply List.map_congr_left
            intro c hc
            exact (hT.wf.2 c hc).1.symm
          have hl : (qs.map (Particle.reserve (P.NOTS + 1))).length = M.all.length := by
            rw [List.length_map, (mapM_except_length hq).1, ← e3.length_eq, hAlen]
          obtain ⟨o, ho, hIo⟩ := hstep (k + 1) M' (oneBunch A.dt (A.nots + 1) ((qs.map (Particle.reserve (P.NOTS + 1))).take (trackingNOP M.all.length P.run.nodes))) A.out (by omega) m3 m4 (hshare _ _ _ hl) hIA
          unfold absRun at hA ⊢
          cases h0 : absSetup P.run (trackingNOP M.all.length P.run.nodes) M s out with
          | error e => rw [h0] at hA; cases hA
          | ok A0 =>
            rw [h0] at hA
            simp only [bind, Except.bind] at hA ⊢
            rw [List.range_succ, List.foldlM_append, hA]
            simp only [bind, Except.bind, List.foldlM_cons, List.foldlM_nil]
            have hlat : P.run.lattice A.s = Coupled.field P.ext A.s := coupled_field P.ext A.s
            have hT' : A.T.mapM (fun p => dropState (p.StepVay (P.run.lattice A.s))) = .ok (qs.map (Particle.reserve (P.NOTS + 1))) := by
              rw [hlat, e2, mapM_reserved (fun p _ => step_reserve _ _ _), hq]
              rfl
            have hn : ¬ M'.NOTS ≠ (k : Int) + 1 := by rw [m2]; simp
            unfold absStep
            simp only [hT', m1, ho, hi', bind, Except.bind, pure, Except.pure, if_neg hn]
            exact ⟨_, rfl, hIo⟩

theorem mapM_forall₂ {α β : Type} {f : α → Except Err β} {l : List α} {l' : List β} : l.mapM f = .ok l' ↔ List.Forall₂ (fun a b => f a = .ok b) l l' := by
  refine ⟨forall₂_mapM, fun h => ?_⟩
  induction h with
  | nil => rfl
  | cons hx _ ih => rw [List.mapM_cons, hx, ih]; rfl

theorem mapM_then {α β γ : Type} {f : α → Except Err β} {g : β → Except Err γ} {l : List α} {l' : List γ} :
    (∃ m, l.mapM f = .ok m ∧ m.mapM g = .ok l') ↔ l.mapM (fun a => (f a).bind g) = .ok l' := by
  simp only [mapM_forall₂]
  constructor
  · rintro ⟨m, h1, h2⟩
    induction h1 generalizing l' with
    | nil => cases h2; exact .nil
    | cons hx _ ih =>
      cases h2 with
      | cons hy h2 => exact .cons (by rw [hx]; exact hy) (ih h2)
  · intro h
    induction h with
    | nil => exact ⟨[], .nil, .nil⟩
    | @cons a c l l' hx _ ih =>
      obtain ⟨m, h1, h2⟩ := ih
      cases hf : f a with
      | error e => rw [hf] at hx; cases hx
      | ok b => rw [hf] at hx; exact ⟨b :: m, .cons hf h1, .cons hx h2⟩

/-- without interactions every particle moves alone -/
theorem coupled_alone (ext : Lattice) (dt : ℝ) (ps : List Particle) (k : Nat) (qs : List Particle) (S : List FEL) :
    Coupled.after ext dt ps [] k = .ok (qs, S) ↔ ps.mapM (fun p => trackAlone dt (Lattice.field ext) p k) = .ok qs ∧ S = [] := by
  have hfield : Coupled.field ext [] = Lattice.field ext := by
    rw [← coupled_field]
    simp
  induction k generalizing qs S with
  | zero =>
    unfold Coupled.after
    rw [hfield]
    have : (fun p => trackAlone dt (Lattice.field ext) p 0)
        = (fun p : Particle => dropState ((p.initTrajectory p.tCur p.XCur p.PCur p.ACur).InitVay dt (Lattice.field ext))) := by
      funext p
      unfold trackAlone
      cases dropState ((p.initTrajectory p.tCur p.XCur p.PCur p.ACur).InitVay dt (Lattice.field ext)) <;> rfl
    rw [this]
    cases ps.mapM (fun p : Particle => dropState ((p.initTrajectory p.tCur p.XCur p.PCur p.ACur).InitVay dt (Lattice.field ext))) with
    | error e => simp [bind, Except.bind]
    | ok a => simp [bind, Except.bind, pure, Except.pure, eq_comm]
  | succ k ih =>
    unfold Coupled.after
    simp only [trackAlone_succ]
    rw [← mapM_then]
    cases hb : Coupled.after ext dt ps [] k with
    | error e =>
      simp only [bind, Except.bind, reduceCtorEq, false_iff]
      rintro ⟨⟨m, h1, _⟩, _⟩
      have := (ih m []).mpr ⟨h1, rfl⟩
      rw [hb] at this
      cases this
    | ok r =>
      obtain ⟨b, S'⟩ := r
      obtain ⟨h1, rfl⟩ := (ih b S').mp hb
      simp only [bind, Except.bind, hfield]
      rw [h1]
      cases hq : b.mapM (fun p => dropState (p.StepVay (Lattice.field ext))) with
      | error e =>
        simp only [reduceCtorEq, false_iff]
        rintro ⟨⟨m, h2, h3⟩, _⟩
        injection h2 with h2
        subst h2
        rw [hq] at h3
        cases h3
      | ok c =>
        simp only [List.mapM_nil, pure, Except.pure, Except.ok.injEq, Prod.mk.injEq]
        constructor
        · rintro ⟨rfl, rfl⟩
          exact ⟨⟨b, rfl, hq⟩, rfl⟩
        · rintro ⟨⟨m, rfl, h3⟩, rfl⟩
          rw [hq] at h3
          injection h3 with h3
          exact ⟨h3, rfl⟩

end Teufel
