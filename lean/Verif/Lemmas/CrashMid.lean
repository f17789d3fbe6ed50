import Verif.Lemmas.Crash
import Verif.Spec.Crash

/-!
# The beam at the moment of output
-/

namespace Teufel

theorem shows_of {x : Watch} {m : Beam} {bs : List Particle} {d : WatchData} (hm : m.WF) (hb : List.Forall₂ SamePoint m.all bs) (hw : x.write m = .ok d) : ShowsBeam x bs d := by
  refine ⟨?_, ?_⟩
  · intro ht
    unfold Watch.write at hw
    rw [ht] at hw
    simp only at hw
    rw [watchHDF5_all hm] at hw
    injection hw with hw
    rw [← hw, hb.length_eq]
    congr 1
    clear * - hb
    generalize m.all = l at hb ⊢
    induction hb with
    | nil => rfl
    | cons e _ ih => rw [List.flatMap_cons, List.flatMap_cons, ih, e.2.1, e.2.2]; rfl
  · intro ht
    unfold Watch.write at hw
    rw [ht] at hw
    simp only at hw
    rw [watchSDDS_all hm] at hw
    injection hw with hw
    rw [hb.length_eq] at hw
    refine ⟨_, _, hw.symm, ?_⟩
    clear * - hb
    generalize m.all = l at hb ⊢
    induction hb with
    | nil => exact .nil
    | cons e _ ih =>
      refine .cons ?_ ih
      rw [← e.1, ← e.2.1, ← e.2.2]
      exact ⟨rfl, rfl, rfl, rfl, rfl, rfl, rfl, sddsRow_spec _⟩

theorem after_particles {ext : Lattice} {dt : ℝ} {ps qs : List Particle} {s S : List FEL} {k : Nat} (h : Coupled.after ext dt ps s k = .ok (qs, S)) :
    Coupled.particles ext dt ps s k = .ok qs := by
  cases k with
  | zero =>
    unfold Coupled.after at h
    unfold Coupled.particles
    simp only [bind, Except.bind, pure, Except.pure] at h
    cases hq : ps.mapM (fun p => dropState ((p.initTrajectory p.tCur p.XCur p.PCur p.ACur).InitVay dt (Coupled.field ext s))) with
    | error e => rw [hq] at h; cases h
    | ok a =>
      rw [hq] at h
      simp only at h
      cases hi : s.mapM (FEL.init ⟨1, [⟨a.length, a⟩], 0, dt, .vay⟩) with
      | error e => rw [hi] at h; cases h
      | ok b =>
        rw [hi] at h
        cases h
        rfl
  | succ k =>
    unfold Coupled.after at h
    unfold Coupled.particles
    cases hb : Coupled.after ext dt ps s k with
    | error e => rw [hb] at h; cases h
    | ok r =>
      rw [hb] at h
      simp only [bind, Except.bind, pure, Except.pure] at h ⊢
      cases hq : r.1.mapM (fun p => dropState (p.StepVay (Coupled.field ext r.2))) with
      | error e => rw [hq] at h; cases h
      | ok a' =>
        rw [hq] at h
        simp only at h
        cases hi : r.2.mapM (FEL.step ⟨1, [⟨a'.length, a'⟩], k + 1, dt, .vay⟩) with
        | error e => rw [hi] at h; cases h
        | ok b =>
          rw [hi] at h
          cases h
          rw [hb]
          exact hq

section
variable {σ ω : Type}

theorem interact_idle (nodes : List (Node σ)) : nodes.mapM (Node.interact (fun _ s => .ok s)) = .ok nodes := by
  induction nodes with
  | nil => rfl
  | cons n l ih => rw [List.mapM_cons, ih]; rfl

theorem rankZero_idle (nodes : List (Node σ)) (out : ω) : rankZero (fun _ _ o => .ok o) nodes out = .ok out := by
  cases nodes <;> rfl

/-- the beam written before tracking -/
theorem start_beam (P : FELProgram ω) (hN : 0 < P.nodes) (ms : List Beam) (hlen : ms.length = P.nodes)
    (hreach : ∀ m ∈ ms, Beam.Reachable m) (m0 : Beam) (hm0 : ms.head? = some m0) (hblank : ∀ m ∈ ms, Beam.blank m = m0.blank)
    (s : List FEL) (out : ω) (n : Node (List FEL)) (rest : List (Node (List FEL))) (h : setupNodes P.run ms s = .ok (n :: rest)) :
    n.master.WF ∧ ∃ bs, Coupled.particles P.ext m0.dt m0.all s 0 = .ok bs ∧ List.Forall₂ SamePoint n.master.all bs := by
  have hwf : ∀ m ∈ ms, Beam.WF m := fun m hm => Beam.wf_reachable (hreach m hm)
  have hm0wf := hwf m0 (List.mem_of_head? hm0)
  let R' : Run (List FEL) ω := { P.run with startOut := fun _ _ o => .ok o, initInter := fun _ s => .ok s }
  obtain ⟨M, hM, hMl, _, hdt, hn0, hMall, hlens, hset⟩ := setupMasters ms m0 hm0wf hwf hblank P.run.NOTS
  have hr := runSteps_abs R' hN ms hlen hwf m0 hm0 hblank s out M hM hMl hset 0
  have h1 : setupNodes R' ms s = .ok (n :: rest) := h
  have h2 : runSteps R' ms s out 0 = .ok ⟨n :: rest, out⟩ := by
    have e1 : setupRun R' ms s out = .ok ⟨n :: rest, out⟩ := by
      rw [setupRun_eq, h1]
      show (rankZero (fun _ _ o => .ok o) (n :: rest) out).bind (fun out => (List.mapM (Node.interact (fun _ s => .ok s)) (n :: rest)).map (fun nodes => (⟨nodes, out⟩ : World (List FEL) ω))) = _
      rw [rankZero_idle, interact_idle]
      rfl
    unfold runSteps
    rw [e1]
    rfl
  rw [hr.1] at h2
  unfold absRun at h2
  cases hs : absSetup R' (trackingNOP M.all.length R'.nodes) M s out with
  | error e => rw [hs] at h2; cases h2
  | ok A =>
    rw [hs] at h2
    simp only [bind, Except.bind, List.range_zero, List.foldlM_nil, pure, Except.pure, Except.map, Except.ok.injEq] at h2
    unfold absSetup at hs
    split at hs
    · cases hs
    · simp only [bind, Except.bind, pure, Except.pure] at hs
      cases hT : (M.all.map (fun p => p.copy.preAllocate ((R'.NOTS : Int) + 1))).mapM (fun p => dropState (p.InitVay M.dt (R'.lattice s))) with
      | error e => rw [hT] at hs; cases hs
      | ok T =>
        rw [hT] at hs
        simp only [R', Except.ok.injEq] at hs
        have hlat : R'.lattice s = Coupled.field P.ext s := coupled_field P.ext s
        rw [hMall, hlat, hdt] at hT
        rw [show R'.NOTS = P.NOTS from rfl, init_list] at hT
        cases hq : m0.all.mapM (fun p => dropState ((p.initTrajectory p.tCur p.XCur p.PCur p.ACur).InitVay m0.dt (Coupled.field P.ext s))) with
        | error e => rw [hq] at hT; cases hT
        | ok qs =>
          have hnM : n.master = M := by
            have hn : n ∈ (A.world (trackingNOP M.all.length R'.nodes) R'.nodes).nodes := by rw [h2]; simp
            simp only [Abs.world, List.mem_map] at hn
            obtain ⟨c, _, rfl⟩ := hn
            rw [← hs]
          refine ⟨by rw [hnM]; exact hM, qs, hq, ?_⟩
          rw [hnM, hMall]
          have hf := forall₂_mapM hq
          clear * - hf
          generalize m0.all = l at hf
          induction hf with
          | nil => exact .nil
          | cons hx _ ih =>
            rw [List.map_cons, List.zipWith_cons_cons]
            obtain ⟨k1, k2, k3, k4, k5⟩ := init_keeps hx
            exact .cons ⟨k3.symm, k4.symm, k5.symm⟩ ih

/-- the beam written after a step -/
theorem step_beam (P : FELProgram ω) (hN : 0 < P.nodes) (ms : List Beam) (hlen : ms.length = P.nodes)
    (hreach : ∀ m ∈ ms, Beam.Reachable m) (m0 : Beam) (hm0 : ms.head? = some m0) (hblank : ∀ m ∈ ms, Beam.blank m = m0.blank)
    (s : List FEL) (out : ω) (k : Nat) (w : World (List FEL) ω) (hw : runSteps P.run ms s out k = .ok w)
    (n : Node (List FEL)) (rest : List (Node (List FEL))) (h : stepNodes P.run w.nodes k = .ok (n :: rest)) :
    n.master.WF ∧ ∃ bs, Coupled.particles P.ext m0.dt m0.all s (k + 1) = .ok bs ∧ List.Forall₂ SamePoint n.master.all bs := by
  have hwf : ∀ m ∈ ms, Beam.WF m := fun m hm => Beam.wf_reachable (hreach m hm)
  have hm0wf := hwf m0 (List.mem_of_head? hm0)
  obtain ⟨M, hM, hMl, _, hdt, hn0, hMall, hlens, hset⟩ := setupMasters ms m0 hm0wf hwf hblank P.run.NOTS
  have hr := runSteps_abs P.run hN ms hlen hwf m0 hm0 hblank s out M hM hMl hset k
  rw [hr.1] at hw
  cases hA : absRun P.run (trackingNOP M.all.length P.run.nodes) M s out k with
  | error e => rw [hA] at hw; cases hw
  | ok A =>
    rw [hA] at hw
    simp only [Except.map, Except.ok.injEq] at hw
    subst hw
    have hT := absRun_together P _ m0 M hM hn0 hdt hMall hlens s out k A hA
    obtain ⟨hInv, hAl⟩ := hr.2 A hA
    let R' : Run (List FEL) ω := { P.run with stepOut := fun _ _ _ o => .ok o, stepInter := fun _ s => .ok s }
    have h1 : stepNodes R' (A.world (trackingNOP M.all.length P.run.nodes) P.run.nodes).nodes k = .ok (n :: rest) := h
    have h2 : trackStep R' (A.world (trackingNOP M.all.length P.run.nodes) P.run.nodes) k = .ok ⟨n :: rest, (A.world (trackingNOP M.all.length P.run.nodes) P.run.nodes).out⟩ := by
      rw [trackStep_eq, h1]
      show (((rankZero (fun _ _ o => .ok o) (n :: rest) _).bind _) : Except Err _) = _
      rw [rankZero_idle]
      show ((List.mapM (Node.interact (fun _ s => .ok s)) (n :: rest)).map _ : Except Err _) = _
      rw [interact_idle]
      rfl
    have h3 := (trackStep_abs R' hN A hInv k).1
    rw [hAl] at h3
    have h4 := h3.symm.trans h2
    obtain ⟨ps, e1, e2, e3⟩ := hT.now
    unfold absStep at h4
    have hlat : R'.lattice A.s = Coupled.field P.ext A.s := coupled_field P.ext A.s
    rw [hlat, e2, mapM_reserved (fun p _ => step_reserve _ _ _)] at h4
    simp only [bind, Except.bind, pure, Except.pure] at h4
    cases hq : ps.mapM (fun p => dropState (p.StepVay (Coupled.field P.ext A.s))) with
    | error e => rw [hq] at h4; cases h4
    | ok qs =>
      rw [hq] at h4
      simp only [Except.map] at h4
      have hql := (mapM_except_length hq).1
      obtain ⟨M', hset', hMwf, hall, _⟩ := setStep_list hT.wf (qs.map (Particle.reserve (P.NOTS + 1))) (by rw [List.length_map, hql, e3.length_eq])
      have hset0 := hset' []
      rw [List.append_nil] at hset0
      rw [hset0] at h4
      by_cases hno : M'.NOTS = (k : Int) + 1
      swap
      · simp only [R', ne_eq, hno, not_false_eq_true, if_true] at h4
        cases h4
      · simp only [R', ne_eq, hno, not_true_eq_false, if_false, Except.ok.injEq] at h4
        have hnM : n.master = M' := by
          have hn : n ∈ n :: rest := by simp
          have hns := congrArg World.nodes h4
          simp only at hns
          rw [← hns] at hn
          simp only [Abs.world, List.mem_map] at hn
          obtain ⟨c, _, rfl⟩ := hn
          rfl
        refine ⟨by rw [hnM]; exact hMwf, qs, ?_, ?_⟩
        · have : Coupled.particles P.ext m0.dt m0.all s (k + 1) = (Coupled.after P.ext m0.dt m0.all s k).bind (fun b => b.1.mapM (fun p : Particle => dropState (p.StepVay (Coupled.field P.ext b.2)))) := rfl
          rw [this, e1]
          exact hq
        · rw [hnM, hall]
          have hf := forall₂_mapM hq
          clear * - e3 hf
          generalize A.M.all = l at e3
          induction e3 generalizing qs with
          | nil => cases hf; exact .nil
          | cons hx _ ih =>
            cases hf with
            | cons hy hf =>
              rw [List.map_cons, List.zipWith_cons_cons]
              exact .cons ⟨rfl, rfl, rfl⟩ (ih _ hf)

end
end Teufel
