import Verif.Lemmas.Particle

/-! # C01: trajectory length bookkeeping -/

namespace Teufel

open Vec

theorem accessors_of_cons (p : Particle) (h : p.Cons) :
    (∀ i : Int, 0 ≤ i ∧ i < p.getNP →
      (∃ t, p.TrajTime i = .ok t) ∧ (∃ x, p.TrajPoint i = .ok x) ∧
      (∃ m, p.TrajMomentum i = .ok m) ∧ (∃ a, p.TrajAccel i = .ok a)) ∧
    (∀ i : Int, ¬ (0 ≤ i ∧ i < p.getNP) →
      p.TrajTime i = .error .io ∧ p.TrajPoint i = .error .io ∧
      p.TrajMomentum i = .error .io ∧ p.TrajAccel i = .error .io) := by
  obtain ⟨h1, h2, h3, h4⟩ := h
  constructor
  · intro i hi
    have hi' : i ≥ 0 ∧ i < p.NP := hi
    have hlt : i.toNat < p.NP := by omega
    simp only [Particle.TrajTime, Particle.TrajPoint, Particle.TrajMomentum, Particle.TrajAccel, Particle.vecAt]
    simp only [hi', and_self, if_true]
    rw [List.getElem?_eq_getElem (by omega : i.toNat < p.Time.length),
      List.getElem?_eq_getElem (by omega : i.toNat < p.X.length),
      List.getElem?_eq_getElem (by omega : i.toNat < p.P.length),
      List.getElem?_eq_getElem (by omega : i.toNat < p.A.length)]
    exact ⟨⟨_, rfl⟩, ⟨_, rfl⟩, ⟨_, rfl⟩, ⟨_, rfl⟩⟩
  · intro i hi
    have hi' : ¬ (i ≥ 0 ∧ i < p.NP) := hi
    simp only [Particle.TrajTime, Particle.TrajPoint, Particle.TrajMomentum, Particle.TrajAccel, hi', if_false]
    exact ⟨trivial, trivial, trivial, trivial⟩

/-- C01: for a particle created by any constructor and any history of public operations
(including operations that raise an exception), an index query succeeds exactly for 0 ≤ i < count,
for times, positions, momenta and accelerations alike, and raises IOexception for any other index;
in particular nothing is ever read outside the stored data. -/
theorem C01_bookkeeping (p : Particle) (hp : p.Reachable) :
    (∀ i : Int, 0 ≤ i ∧ i < p.getNP →
      (∃ t, p.TrajTime i = .ok t) ∧ (∃ x, p.TrajPoint i = .ok x) ∧
      (∃ m, p.TrajMomentum i = .ok m) ∧ (∃ a, p.TrajAccel i = .ok a)) ∧
    (∀ i : Int, ¬ (0 ≤ i ∧ i < p.getNP) →
      p.TrajTime i = .error .io ∧ p.TrajPoint i = .error .io ∧
      p.TrajMomentum i = .error .io ∧ p.TrajAccel i = .error .io) := by
  exact accessors_of_cons _ (cons_reachable hp)

/-- C01: no operation ever reads or writes outside the trajectory storage. -/
theorem C01_no_undefined_access (p : Particle) (hp : p.Reachable) (o : POp)
    (hf : ∀ (field : FieldFn) dt t x, (o = .initVay dt field ∨ o = .stepVay field) → field t x ≠ .error .ub) :
    o.raised p ≠ some .ub := by
  have hpc : p.Cons := cons_reachable hp
  obtain ⟨h1, h2, h3, h4⟩ := hpc
  cases o with
  | init t x pm a => simp [POp.raised, POp.result]
  | setCurrent t x pm a => simp [POp.raised, POp.result]
  | store t x pm a => simp [POp.raised, POp.result]
  | clear => simp [POp.raised, POp.result]
  | preAllocate n => simp [POp.raised, POp.result]
  | shift d f =>
    simp only [POp.raised, POp.result, Particle.Shift]
    rw [if_pos (by omega)]; simp
  | mirror o n f =>
    simp only [POp.raised, POp.result, Particle.Mirror]
    rw [if_pos (by omega)]; simp
  | initVay dt field =>
    simp only [POp.raised, POp.result, Particle.InitVay]
    by_cases hn : p.NP < 1
    · simp [hn]
    · have e1 : p.Time ≠ [] := by intro h; rw [h] at h1; simp at h1; omega
      have e2 : p.X ≠ [] := by intro h; rw [h] at h2; simp at h2; omega
      have e3 : p.P ≠ [] := by intro h; rw [h] at h3; simp at h3; omega
      have e4 : p.A ≠ [] := by intro h; rw [h] at h4; simp at h4; omega
      by_cases hm : p.Mass = 0
      · rw [if_neg hn, if_pos hm]; simp
      simp only [hn, hm, if_false, List.getLast?_eq_getLast_of_ne_nil e1, List.getLast?_eq_getLast_of_ne_nil e2,
        List.getLast?_eq_getLast_of_ne_nil e3]
      cases hv : field (p.Time.getLast e1) (p.X.getLast e2) with
      | error e => 
        simp only
        intro hh; injection hh with hh; subst hh
        exact hf field dt _ _ (Or.inl rfl) hv
      | ok EB => simp [e4]
  | stepVay field =>
    simp only [POp.raised, POp.result, Particle.StepVay]
    cases hv : field (p.tCur + p.dt) (p.XCur + p.VYp / p.VYgamma * SpeedOfLight * p.dt) with
    | error e =>
      simp only
      intro hh; injection hh with hh; subst hh
      exact hf field 0 _ _ (Or.inr rfl) hv
    | ok EB => simp
  | copy => simp [POp.raised, POp.result]

/-- C01: a stored point is retrieved at the index equal to the former count; all earlier points are
retrieved unchanged. -/
theorem C01_store_retrieve (p : Particle) (hp : p.Reachable) (t : ℝ) (x pm a : Vec) :
    let p' := POp.exec p (.store t x pm a)
    p'.getNP = p.getNP + 1 ∧
    p'.TrajTime p.getNP = .ok t ∧ p'.TrajPoint p.getNP = .ok x ∧
    p'.TrajMomentum p.getNP = .ok pm ∧ p'.TrajAccel p.getNP = .ok a ∧
    ∀ i : Int, 0 ≤ i ∧ i < p.getNP →
      p'.TrajTime i = p.TrajTime i ∧ p'.TrajPoint i = p.TrajPoint i ∧
      p'.TrajMomentum i = p.TrajMomentum i ∧ p'.TrajAccel i = p.TrajAccel i := by
  have hpc : p.Cons := cons_reachable hp
  obtain ⟨h1, h2, h3, h4⟩ := hpc
  intro p'
  have hp' : p' = p.storeTrajectoryPoint t x pm a := rfl
  have hlast : ((p.NP : Int) ≥ 0 ∧ (p.NP : Int) < ((p.NP + 1 : Nat) : Int)) := by omega
  refine ⟨rfl, ?_, ?_, ?_, ?_, ?_⟩
  · refine (if_pos hlast).trans ?_
    simp [Particle.vecAt, hp', Particle.storeTrajectoryPoint, Particle.getNP, ← h1]
  · refine (if_pos hlast).trans ?_
    simp [Particle.vecAt, hp', Particle.storeTrajectoryPoint, Particle.getNP, ← h2]
  · refine (if_pos hlast).trans ?_
    simp [Particle.vecAt, hp', Particle.storeTrajectoryPoint, Particle.getNP, ← h3]
  · refine (if_pos hlast).trans ?_
    simp [Particle.vecAt, hp', Particle.storeTrajectoryPoint, Particle.getNP, ← h4]
  · intro i hi
    have hi1 : i ≥ 0 ∧ i < (p.NP : Int) := hi
    have hi2 : i ≥ 0 ∧ i < ((p.NP + 1 : Nat) : Int) := by omega
    have key : ∀ {α : Type} (l : List α) (y : α), l.length = p.NP →
        Particle.vecAt (l ++ [y]) i.toNat = Particle.vecAt l i.toNat := by
      intro α l y hl
      simp only [Particle.vecAt]
      rw [List.getElem?_append_left (by omega)]
    refine ⟨?_, ?_, ?_, ?_⟩
    · exact (if_pos hi2).trans ((key _ _ h1).trans (if_pos hi1).symm)
    · exact (if_pos hi2).trans ((key _ _ h2).trans (if_pos hi1).symm)
    · exact (if_pos hi2).trans ((key _ _ h3).trans (if_pos hi1).symm)
    · exact (if_pos hi2).trans ((key _ _ h4).trans (if_pos hi1).symm)

/-- non-vacuity: a history with a step, an exception (tracking without trajectory) and a clear -/
example : ∃ p : Particle, p.Reachable ∧ p = [POp.initVay 1 (fun _ _ => .ok 0), .init 0 0 0 0, .initVay 1 (fun _ _ => .ok 0),
      .stepVay (fun _ _ => .ok 0), .store 3 0 0 0].foldl POp.exec Particle.default ∧ p.getNP = 3 := by
  refine ⟨_, ⟨_, _, Or.inr (Or.inr (Or.inl rfl)), rfl⟩, rfl, ?_⟩
  simp [POp.exec, POp.result, Particle.InitVay, Particle.default, Particle.new, Particle.initTrajectory,
    Particle.StepVay, Particle.storeTrajectoryPoint, Particle.getNP]

end Teufel
