import Verif.Spec.ParticleOps
import Verif.Lemmas.Vay

namespace Teufel
open Vec

/-- helper invariant -/
def Particle.Cons (p : Particle) : Prop :=
  p.Time.length = p.NP ∧ p.X.length = p.NP ∧ p.P.length = p.NP ∧ p.A.length = p.NP

theorem cons_exec (p : Particle) (o : POp) (h : p.Cons) : (o.exec p).Cons := by
  obtain ⟨h1, h2, h3, h4⟩ := h
  cases o with
  | init t x pm a => simp [POp.exec, POp.result, Particle.initTrajectory, Particle.Cons]
  | setCurrent t x pm a => simp [POp.exec, POp.result, Particle.setCurrentPoint, Particle.Cons, *]
  | store t x pm a => simp [POp.exec, POp.result, Particle.storeTrajectoryPoint, Particle.Cons, *]
  | clear => simp [POp.exec, POp.result, Particle.clearTrajectory, Particle.Cons]
  | preAllocate n => simp [POp.exec, POp.result, Particle.preAllocate, Particle.Cons, *]
  | shift d f =>
    simp only [POp.exec, POp.result, Particle.Shift]
    rw [if_pos (by omega)]
    refine ⟨h1, ?_, h3, h4⟩
    simp [Particle.mapButLast, h2]
  | mirror o n f =>
    simp only [POp.exec, POp.result, Particle.Mirror]
    rw [if_pos (by omega)]
    refine ⟨h1, ?_, ?_, ?_⟩ <;> simp [Particle.mapButLast, *]
  | initVay dt field =>
    simp only [POp.exec, POp.result, Particle.InitVay]
    by_cases hn : p.NP < 1
    · simp only [hn, if_true]; exact ⟨h1, h2, h3, h4⟩
    · by_cases hm : p.Mass = 0
      · rw [if_neg hn, if_pos hm]; exact ⟨h1, h2, h3, h4⟩
      simp only [hn, hm, if_false]
      cases hT : p.Time.getLast? with
      | none => exact ⟨h1, h2, h3, h4⟩
      | some t =>
        cases hX : p.X.getLast? with
        | none => exact ⟨h1, h2, h3, h4⟩
        | some x =>
          cases hP : p.P.getLast? with
          | none => exact ⟨h1, h2, h3, h4⟩
          | some pm =>
            simp only
            cases hf : field t x with
            | error e => exact ⟨h1, h2, h3, h4⟩
            | ok EB =>
              simp only
              by_cases hA : p.A = []
              · rw [if_pos hA]; exact ⟨h1, h2, h3, h4⟩
              · simp only [hA, if_false]
                refine ⟨h1, h2, h3, ?_⟩
                simp only [List.length_append, List.length_dropLast, List.length_singleton]
                omega
  | stepVay field =>
    simp only [POp.exec, POp.result, Particle.StepVay]
    cases hf : field (p.tCur + p.dt) (p.XCur + p.VYp / p.VYgamma * SpeedOfLight * p.dt) with
    | error e => exact ⟨h1, h2, h3, h4⟩
    | ok EB => simp [Particle.storeTrajectoryPoint, Particle.Cons, *]
  | copy =>
    simp only [POp.exec, POp.result, Particle.copy, Particle.Cons]
    by_cases h0 : p.NP > 0
    · simp [h0, *]
    · have : p.NP = 0 := by omega
      simp [this]

theorem cons_history (p : Particle) (ops : List POp) (h : p.Cons) : (ops.foldl POp.exec p).Cons := by
  induction ops generalizing p with
  | nil => exact h
  | cons o ops ih => exact ih _ (cons_exec p o h)

theorem cons_new (q m : ℝ) : (Particle.new q m).Cons := by simp [Particle.Cons, Particle.new]

theorem cons_readTraj {p p' : Particle} {n : Nat} {buf : List ℝ} (h : p.Cons)
    (hr : p.readTraj n buf = .ok p') : p'.Cons := by
  induction n generalizing p buf with
  | zero => simp only [Particle.readTraj] at hr; injection hr with hr; rw [← hr]; exact h
  | succ n ih =>
    match buf, hr with
    | t :: x :: y :: z :: px :: py :: pz :: ax :: ay :: az :: rest, hr =>
      simp only [Particle.readTraj] at hr
      exact ih (cons_exec p (.store t ⟨x, y, z⟩ ⟨px, py, pz⟩ ⟨ax, ay, az⟩) h) hr
    | [], hr | [_], hr | [_,_], hr | [_,_,_], hr | [_,_,_,_], hr | [_,_,_,_,_], hr | [_,_,_,_,_,_], hr
    | [_,_,_,_,_,_,_], hr | [_,_,_,_,_,_,_,_], hr | [_,_,_,_,_,_,_,_,_], hr => simp [Particle.readTraj] at hr

theorem cons_fresh {p : Particle} (h : p.Fresh) : p.Cons := by
  rcases h with ⟨q, m, rfl⟩ | ⟨q, m, n, rfl⟩ | rfl | ⟨buf, hb⟩ | ⟨junk, buf, nT, nP, hb⟩
  · exact cons_new q m
  · exact cons_new q m
  · exact cons_new _ _
  · unfold Particle.fromBuffer at hb
    split at hb
    · injection hb with hb; rw [← hb]; simp [Particle.Cons, Particle.initTrajectory]
    · simp at hb
  · unfold Particle.fromTraj at hb
    split at hb
    · rename_i q m dt qm qmt2 vx vy vz g rest
      simp only [bind, Except.bind] at hb
      split at hb
      · simp at hb
      · rename_i p1 hp1
        have hc : p1.Cons := cons_readTraj (by exact cons_new q m) hp1
        split at hb
        · injection hb with hb; rw [← hb]; exact hc
        · simp at hb
    · simp at hb

theorem cons_reachable {p : Particle} (h : p.Reachable) : p.Cons := by
  obtain ⟨start, ops, hf, rfl⟩ := h
  exact cons_history _ _ (cons_fresh hf)

theorem TrajTime_of_get {p : Particle} (h : p.Cons) {n : Nat} {t : ℝ} (ht : p.Time[n]? = some t) : p.TrajTime n = .ok t := by
  have hl : n < p.NP := by rw [← h.1]; exact (List.getElem?_eq_some_iff.mp ht).1
  refine (if_pos ⟨by omega, by omega⟩).trans ?_
  simp [Particle.vecAt, ht]

theorem TrajPoint_of_get {p : Particle} (h : p.Cons) {n : Nat} {t : Vec} (ht : p.X[n]? = some t) : p.TrajPoint n = .ok t := by
  have hl : n < p.NP := by rw [← h.2.1]; exact (List.getElem?_eq_some_iff.mp ht).1
  refine (if_pos ⟨by omega, by omega⟩).trans ?_
  simp [Particle.vecAt, ht]

theorem TrajMomentum_of_get {p : Particle} (h : p.Cons) {n : Nat} {t : Vec} (ht : p.P[n]? = some t) : p.TrajMomentum n = .ok t := by
  have hl : n < p.NP := by rw [← h.2.2.1]; exact (List.getElem?_eq_some_iff.mp ht).1
  refine (if_pos ⟨by omega, by omega⟩).trans ?_
  simp [Particle.vecAt, ht]

theorem TrajAccel_of_get {p : Particle} (h : p.Cons) {n : Nat} {t : Vec} (ht : p.A[n]? = some t) : p.TrajAccel n = .ok t := by
  have hl : n < p.NP := by rw [← h.2.2.2]; exact (List.getElem?_eq_some_iff.mp ht).1
  refine (if_pos ⟨by omega, by omega⟩).trans ?_
  simp [Particle.vecAt, ht]

theorem get_of_TrajTime {p : Particle} {n : Nat} {t : ℝ} (h : p.TrajTime n = .ok t) : p.Time[n]? = some t := by
  unfold Particle.TrajTime at h
  split at h
  · simp only [Particle.vecAt, Int.toNat_natCast] at h
    split at h
    · rename_i a ha; injection h with h; rw [← h]; exact ha
    · simp at h
  · simp at h

theorem get_of_TrajPoint {p : Particle} {n : Nat} {t : Vec} (h : p.TrajPoint n = .ok t) : p.X[n]? = some t := by
  unfold Particle.TrajPoint at h
  split at h
  · simp only [Particle.vecAt, Int.toNat_natCast] at h
    split at h
    · rename_i a ha; injection h with h; rw [← h]; exact ha
    · simp at h
  · simp at h

theorem get_of_TrajMomentum {p : Particle} {n : Nat} {t : Vec} (h : p.TrajMomentum n = .ok t) : p.P[n]? = some t := by
  unfold Particle.TrajMomentum at h
  split at h
  · simp only [Particle.vecAt, Int.toNat_natCast] at h
    split at h
    · rename_i a ha; injection h with h; rw [← h]; exact ha
    · simp at h
  · simp at h

theorem get_of_TrajAccel {p : Particle} {n : Nat} {t : Vec} (h : p.TrajAccel n = .ok t) : p.A[n]? = some t := by
  unfold Particle.TrajAccel at h
  split at h
  · simp only [Particle.vecAt, Int.toNat_natCast] at h
    split at h
    · rename_i a ha; injection h with h; rw [← h]; exact ha
    · simp at h
  · simp at h

end Teufel
