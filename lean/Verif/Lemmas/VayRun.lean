import Verif.Lemmas.Particle

/-! Helper lemmas about runs of the Vay tracker -/

namespace Teufel
open Vec
namespace Particle

/-- the current point is the last stored point -/
def AtEnd (p : Particle) : Prop :=
  1 ≤ p.NP ∧ p.Time.getLast? = some p.tCur ∧ p.X.getLast? = some p.XCur ∧ p.P.getLast? = some p.PCur ∧
  p.A.getLast? = some p.ACur

theorem atEnd_init {p p' : Particle} {dt : ℝ} {f : FieldFn} (h : p.InitVay dt f = .ok p') : p'.AtEnd := by
  obtain ⟨h1, _, t, x, pm, EB, hT, hX, hP, hA, _, rfl⟩ := InitVay_ok h
  exact ⟨h1, hT, hX, hP, by simp⟩

theorem atEnd_step {p p' : Particle} {f : FieldFn} (h : p.StepVay f = .ok p') : p'.AtEnd := by
  obtain ⟨EB, _, rfl⟩ := StepVay_ok h
  simp [AtEnd, storeTrajectoryPoint]

theorem cons_init {p p' : Particle} {dt : ℝ} {f : FieldFn} (hc : p.Cons) (h : p.InitVay dt f = .ok p') : p'.Cons := by
  have := cons_exec p (.initVay dt f) hc
  simp only [POp.exec, POp.result, h] at this
  exact this

theorem cons_step {p p' : Particle} {f : FieldFn} (hc : p.Cons) (h : p.StepVay f = .ok p') : p'.Cons := by
  have := cons_exec p (.stepVay f) hc
  simp only [POp.exec, POp.result, h] at this
  exact this

theorem step_NP {p p' : Particle} {f : FieldFn} (h : p.StepVay f = .ok p') : p'.NP = p.NP + 1 := by
  obtain ⟨EB, _, rfl⟩ := StepVay_ok h
  rfl

theorem step_const {p p' : Particle} {f : FieldFn} (h : p.StepVay f = .ok p') :
    p'.dt = p.dt ∧ p'.qm = p.qm ∧ p'.qmt2 = p.qmt2 ∧ p'.Charge = p.Charge ∧ p'.Mass = p.Mass := by
  obtain ⟨EB, _, rfl⟩ := StepVay_ok h
  exact ⟨rfl, rfl, rfl, rfl, rfl⟩

theorem step_prefix {p p' : Particle} {f : FieldFn} (h : p.StepVay f = .ok p') :
    p.Time <+: p'.Time ∧ p.X <+: p'.X ∧ p.P <+: p'.P ∧ p.A <+: p'.A := by
  obtain ⟨EB, _, rfl⟩ := StepVay_ok h
  simp [storeTrajectoryPoint]

theorem steps_facts {p p' : Particle} {fs : List FieldFn} (h : p.steps fs = .ok p') :
    (p.Cons → p'.Cons) ∧ p'.NP = p.NP + fs.length ∧ p'.dt = p.dt ∧ p'.qm = p.qm ∧ p'.qmt2 = p.qmt2 ∧
    p'.Charge = p.Charge ∧ p'.Mass = p.Mass ∧
    (p.Time <+: p'.Time ∧ p.X <+: p'.X ∧ p.P <+: p'.P ∧ p.A <+: p'.A) ∧ (p.AtEnd → p'.AtEnd) := by
  induction fs generalizing p with
  | nil =>
    rw [steps_nil] at h; injection h with h; subst h
    simp
  | cons f fs ih =>
    obtain ⟨q, h1, h2⟩ := steps_cons_ok h
    obtain ⟨c1, c2, c3, c4, c5, c6, c7, ⟨d1, d2, d3, d4⟩, c9⟩ := ih h2
    obtain ⟨e1, e2, e3, e4, e5⟩ := step_const h1
    obtain ⟨g1, g2, g3, g4⟩ := step_prefix h1
    refine ⟨fun hc => c1 (cons_step hc h1), ?_, c3.trans e1, c4.trans e2, c5.trans e3, c6.trans e4, c7.trans e5,
      ⟨g1.trans d1, g2.trans d2, g3.trans d3, g4.trans d4⟩, fun _ => c9 (atEnd_step h1)⟩
    rw [c2, step_NP h1, List.length_cons]; omega

theorem prefix_get {α} {l m : List α} (h : l <+: m) {i : Nat} {a : α} (hi : l[i]? = some a) : m[i]? = some a := by
  obtain ⟨r, rfl⟩ := h
  have := (List.getElem?_eq_some_iff.mp hi).1
  rw [List.getElem?_append_left this]; exact hi

theorem last_get {α} {l : List α} {n : Nat} {a : α} (hn : l.length = n) (h : l.getLast? = some a) : l[n - 1]? = some a := by
  rw [← hn, ← List.getLast?_eq_getElem?]; exact h

/-- general induction over the stored points of a run: a relation between successive tracker states
gives a relation between successive stored points -/
theorem run_index {p p' : Particle} {fs : List FieldFn} (hc : p.Cons) (he : p.AtEnd) (h : p.steps fs = .ok p')
    (k : Nat) (hk : k ≤ fs.length) :
    ∃ q : Particle, p.steps (fs.take k) = .ok q ∧ q.steps (fs.drop k) = .ok p' ∧
      p'.Time[p.NP - 1 + k]? = some q.tCur ∧ p'.X[p.NP - 1 + k]? = some q.XCur ∧
      p'.P[p.NP - 1 + k]? = some q.PCur ∧ p'.A[p.NP - 1 + k]? = some q.ACur := by
  have hsplit : fs = fs.take k ++ fs.drop k := (List.take_append_drop k fs).symm
  have h' := h
  rw [hsplit, steps, List.foldlM_append] at h'
  cases hq : (fs.take k).foldlM (fun p f => p.StepVay f) p with
  | error e => rw [hq] at h'; simp [bind, Except.bind] at h'
  | ok q =>
    rw [hq] at h'
    have h1 : p.steps (fs.take k) = .ok q := hq
    have h2 : q.steps (fs.drop k) = .ok p' := h'
    obtain ⟨c1, c2, -, -, -, -, -, -, c9⟩ := steps_facts h1
    obtain ⟨-, -, -, -, -, -, -, ⟨d1, d2, d3, d4⟩, -⟩ := steps_facts h2
    obtain ⟨n1, l1, l2, l3, l4⟩ := c9 he
    obtain ⟨k1, k2, k3, k4⟩ := c1 hc
    have hidx : q.NP - 1 = p.NP - 1 + k := by
      have := he.1
      rw [c2, List.length_take]; omega
    refine ⟨q, h1, h2, ?_, ?_, ?_, ?_⟩
    · rw [← hidx]; exact prefix_get d1 (last_get k1 l1)
    · rw [← hidx]; exact prefix_get d2 (last_get k2 l2)
    · rw [← hidx]; exact prefix_get d3 (last_get k3 l3)
    · rw [← hidx]; exact prefix_get d4 (last_get k4 l4)

theorem steps_append_ok {p q : Particle} {a b : List FieldFn} (h : p.steps a = .ok q) : p.steps (a ++ b) = q.steps b := by
  simp only [steps, List.foldlM_append]
  rw [show List.foldlM (fun p f => p.StepVay f) p a = .ok q from h]; rfl

theorem steps_tCur {p p' : Particle} {fs : List FieldFn} (h : p.steps fs = .ok p') :
    p'.tCur = p.tCur + fs.length * p.dt := by
  induction fs generalizing p with
  | nil => rw [steps_nil] at h; injection h with h; subst h; simp
  | cons f fs ih =>
    obtain ⟨q, h1, h2⟩ := steps_cons_ok h
    rw [ih h2, (step_const h1).1]
    obtain ⟨EB, _, rfl⟩ := StepVay_ok h1
    simp only [storeTrajectoryPoint, List.length_cons]
    push_cast; ring

theorem steps_total {p : Particle} {fs : List FieldFn} (hf : ∀ f ∈ fs, ∀ t x, ∃ EB, f t x = .ok EB) :
    ∃ p', p.steps fs = .ok p' := by
  induction fs generalizing p with
  | nil => exact ⟨p, rfl⟩
  | cons f fs ih =>
    obtain ⟨EB, hE⟩ := hf f (by simp) (p.tCur + p.dt) (p.XCur + p.VYp / p.VYgamma * SpeedOfLight * p.dt)
    have : ∃ q, p.StepVay f = .ok q := by
      simp only [StepVay]; rw [hE]; exact ⟨_, rfl⟩
    obtain ⟨q, hq⟩ := this
    obtain ⟨p', hp'⟩ := ih (p := q) (fun g hg => hf g (by simp [hg]))
    refine ⟨p', ?_⟩
    simp only [steps, List.foldlM_cons]
    rw [hq]; exact hp'

theorem init_total {p : Particle} (hc : p.Cons) (hn : 1 ≤ p.NP) (hm : p.Mass ≠ 0) {dt : ℝ} {f : FieldFn}
    (hf : ∀ t x, ∃ EB, f t x = .ok EB) : ∃ p', p.InitVay dt f = .ok p' := by
  obtain ⟨h1, h2, h3, h4⟩ := hc
  have e1 : p.Time ≠ [] := by intro h; rw [h] at h1; simp at h1; omega
  have e2 : p.X ≠ [] := by intro h; rw [h] at h2; simp at h2; omega
  have e3 : p.P ≠ [] := by intro h; rw [h] at h3; simp at h3; omega
  have e4 : p.A ≠ [] := by intro h; rw [h] at h4; simp at h4; omega
  obtain ⟨EB, hE⟩ := hf (p.Time.getLast e1) (p.X.getLast e2)
  simp only [InitVay]
  rw [if_neg (by omega), if_neg hm]
  simp only [List.getLast?_eq_getLast_of_ne_nil e1, List.getLast?_eq_getLast_of_ne_nil e2,
        List.getLast?_eq_getLast_of_ne_nil e3, hE, e4, if_false]
  exact ⟨_, rfl⟩

end Particle
end Teufel
