import Verif.Spec.Reversal
import Verif.Lemmas.VayRun
import Verif.Lemmas.Converge
import Verif.Props.Vay

/-! Property C109: the tracked motion can be run backwards -/

namespace Teufel
open Vec

namespace Particle

/-- the momentum at the end of the half step is the only one on the mass shell that obeys the implicit equation -/
theorem vay_unique (q : ℝ) (P E B : Vec) {g : ℝ} {u : Vec} (hg : 0 < g) (hs : g ^ 2 = 1 + u.abs2nd)
    (hu : u = P + (E / SpeedOfLight + cross (u / g) B) * q) : vayGamma q P E B = g ∧ vayMomentum q P E B = u := by
  have hw0 : P + E / SpeedOfLight * q = u - cross u (B * q) / g := by
    have e : P = u - (E / SpeedOfLight + cross (u / g) B) * q := eq_sub_of_add_eq hu.symm
    rw [e]; ext <;> simp [cross] <;> field_simp <;> ring
  obtain ⟨h0, h4⟩ := vayGamma_facts q P E B
  have hG : vayGamma q P E B = g := by
    rw [hw0] at h4
    have hwa : (u - cross u (B * q) / g).abs2nd = u.abs2nd + (cross u (B * q)).abs2nd / g ^ 2 := by
      rw [sub_eq_add_neg, abs2nd_add, abs2nd_neg, abs2nd_div, dot_neg_right, dot_div_right, dot_cross_left]; ring
    have hwu : dot (u - cross u (B * q) / g) (B * q) = dot u (B * q) := by
      rw [dot_sub_left, dot_div_left, dot_comm (cross _ _), dot_cross_right]; ring
    have hq := quartic_rot hg hs _ hwa hwu
    refine quartic_unique h0 hg ?_ h4 hq
    have := abs2nd_nonneg (B * q)
    positivity
  refine ⟨hG, ?_⟩
  have e : vayMomentum q P E B =
    ((P + E / SpeedOfLight * q) + (B * q / vayGamma q P E B) * dot (P + E / SpeedOfLight * q) (B * q / vayGamma q P E B)
      + cross (P + E / SpeedOfLight * q) (B * q / vayGamma q P E B)) / (1 + (B * q / vayGamma q P E B).abs2nd) := rfl
  rw [e, hG, hw0]
  set t := B * q / g with ht
  have hct : cross u (B * q) / g = cross u t := by
    rw [ht]; ext <;> simp [cross] <;> ring
  rw [hct]
  have hnum : u - cross u t + t * dot (u - cross u t) t + cross (u - cross u t) t = u * (1 + t.abs2nd) := by
    ext <;> simp [cross, dot, abs2nd] <;> ring
  rw [hnum]
  have hpos : 0 < 1 + t.abs2nd := by have := abs2nd_nonneg t; linarith
  ext <;> simp <;> field_simp

/-- the half step towards the past, taken with reversed momentum and field, ends at the reversed momentum from which the half step
towards the centre started -/
theorem vay_back (q : ℝ) (E B : Vec) {g : ℝ} {u : Vec} (hg : 0 < g) (hs : g ^ 2 = 1 + u.abs2nd) :
    vayGamma q (-(u + (E / SpeedOfLight + cross (u / g) B) * q)) E (-B) = g ∧
    vayMomentum q (-(u + (E / SpeedOfLight + cross (u / g) B) * q)) E (-B) = -u := by
  refine vay_unique q _ E (-B) hg (by rw [abs2nd_neg]; exact hs) ?_
  ext <;> simp [cross] <;> ring

/-- the half step towards the centre, taken with the reversed momentum at its start, ends at the reversed momentum at the centre -/
theorem vay_back_centre (q : ℝ) (P E B : Vec) :
    -vayMomentum q P E B + (E / SpeedOfLight + cross (-vayMomentum q P E B / vayGamma q P E B) (-B)) * q = -P := by
  have h := vay_implicit q P E B
  have hg : gammaOf (vayMomentum q P E B) = vayGamma q P E B := by
    unfold gammaOf
    rw [← vay_shell, Real.sqrt_sq (vayGamma_pos q P E B).le]
  rw [velOf_eq, hg] at h
  have e : P = vayMomentum q P E B - (E / SpeedOfLight + cross (vayMomentum q P E B / vayGamma q P E B) B) * q := eq_sub_of_add_eq h.symm
  conv_rhs => rw [e]
  ext <;> simp [cross] <;> ring

theorem vayAccel_back (qm : ℝ) (P E B : Vec) : vayAccel qm (-P) E (-B) = vayAccel qm P E B := by
  unfold vayAccel
  simp only [abs2nd_neg]
  ext <;> simp [cross] <;> left <;> ring

/-- the states of a run: the tracker holds the momentum half a step after the current point -/
structure Runs (p : Particle) (f : FieldFn) (F : EMField) : Prop where
  field : f p.tCur p.XCur = .ok F
  mom : p.VYp = vayMomentum p.qmt2 p.PCur F.E F.B
  gam : p.VYgamma = vayGamma p.qmt2 p.PCur F.E F.B
  acc : p.ACur = vayAccel p.qm p.PCur F.E F.B

theorem runs_init {p p1 : Particle} {dt : ℝ} {f : FieldFn} (h : p.InitVay dt f = .ok p1) : ∃ F, Runs p1 f F := by
  obtain ⟨_, _, t, x, pm, EB, _, _, _, _, hf, rfl⟩ := InitVay_ok h
  exact ⟨EB, hf, rfl, rfl, rfl⟩

theorem runs_step {p p1 : Particle} {f : FieldFn} (h : p.StepVay f = .ok p1) : ∃ F, Runs p1 f F := by
  obtain ⟨EB, hf, rfl⟩ := StepVay_ok h
  exact ⟨EB, hf, rfl, rfl, rfl⟩

/-- the backward state `b` stands where the forward state `q` stands -/
structure Mirrors (q b : Particle) : Prop where
  pos : b.XCur = q.XCur
  mom : b.PCur = -q.PCur
  acc : b.ACur = q.ACur
  dt : b.dt = q.dt
  qm : b.qm = q.qm
  qmt2 : b.qmt2 = q.qmt2

/-- ... and is about to go back to the forward state `q0` -/
def Heads (q0 b : Particle) : Prop := b.VYp = -q0.VYp ∧ b.VYgamma = q0.VYgamma

/-- one step back -/
theorem step_back {q0 q b : Particle} {f g : FieldFn} {t s : ℝ} {F : EMField} (hR : Rewound f t g s) (h : q0.StepVay f = .ok q) (h0 : Runs q0 f F)
    (hm : Mirrors q b) (hh : Heads q0 b) (hs : b.tCur - s = t - q.tCur) :
    ∃ b', b.StepVay g = .ok b' ∧ Mirrors q0 b' ∧ b'.tCur - s = t - q0.tCur ∧
      b'.VYp = vayMomentum q0.qmt2 (-q0.PCur) F.E (-F.B) ∧ b'.VYgamma = vayGamma q0.qmt2 (-q0.PCur) F.E (-F.B) := by
  obtain ⟨k1, k2, k3, -, -⟩ := step_const h
  obtain ⟨EB, -, hq⟩ := StepVay_ok h
  have ht : q.tCur = q0.tCur + q0.dt := by rw [hq]; rfl
  have hx : q.XCur = q0.XCur + q0.VYp / q0.VYgamma * SpeedOfLight * q0.dt := by rw [hq]; rfl
  have ex : b.XCur + b.VYp / b.VYgamma * SpeedOfLight * b.dt = q0.XCur := by
    rw [hm.pos, hh.1, hh.2, hm.dt, k1, hx]
    ext <;> simp <;> ring
  have et : b.tCur + b.dt = s + (t - q0.tCur) := by
    rw [hm.dt, k1]; linarith
  have hf : g (b.tCur + b.dt) (b.XCur + b.VYp / b.VYgamma * SpeedOfLight * b.dt) = .ok F.reversed := by
    rw [ex, et, hR, sub_sub_cancel, h0.field]; rfl
  have hP : b.VYp + (F.reversed.E / SpeedOfLight + cross (b.VYp / b.VYgamma) F.reversed.B) * b.qmt2 = -q0.PCur := by
    rw [hh.1, hh.2, hm.qmt2, k3, h0.mom, h0.gam]
    exact vay_back_centre q0.qmt2 q0.PCur F.E F.B
  cases hb : b.StepVay g with
  | error e => simp only [StepVay] at hb; rw [hf] at hb; simp at hb
  | ok b' =>
    obtain ⟨EB', hf', e'⟩ := StepVay_ok hb
    rw [hf] at hf'
    injection hf' with hf'
    subst hf'
    rw [hP, ex] at e'
    refine ⟨b', rfl, ⟨by rw [e']; rfl, by rw [e']; rfl, ?_, by rw [e']; exact hm.dt.trans k1, by rw [e']; exact hm.qm.trans k2, by rw [e']; exact hm.qmt2.trans k3⟩, ?_, ?_, ?_⟩
    · rw [e', h0.acc]
      show vayAccel b.qm (-q0.PCur) F.E (-F.B) = _
      rw [vayAccel_back, hm.qm, k2]
    · have : b'.tCur = b.tCur + b.dt := by rw [e']; rfl
      rw [this, et]; ring
    · have : b'.VYp = vayMomentum b.qmt2 (-q0.PCur) F.E (-F.B) := by rw [e']; rfl
      rw [this, hm.qmt2, k3]
    · have : b'.VYgamma = vayGamma b.qmt2 (-q0.PCur) F.E (-F.B) := by rw [e']; rfl
      rw [this, hm.qmt2, k3]

/-- after turning round at a state reached by a step, the tracker heads for the state before -/
theorem heads {q0 q : Particle} {f : FieldFn} {F : EMField} (h : q0.StepVay f = .ok q) (h0 : q0.OnShell) (hR : Runs q f F) :
    vayMomentum q.qmt2 (-q.PCur) F.E (-F.B) = -q0.VYp ∧ vayGamma q.qmt2 (-q.PCur) F.E (-F.B) = q0.VYgamma := by
  obtain ⟨EB, hf, hq⟩ := StepVay_ok h
  have e1 : f q.tCur q.XCur = .ok EB := by rw [hq]; exact hf
  rw [hR.field] at e1
  injection e1 with e1
  subst e1
  have e2 : q.PCur = q0.VYp + (F.E / SpeedOfLight + cross (q0.VYp / q0.VYgamma) F.B) * q0.qmt2 := by rw [hq]; rfl
  rw [e2, (step_const h).2.2.1]
  have := vay_back q0.qmt2 F.E F.B h0.1 h0.2
  exact ⟨this.2, this.1⟩

/-- the run back through the states `q n, …, q 0` -/
theorem run_back {f g : FieldFn} {t s : ℝ} (hR : Rewound f t g s) (q : ℕ → Particle) (n : ℕ) (hq : ∀ j, j < n → (q j).StepVay f = .ok (q (j + 1)))
    (h0 : (q 0).OnShell) (h0R : ∃ F, Runs (q 0) f F) (b : Particle) (hm : Mirrors (q n) b) (hh : n ≠ 0 → Heads (q (n - 1)) b)
    (hs : b.tCur - s = t - (q n).tCur) (k : ℕ) (hk : k ≤ n) :
    ∃ b', b.steps (List.replicate k g) = .ok b' ∧ Mirrors (q (n - k)) b' ∧ (k < n → Heads (q (n - k - 1)) b') ∧ b'.tCur - s = t - (q (n - k)).tCur := by
  have hruns : ∀ j, j ≤ n → ∃ F, Runs (q j) f F := by
    intro j hj
    cases j with
    | zero => exact h0R
    | succ j => exact runs_step (hq j (by omega))
  have hshell : ∀ j, j ≤ n → (q j).OnShell := by
    intro j hj
    cases j with
    | zero => exact h0
    | succ j => exact onShell_step (hq j (by omega))
  induction k with
  | zero => exact ⟨b, rfl, hm, fun h => hh (by omega), hs⟩
  | succ k ih =>
    obtain ⟨b', e1, e2, e3, e4⟩ := ih (by omega)
    have hstep := hq (n - (k + 1)) (by omega)
    rw [show n - (k + 1) + 1 = n - k by omega] at hstep
    obtain ⟨F, hF⟩ := hruns (n - (k + 1)) (by omega)
    have e3' := e3 (by omega)
    rw [show n - k - 1 = n - (k + 1) by omega] at e3'
    obtain ⟨b'', f1, f2, f3, f4, f5⟩ := step_back hR hstep hF e2 e3' e4
    refine ⟨b'', ?_, f2, ?_, f3⟩
    · rw [List.replicate_succ', steps_append_ok e1]
      simp only [steps, List.foldlM_cons, List.foldlM_nil, f1, bind, Except.bind, pure, Except.pure]
    · intro hlt
      have hs2 := hq (n - (k + 1) - 1) (by omega)
      rw [show n - (k + 1) - 1 + 1 = n - (k + 1) by omega] at hs2
      obtain ⟨g1, g2⟩ := heads hs2 (hshell _ (by omega)) hF
      exact ⟨f4.trans g1, f5.trans g2⟩

/-- the states of a run one after the other, and where they are stored -/
theorem run_states {p p2 : Particle} {f : FieldFn} {n : ℕ} (hc : p.Cons) (he : p.AtEnd) (h : p.steps (List.replicate n f) = .ok p2) :
    ∃ q : ℕ → Particle, q 0 = p ∧ q n = p2 ∧ (∀ j, j < n → (q j).StepVay f = .ok (q (j + 1))) ∧
      ∀ j, j ≤ n → p2.Time[p.NP - 1 + j]? = some (q j).tCur ∧ p2.X[p.NP - 1 + j]? = some (q j).XCur ∧
        p2.P[p.NP - 1 + j]? = some (q j).PCur ∧ p2.A[p.NP - 1 + j]? = some (q j).ACur := by
  have H : ∀ j, ∃ q : Particle, j ≤ n → p.steps (List.replicate j f) = .ok q ∧ p2.Time[p.NP - 1 + j]? = some q.tCur ∧
      p2.X[p.NP - 1 + j]? = some q.XCur ∧ p2.P[p.NP - 1 + j]? = some q.PCur ∧ p2.A[p.NP - 1 + j]? = some q.ACur := by
    intro j
    by_cases hj : j ≤ n
    · obtain ⟨q, a1, -, a3⟩ := run_index hc he h j (by simpa using hj)
      rw [List.take_replicate, min_eq_left hj] at a1
      exact ⟨q, fun _ => ⟨a1, a3⟩⟩
    · exact ⟨p, fun h => absurd h hj⟩
  choose q hq using H
  have e0 : q 0 = p := by
    have := (hq 0 (by omega)).1
    rw [List.replicate_zero, steps_nil] at this
    injection this with this
    exact this.symm
  have en : q n = p2 := by
    have := (hq n le_rfl).1
    rw [h] at this
    injection this with this
    exact this.symm
  refine ⟨q, e0, en, ?_, fun j hj => (hq j hj).2⟩
  intro j hj
  have a := (hq j (by omega)).1
  have b := (hq (j + 1) (by omega)).1
  rw [List.replicate_succ', steps_append_ok a] at b
  obtain ⟨r, r1, r2⟩ := steps_cons_ok b
  rw [steps_nil] at r2
  injection r2 with r2
  rw [← r2]
  exact r1

end Particle

/-- C109: Whatever a particle has been tracked through, it retraces its way.  Let it be started again at the last point of its trajectory
with the opposite momentum, with the same time step, and in a field that shows the course of the first one backwards with the magnetic field
reversed.  Then it visits exactly the stored points in the opposite order, with exactly the opposite momenta and with the same
accelerations, back to the point where the first run began.  This holds for every field, however violent, and for every step size. -/
theorem C109_retraced (p p1 p2 : Particle) (hp : p.Reachable) (dt : ℝ) (f g : FieldFn) (n : ℕ) (h1 : p.InitVay dt f = .ok p1)
    (h2 : p1.steps (List.replicate n f) = .ok p2) (b : Particle) (hb : b.Reachable) (hq : b.Charge = p.Charge) (hm : b.Mass = p.Mass)
    (t s : ℝ) (X P : Vec) (ht : p2.TrajTime (p2.getNP - 1 : Nat) = .ok t) (hX : p2.TrajPoint (p2.getNP - 1 : Nat) = .ok X)
    (hP : p2.TrajMomentum (p2.getNP - 1 : Nat) = .ok P) (hbt : b.TrajTime (b.getNP - 1 : Nat) = .ok s) (hbX : b.TrajPoint (b.getNP - 1 : Nat) = .ok X)
    (hbP : b.TrajMomentum (b.getNP - 1 : Nat) = .ok (-P)) (hR : Rewound f t g s) :
    ∃ b1 b2 : Particle, b.InitVay dt g = .ok b1 ∧ b1.steps (List.replicate n g) = .ok b2 ∧
      ∀ k : ℕ, k ≤ n → ∃ X P A,
        p2.TrajPoint (p.getNP - 1 + (n - k) : Nat) = .ok X ∧ p2.TrajMomentum (p.getNP - 1 + (n - k) : Nat) = .ok P ∧
        p2.TrajAccel (p.getNP - 1 + (n - k) : Nat) = .ok A ∧
        b2.TrajPoint (b.getNP - 1 + k : Nat) = .ok X ∧ b2.TrajMomentum (b.getNP - 1 + k : Nat) = .ok (-P) ∧
        b2.TrajAccel (b.getNP - 1 + k : Nat) = .ok A ∧ b2.TrajTime (b.getNP - 1 + k : Nat) = .ok (s + k * dt) := by
  simp only [Particle.getNP] at *
  have hc1 := Particle.cons_init (cons_reachable hp) h1
  have he1 := Particle.atEnd_init h1
  obtain ⟨q, q0, qn, qs, qi⟩ := Particle.run_states hc1 he1 h2
  have hNP : p1.NP = p.NP ∧ 1 ≤ p.NP ∧ p.Mass ≠ 0 := by
    obtain ⟨a, a', t, x, pm, EB, _, _, _, _, _, rfl⟩ := Particle.InitVay_ok h1
    exact ⟨rfl, a, a'⟩
  obtain ⟨hNP, hN1, hM⟩ := hNP
  have hk1 : p1.dt = dt ∧ p1.qm = p.Charge / p.Mass * InvRestMass ∧ p1.qmt2 = p.Charge / p.Mass * InvRestMass * 0.5 * dt := by
    obtain ⟨a, a', t, x, pm, EB, _, _, _, _, _, rfl⟩ := Particle.InitVay_ok h1
    exact ⟨rfl, rfl, rfl⟩
  obtain ⟨c2, n2, d2, m2, t2, -, -, -, a2⟩ := Particle.steps_facts h2
  rw [hk1.1] at d2
  rw [hk1.2.1] at m2
  rw [hk1.2.2] at t2
  replace c2 := c2 hc1
  have hlast : p2.NP - 1 = p1.NP - 1 + n := by
    rw [n2, List.length_replicate]; omega
  have L := qi n le_rfl
  rw [← hlast, qn] at L
  have et : p2.tCur = t := by have := get_of_TrajTime ht; rw [L.1] at this; injection this
  have eX : p2.XCur = X := by have := get_of_TrajPoint hX; rw [L.2.1] at this; injection this
  have eP : p2.PCur = P := by have := get_of_TrajMomentum hP; rw [L.2.2.1] at this; injection this
  obtain ⟨F0, hF0⟩ := Particle.runs_init h1
  obtain ⟨F, hF⟩ : ∃ F, Particle.Runs p2 f F := by
    by_cases hn : n = 0
    · subst hn
      rw [← qn, q0]
      exact ⟨F0, hF0⟩
    · have := qs (n - 1) (by omega)
      rw [show n - 1 + 1 = n by omega, qn] at this
      exact Particle.runs_step this
  -- the start of the way back
  have hcb := cons_reachable hb
  have hNb : 1 ≤ b.NP := by
    have := (List.getElem?_eq_some_iff.mp (get_of_TrajTime hbt)).1
    rw [hcb.1] at this
    omega
  have gT : b.Time.getLast? = some s := by rw [List.getLast?_eq_getElem?, hcb.1]; exact get_of_TrajTime hbt
  have gX : b.X.getLast? = some X := by rw [List.getLast?_eq_getElem?, hcb.2.1]; exact get_of_TrajPoint hbX
  have gP : b.P.getLast? = some (-P) := by rw [List.getLast?_eq_getElem?, hcb.2.2.1]; exact get_of_TrajMomentum hbP
  have gA : b.A ≠ [] := by
    intro h0
    have := hcb.2.2.2
    rw [h0] at this
    simp at this
    omega
  have hfield : g s X = .ok F.reversed := by
    have := hR 0 X
    rw [add_zero, sub_zero, ← et, ← eX, hF.field] at this
    rw [← eX, this]; rfl
  have hinit : ∃ b1, b.InitVay dt g = .ok b1 := by
    simp only [Particle.InitVay]
    rw [if_neg (by omega), if_neg (by rw [hm]; exact hM)]
    simp only [gT, gX, gP, hfield, gA, if_false]
    exact ⟨_, rfl⟩
  obtain ⟨b1, hb1⟩ := hinit
  have hstart : Particle.Mirrors p2 b1 ∧ b1.tCur = s ∧ b1.NP = b.NP ∧ b1.VYp = Particle.vayMomentum p2.qmt2 (-p2.PCur) F.E (-F.B) ∧
      b1.VYgamma = Particle.vayGamma p2.qmt2 (-p2.PCur) F.E (-F.B) := by
    obtain ⟨-, -, t', x', pm', EB', hT', hX', hP', -, hf', e⟩ := Particle.InitVay_ok hb1
    rw [gT] at hT'
    rw [gX] at hX'
    rw [gP] at hP'
    cases hT'
    cases hX'
    cases hP'
    rw [hfield] at hf'
    cases hf'
    rw [hq, hm] at e
    refine ⟨⟨by rw [e, eX], by rw [e, eP], ?_, by rw [e, d2], by rw [e, m2], by rw [e, t2]⟩, by rw [e], by rw [e], by rw [e, t2, eP]; rfl, by rw [e, t2, eP]; rfl⟩
    rw [hF.acc, m2, eP, ← Particle.vayAccel_back]
    rw [e]; rfl
  obtain ⟨hmir, htc, hbN, hvp, hvg⟩ := hstart
  have hback := fun k hk => Particle.run_back hR q n qs (by rw [q0]; exact Particle.onShell_init h1) (by rw [q0]; exact ⟨F0, hF0⟩) b1
    (by rw [qn]; exact hmir)
    (by
      intro hn
      have hs2 := qs (n - 1) (by omega)
      rw [show n - 1 + 1 = n by omega, qn] at hs2
      have hsh : (q (n - 1)).OnShell := by
        by_cases h0 : n - 1 = 0
        · rw [h0, q0]; exact Particle.onShell_init h1
        · have := qs (n - 1 - 1) (by omega)
          rw [show n - 1 - 1 + 1 = n - 1 by omega] at this
          exact Particle.onShell_step this
      obtain ⟨g1, g2⟩ := Particle.heads hs2 hsh hF
      exact ⟨hvp.trans g1, hvg.trans g2⟩)
    (by rw [qn, htc, et]; ring) k hk
  obtain ⟨b2, e2, -⟩ := hback n le_rfl
  refine ⟨b1, b2, hb1, e2, fun k hk => ?_⟩
  have hcb1 := Particle.cons_init hcb hb1
  have hcb2 := (Particle.steps_facts e2).1 hcb1
  obtain ⟨r, r0, rn, rs, ri⟩ := Particle.run_states hcb1 (Particle.atEnd_init hb1) e2
  obtain ⟨b', f1, f2, -, f4⟩ := hback k hk
  have hbk : b' = r k := by
    obtain ⟨w, w1, -, w3, w4, w5, w6⟩ := Particle.run_index hcb1 (Particle.atEnd_init hb1) e2 k (by simpa using hk)
    have : ∀ j, j ≤ n → b1.steps (List.replicate j g) = .ok (r j) := by
      intro j hj
      induction j with
      | zero => rw [r0]; rfl
      | succ j ih =>
        rw [List.replicate_succ', Particle.steps_append_ok (ih (by omega))]
        simp only [Particle.steps, List.foldlM_cons, List.foldlM_nil, rs j (by omega), bind, Except.bind, pure, Except.pure]
    have := this k hk
    rw [f1] at this
    injection this
  obtain ⟨z1, z2, z3, z4⟩ := ri k hk
  rw [← hbk, hbN] at z1 z2 z3 z4
  obtain ⟨y1, y2, y3, y4⟩ := qi (n - k) (by omega)
  rw [hNP] at y1 y2 y3 y4
  refine ⟨(q (n - k)).XCur, (q (n - k)).PCur, (q (n - k)).ACur, TrajPoint_of_get c2 y2, TrajMomentum_of_get c2 y3, TrajAccel_of_get c2 y4, ?_, ?_, ?_, ?_⟩
  · rw [← f2.pos]; exact TrajPoint_of_get hcb2 z2
  · rw [← f2.mom]; exact TrajMomentum_of_get hcb2 z3
  · rw [← f2.acc]; exact TrajAccel_of_get hcb2 z4
  · have : s + k * dt = b'.tCur := by
      have := Particle.steps_tCur f1
      rw [this, htc, List.length_replicate, ← hmir.dt.trans d2]
    rw [this]; exact TrajTime_of_get hcb2 z1

/-- the hypotheses are met by an electron that makes 1000 steps in crossed electric and magnetic fields and is then turned round -/
example (E B : Vec) : ∃ (p p1 p2 b : Particle) (t : ℝ) (X P : Vec), p.Reachable ∧ p.InitVay 1 (HomogeneousField E B).field = .ok p1 ∧
    p1.steps (List.replicate 1000 (HomogeneousField E B).field) = .ok p2 ∧ b.Reachable ∧ b.Charge = p.Charge ∧ b.Mass = p.Mass ∧
    p2.TrajTime (p2.getNP - 1 : Nat) = .ok t ∧ p2.TrajPoint (p2.getNP - 1 : Nat) = .ok X ∧ p2.TrajMomentum (p2.getNP - 1 : Nat) = .ok P ∧
    b.TrajTime (b.getNP - 1 : Nat) = .ok 0 ∧ b.TrajPoint (b.getNP - 1 : Nat) = .ok X ∧ b.TrajMomentum (b.getNP - 1 : Nat) = .ok (-P) ∧
    Rewound (HomogeneousField E B).field t (HomogeneousField E (-B)).field 0 := by
  have hr : (Particle.default.initTrajectory 0 0 ⟨1, 2, 3⟩ 0).Reachable := ⟨_, [.init 0 0 ⟨1, 2, 3⟩ 0], Or.inr (Or.inr (Or.inl rfl)), rfl⟩
  obtain ⟨a1, h1⟩ := Particle.init_total (p := Particle.default.initTrajectory 0 0 ⟨1, 2, 3⟩ 0) (cons_reachable hr) le_rfl (by simp [Particle.initTrajectory, Particle.default, Particle.new])
    (dt := 1) (f := (HomogeneousField E B).field) (fun t x => ⟨_, rfl⟩)
  obtain ⟨a2, h2⟩ := Particle.steps_total (p := a1) (fs := List.replicate 1000 (HomogeneousField E B).field) (by
    intro f hf t x
    rw [List.eq_of_mem_replicate hf]
    exact ⟨_, rfl⟩)
  have hc1 := Particle.cons_init (cons_reachable hr) h1
  obtain ⟨hc2, -, -, -, -, -, -, -, he⟩ := Particle.steps_facts h2
  replace hc2 := hc2 hc1
  obtain ⟨e0, e1, e2, e3, -⟩ := he (Particle.atEnd_init h1)
  refine ⟨_, a1, a2, Particle.default.initTrajectory 0 a2.XCur (-a2.PCur) 0, a2.tCur, a2.XCur, a2.PCur, hr, h1, h2,
    ⟨_, [.init 0 a2.XCur (-a2.PCur) 0], Or.inr (Or.inr (Or.inl rfl)), rfl⟩, rfl, rfl, TrajTime_of_get hc2 (Particle.last_get hc2.1 e1),
    TrajPoint_of_get hc2 (Particle.last_get hc2.2.1 e2), TrajMomentum_of_get hc2 (Particle.last_get hc2.2.2.1 e3), rfl, rfl, rfl, fun d x => rfl⟩

end Teufel
