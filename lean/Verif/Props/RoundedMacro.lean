import Verif.Props.RoundedMirror

/-!
# Macro-particles are tracked like single particles
-/

namespace Teufel
open Vec

/-- the same particle with another charge and mass and other reserved memory -/
def Particle.withCharge (p : Particle) (n : Int) (c m : ℝ) : Particle := { p with Npre := n, Charge := c, Mass := m }

/-- a step does not read charge and mass -/
theorem Rounded.step_withCharge {rnd : ℝ → ℝ} {p q : Particle} {f : FieldFn} (n : Int) (c m : ℝ) (h : Rounded.StepVay rnd p f = .ok q) :
    Rounded.StepVay rnd (p.withCharge n c m) f = .ok (q.withCharge n c m) := by
  by_cases hg : p.VYgamma = 0
  · rw [Rounded.step_zero hg] at h
    cases h
  cases hf : f (rnd (p.tCur + p.dt)) (Rounded.nextX rnd p) with
  | error e =>
    rw [Rounded.step_error hg hf] at h
    cases h
  | ok EB =>
    by_cases hd : Rounded.VayDefined rnd p.qmt2 (Rounded.nextP rnd p EB) EB.E EB.B
    · rw [Rounded.step_ok hg hf hd] at h
      cases h
      exact Rounded.step_ok (p := p.withCharge n c m) hg hf hd
    · rw [Rounded.step_nan hg hf hd] at h
      cases h

/-- the start of the tracking reads only the ratio of charge and mass and the trajectory -/
theorem Rounded.init_withCharge {rnd : ℝ → ℝ} {a b q : Particle} {f : FieldFn} {h : ℝ} (hNP : b.NP = a.NP) (hT : b.Time = a.Time) (hX : b.X = a.X)
    (hP : b.P = a.P) (hA : b.A = a.A) (ha : a.Mass ≠ 0) (hb : b.Mass ≠ 0) (hr : b.Charge / b.Mass = a.Charge / a.Mass)
    (e : Rounded.InitVay rnd a h f = .ok q) : Rounded.InitVay rnd b h f = .ok (q.withCharge b.Npre b.Charge b.Mass) := by
  have h1 : ¬ a.NP < 1 := by
    intro h1
    unfold Rounded.InitVay at e
    rw [if_pos h1] at e
    cases e
  have q1 : Rounded.startQm rnd b = Rounded.startQm rnd a := by
    unfold Rounded.startQm
    rw [hr]
  have q2 : Rounded.startQ rnd b h = Rounded.startQ rnd a h := by
    unfold Rounded.startQ
    rw [q1]
  cases gt : a.Time.getLast? with
  | none =>
    rw [Rounded.init_none h1 ha (.inl gt)] at e
    cases e
  | some t =>
  cases gx : a.X.getLast? with
  | none =>
    rw [Rounded.init_none h1 ha (.inr (.inl gx))] at e
    cases e
  | some x =>
  cases gp : a.P.getLast? with
  | none =>
    rw [Rounded.init_none h1 ha (.inr (.inr gp))] at e
    cases e
  | some pm =>
  cases hf : f t x with
  | error e' =>
    rw [Rounded.init_error h1 ha gt gx gp hf] at e
    cases e
  | ok EB =>
    by_cases hd : Rounded.VayDefined rnd (Rounded.startQ rnd a h) pm EB.E EB.B
    · by_cases hA0 : a.A = []
      · rw [Rounded.init_ub h1 ha gt gx gp hf hd hA0] at e
        cases e
      · rw [Rounded.init_ok h1 ha gt gx gp hf hd hA0] at e
        cases e
        rw [Rounded.init_ok (by rwa [hNP]) hb (by rwa [hT]) (by rwa [hX]) (by rwa [hP]) hf (by rwa [q2]) (by rwa [hA])]
        simp [Particle.withCharge, Rounded.started, Rounded.begun, q1, q2, hNP, hT, hX, hP, hA]
    · rw [Rounded.init_nan h1 ha gt gx gp hf hd] at e
      cases e

/-- C135: two particles with the same ratio of charge and mass, like an electron and a macro-particle of many electrons, which start with the same
trajectory and are tracked in the same fields, have the same trajectory to the last bit, whatever the rounding errors. -/
theorem C135_macro_particles (rnd : ℝ → ℝ) (a b : Particle) (hNP : b.NP = a.NP) (hT : b.Time = a.Time) (hX : b.X = a.X) (hP : b.P = a.P) (hA : b.A = a.A)
    (ha : a.Mass ≠ 0) (hb : b.Mass ≠ 0) (hr : b.Charge / b.Mass = a.Charge / a.Mass) (h : ℝ) (f0 : FieldFn) (fs : List FieldFn) (a1 a2 : Particle)
    (e1 : Rounded.InitVay rnd a h f0 = .ok a1) (e2 : Rounded.steps rnd a1 fs = .ok a2) :
    ∃ b1 b2, Rounded.InitVay rnd b h f0 = .ok b1 ∧ Rounded.steps rnd b1 fs = .ok b2 ∧ b2.getNP = a2.getNP ∧ b2.Charge = b.Charge ∧ b2.Mass = b.Mass ∧
      ∀ i : ℕ, b2.TrajTime i = a2.TrajTime i ∧ b2.TrajPoint i = a2.TrajPoint i ∧ b2.TrajMomentum i = a2.TrajMomentum i ∧ b2.TrajAccel i = a2.TrajAccel i := by
  have key : ∀ (fs : List FieldFn) (a1 a2 : Particle), Rounded.steps rnd a1 fs = .ok a2 →
      Rounded.steps rnd (a1.withCharge b.Npre b.Charge b.Mass) fs = .ok (a2.withCharge b.Npre b.Charge b.Mass) := by
    intro fs
    induction fs with
    | nil =>
      intro a1 a2 h
      cases h
      rfl
    | cons f fs ih =>
      intro a1 a2 h
      unfold Rounded.steps at h ⊢
      rw [List.foldlM_cons] at h ⊢
      cases hs : Rounded.StepVay rnd a1 f with
      | error e => rw [hs] at h; cases h
      | ok q =>
        rw [hs] at h
        rw [Rounded.step_withCharge _ _ _ hs]
        exact ih q a2 h
  exact ⟨_, _, Rounded.init_withCharge hNP hT hX hP hA ha hb hr e1, key fs a1 a2 e2, rfl, rfl, rfl, fun i => ⟨rfl, rfl, rfl, rfl⟩⟩

/-- the hypotheses are met: an electron and a macro-particle of a million electrons in crossed fields -/
example : ∃ N : ℕ, ∀ digits : ℕ, N ≤ digits → ∃ a1 a2 b1 b2,
    Rounded.InitVay (binary digits) (POp.exec Particle.default (.init 0 0 ⟨0, 0, 60⟩ 0)) 1e-10 (fun _ _ => .ok ⟨⟨0, 0, 1000⟩, ⟨0, 1, 0⟩⟩) = .ok a1 ∧
    Rounded.steps (binary digits) a1 (List.replicate 100 fun _ _ => .ok ⟨⟨0, 0, 1000⟩, ⟨0, 1, 0⟩⟩) = .ok a2 ∧
    Rounded.InitVay (binary digits) ((Particle.new (-1000000) 1000000).initTrajectory 0 0 ⟨0, 0, 60⟩ 0) 1e-10 (fun _ _ => .ok ⟨⟨0, 0, 1000⟩, ⟨0, 1, 0⟩⟩) = .ok b1 ∧
    Rounded.steps (binary digits) b1 (List.replicate 100 fun _ _ => .ok ⟨⟨0, 0, 1000⟩, ⟨0, 1, 0⟩⟩) = .ok b2 ∧
    ∀ i : ℕ, b2.TrajPoint i = a2.TrajPoint i := by
  obtain ⟨κ, hκ, H⟩ := C133_slower_than_light (-1 / 1 * InvRestMass) 0 60 1000 1 1e-8 (by norm_num)
  obtain ⟨N, hN⟩ := exists_pow_lt_of_lt_one (show 0 < κ * 1e-10 by positivity) (show (1 / 2 : ℝ) < 1 by norm_num)
  refine ⟨N + 1, fun digits hd => ?_⟩
  have hu : (2 : ℝ) ^ (-(digits : Int)) ≤ (1 / 2) ^ N := by
    rw [zpow_neg, zpow_natCast, one_div, inv_pow]
    exact inv_anti₀ (by positivity) (pow_le_pow_right₀ (by norm_num) (by omega))
  obtain ⟨a1, a2, e1, e2, -, -⟩ := H (binary digits) _ (binary_isRounding (by omega)) 1e-10 (by norm_num) (by norm_num) (hu.trans hN.le)
    (fun _ _ => .ok ⟨⟨0, 0, 1000⟩, ⟨0, 1, 0⟩⟩) (List.replicate 100 fun _ _ => .ok ⟨⟨0, 0, 1000⟩, ⟨0, 1, 0⟩⟩)
    (by rw [List.length_replicate]; norm_num)
    (by
      intro f hf t X _
      have hf' : f = fun _ _ => .ok ⟨⟨0, 0, 1000⟩, ⟨0, 1, 0⟩⟩ := by
        rcases List.mem_cons.mp hf with rfl | hf
        · rfl
        · exact List.eq_of_mem_replicate hf
      subst hf'
      refine ⟨_, rfl, ?_, ?_⟩ <;> rw [Vec.norm_def] <;> simp [Vec.abs2nd])
    (POp.exec Particle.default (.init 0 0 ⟨0, 0, 60⟩ 0))
    ⟨_, [.init 0 0 ⟨0, 0, 60⟩ 0], Or.inr (Or.inr (Or.inl rfl)), rfl⟩
    (by simp [POp.exec, POp.result, Particle.initTrajectory, Particle.default, Particle.new])
    (by simp [POp.exec, POp.result, Particle.initTrajectory, Particle.default, Particle.new]) 0 0 ⟨0, 0, 60⟩ rfl rfl rfl
    (by rw [Vec.norm_zero])
    (by
      rw [Vec.norm_def]
      simp [Vec.abs2nd])
  obtain ⟨b1, b2, g1, g2, -, -, -, g3⟩ := C135_macro_particles (binary digits) (POp.exec Particle.default (.init 0 0 ⟨0, 0, 60⟩ 0)) ((Particle.new (-1000000) 1000000).initTrajectory 0 0 ⟨0, 0, 60⟩ 0)
    rfl rfl rfl rfl rfl
    (by simp [POp.exec, POp.result, Particle.initTrajectory, Particle.default, Particle.new]) (by simp [Particle.initTrajectory, Particle.new])
    (by simp [POp.exec, POp.result, Particle.initTrajectory, Particle.default, Particle.new]; try norm_num) _ _ _ a1 a2 e1 e2
  exact ⟨a1, a2, b1, b2, e1, e2, g1, g2, fun i => (g3 i).2.1⟩

end Teufel
