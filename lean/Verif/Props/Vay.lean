import Verif.Lemmas.VayRun

/-!
# C02 - C05: Vay tracking

All theorems are about a run: a particle `p` any program can hold (`Reachable`), `InitVay` with time step
`dt` and field `f0`, giving `p1`, then one `StepVay` per field of the list `fs`, giving `p2`.
The fields are arbitrary functions of time and position, may differ from step to step, and may raise
exceptions (then the run stops and there is no `p2`).
-/

namespace Teufel
open Vec

/-- C02: after any number of steps the carried Lorentz factor is sqrt(1+|p|²) of the carried momentum. -/
theorem C02_mass_shell (p p1 p2 : Particle) (dt : ℝ) (f0 : FieldFn) (fs : List FieldFn)
    (h1 : p.InitVay dt f0 = .ok p1) (h2 : p1.steps fs = .ok p2) :
    p2.VYgamma = Real.sqrt (1 + norm p2.VYp ^ 2) ∧ 1 ≤ p2.VYgamma := by
  obtain ⟨hg, hs⟩ := Particle.onShell_steps (Particle.onShell_init h1) h2
  have e : p2.VYgamma = Real.sqrt (1 + norm p2.VYp ^ 2) := by
    rw [Vec.norm_sq, ← hs, Real.sqrt_sq hg.le]
  refine ⟨e, ?_⟩
  have := abs2nd_nonneg p2.VYp
  nlinarith

/-- an operation keeps the carried momentum on the mass shell, also if it fails -/
theorem onShell_exec {p : Particle} (h : p.OnShell) (o : POp) : (o.exec p).OnShell := by
  cases o with
  | init t x pm a => exact h
  | setCurrent t x pm a => exact h
  | store t x pm a => exact h
  | clear => exact h
  | preAllocate n => exact h
  | copy => exact h
  | shift d f =>
    simp only [POp.exec, POp.result, Particle.Shift]
    split_ifs <;> exact h
  | mirror o n f =>
    simp only [POp.exec, POp.result, Particle.Mirror]
    split_ifs <;> exact h
  | stepVay field =>
    simp only [POp.exec, POp.result]
    cases hs : p.StepVay field with
    | ok p' => exact Particle.onShell_step hs
    | error e =>
      obtain ⟨e, p'⟩ := e
      unfold Particle.StepVay at hs
      simp only at hs
      split at hs
      · cases hs; exact h
      · cases hs
  | initVay dt field =>
    simp only [POp.exec, POp.result]
    cases hs : p.InitVay dt field with
    | ok p' => exact Particle.onShell_init hs
    | error e =>
      obtain ⟨e, p'⟩ := e
      unfold Particle.InitVay at hs
      simp only at hs
      have shell : ∀ a pm E B, (0 : ℝ) < Particle.vayGamma a pm E B ∧
          (Particle.vayGamma a pm E B) ^ 2 = 1 + (Particle.vayMomentum a pm E B).abs2nd :=
        fun _ _ _ _ => ⟨Particle.vayGamma_pos _ _ _ _, Particle.vay_shell _ _ _ _⟩
      split_ifs at hs
      · cases hs; exact h
      · cases hs; exact h
      · split at hs
        · split at hs
          · cases hs; exact h
          · cases hs; exact shell _ _ _ _
        · cases hs; exact h
      · split at hs
        · split at hs
          · cases hs; exact h
          · cases hs
        · cases hs; exact h

/-- C02: the momentum carried from step to step is on the mass shell at all times, also before tracking starts and after
failed operations, for every particle that has not been restored from a trajectory message. -/
theorem C02_always (p : Particle) (start : Particle) (ops : List POp) (hp : p = ops.foldl POp.exec start)
    (hs : (∃ q m, start = Particle.new q m) ∨ (∃ q m n, start = Particle.newPre q m n) ∨ start = Particle.default ∨
      (∃ buf, Particle.fromBuffer buf = .ok start)) : p.VYgamma = Real.sqrt (1 + norm p.VYp ^ 2) := by
  have hnew : ∀ q m, (Particle.new q m).OnShell := fun q m => ⟨by simp [Particle.new], by simp [Particle.new, abs2nd]⟩
  have h0 : start.OnShell := by
    rcases hs with ⟨q, m, rfl⟩ | ⟨q, m, n, rfl⟩ | rfl | ⟨buf, h⟩
    · exact hnew q m
    · exact hnew q m
    · exact hnew _ _
    · unfold Particle.fromBuffer at h
      split at h
      · rename_i q m _ _ _ _ _ _ _ _ _ _ _; cases h; exact hnew q m
      · cases h
  have h1 : p.OnShell := by
    subst hp
    clear hs
    induction ops generalizing start with
    | nil => exact h0
    | cons o ops ih => exact ih _ (onShell_exec h0 o)
  obtain ⟨hg, hs⟩ := h1
  rw [Vec.norm_sq, ← hs, Real.sqrt_sq hg.le]

example : (Particle.new (-1) 1).VYgamma = Real.sqrt (1 + norm (Particle.new (-1) 1).VYp ^ 2) :=
  C02_always _ _ [] rfl (Or.inl ⟨-1, 1, rfl⟩)

theorem beta_lt_one {g : ℝ} {v : Vec} (hg : 0 < g) (hs : g ^ 2 = 1 + v.abs2nd) : norm (v / g) < 1 := by
  rw [Vec.norm_def, abs2nd_div]
  rw [show (1:ℝ) = Real.sqrt 1 by simp]
  apply Real.sqrt_lt_sqrt
  · have := abs2nd_nonneg v; positivity
  · rw [div_lt_one (by positivity)]; linarith

/-- C02: successive trajectory points recorded during the run are closer than c·dt: the particle never
reaches the speed of light, whatever the fields. -/
theorem C02_subluminal (p p1 p2 : Particle) (hp : p.Reachable) (dt : ℝ) (hdt : 0 < dt) (f0 : FieldFn) (fs : List FieldFn)
    (h1 : p.InitVay dt f0 = .ok p1) (h2 : p1.steps fs = .ok p2)
    (i : Nat) (hi : p.getNP ≤ i + 1) (hi2 : i + 1 < p2.getNP) :
    ∃ x y : Vec, p2.TrajPoint i = .ok x ∧ p2.TrajPoint (i + 1 : Nat) = .ok y ∧ norm (y - x) < SpeedOfLight * dt := by
  have hc1 := Particle.cons_init (cons_reachable hp) h1
  have he1 := Particle.atEnd_init h1
  have hsf := Particle.steps_facts h2
  have hN1 : p1.NP = p.NP := by obtain ⟨_, _, t, x, pm, EB, _, _, _, _, _, rfl⟩ := Particle.InitVay_ok h1; rfl
  have hd1 : p1.dt = dt := by obtain ⟨_, _, t, x, pm, EB, _, _, _, _, _, rfl⟩ := Particle.InitVay_ok h1; rfl
  have hc2 := hsf.1 hc1
  have hNP := hsf.2.1
  simp only [Particle.getNP] at hi hi2
  have hn1 := he1.1
  -- k-th state of the run
  obtain ⟨k, hk⟩ : ∃ k, i = p1.NP - 1 + k := ⟨i - (p1.NP - 1), by omega⟩
  have hkl : k + 1 ≤ fs.length := by omega
  obtain ⟨q, q1, q2, -, qX, -, -⟩ := Particle.run_index hc1 he1 h2 k (by omega)
  obtain ⟨r, r1, r2, -, rX, -, -⟩ := Particle.run_index hc1 he1 h2 (k + 1) hkl
  have hq : q.OnShell := Particle.onShell_steps (Particle.onShell_init h1) q1
  have hqd : q.dt = dt := (Particle.steps_facts q1).2.2.1.trans hd1
  have hstep : ∃ f, q.StepVay f = .ok r := by
    have : fs.take (k+1) = fs.take k ++ [fs[k]'(by omega)] := by
      rw [List.take_succ_eq_append_getElem (by omega)]
    rw [this, Particle.steps_append_ok q1] at r1
    obtain ⟨s, s1, s2⟩ := Particle.steps_cons_ok r1
    rw [Particle.steps_nil] at s2; injection s2 with s2
    exact ⟨_, s2 ▸ s1⟩
  obtain ⟨f, hf⟩ := hstep
  obtain ⟨EB, _, hr⟩ := Particle.StepVay_ok hf
  have hrX : r.XCur = q.XCur + q.VYp / q.VYgamma * SpeedOfLight * q.dt := by rw [hr]; rfl
  refine ⟨q.XCur, r.XCur, ?_, ?_, ?_⟩
  · rw [hk]; exact TrajPoint_of_get hc2 qX
  · rw [show i + 1 = p1.NP - 1 + (k + 1) by omega]; exact TrajPoint_of_get hc2 rX
  · rw [hrX, hqd, add_sub_cancel_left, Vec.norm_mul, Vec.norm_mul, abs_of_pos hdt, abs_of_pos SpeedOfLight_pos]
    have := beta_lt_one hq.1 hq.2
    have hcd : 0 < SpeedOfLight * dt := mul_pos SpeedOfLight_pos hdt
    nlinarith

/-- C03: if the electric field vanishes everywhere, momentum magnitude and energy carried by the
tracker never change, for any magnetic field. -/
theorem C03_magnetic_no_work (p p1 p2 : Particle) (dt : ℝ) (f0 : FieldFn) (fs : List FieldFn)
    (h1 : p.InitVay dt f0 = .ok p1) (h2 : p1.steps fs = .ok p2)
    (hE : ∀ f ∈ fs, ∀ t x EB, f t x = .ok EB → EB.E = 0) :
    norm p2.VYp = norm p1.VYp ∧ p2.VYgamma = p1.VYgamma := by
  have key : ∀ {p1 p2 : Particle} {fs : List FieldFn}, p1.OnShell → p1.steps fs = .ok p2 →
      (∀ f ∈ fs, ∀ t x EB, f t x = .ok EB → EB.E = 0) → p2.VYgamma = p1.VYgamma := by
    intro p1 p2 fs
    induction fs generalizing p1 with
    | nil => intro _ h _; rw [Particle.steps_nil] at h; injection h with h; rw [h]
    | cons f fs ih =>
      intro hs h hE
      obtain ⟨q, q1, q2⟩ := Particle.steps_cons_ok h
      rw [ih (Particle.onShell_step q1) q2 (fun g hg => hE g (by simp [hg]))]
      obtain ⟨EB, hf, hq⟩ := Particle.StepVay_ok q1
      have h0 := hE f (by simp) _ _ _ hf
      have hqg : q.VYgamma = Particle.vayGamma p1.qmt2 (p1.VYp + (EB.E / SpeedOfLight + cross (p1.VYp / p1.VYgamma) EB.B) * p1.qmt2) EB.E EB.B := by
        rw [hq]; rfl
      rw [hqg, h0]
      exact Particle.magnetic_gamma _ _ hs.1 hs.2
  have hs1 := Particle.onShell_init h1
  have hg := key hs1 h2 hE
  have hs2 := Particle.onShell_steps hs1 h2
  refine ⟨?_, hg⟩
  have : p2.VYp.abs2nd = p1.VYp.abs2nd := by
    have a := hs1.2; have b := hs2.2; rw [hg] at b; linarith
  rw [Vec.norm_def, Vec.norm_def, this]

/-- C03, as seen in the stored trajectory: if the electric field vanishes everywhere, all steps have the same length, for any magnetic field. -/
theorem C03_equal_steps (p p1 p2 : Particle) (hp : p.Reachable) (dt : ℝ) (f0 : FieldFn) (fs : List FieldFn)
    (h1 : p.InitVay dt f0 = .ok p1) (h2 : p1.steps fs = .ok p2)
    (hE : ∀ f ∈ fs, ∀ t x EB, f t x = .ok EB → EB.E = 0) :
    ∃ d : ℝ, ∀ i : Nat, p.getNP ≤ i + 1 → i + 1 < p2.getNP →
      ∃ x y : Vec, p2.TrajPoint i = .ok x ∧ p2.TrajPoint (i + 1 : Nat) = .ok y ∧ norm (y - x) = d := by
  have hc1 := Particle.cons_init (cons_reachable hp) h1
  have he1 := Particle.atEnd_init h1
  have hsf := Particle.steps_facts h2
  have hN1 : p1.NP = p.NP := by obtain ⟨_, _, t, x, pm, EB, _, _, _, _, _, rfl⟩ := Particle.InitVay_ok h1; rfl
  have hc2 := hsf.1 hc1
  have hNP := hsf.2.1
  refine ⟨norm p1.VYp * |p1.VYgamma⁻¹| * |SpeedOfLight| * |p1.dt|, ?_⟩
  intro i hi hi2
  simp only [Particle.getNP] at hi hi2
  have hn1 := he1.1
  obtain ⟨k, hk⟩ : ∃ k, i = p1.NP - 1 + k := ⟨i - (p1.NP - 1), by omega⟩
  have hkl : k + 1 ≤ fs.length := by omega
  obtain ⟨q, q1, q2, -, qX, -, -⟩ := Particle.run_index hc1 he1 h2 k (by omega)
  obtain ⟨r, r1, r2, -, rX, -, -⟩ := Particle.run_index hc1 he1 h2 (k + 1) hkl
  have hqd : q.dt = p1.dt := (Particle.steps_facts q1).2.2.1
  obtain ⟨e1, e2⟩ := C03_magnetic_no_work p p1 q dt f0 _ h1 q1 (fun f hf => hE f (List.mem_of_mem_take hf))
  have hstep : ∃ f, q.StepVay f = .ok r := by
    have : fs.take (k+1) = fs.take k ++ [fs[k]'(by omega)] := by
      rw [List.take_succ_eq_append_getElem (by omega)]
    rw [this, Particle.steps_append_ok q1] at r1
    obtain ⟨s, s1, s2⟩ := Particle.steps_cons_ok r1
    rw [Particle.steps_nil] at s2; injection s2 with s2
    exact ⟨_, s2 ▸ s1⟩
  obtain ⟨f, hf⟩ := hstep
  obtain ⟨EB, _, hr⟩ := Particle.StepVay_ok hf
  have hrX : r.XCur = q.XCur + q.VYp / q.VYgamma * SpeedOfLight * q.dt := by rw [hr]; rfl
  refine ⟨q.XCur, r.XCur, ?_, ?_, ?_⟩
  · rw [hk]; exact TrajPoint_of_get hc2 qX
  · rw [show i + 1 = p1.NP - 1 + (k + 1) by omega]; exact TrajPoint_of_get hc2 rX
  · rw [hrX, hqd, add_sub_cancel_left, Vec.norm_mul, Vec.norm_mul,
      show q.VYp / q.VYgamma = q.VYp * q.VYgamma⁻¹ by ext <;> simp [div_eq_mul_inv], Vec.norm_mul, e1, e2]

/-- every step of a run sees the field only at the point it stores -/
theorem Particle.steps_pinned {fs : List FieldFn} : ∀ {p p' : Particle}, p.steps fs = .ok p' →
    ∃ gs : List FieldFn, p.steps gs = .ok p' ∧ gs.length = fs.length ∧
      ∀ g ∈ gs, ∃ (k : Nat) (f : FieldFn) (q : Particle), fs[k]? = some f ∧ p.steps (fs.take (k + 1)) = .ok q ∧ g = fun _ _ => f q.tCur q.XCur := by
  induction fs with
  | nil => intro p p' h; exact ⟨[], h, rfl, by simp⟩
  | cons f fs ih =>
    intro p p' h
    obtain ⟨q, q1, q2⟩ := Particle.steps_cons_ok h
    obtain ⟨gs, g1, g2, g3⟩ := ih q2
    obtain ⟨EB, hf, hq⟩ := Particle.StepVay_ok q1
    have ht : q.tCur = p.tCur + p.dt := by rw [hq]; rfl
    have hx : q.XCur = p.XCur + p.VYp / p.VYgamma * SpeedOfLight * p.dt := by rw [hq]; rfl
    have hs : p.StepVay (fun _ _ => f q.tCur q.XCur) = .ok q := by
      rw [← q1, ht, hx]
      rfl
    have one : ∀ {r : Particle} {l : List FieldFn} {g : FieldFn}, p.StepVay g = .ok q → q.steps l = .ok r → p.steps (g :: l) = .ok r := by
      intro r l g a b
      show (p.StepVay g >>= fun q => q.steps l) = .ok r
      rw [a]
      exact b
    refine ⟨(fun _ _ => f q.tCur q.XCur) :: gs, one hs g1, by simp [g2], ?_⟩
    intro g hg
    rcases List.mem_cons.mp hg with rfl | hg
    · exact ⟨0, f, q, rfl, one q1 rfl, rfl⟩
    · obtain ⟨k, f', r, a, b, c⟩ := g3 g hg
      exact ⟨k + 1, f', r, a, one q1 b, c⟩

theorem Particle.run_pinned {p p1 p2 : Particle} (hp : p.Reachable) {dt : ℝ} {f0 : FieldFn} {fs : List FieldFn}
    (h1 : p.InitVay dt f0 = .ok p1) (h2 : p1.steps fs = .ok p2) :
    ∃ (g0 : FieldFn) (gs : List FieldFn), p.InitVay dt g0 = .ok p1 ∧ p1.steps gs = .ok p2 ∧ gs.length = fs.length ∧
      (∃ t x, p2.TrajTime (p.getNP - 1 : Nat) = .ok t ∧ p2.TrajPoint (p.getNP - 1 : Nat) = .ok x ∧ g0 = fun _ _ => f0 t x) ∧
      ∀ g ∈ gs, ∃ (k : Nat) (f : FieldFn) (t : ℝ) (x : Vec), fs[k]? = some f ∧ p2.TrajTime (p.getNP + k : Nat) = .ok t ∧ p2.TrajPoint (p.getNP + k : Nat) = .ok x ∧
        g = fun _ _ => f t x := by
  have hc1 := Particle.cons_init (cons_reachable hp) h1
  have he1 := Particle.atEnd_init h1
  have hc2 := (Particle.steps_facts h2).1 hc1
  have hN1 : p1.NP = p.NP := by obtain ⟨_, _, t, x, pm, EB, _, _, _, _, _, rfl⟩ := Particle.InitVay_ok h1; rfl
  have hn1 := he1.1
  obtain ⟨gs, g1, g2, g3⟩ := Particle.steps_pinned h2
  obtain ⟨q, q1, -, qT, qX, -, -⟩ := Particle.run_index hc1 he1 h2 0 (Nat.zero_le _)
  rw [List.take_zero, Particle.steps_nil] at q1
  injection q1 with q1
  subst q1
  refine ⟨fun _ _ => f0 p1.tCur p1.XCur, gs, ?_, g1, g2, ⟨p1.tCur, p1.XCur, ?_, ?_, rfl⟩, ?_⟩
  · obtain ⟨a1, a2, t, x, pm, EB, b1, b2, b3, b4, b5, hp1⟩ := Particle.InitVay_ok h1
    have ht : p1.tCur = t := by rw [hp1]
    have hx : p1.XCur = x := by rw [hp1]
    rw [ht, hx, ← h1]
    unfold Particle.InitVay
    rw [b1, b2, b3]
  · rw [hN1] at qT
    exact TrajTime_of_get hc2 qT
  · rw [hN1] at qX
    exact TrajPoint_of_get hc2 qX
  · intro g hg
    obtain ⟨k, f, q, a, b, rfl⟩ := g3 g hg
    have hk : k + 1 ≤ fs.length := (List.getElem?_eq_some_iff.mp a).1
    obtain ⟨r, r1, -, rT, rX, -, -⟩ := Particle.run_index hc1 he1 h2 (k + 1) hk
    rw [b] at r1
    injection r1 with r1
    subst r1
    have hi : p1.NP - 1 + (k + 1) = p.getNP + k := by simp only [Particle.getNP]; omega
    rw [hi] at rT rX
    exact ⟨k, f, q.tCur, q.XCur, a, TrajTime_of_get hc2 rT, TrajPoint_of_get hc2 rX, rfl⟩

/-- C03: if the electric field vanishes at all points the particle is tracked through, the momentum magnitude and energy carried by the tracker never
change and all steps have the same length, for any magnetic field.  Elsewhere there may be electric fields. -/
theorem C03_on_path (p p1 p2 : Particle) (hp : p.Reachable) (dt : ℝ) (f0 : FieldFn) (fs : List FieldFn)
    (h1 : p.InitVay dt f0 = .ok p1) (h2 : p1.steps fs = .ok p2)
    (hE : ∀ (k : Nat) (f : FieldFn) (t : ℝ) (x : Vec) (EB : EMField), fs[k]? = some f → p2.TrajTime (p.getNP + k : Nat) = .ok t →
      p2.TrajPoint (p.getNP + k : Nat) = .ok x → f t x = .ok EB → EB.E = 0) :
    norm p2.VYp = norm p1.VYp ∧ p2.VYgamma = p1.VYgamma ∧
    ∃ d : ℝ, ∀ i : Nat, p.getNP ≤ i + 1 → i + 1 < p2.getNP →
      ∃ x y : Vec, p2.TrajPoint i = .ok x ∧ p2.TrajPoint (i + 1 : Nat) = .ok y ∧ norm (y - x) = d := by
  obtain ⟨g0, gs, k1, k2, -, -, k3⟩ := Particle.run_pinned hp h1 h2
  have hE' : ∀ g ∈ gs, ∀ t x EB, g t x = .ok EB → EB.E = 0 := by
    intro g hg t x EB h
    obtain ⟨k, f, t', x', a, b, c, rfl⟩ := k3 g hg
    exact hE k f t' x' EB a b c h
  obtain ⟨e1, e2⟩ := C03_magnetic_no_work p p1 p2 dt g0 gs k1 k2 hE'
  exact ⟨e1, e2, C03_equal_steps p p1 p2 hp dt g0 gs k1 k2 hE'⟩

/-- C04: if the fields exert no Lorentz force on the particle's velocity (in particular if they vanish),
the momentum stays constant, the acceleration is zero and the position after k steps is x0 + k·β·c·dt. -/
theorem C04_force_free (p p1 p2 : Particle) (hp : p.Reachable) (dt : ℝ) (f0 : FieldFn) (fs : List FieldFn)
    (x0 P0 : Vec) (hx0 : p.TrajPoint (p.getNP - 1 : Nat) = .ok x0) (hP0 : p.TrajMomentum (p.getNP - 1 : Nat) = .ok P0)
    (h1 : p.InitVay dt f0 = .ok p1) (h2 : p1.steps fs = .ok p2)
    (hF : ∀ f ∈ f0 :: fs, ∀ t x EB, f t x = .ok EB →
      EB.E + cross (P0 / Real.sqrt (1 + norm P0 ^ 2) * SpeedOfLight) EB.B = 0) :
    p2.VYp = P0 ∧
    ∀ k : Nat, k ≤ fs.length →
      p2.TrajPoint (p.getNP - 1 + k : Nat)
        = .ok (x0 + P0 / Real.sqrt (1 + norm P0 ^ 2) * (SpeedOfLight * dt * (k : ℝ))) ∧
      p2.TrajMomentum (p.getNP - 1 + k : Nat) = .ok P0 ∧
      p2.TrajAccel (p.getNP - 1 + k : Nat) = .ok 0 := by
  set g0 := Real.sqrt (1 + norm P0 ^ 2) with hg0
  have hpos : 0 < 1 + norm P0 ^ 2 := by positivity
  have hgp : 0 < g0 := Real.sqrt_pos.mpr hpos
  have hgs : g0 ^ 2 = 1 + P0.abs2nd := by rw [hg0, Real.sq_sqrt hpos.le, Vec.norm_sq]
  have hc := SpeedOfLight_pos
  have hF' : ∀ f ∈ f0 :: fs, ∀ t x EB, f t x = .ok EB → EB.E / SpeedOfLight + cross (P0 / g0) EB.B = 0 := by
    intro f hf t x EB h
    have := hF f hf t x EB h
    have e : EB.E / SpeedOfLight + cross (P0 / g0) EB.B = (EB.E + cross (P0 / g0 * SpeedOfLight) EB.B) / SpeedOfLight := by
      ext <;> simp [cross] <;> field_simp
    rw [e, this]; exact zero_div' _
  have hacc : ∀ (qm : ℝ) (EB : EMField), EB.E / SpeedOfLight + cross (P0 / g0) EB.B = 0 →
      Particle.vayAccel qm P0 EB.E EB.B = 0 := by
    intro qm EB h
    have e : Real.sqrt (P0.abs2nd + 1.0) = g0 := by
      rw [hg0, Vec.norm_sq]; congr 1; norm_num; ring
    simp only [Particle.vayAccel, e]
    rw [add_comm, h]; exact mul_zero' _
  have hcons := cons_reachable hp
  have hc1 := Particle.cons_init hcons h1
  have he1 := Particle.atEnd_init h1
  -- state after initialisation
  have st1 : p1.VYp = P0 ∧ p1.VYgamma = g0 ∧ p1.XCur = x0 ∧ p1.PCur = P0 ∧ p1.ACur = 0 ∧ p1.dt = dt ∧ p1.NP = p.NP := by
    obtain ⟨hn, _, t, x, pm, EB, hT, hX, hP, hA, hf, rfl⟩ := Particle.InitVay_ok h1
    have ex : x = x0 := by
      have a := Particle.last_get hcons.2.1 hX
      have b := get_of_TrajPoint hx0
      simp only [Particle.getNP] at b
      rw [a] at b; injection b
    have ep : pm = P0 := by
      have a := Particle.last_get hcons.2.2.1 hP
      have b := get_of_TrajMomentum hP0
      simp only [Particle.getNP] at b
      rw [a] at b; injection b
    subst ex; subst ep
    have hz := hF' f0 (by simp) _ _ _ hf
    obtain ⟨d1, d2⟩ := Particle.drift_step (p.Charge / p.Mass * InvRestMass * 0.5 * dt) EB.E EB.B hgp hgs hz
    exact ⟨d2, d1, rfl, rfl, hacc _ _ hz, rfl, rfl⟩
  -- induction over the run
  have key : ∀ (gs : List FieldFn) (q r : Particle), (∀ f ∈ gs, ∀ t x EB, f t x = .ok EB → EB.E / SpeedOfLight + cross (P0 / g0) EB.B = 0) →
      q.VYp = P0 → q.VYgamma = g0 → q.PCur = P0 → q.ACur = 0 → q.steps gs = .ok r →
      r.VYp = P0 ∧ r.VYgamma = g0 ∧ r.PCur = P0 ∧ r.ACur = 0 ∧ r.XCur = q.XCur + P0 / g0 * (SpeedOfLight * q.dt * (gs.length : ℝ)) := by
    intro gs
    induction gs with
    | nil =>
      intro q r _ a b c d h
      rw [Particle.steps_nil] at h; injection h with h; subst h
      refine ⟨a, b, c, d, ?_⟩
      ext <;> simp
    | cons f gs ih =>
      intro q r hz a b c d h
      obtain ⟨s, s1, s2⟩ := Particle.steps_cons_ok h
      obtain ⟨EB, hf, hs⟩ := Particle.StepVay_ok s1
      have hzz := hz f (by simp) _ _ _ hf
      have hPc : q.VYp + (EB.E / SpeedOfLight + cross (q.VYp / q.VYgamma) EB.B) * q.qmt2 = P0 := by
        rw [a, b, hzz, mul_zero', add_zero]
      obtain ⟨d1, d2⟩ := Particle.drift_step q.qmt2 EB.E EB.B hgp hgs hzz
      have t1 : s.VYp = P0 := by rw [hs]; simp only [Particle.storeTrajectoryPoint]; rw [hPc]; exact d2
      have t2 : s.VYgamma = g0 := by rw [hs]; simp only [Particle.storeTrajectoryPoint]; rw [hPc]; exact d1
      have t3 : s.PCur = P0 := by rw [hs]; simp only [Particle.storeTrajectoryPoint]; exact hPc
      have t4 : s.ACur = 0 := by rw [hs]; simp only [Particle.storeTrajectoryPoint]; rw [hPc]; exact hacc _ _ hzz
      have t5 : s.XCur = q.XCur + P0 / g0 * SpeedOfLight * q.dt := by rw [hs, ← a, ← b]; rfl
      have t6 : s.dt = q.dt := (Particle.step_const s1).1
      obtain ⟨u1, u2, u3, u4, u5⟩ := ih s r (fun g hg => hz g (by simp [hg])) t1 t2 t3 t4 s2
      refine ⟨u1, u2, u3, u4, ?_⟩
      rw [u5, t5, t6]
      ext <;> simp <;> ring
  obtain ⟨i1, i2, i3, i4, i5, i6, i7⟩ := st1
  have hfs : ∀ f ∈ fs, ∀ t x EB, f t x = .ok EB → EB.E / SpeedOfLight + cross (P0 / g0) EB.B = 0 :=
    fun f hf => hF' f (by simp [hf])
  refine ⟨(key fs p1 p2 hfs i1 i2 i4 i5 h2).1, ?_⟩
  intro k hk
  have hc2 := (Particle.steps_facts h2).1 hc1
  obtain ⟨q, q1, q2, qT, qX, qP, qA⟩ := Particle.run_index hc1 he1 h2 k hk
  have hsub : ∀ f ∈ fs.take k, ∀ t x EB, f t x = .ok EB → EB.E / SpeedOfLight + cross (P0 / g0) EB.B = 0 :=
    fun f hf => hfs f (List.mem_of_mem_take hf)
  obtain ⟨-, -, v3, v4, v5⟩ := key _ p1 q hsub i1 i2 i4 i5 q1
  simp only [Particle.getNP]
  rw [i7] at qX qP qA
  refine ⟨?_, ?_, ?_⟩
  · rw [TrajPoint_of_get hc2 qX, v5, i3, i6, List.length_take, min_eq_left hk]
  · rw [TrajMomentum_of_get hc2 qP, v3]
  · rw [TrajAccel_of_get hc2 qA, v4]

/-- C04: it suffices that there is no Lorentz force at the points the particle is tracked through. -/
theorem C04_on_path (p p1 p2 : Particle) (hp : p.Reachable) (dt : ℝ) (f0 : FieldFn) (fs : List FieldFn)
    (x0 P0 : Vec) (hx0 : p.TrajPoint (p.getNP - 1 : Nat) = .ok x0) (hP0 : p.TrajMomentum (p.getNP - 1 : Nat) = .ok P0)
    (h1 : p.InitVay dt f0 = .ok p1) (h2 : p1.steps fs = .ok p2)
    (hF : ∀ (k : Nat) (f : FieldFn) (t : ℝ) (x : Vec) (EB : EMField), (f0 :: fs)[k]? = some f → p2.TrajTime (p.getNP - 1 + k : Nat) = .ok t →
      p2.TrajPoint (p.getNP - 1 + k : Nat) = .ok x → f t x = .ok EB → EB.E + cross (P0 / Real.sqrt (1 + norm P0 ^ 2) * SpeedOfLight) EB.B = 0) :
    p2.VYp = P0 ∧
    ∀ k : Nat, k ≤ fs.length →
      p2.TrajPoint (p.getNP - 1 + k : Nat)
        = .ok (x0 + P0 / Real.sqrt (1 + norm P0 ^ 2) * (SpeedOfLight * dt * (k : ℝ))) ∧
      p2.TrajMomentum (p.getNP - 1 + k : Nat) = .ok P0 ∧
      p2.TrajAccel (p.getNP - 1 + k : Nat) = .ok 0 := by
  obtain ⟨g0, gs, k1, k2, kl, ⟨t', x', b, c, k0⟩, k3⟩ := Particle.run_pinned hp h1 h2
  have hn : 1 ≤ p.getNP := by
    have := (Particle.atEnd_init h1).1
    have hN1 : p1.NP = p.NP := by obtain ⟨_, _, t, x, pm, EB, _, _, _, _, _, rfl⟩ := Particle.InitVay_ok h1; rfl
    simp only [Particle.getNP]
    omega
  rw [← kl]
  refine C04_force_free p p1 p2 hp dt g0 gs x0 P0 hx0 hP0 k1 k2 ?_
  intro g hg t x EB h
  rcases List.mem_cons.mp hg with rfl | hg
  · subst k0
    exact hF 0 f0 t' x' EB rfl b c h
  · obtain ⟨k, f, t', x', a, b, c, rfl⟩ := k3 g hg
    have hi : p.getNP + k = p.getNP - 1 + (k + 1) := by omega
    rw [hi] at b c
    exact hF (k + 1) f t' x' EB a b c h

/-- C05: a run of n steps adds exactly n points; the times continue the last stored time in steps of
exactly dt; all points recorded before are unchanged (InitVay only rewrites the acceleration of the
last point present when tracking starts). -/
theorem C05_equidistant (p p1 p2 : Particle) (hp : p.Reachable) (dt : ℝ) (f0 : FieldFn) (fs : List FieldFn) (t0 : ℝ)
    (ht0 : p.TrajTime (p.getNP - 1 : Nat) = .ok t0)
    (h1 : p.InitVay dt f0 = .ok p1) (h2 : p1.steps fs = .ok p2) :
    p2.getNP = p.getNP + fs.length ∧
    (∀ k : Nat, k ≤ fs.length → p2.TrajTime (p.getNP - 1 + k : Nat) = .ok (t0 + k * dt)) ∧
    (∀ i : Nat, i < p.getNP →
      p2.TrajTime i = p.TrajTime i ∧ p2.TrajPoint i = p.TrajPoint i ∧ p2.TrajMomentum i = p.TrajMomentum i ∧
      (i + 1 < p.getNP → p2.TrajAccel i = p.TrajAccel i)) := by
  have hcons := cons_reachable hp
  have hc1 := Particle.cons_init hcons h1
  have he1 := Particle.atEnd_init h1
  obtain ⟨hcf, hNP, -, -, -, -, -, ⟨d1, d2, d3, d4⟩, -⟩ := Particle.steps_facts h2
  have hc2 := hcf hc1
  obtain ⟨hn, _, t, x, pm, EB, hT, hX, hP, hA, hf, hp1⟩ := Particle.InitVay_ok h1
  have i1 : p1.NP = p.NP := by rw [hp1]
  have i2 : p1.Time = p.Time := by rw [hp1]
  have i3 : p1.X = p.X := by rw [hp1]
  have i4 : p1.P = p.P := by rw [hp1]
  have i5 : p1.A.dropLast = p.A.dropLast := by rw [hp1]; simp
  have i6 : p1.tCur = t := by rw [hp1]
  have i7 : p1.dt = dt := by rw [hp1]
  have et : t = t0 := by
    have a := Particle.last_get hcons.1 hT
    have b := get_of_TrajTime ht0
    simp only [Particle.getNP] at b
    rw [a] at b; injection b
  refine ⟨by simp only [Particle.getNP]; omega, ?_, ?_⟩
  · intro k hk
    obtain ⟨q, q1, q2, qT, -, -, -⟩ := Particle.run_index hc1 he1 h2 k hk
    rw [i1] at qT
    simp only [Particle.getNP]
    rw [TrajTime_of_get hc2 qT, Particle.steps_tCur q1, i6, i7, et, List.length_take, min_eq_left hk]
  · intro i hi
    simp only [Particle.getNP] at hi
    obtain ⟨a1, a2, a3, a4⟩ := hcons
    have g1 : p.Time[i]? = some (p.Time[i]'(by omega)) := List.getElem?_eq_getElem _
    have g2 : p.X[i]? = some (p.X[i]'(by omega)) := List.getElem?_eq_getElem _
    have g3 : p.P[i]? = some (p.P[i]'(by omega)) := List.getElem?_eq_getElem _
    have g4 : p.A[i]? = some (p.A[i]'(by omega)) := List.getElem?_eq_getElem _
    have hcons' : p.Cons := ⟨a1, a2, a3, a4⟩
    refine ⟨?_, ?_, ?_, ?_⟩
    · rw [TrajTime_of_get hcons' g1]; exact TrajTime_of_get hc2 (Particle.prefix_get d1 (by rw [i2]; exact g1))
    · rw [TrajPoint_of_get hcons' g2]; exact TrajPoint_of_get hc2 (Particle.prefix_get d2 (by rw [i3]; exact g2))
    · rw [TrajMomentum_of_get hcons' g3]; exact TrajMomentum_of_get hc2 (Particle.prefix_get d3 (by rw [i4]; exact g3))
    · intro hi2
      simp only [Particle.getNP] at hi2
      rw [TrajAccel_of_get hcons' g4]
      apply TrajAccel_of_get hc2
      apply Particle.prefix_get d4
      rw [← g4]
      have e1 : p1.A[i]? = p1.A.dropLast[i]? := by
        rw [List.getElem?_dropLast]; rw [if_pos]; have := hc1.2.2.2; omega
      have e2 : p.A[i]? = p.A.dropLast[i]? := by
        rw [List.getElem?_dropLast]; rw [if_pos]; omega
      rw [e1, e2, i5]

/-- C05: the run cannot fail as long as the fields do not: a particle with at least one trajectory
point and non-zero mass is tracked for any number of steps. -/
theorem C05_total (p : Particle) (hp : p.Reachable) (hn : 1 ≤ p.getNP) (hm : p.Mass ≠ 0) (dt : ℝ) (f0 : FieldFn)
    (fs : List FieldFn) (hf : ∀ f ∈ f0 :: fs, ∀ t x, ∃ EB, f t x = .ok EB) :
    ∃ p1 p2, p.InitVay dt f0 = .ok p1 ∧ p1.steps fs = .ok p2 := by
  obtain ⟨p1, h1⟩ := Particle.init_total (dt := dt) (cons_reachable hp) hn hm (hf f0 (by simp))
  obtain ⟨p2, h2⟩ := Particle.steps_total (p := p1) (fs := fs) (fun f h => hf f (by simp [h]))
  exact ⟨p1, p2, h1, h2⟩

/-- C05: tracking a particle without any trajectory point raises RANGEexception and leaves it unchanged. -/
theorem C05_requires_trajectory (p : Particle) (h : p.getNP = 0) (dt : ℝ) (f : FieldFn) :
    p.InitVay dt f = .error (.range, p) := by
  simp only [Particle.InitVay, Particle.getNP] at *
  rw [if_pos (by omega)]

/-- non-vacuity for C02, C03, C05: an electron tracked for three steps in a magnetic dipole field -/
example : ∃ p p1 p2 : Particle, p.Reachable ∧ p.getNP = 1 ∧
    p.InitVay 1 (fun _ _ => .ok ⟨0, ⟨0, 1, 0⟩⟩) = .ok p1 ∧
    p1.steps [fun _ _ => .ok ⟨0, ⟨0, 1, 0⟩⟩, fun _ x => .ok ⟨0, x⟩, fun t _ => .ok ⟨0, ⟨t, 0, 0⟩⟩] = .ok p2 := by
  let p : Particle := POp.exec Particle.default (.init 0 0 ⟨0, 0, 10⟩ 0)
  have hr : p.Reachable := ⟨_, [.init 0 0 ⟨0, 0, 10⟩ 0], Or.inr (Or.inr (Or.inl rfl)), rfl⟩
  obtain ⟨p1, p2, h1, h2⟩ := C05_total p hr (Nat.le_refl 1) (by simp [p, POp.exec, POp.result, Particle.initTrajectory, Particle.default, Particle.new]) 1
    (fun _ _ => .ok ⟨0, ⟨0, 1, 0⟩⟩) [fun _ _ => .ok ⟨0, ⟨0, 1, 0⟩⟩, fun _ x => .ok ⟨0, x⟩, fun t _ => .ok ⟨0, ⟨t, 0, 0⟩⟩]
    (by intro f hf t x; simp only [List.mem_cons, List.not_mem_nil, or_false] at hf; rcases hf with rfl | rfl | rfl | rfl <;> exact ⟨_, rfl⟩)
  exact ⟨p, p1, p2, hr, rfl, h1, h2⟩

/-- non-vacuity for C04: a Wien filter (crossed fields with E = -v×B ≠ 0) -/
example : ∃ (P0 E B : Vec), P0 ≠ 0 ∧ E ≠ 0 ∧ B ≠ 0 ∧
    E + cross (P0 / Real.sqrt (1 + norm P0 ^ 2) * SpeedOfLight) B = 0 := by
  have hs : 0 < Real.sqrt (1 + norm (⟨0, 0, 1⟩ : Vec) ^ 2) := Real.sqrt_pos.mpr (by positivity)
  have hc := SpeedOfLight_pos
  refine ⟨⟨0, 0, 1⟩, -cross ((⟨0, 0, 1⟩ : Vec) / Real.sqrt (1 + norm (⟨0, 0, 1⟩ : Vec) ^ 2) * SpeedOfLight) ⟨0, 1, 0⟩, ⟨0, 1, 0⟩, ?_, ?_, ?_, ?_⟩
  · intro h; have := congrArg Vec.z h; simp at this
  · intro h; have := congrArg Vec.x h
    simp [cross] at this
    rcases this with h | h
    · rw [h] at hs; simp at hs
    · exact hc.ne' h
  · intro h; have := congrArg Vec.y h; simp at this
  · exact neg_add_cancel _

end Teufel
