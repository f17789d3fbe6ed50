import Verif.Lemmas.Turn
import Verif.Props.TimeReversal
import Verif.Spec.Motion
import Mathlib.Analysis.Calculus.MeanValue

/-! Property C108: motion in homogeneous fields -/

namespace Teufel
open Vec

namespace Particle

/-- half the angle by which the momentum turns in one step -/
theorem gyro_step {q0 q : Particle} {e : Vec} {b : ℝ} (he : e.abs2nd = 1) (h : q0.StepVay (HomogeneousField 0 (e * b)).field = .ok q)
    (hs : q0.OnShell) (hR : Runs q0 (HomogeneousField 0 (e * b)).field ⟨0, e * b⟩) :
    q.VYgamma = q0.VYgamma ∧ q.PCur = turn e (-(2 * Real.arctan (q0.qmt2 * b / q0.VYgamma))) q0.PCur ∧
    (q.XCur - q0.XCur) * (q0.qmt2 * b) =
      (e * (dot e q0.PCur * (q0.qmt2 * b / q0.VYgamma)) + (cross q0.PCur e - cross q.PCur e) * (1 / 2 : ℝ)) * (SpeedOfLight * q0.dt) := by
  obtain ⟨EB, hf, hq⟩ := StepVay_ok h
  cases hf
  obtain ⟨hg, hsh⟩ := hs
  have hg0 := hg.ne'
  set z := q0.qmt2 * b / q0.VYgamma with hz
  have e1 : q.PCur = q0.VYp + cross q0.VYp e * z := by
    rw [hq]
    simp only [storeTrajectoryPoint, hz]
    ext <;> simp [cross] <;> field_simp
  have e0 : q0.PCur = q0.VYp - cross q0.VYp e * z := by
    have h1 := vay_back_centre q0.qmt2 q0.PCur 0 (e * b)
    have h2 := hR.mom
    have h3 := hR.gam
    simp only at h2 h3
    rw [← h2, ← h3] at h1
    have : q0.PCur = -(-q0.PCur) := by ext <;> simp
    rw [this, ← h1, hz]
    ext <;> simp [cross] <;> field_simp <;> ring
  have hG : q.VYgamma = q0.VYgamma := by
    rw [hq]
    exact magnetic_gamma q0.qmt2 (e * b) hg hsh
  refine ⟨hG, ?_, ?_⟩
  · rw [e1, e0, turn_cayley he]
  · have hx : q.XCur = q0.XCur + q0.VYp / q0.VYgamma * SpeedOfLight * q0.dt := by rw [hq]; rfl
    have hd : dot e q0.PCur = dot e q0.VYp := by
      rw [e0, dot_sub_right, dot_mul_right, dot_cross_right]; ring
    have hk : cross q0.PCur e - cross q.PCur e = (q0.VYp - e * dot e q0.VYp) * (2 * z) := by
      have h1 := cross_cross_unit he q0.VYp
      have h2 : q0.VYp - e * dot e q0.VYp = -(cross e (cross e q0.VYp)) := by rw [h1]; ext <;> simp
      rw [h2, e0, e1]
      ext <;> simp [cross] <;> ring
    rw [hk, hd, hx, hz]
    ext <;> simp <;> field_simp <;> ring

/-- the run in a homogeneous magnetic field -/
theorem gyro_run {e : Vec} {b : ℝ} (he : e.abs2nd = 1) (q : ℕ → Particle) (n : ℕ)
    (hq : ∀ j, j < n → (q j).StepVay (HomogeneousField 0 (e * b)).field = .ok (q (j + 1))) (hs : (q 0).OnShell)
    (hR : Runs (q 0) (HomogeneousField 0 (e * b)).field ⟨0, e * b⟩) (k : ℕ) (hk : k ≤ n) :
    (q k).VYgamma = (q 0).VYgamma ∧ (q k).PCur = turn e (-((k : ℝ) * (2 * Real.arctan ((q 0).qmt2 * b / (q 0).VYgamma)))) (q 0).PCur ∧
    ((q k).XCur - (q 0).XCur) * ((q 0).qmt2 * b) =
      (e * ((k : ℝ) * (dot e (q 0).PCur * ((q 0).qmt2 * b / (q 0).VYgamma))) + (cross (q 0).PCur e - cross (q k).PCur e) * (1 / 2 : ℝ)) * (SpeedOfLight * (q 0).dt) ∧
    (q k).dt = (q 0).dt ∧ (q k).qmt2 = (q 0).qmt2 := by
  induction k with
  | zero =>
    refine ⟨rfl, ?_, ?_, rfl, rfl⟩
    · simp [turn_zero]
    · ext <;> simp
  | succ k ih =>
    obtain ⟨a1, a2, a3, a4, a5⟩ := ih (by omega)
    have hstep := hq k (by omega)
    have hsk : (q k).OnShell := by
      cases k with
      | zero => exact hs
      | succ k => exact onShell_step (hq k (by omega))
    have hRk : Runs (q k) (HomogeneousField 0 (e * b)).field ⟨0, e * b⟩ := by
      cases k with
      | zero => exact hR
      | succ k =>
        obtain ⟨F, hF⟩ := runs_step (hq k (by omega))
        have := hF.field
        simp only [HomogeneousField] at this
        injection this with this
        rw [this]; exact hF
    obtain ⟨b1, b2, b3⟩ := gyro_step he hstep hsk hRk
    obtain ⟨c1, -, c3, -, -⟩ := step_const hstep
    rw [a5, a1] at b2
    rw [a5, a1, a4] at b3
    refine ⟨b1.trans a1, ?_, ?_, c1.trans a4, c3.trans a5⟩
    · rw [b2, a2, turn_turn he]
      congr 1
      push_cast; ring
    · have hd : dot e (q k).PCur = dot e (q 0).PCur := by rw [a2, dot_turn he]
      rw [hd] at b3
      have : (q (k + 1)).XCur - (q 0).XCur = ((q (k + 1)).XCur - (q k).XCur) + ((q k).XCur - (q 0).XCur) := by abel
      rw [this, add_mul', b3, a3]
      push_cast
      ext <;> simp <;> ring

end Particle

/-- a vector function with vanishing velocity is constant -/
theorem HasVelocity.const {f : ℝ → Vec} {t0 T : ℝ} (h : ∀ t, t0 ≤ t → t ≤ t0 + T → HasVelocity f 0 t) (t : ℝ) (h1 : t0 ≤ t) (h2 : t ≤ t0 + T) : f t = f t0 := by
  have key : ∀ g : ℝ → ℝ, (∀ t, t0 ≤ t → t ≤ t0 + T → HasDerivAt g 0 t) → g t = g t0 := fun g hg =>
    constant_of_has_deriv_right_zero (a := t0) (b := t0 + T)
      (fun s hs => (hg s hs.1 hs.2).continuousAt.continuousWithinAt) (fun s hs => (hg s hs.1 hs.2.le).hasDerivWithinAt) t ⟨h1, h2⟩
  ext
  · exact key (fun s => (f s).x) (fun s a b => (h s a b).1)
  · exact key (fun s => (f s).y) (fun s a b => (h s a b).2.1)
  · exact key (fun s => (f s).z) (fun s a b => (h s a b).2.2)

/-- the velocity of a turned vector -/
theorem HasVelocity.turn {f : ℝ → Vec} {v : Vec} {t : ℝ} (e : Vec) (ω t0 : ℝ) (h : HasVelocity f v t) :
    HasVelocity (fun s => turn e (ω * (s - t0)) (f s))
      (turn e (ω * (t - t0)) v + (cross e (f t) * Real.cos (ω * (t - t0)) + (e * dot e (f t) - f t) * Real.sin (ω * (t - t0))) * ω) t := by
  have ha : HasDerivAt (fun s : ℝ => ω * (s - t0)) ω t := by
    simpa using ((hasDerivAt_id t).sub_const t0).const_mul ω
  have hc := ha.cos
  have hs := ha.sin
  obtain ⟨h1, h2, h3⟩ := h
  have hd := ((h1.const_mul e.x).add (h2.const_mul e.y)).add (h3.const_mul e.z)
  have hk := hd.mul (hc.const_sub 1)
  refine ⟨?_, ?_, ?_⟩
  · refine (((h1.mul hc).add (((h3.const_mul e.y).sub (h2.const_mul e.z)).mul hs)).add (hk.const_mul e.x)).congr_deriv ?_
    simp [Teufel.turn, cross, dot]; ring
  · refine (((h2.mul hc).add (((h1.const_mul e.z).sub (h3.const_mul e.x)).mul hs)).add (hk.const_mul e.y)).congr_deriv ?_
    simp [Teufel.turn, cross, dot]; ring
  · refine (((h3.mul hc).add (((h2.const_mul e.x).sub (h1.const_mul e.y)).mul hs)).add (hk.const_mul e.z)).congr_deriv ?_
    simp [Teufel.turn, cross, dot]; ring

/-- in a magnetic field the magnitude of the momentum is constant -/
theorem Motion.magnetic {qm : ℝ} {f : FieldFn} {x p : ℝ → Vec} {t0 T : ℝ} (hm : Motion qm f x p t0 T) (hf : ∀ t X EB, f t X = .ok EB → EB.E = 0)
    (t : ℝ) (h1 : t0 ≤ t) (h2 : t ≤ t0 + T) : (p t).abs2nd = (p t0).abs2nd := by
  have hd2 : ∀ s, t0 ≤ s → s ≤ t0 + T → HasDerivAt (fun s => (p s).x * (p s).x + (p s).y * (p s).y + (p s).z * (p s).z) 0 s := by
    intro s a b
    obtain ⟨EB, hE, hv⟩ := hm.momentum s a b
    have h0 := hf _ _ _ hE
    refine (((hv.1.mul hv.1).add (hv.2.1.mul hv.2.1)).add (hv.2.2.mul hv.2.2)).congr_deriv ?_
    simp [cross, velOf, h0]
    ring
  exact constant_of_has_deriv_right_zero (a := t0) (b := t0 + T)
    (fun s hs => (hd2 s hs.1 hs.2).continuousAt.continuousWithinAt) (fun s hs => (hd2 s hs.1 hs.2.le).hasDerivWithinAt) t ⟨h1, h2⟩

/-- C108: every motion in a homogeneous magnetic field runs on a helix: the momentum turns about the direction of the field with the
frequency `qB/(γm)` and the position follows with the radius `p/(qB)` about a fixed axis. -/
theorem C108_helix (qm b : ℝ) (e : Vec) (he : e.norm = 1) (hb : qm * b ≠ 0) (x p : ℝ → Vec) (t0 T : ℝ) (hm : Motion qm (HomogeneousField 0 (e * b)).field x p t0 T)
    (t : ℝ) (h1 : t0 ≤ t) (h2 : t ≤ t0 + T) :
    p t = turn e (-(qm * b / Real.sqrt (1 + (p t0).abs2nd) * (t - t0))) (p t0) ∧
    x t = x t0 + (cross (p t0) e - cross (p t) e) * (SpeedOfLight / (qm * b)) + e * (dot e (velOf (p t0)) * SpeedOfLight * (t - t0)) := by
  have he' : e.abs2nd = 1 := by rw [← Vec.norm_sq, he]; norm_num
  have hmag := fun s a b => hm.magnetic (fun t X EB h => by cases h; rfl) s a b
  obtain ⟨γ, hγ⟩ : ∃ γ, γ = Real.sqrt (1 + (p t0).abs2nd) := ⟨_, rfl⟩
  have hg : 0 < γ := by rw [hγ]; have := abs2nd_nonneg (p t0); positivity
  have hvel : ∀ s, t0 ≤ s → s ≤ t0 + T → velOf (p s) = p s / γ := by
    intro s a b
    unfold velOf
    rw [hmag s a b, hγ]
  have hc := SpeedOfLight_pos
  have hqm := left_ne_zero_of_mul hb
  have hb0 := right_ne_zero_of_mul hb
  have hp : ∀ s, t0 ≤ s → s ≤ t0 + T → HasVelocity p (cross (p s) e * (qm * b / γ)) s := by
    intro s a b'
    obtain ⟨EB, hE, hv⟩ := hm.momentum s a b'
    cases hE
    rw [hvel s a b'] at hv
    convert hv using 1
    ext <;> simp [cross] <;> field_simp
  rw [← hγ]
  have hmom : ∀ s, t0 ≤ s → s ≤ t0 + T → p s = turn e (-(qm * b / γ * (s - t0))) (p t0) := by
    intro s a b'
    have hw := HasVelocity.const (f := fun s => turn e (qm * b / γ * (s - t0)) (p s)) (t0 := t0) (T := T) (fun s a b' => by
      have := (hp s a b').turn e (qm * b / γ) t0
      convert this using 1
      have e1 : turn e (qm * b / γ * (s - t0)) (cross (p s) e * (qm * b / γ)) =
          -((cross e (p s) * Real.cos (qm * b / γ * (s - t0)) + (e * dot e (p s) - p s) * Real.sin (qm * b / γ * (s - t0))) * (qm * b / γ)) := by
        rw [← cross_cross_unit he']
        unfold turn
        ext <;> simp [cross, dot] <;> ring
      rw [e1]
      ext <;> simp) s a b'
    simp only [sub_self, mul_zero, turn_zero] at hw
    rw [← hw, turn_turn he', neg_add_cancel, turn_zero]
  refine ⟨hmom t h1 h2, ?_⟩
  have hdot : ∀ s, t0 ≤ s → s ≤ t0 + T → dot e (p s) = dot e (p t0) := by
    intro s a b'
    rw [hmom s a b', dot_turn he']
  have hx := HasVelocity.const (f := fun s => x s + cross (p s) e * (SpeedOfLight / (qm * b)) - e * (dot e (p t0) / γ * SpeedOfLight * (s - t0))) (t0 := t0) (T := T) (fun s a b' => by
    obtain ⟨x1, x2, x3⟩ := hm.position s a b'
    obtain ⟨p1, p2, p3⟩ := hp s a b'
    have ht : HasDerivAt (fun s : ℝ => dot e (p t0) / γ * SpeedOfLight * (s - t0)) (dot e (p t0) / γ * SpeedOfLight) s := by
      simpa using ((hasDerivAt_id s).sub_const t0).const_mul (dot e (p t0) / γ * SpeedOfLight)
    have hcc : cross (cross (p s) e) e = e * dot e (p t0) - p s := by
      rw [← hdot s a b', ← cross_cross_unit he']
      ext <;> simp [cross] <;> ring
    have hX := congrArg Vec.x hcc
    have hY := congrArg Vec.y hcc
    have hZ := congrArg Vec.z hcc
    simp only [cross, Vec.sub_x, Vec.sub_y, Vec.sub_z, Vec.mul_x, Vec.mul_y, Vec.mul_z] at hX hY hZ
    rw [hvel s a b'] at x1 x2 x3
    refine ⟨?_, ?_, ?_⟩
    · refine ((x1.add (((p2.mul_const e.z).sub (p3.mul_const e.y)).mul_const (SpeedOfLight / (qm * b)))).sub (ht.const_mul e.x)).congr_deriv ?_
      simp only [cross, Vec.mul_x, Vec.mul_y, Vec.mul_z, Vec.div_x, Vec.zero_x]
      field_simp
      linear_combination SpeedOfLight * hX
    · refine ((x2.add (((p3.mul_const e.x).sub (p1.mul_const e.z)).mul_const (SpeedOfLight / (qm * b)))).sub (ht.const_mul e.y)).congr_deriv ?_
      simp only [cross, Vec.mul_x, Vec.mul_y, Vec.mul_z, Vec.div_y, Vec.zero_y]
      field_simp
      linear_combination SpeedOfLight * hY
    · refine ((x3.add (((p1.mul_const e.y).sub (p2.mul_const e.x)).mul_const (SpeedOfLight / (qm * b)))).sub (ht.const_mul e.z)).congr_deriv ?_
      simp only [cross, Vec.mul_x, Vec.mul_y, Vec.mul_z, Vec.div_z, Vec.zero_z]
      field_simp
      linear_combination SpeedOfLight * hZ) t h1 h2
  have hv0 : dot e (velOf (p t0)) = dot e (p t0) / γ := by
    have hT : t0 ≤ t0 + T := h1.trans h2
    rw [hvel t0 le_rfl hT, dot_div_right]
  simp only [sub_self, mul_zero] at hx
  rw [hv0]
  have hX := congrArg Vec.x hx
  have hY := congrArg Vec.y hx
  have hZ := congrArg Vec.z hx
  simp only [Vec.sub_x, Vec.sub_y, Vec.sub_z, Vec.mul_x, Vec.mul_y, Vec.mul_z, Vec.add_x, Vec.add_y, Vec.add_z, mul_zero, sub_zero] at hX hY hZ
  ext <;> simp only [Vec.sub_x, Vec.sub_y, Vec.sub_z, Vec.mul_x, Vec.mul_y, Vec.mul_z, Vec.add_x, Vec.add_y, Vec.add_z]
  · linear_combination hX
  · linear_combination hY
  · linear_combination hZ

/-- C108: In a homogeneous magnetic field the tracker never leaves the orbit.  Seen along the field lines the tracked points lie exactly on the
circle of the true motion, at whatever step size and after however many steps: each of them is the place the particle really visits, only at a slightly
different time.  The clock with which the orbit is followed goes wrong by the constant fraction `(ωh)²/4` at most; along the
field lines the deviation is of the same relative size.  Nothing accumulates but the phase. -/
theorem C108_on_orbit (qm b : ℝ) (e : Vec) (he : e.norm = 1) (hb : qm * b ≠ 0) (x p : ℝ → Vec) (t0 T : ℝ) (hm : Motion qm (HomogeneousField 0 (e * b)).field x p t0 T)
    (h : ℝ) (hh : 0 < h) (hw : |qm * b / Real.sqrt (1 + (p t0).abs2nd) * h| ≤ 1) (a a1 a2 : Particle) (ha : a.Reachable) (hqm : a.Charge / a.Mass * InvRestMass = qm)
    (hx : a.TrajPoint (a.getNP - 1 : Nat) = .ok (x t0)) (hp : a.TrajMomentum (a.getNP - 1 : Nat) = .ok (p t0)) (n : ℕ)
    (h1 : a.InitVay h (HomogeneousField 0 (e * b)).field = .ok a1) (h2 : a1.steps (List.replicate n (HomogeneousField 0 (e * b)).field) = .ok a2) :
    ∃ rate : ℝ, |rate - 1| ≤ (qm * b / Real.sqrt (1 + (p t0).abs2nd) * h) ^ 2 / 4 ∧
      ∀ k : ℕ, k ≤ n → rate * (k * h) ≤ T → ∃ X δ, a2.TrajPoint (a.getNP - 1 + k : Nat) = .ok X ∧
        a2.TrajMomentum (a.getNP - 1 + k : Nat) = .ok (p (t0 + rate * (k * h))) ∧ X = x (t0 + rate * (k * h)) + e * δ ∧
        |δ| ≤ SpeedOfLight * (k * h) * ((qm * b / Real.sqrt (1 + (p t0).abs2nd) * h) ^ 2 / 4) := by
  have he' : e.abs2nd = 1 := by rw [← Vec.norm_sq, he]; norm_num
  have hqm0 := left_ne_zero_of_mul hb
  have hb0 := right_ne_zero_of_mul hb
  have hc := SpeedOfLight_pos
  obtain ⟨γ, hγ⟩ : ∃ γ, γ = Real.sqrt (1 + (p t0).abs2nd) := ⟨_, rfl⟩
  have hg : 0 < γ := by rw [hγ]; have := abs2nd_nonneg (p t0); positivity
  have hg2 : γ ^ 2 = 1 + (p t0).abs2nd := by rw [hγ, Real.sq_sqrt]; have := abs2nd_nonneg (p t0); positivity
  rw [← hγ] at hw ⊢
  simp only [Particle.getNP] at *
  have hcons := cons_reachable ha
  have hc1 := Particle.cons_init hcons h1
  obtain ⟨q, q0, qn, qs, qi⟩ := Particle.run_states hc1 (Particle.atEnd_init h1) h2
  have hst : a1.NP = a.NP ∧ a1.dt = h ∧ a1.qmt2 = qm * h / 2 ∧ a1.XCur = x t0 ∧ a1.PCur = p t0 ∧ Particle.Runs a1 (HomogeneousField 0 (e * b)).field ⟨0, e * b⟩ := by
    obtain ⟨F, hF⟩ := Particle.runs_init h1
    have hf := hF.field
    simp only [HomogeneousField] at hf
    injection hf with hf
    rw [← hf] at hF
    obtain ⟨_, _, t, x', pm, EB, _, hX, hP, _, _, er⟩ := Particle.InitVay_ok h1
    have ex : x' = x t0 := by
      have a' := Particle.last_get hcons.2.1 hX
      have b' := get_of_TrajPoint hx
      rw [a'] at b'; injection b'
    have ep : pm = p t0 := by
      have a' := Particle.last_get hcons.2.2.1 hP
      have b' := get_of_TrajMomentum hp
      rw [a'] at b'; injection b'
    refine ⟨by rw [er], by rw [er], by rw [er]; simp only [hqm]; ring, by rw [er, ← ex], by rw [er, ← ep], hF⟩
  obtain ⟨hNP, hdt, hqt, hX0, hP0, hR0⟩ := hst
  have hsh := Particle.onShell_init h1
  obtain ⟨g, hgd⟩ : ∃ g, g = a1.VYgamma := ⟨_, rfl⟩
  have hgp : 0 < g := by rw [hgd]; exact hsh.1
  have hgs : g ^ 2 = 1 + a1.VYp.abs2nd := by rw [hgd]; exact hsh.2
  obtain ⟨z, hz⟩ : ∃ z, z = qm * h / 2 * b / g := ⟨_, rfl⟩
  have hz0 : z ≠ 0 := by rw [hz]; positivity
  have hzg : 2 * z * g = qm * b * h := by rw [hz]; field_simp
  -- the momentum half a step later
  have e0 : p t0 = a1.VYp - cross a1.VYp e * z := by
    have g1 := Particle.vay_back_centre a1.qmt2 a1.PCur 0 (e * b)
    have g2 := hR0.mom
    have g3 := hR0.gam
    simp only at g2 g3
    rw [← g2, ← g3, ← hgd, hqt, hP0] at g1
    have : p t0 = -(-p t0) := by ext <;> simp
    rw [this, ← g1, hz]
    ext <;> simp [cross] <;> field_simp <;> ring
  have hdu : dot e (p t0) = dot e a1.VYp := by rw [e0, dot_sub_right, dot_mul_right, dot_cross_right]; ring
  have hpu : (p t0).abs2nd = a1.VYp.abs2nd + (cross a1.VYp e).abs2nd * z ^ 2 := by
    rw [e0, sub_eq_add_neg, abs2nd_add, abs2nd_neg, abs2nd_mul, dot_neg_right, dot_mul_right, dot_cross_left]; ring
  have hlag : (cross a1.VYp e).abs2nd ≤ a1.VYp.abs2nd := by
    rw [lagrange, he']; nlinarith [sq_nonneg (dot a1.VYp e)]
  have hlag0 := abs2nd_nonneg (cross a1.VYp e)
  have hu0 := abs2nd_nonneg a1.VYp
  have hup : γ ^ 2 ≤ g ^ 2 * (1 + z ^ 2) := by rw [hg2, hpu, hgs]; nlinarith [sq_nonneg z]
  have hlow : g ^ 2 ≤ γ ^ 2 := by rw [hg2, hpu, hgs]; nlinarith [sq_nonneg z]
  have hgγ : g ≤ γ := by nlinarith
  have hpar : |dot e (p t0)| ≤ g := by
    rw [hdu]
    apply abs_le_of_sq_le_sq _ hgp.le
    have := dot_sq_le e a1.VYp
    rw [he'] at this
    nlinarith
  -- the angle
  obtain ⟨θ, hθ⟩ : ∃ θ, θ = Real.arctan z := ⟨_, rfl⟩
  obtain ⟨y, hy⟩ : ∃ y, y = (qm * b / γ * h) ^ 2 / 4 := ⟨_, rfl⟩
  have hy0 : 0 ≤ y := by rw [hy]; positivity
  have hyz : z ^ 2 * g ^ 2 = y * γ ^ 2 := by
    rw [hy, hz]; field_simp; ring
  have hy4 : y ≤ 1 / 4 := by
    have h3 : (qm * b / γ * h) ^ 2 ≤ 1 := by rw [← sq_abs]; exact pow_le_one₀ (abs_nonneg _) hw
    rw [hy]; linarith only [h3]
  obtain ⟨r1, r2, hrate1⟩ := gyro_clock hg hgp hz0 hup hlow hyz hy4
  rw [← hθ] at r1 r2 hrate1
  obtain ⟨rate, hrate⟩ : ∃ rate, rate = γ / g * (θ / z) := ⟨_, rfl⟩
  rw [← hrate] at hrate1
  refine ⟨rate, by rw [← hy]; exact hrate1, fun k hk hkT => ?_⟩
  have hrpos : 0 ≤ rate := by have := (abs_le.mp hrate1).1; linarith only [this, hy4]
  obtain ⟨m1, m2⟩ := C108_helix qm b e he hb x p t0 T hm (t0 + rate * (k * h)) (le_add_of_nonneg_right (by positivity)) (by linarith)
  obtain ⟨k1, k2, k3, -, -⟩ := Particle.gyro_run he' q n qs (by rw [q0]; exact hsh) (by rw [q0]; exact hR0) k hk
  rw [q0, hP0, hqt, ← hgd, ← hz] at k2 k3
  rw [hX0, hdt] at k3
  obtain ⟨-, i2, i3, -⟩ := qi k hk
  have hc2 := (Particle.steps_facts h2).1 hc1
  rw [hNP] at i2 i3
  have hPk : (q k).PCur = p (t0 + rate * (k * h)) := by
    rw [k2, m1, ← hγ, ← hθ]
    congr 2
    rw [hrate, add_sub_cancel_left]
    have : qm * b * h = 2 * z * g := hzg.symm
    field_simp
    linear_combination (-(k : ℝ) * θ) * this
  refine ⟨(q k).XCur, dot e (p t0) / g * (1 - θ / z) * (SpeedOfLight * (k * h)), TrajPoint_of_get hc2 i2, ?_, ?_, ?_⟩
  · rw [← hPk]; exact TrajMomentum_of_get hc2 i3
  · rw [hPk] at k3
    rw [m2, add_sub_cancel_left]
    have hv : dot e (velOf (p t0)) = dot e (p t0) / γ := by unfold velOf; rw [← hγ, dot_div_right]
    rw [hv]
    have hk0 : qm * h / 2 * b ≠ 0 := by positivity
    have hzz : z = qm * h * b / (2 * g) := by rw [hz]; field_simp
    have hX := congrArg Vec.x k3
    have hY := congrArg Vec.y k3
    have hZ := congrArg Vec.z k3
    simp only [Vec.sub_x, Vec.sub_y, Vec.sub_z, Vec.mul_x, Vec.mul_y, Vec.mul_z, Vec.add_x, Vec.add_y, Vec.add_z] at hX hY hZ
    have fin : ∀ A D U V E : ℝ, (A - D) * (qm * h / 2 * b) = (E * (k * (dot e (p t0) * z)) + (U - V) * (1 / 2)) * (SpeedOfLight * h) →
        A = D + (U - V) * (SpeedOfLight / (qm * b)) + E * (dot e (p t0) / γ * SpeedOfLight * (rate * (k * h)))
          + E * (dot e (p t0) / g * (1 - θ / z) * (SpeedOfLight * (k * h))) := by
      intro A D U V E hA
      have e1 : A - D = (E * (k * (dot e (p t0) * z)) + (U - V) * (1 / 2)) * (SpeedOfLight * h) / (qm * h / 2 * b) := by
        rw [eq_div_iff hk0]; exact hA
      have e2 : dot e (p t0) / γ * SpeedOfLight * (rate * (k * h)) = dot e (p t0) / g * (θ / z) * (SpeedOfLight * (k * h)) := by
        rw [hrate]; field_simp
      rw [e2]
      have e3 : (E * (k * (dot e (p t0) * z)) + (U - V) * (1 / 2)) * (SpeedOfLight * h) / (qm * h / 2 * b) =
          (U - V) * (SpeedOfLight / (qm * b)) + E * (dot e (p t0) / g * (SpeedOfLight * (k * h))) := by
        rw [hzz]; field_simp; ring
      rw [e3] at e1
      linear_combination e1
    ext <;> simp only [Vec.sub_x, Vec.sub_y, Vec.sub_z, Vec.mul_x, Vec.mul_y, Vec.mul_z, Vec.add_x, Vec.add_y, Vec.add_z]
    · exact fin _ _ _ _ _ hX
    · exact fin _ _ _ _ _ hY
    · exact fin _ _ _ _ _ hZ
  · have hk0 : 0 ≤ SpeedOfLight * (k * h) := by positivity
    rw [abs_mul, abs_mul, abs_of_nonneg hk0, abs_div, abs_of_pos hgp, ← hy, mul_comm]
    refine mul_le_mul_of_nonneg_left ?_ hk0
    have a1 : |dot e (p t0)| / g ≤ 1 := by rw [div_le_one hgp]; exact hpar
    have a2 : |1 - θ / z| ≤ y := by rw [abs_of_nonneg (by linarith only [r2])]; linarith only [r1]
    calc |dot e (p t0)| / g * |1 - θ / z| ≤ 1 * y := mul_le_mul a1 a2 (abs_nonneg _) zero_le_one
      _ = y := one_mul y

/-- the orbit in a homogeneous magnetic field exists, for every start -/
theorem C108_exists (qm b : ℝ) (e : Vec) (he : e.norm = 1) (hb : qm * b ≠ 0) (t0 : ℝ) (x0 p0 : Vec) :
    ∃ x p : ℝ → Vec, x t0 = x0 ∧ p t0 = p0 ∧ ∀ T, Motion qm (HomogeneousField 0 (e * b)).field x p t0 T := by
  have he' : e.abs2nd = 1 := by rw [← Vec.norm_sq, he]; norm_num
  have hqm := left_ne_zero_of_mul hb
  have hb0 := right_ne_zero_of_mul hb
  have hc := SpeedOfLight_pos
  obtain ⟨γ, hγ⟩ : ∃ γ, γ = Real.sqrt (1 + p0.abs2nd) := ⟨_, rfl⟩
  have hg : 0 < γ := by rw [hγ]; have := abs2nd_nonneg p0; positivity
  obtain ⟨ω, hω⟩ : ∃ ω, ω = -(qm * b / γ) := ⟨_, rfl⟩
  obtain ⟨p, hpd⟩ : ∃ p : ℝ → Vec, p = fun t => turn e (ω * (t - t0)) p0 := ⟨_, rfl⟩
  have hp0 : p t0 = p0 := by rw [hpd]; simp [turn_zero]
  have hvel : ∀ t, velOf (p t) = p t / γ := by
    intro t
    unfold velOf
    rw [show (p t).abs2nd = p0.abs2nd by rw [hpd]; exact abs2nd_turn he' _ _, hγ]
  have hp : ∀ t, HasVelocity p (cross (p t) e * (qm * b / γ)) t := by
    intro t
    have h1 : HasVelocity (fun _ : ℝ => p0) 0 t := ⟨hasDerivAt_const _ _, hasDerivAt_const _ _, hasDerivAt_const _ _⟩
    have h2 := h1.turn e ω t0
    rw [hpd]
    convert h2 using 1
    have h3 : cross (turn e (ω * (t - t0)) p0) e = -(cross e (turn e (ω * (t - t0)) p0)) := by ext <;> simp [cross] <;> ring
    have h4 : turn e (ω * (t - t0)) 0 = 0 := by unfold turn; ext <;> simp [cross, dot]
    rw [h3, cross_turn he', h4, zero_add, hω]
    ext <;> simp <;> ring
  have hdot : ∀ t, dot e (p t) = dot e p0 := by intro t; rw [hpd]; exact dot_turn he' _ _
  refine ⟨fun t => x0 + (cross p0 e - cross (p t) e) * (SpeedOfLight / (qm * b)) + e * (dot e p0 / γ * SpeedOfLight * (t - t0)), p, ?_, hp0, fun T => ⟨?_, ?_⟩⟩
  · simp only [hp0]; ext <;> simp
  · intro t _ _
    obtain ⟨p1, p2, p3⟩ := hp t
    have ht : HasDerivAt (fun s : ℝ => dot e p0 / γ * SpeedOfLight * (s - t0)) (dot e p0 / γ * SpeedOfLight) t := by
      simpa using ((hasDerivAt_id t).sub_const t0).const_mul (dot e p0 / γ * SpeedOfLight)
    have hcc : cross (cross (p t) e) e = e * dot e p0 - p t := by
      rw [← hdot t, ← cross_cross_unit he']
      ext <;> simp [cross] <;> ring
    have hX := congrArg Vec.x hcc
    have hY := congrArg Vec.y hcc
    have hZ := congrArg Vec.z hcc
    simp only [cross, Vec.sub_x, Vec.sub_y, Vec.sub_z, Vec.mul_x, Vec.mul_y, Vec.mul_z] at hX hY hZ
    rw [hvel t]
    refine ⟨?_, ?_, ?_⟩
    · refine ((((((p2.mul_const e.z).sub (p3.mul_const e.y)).const_sub (cross p0 e).x).mul_const (SpeedOfLight / (qm * b))).const_add x0.x).add (ht.const_mul e.x)).congr_deriv ?_
      simp only [cross, Vec.mul_x, Vec.mul_y, Vec.mul_z, Vec.div_x]
      field_simp
      linear_combination -hX
    · refine ((((((p3.mul_const e.x).sub (p1.mul_const e.z)).const_sub (cross p0 e).y).mul_const (SpeedOfLight / (qm * b))).const_add x0.y).add (ht.const_mul e.y)).congr_deriv ?_
      simp only [cross, Vec.mul_x, Vec.mul_y, Vec.mul_z, Vec.div_y]
      field_simp
      linear_combination -hY
    · refine ((((((p1.mul_const e.y).sub (p2.mul_const e.x)).const_sub (cross p0 e).z).mul_const (SpeedOfLight / (qm * b))).const_add x0.z).add (ht.const_mul e.z)).congr_deriv ?_
      simp only [cross, Vec.mul_x, Vec.mul_y, Vec.mul_z, Vec.div_z]
      field_simp
      linear_combination -hZ
  · intro t _ _
    refine ⟨_, rfl, ?_⟩
    rw [hvel t]
    convert hp t using 1
    ext <;> simp [cross] <;> field_simp

/-- C108: In a homogeneous electric field the momentum of the tracked particle is exactly that of the true motion, at every stored point and for every
step size. -/
theorem C108_electric (qm : ℝ) (E : Vec) (x p : ℝ → Vec) (t0 T : ℝ) (hm : Motion qm (HomogeneousField E 0).field x p t0 T) (h : ℝ) (hh : 0 < h)
    (a a1 a2 : Particle) (ha : a.Reachable) (hqm : a.Charge / a.Mass * InvRestMass = qm) (hp : a.TrajMomentum (a.getNP - 1 : Nat) = .ok (p t0)) (n : ℕ)
    (h1 : a.InitVay h (HomogeneousField E 0).field = .ok a1) (h2 : a1.steps (List.replicate n (HomogeneousField E 0).field) = .ok a2) (k : ℕ) (hk : k ≤ n)
    (hkT : k * h ≤ T) : a2.TrajMomentum (a.getNP - 1 + k : Nat) = .ok (p (t0 + k * h)) := by
  have hc := SpeedOfLight_pos
  have hc0 := hc.ne'
  have hpt : p (t0 + k * h) = p t0 + E * (qm / SpeedOfLight * ((k : ℝ) * h)) := by
    have hw := HasVelocity.const (f := fun s => p s - E * (qm / SpeedOfLight * (s - t0))) (t0 := t0) (T := T) (fun s a b' => by
      obtain ⟨EB, hE, hv⟩ := hm.momentum s a b'
      cases hE
      have ht : HasDerivAt (fun s : ℝ => qm / SpeedOfLight * (s - t0)) (qm / SpeedOfLight) s := by
        simpa using ((hasDerivAt_id s).sub_const t0).const_mul (qm / SpeedOfLight)
      refine ⟨(hv.1.sub (ht.const_mul E.x)).congr_deriv ?_, (hv.2.1.sub (ht.const_mul E.y)).congr_deriv ?_, (hv.2.2.sub (ht.const_mul E.z)).congr_deriv ?_⟩ <;>
        simp [cross]) (t0 + k * h) (le_add_of_nonneg_right (by positivity)) (by linarith)
    simp only [sub_self, mul_zero, add_sub_cancel_left] at hw
    have e0 : p t0 - E * (0 : ℝ) = p t0 := by ext <;> simp
    rw [e0] at hw
    rw [← hw]; ext <;> simp
  simp only [Particle.getNP] at *
  have hcons := cons_reachable ha
  have hc1 := Particle.cons_init hcons h1
  obtain ⟨q, q0, qn, qs, qi⟩ := Particle.run_states hc1 (Particle.atEnd_init h1) h2
  have hVm : ∀ (s : ℝ) (P : Vec), Particle.vayMomentum s P E 0 = P + E / SpeedOfLight * s := by
    intro s P
    rw [Particle.vay_implicit]
    ext <;> simp [cross]
  have hst : a1.NP = a.NP ∧ a1.qmt2 = qm * h / 2 ∧ a1.PCur = p t0 ∧ a1.VYp = p t0 + E / SpeedOfLight * (qm * h / 2) := by
    obtain ⟨_, _, t, x', pm, EB, _, hX, hP, _, hf, er⟩ := Particle.InitVay_ok h1
    have ep : pm = p t0 := by
      have a' := Particle.last_get hcons.2.2.1 hP
      have b' := get_of_TrajMomentum hp
      rw [a'] at b'; injection b'
    cases hf
    refine ⟨by rw [er], by rw [er]; simp only [hqm]; ring, by rw [er, ← ep], ?_⟩
    rw [er, ← ep]
    simp only
    rw [hVm, hqm]
    congr 2
    ring
  obtain ⟨hNP, hqt, hP0, hV0⟩ := hst
  have key : ∀ j, j ≤ n → (q j).PCur = p t0 + E * (qm / SpeedOfLight * ((j : ℝ) * h)) ∧ (q j).VYp = (q j).PCur + E / SpeedOfLight * (qm * h / 2) ∧ (q j).qmt2 = qm * h / 2 := by
    intro j hj
    induction j with
    | zero =>
      rw [q0, hP0, hV0]
      refine ⟨?_, rfl, hqt⟩
      ext <;> simp
    | succ j ih =>
      obtain ⟨i1, i2, i3⟩ := ih (by omega)
      have hstep := qs j (by omega)
      obtain ⟨EB, hf, er⟩ := Particle.StepVay_ok hstep
      cases hf
      have e1 : (q (j + 1)).PCur = p t0 + E * (qm / SpeedOfLight * (((j + 1 : ℕ) : ℝ) * h)) := by
        rw [er]
        simp only [Particle.storeTrajectoryPoint]
        rw [i2, i1, i3]
        push_cast
        ext <;> simp [cross] <;> ring
      refine ⟨e1, ?_, (Particle.step_const hstep).2.2.1.trans i3⟩
      have e2 : (q (j + 1)).VYp = Particle.vayMomentum (q j).qmt2 (q (j + 1)).PCur E 0 := by rw [er]; rfl
      rw [e2, hVm, i3]
  have i3 := (qi k hk).2.2.1
  rw [hNP, (key k hk).1, ← hpt] at i3
  exact TrajMomentum_of_get ((Particle.steps_facts h2).1 hc1) i3

/-- the hypotheses of `C108_on_orbit` are met by an electron that makes 1000 steps in a field of one Tesla -/
example : ∃ (x p : ℝ → Vec) (h : ℝ) (a a1 a2 : Particle), 0 < h ∧ (∀ T, Motion (-InvRestMass) (HomogeneousField 0 ((⟨0, 1, 0⟩ : Vec) * (1 : ℝ))).field x p 0 T) ∧
    p 0 = ⟨1, 2, 3⟩ ∧ |-InvRestMass * 1 / Real.sqrt (1 + (p 0).abs2nd) * h| ≤ 1 ∧ a.Reachable ∧ a.Charge / a.Mass * InvRestMass = -InvRestMass ∧
    a.TrajPoint (a.getNP - 1 : Nat) = .ok (x 0) ∧ a.TrajMomentum (a.getNP - 1 : Nat) = .ok (p 0) ∧
    a.InitVay h (HomogeneousField 0 ((⟨0, 1, 0⟩ : Vec) * (1 : ℝ))).field = .ok a1 ∧
    a1.steps (List.replicate 1000 (HomogeneousField 0 ((⟨0, 1, 0⟩ : Vec) * (1 : ℝ))).field) = .ok a2 := by
  have hI : 0 < InvRestMass := by unfold InvRestMass; norm_num
  obtain ⟨x, p, hx, hp, hm⟩ := C108_exists (-InvRestMass) 1 ⟨0, 1, 0⟩ (by rw [Vec.norm_def]; simp [abs2nd]) (by simp [hI.ne']) 0 0 ⟨1, 2, 3⟩
  have hr : (Particle.default.initTrajectory 0 0 ⟨1, 2, 3⟩ 0).Reachable := ⟨_, [.init 0 0 ⟨1, 2, 3⟩ 0], Or.inr (Or.inr (Or.inl rfl)), rfl⟩
  obtain ⟨a1, h1⟩ := Particle.init_total (p := Particle.default.initTrajectory 0 0 ⟨1, 2, 3⟩ 0) (cons_reachable hr) le_rfl (by simp [Particle.initTrajectory, Particle.default, Particle.new])
    (dt := 1 / InvRestMass) (f := (HomogeneousField 0 ((⟨0, 1, 0⟩ : Vec) * (1 : ℝ))).field) (fun t x => ⟨_, rfl⟩)
  obtain ⟨a2, h2⟩ := Particle.steps_total (p := a1) (fs := List.replicate 1000 (HomogeneousField 0 ((⟨0, 1, 0⟩ : Vec) * (1 : ℝ))).field) (by
    intro f hf t x
    rw [List.eq_of_mem_replicate hf]
    exact ⟨_, rfl⟩)
  refine ⟨x, p, 1 / InvRestMass, _, a1, a2, by positivity, hm, hp, ?_, hr, ?_, ?_, ?_, h1, h2⟩
  · have hs : 1 ≤ Real.sqrt (1 + (p 0).abs2nd) := by
      rw [show (1 : ℝ) = Real.sqrt 1 by simp]
      apply Real.sqrt_le_sqrt
      have := abs2nd_nonneg (p 0)
      simp; exact this
    have e : -InvRestMass * 1 / Real.sqrt (1 + (p 0).abs2nd) * (1 / InvRestMass) = -(1 / Real.sqrt (1 + (p 0).abs2nd)) := by
      field_simp
    rw [e, abs_neg, abs_of_nonneg (by positivity), div_le_one (by positivity)]
    exact hs
  · simp [Particle.initTrajectory, Particle.default, Particle.new]
  · rw [hx]; rfl
  · rw [hp]; rfl

end Teufel
