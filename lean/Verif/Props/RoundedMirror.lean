import Verif.Model.RoundedVay
import Verif.Props.RoundedSpeed
import Verif.Spec.MirrorImage
import Verif.Spec.Rounding
import Verif.Lemmas.Rounding

/-!
# Mirror images with rounded numbers
-/

namespace Teufel
open Vec

namespace Mirror

variable {rnd : ℝ → ℝ}

theorem vec_vec (S : Mirror) (v : Vec) : S.vec (S.vec v) = v := by
  rcases S with ⟨sx, sy, sz, e, rfl | rfl, rfl | rfl, rfl | rfl, he⟩ <;> ext <;> simp [vec]

theorem add_neg' (hr : ∀ x, rnd (-x) = -rnd x) (a b : ℝ) : rnd (-a + b) = -rnd (a - b) := by rw [← hr]; congr 1; ring

theorem vadd_vec (hr : ∀ x, rnd (-x) = -rnd x) (S : Mirror) (a b : Vec) : Rounded.vadd rnd (S.vec a) (S.vec b) = S.vec (Rounded.vadd rnd a b) := by
  rcases S with ⟨sx, sy, sz, e, rfl | rfl, rfl | rfl, rfl | rfl, he⟩ <;> ext <;> simp [vec, Rounded.vadd, add_neg' hr]

theorem vmul_vec (hr : ∀ x, rnd (-x) = -rnd x) (S : Mirror) (a : Vec) (k : ℝ) : Rounded.vmul rnd (S.vec a) k = S.vec (Rounded.vmul rnd a k) := by
  rcases S with ⟨sx, sy, sz, e, rfl | rfl, rfl | rfl, rfl | rfl, he⟩ <;> ext <;> simp [vec, Rounded.vmul, hr]

theorem vdiv_vec (hr : ∀ x, rnd (-x) = -rnd x) (S : Mirror) (a : Vec) (k : ℝ) : Rounded.vdiv rnd (S.vec a) k = S.vec (Rounded.vdiv rnd a k) := by
  rcases S with ⟨sx, sy, sz, e, rfl | rfl, rfl | rfl, rfl | rfl, he⟩ <;> ext <;> simp [vec, Rounded.vdiv, hr, neg_div]

theorem vdiv_e (hr : ∀ x, rnd (-x) = -rnd x) (S : Mirror) (a : Vec) (k : ℝ) : Rounded.vdiv rnd (S.vec a * S.e) k = S.vec (Rounded.vdiv rnd a k) * S.e := by
  rcases S with ⟨sx, sy, sz, e, rfl | rfl, rfl | rfl, rfl | rfl, rfl | rfl⟩ <;> ext <;> simp [vec, Rounded.vdiv, hr, neg_div]

theorem vmul_e (hr : ∀ x, rnd (-x) = -rnd x) (S : Mirror) (a : Vec) (k : ℝ) : Rounded.vmul rnd (S.vec a * S.e) (S.e * k) = S.vec (Rounded.vmul rnd a k) := by
  rcases S with ⟨sx, sy, sz, e, rfl | rfl, rfl | rfl, rfl | rfl, rfl | rfl⟩ <;> ext <;> simp [vec, Rounded.vmul, hr]

theorem vadd_e (hr : ∀ x, rnd (-x) = -rnd x) (S : Mirror) (a b : Vec) : Rounded.vadd rnd (S.vec a * S.e) (S.vec b * S.e) = S.vec (Rounded.vadd rnd a b) * S.e := by
  rcases S with ⟨sx, sy, sz, e, rfl | rfl, rfl | rfl, rfl | rfl, rfl | rfl⟩ <;> ext <;> simp [vec, Rounded.vadd, add_neg' hr]

theorem tau (hr : ∀ x, rnd (-x) = -rnd x) (S : Mirror) (B : Vec) (q : ℝ) : Rounded.vmul rnd (S.axial B * S.e) (S.e * q) = S.axial (Rounded.vmul rnd B q) := by
  rcases S with ⟨sx, sy, sz, e, rfl | rfl, rfl | rfl, rfl | rfl, rfl | rfl⟩ <;> ext <;> simp [axial, Rounded.vmul, hr]

theorem vdiv_axial (hr : ∀ x, rnd (-x) = -rnd x) (S : Mirror) (a : Vec) (k : ℝ) : Rounded.vdiv rnd (S.axial a) k = S.axial (Rounded.vdiv rnd a k) := by
  rcases S with ⟨sx, sy, sz, e, rfl | rfl, rfl | rfl, rfl | rfl, he⟩ <;> ext <;> simp [axial, Rounded.vdiv, hr, neg_div]

theorem abs2_vec (S : Mirror) (a : Vec) : Rounded.rabs2nd rnd (S.vec a) = Rounded.rabs2nd rnd a := by
  rcases S with ⟨sx, sy, sz, e, rfl | rfl, rfl | rfl, rfl | rfl, he⟩ <;> simp [vec, Rounded.rabs2nd]

theorem abs2_axial (S : Mirror) (a : Vec) : Rounded.rabs2nd rnd (S.axial a) = Rounded.rabs2nd rnd a := by
  rcases S with ⟨sx, sy, sz, e, rfl | rfl, rfl | rfl, rfl | rfl, he⟩ <;> simp [axial, Rounded.rabs2nd]

theorem dot_axial (hr : ∀ x, rnd (-x) = -rnd x) (S : Mirror) (a b : Vec) :
    Rounded.rdot rnd (S.vec a) (S.axial b) = S.sx * S.sy * S.sz * Rounded.rdot rnd a b := by
  rcases S with ⟨sx, sy, sz, e, rfl | rfl, rfl | rfl, rfl | rfl, he⟩ <;> simp [vec, axial, Rounded.rdot, hr, add_neg' hr]

theorem axial_dot (hr : ∀ x, rnd (-x) = -rnd x) (S : Mirror) (a : Vec) (k : ℝ) : Rounded.vmul rnd (S.axial a) (S.sx * S.sy * S.sz * k) = S.vec (Rounded.vmul rnd a k) := by
  rcases S with ⟨sx, sy, sz, e, rfl | rfl, rfl | rfl, rfl | rfl, he⟩ <;> ext <;> simp [vec, axial, Rounded.vmul, hr]

theorem cross_axial (hr : ∀ x, rnd (-x) = -rnd x) (S : Mirror) (a b : Vec) : Rounded.rcross rnd (S.vec a) (S.axial b) = S.vec (Rounded.rcross rnd a b) := by
  rcases S with ⟨sx, sy, sz, e, rfl | rfl, rfl | rfl, rfl | rfl, he⟩ <;> ext <;> simp [vec, axial, Rounded.rcross, hr, add_neg' hr]

theorem cross_e (hr : ∀ x, rnd (-x) = -rnd x) (S : Mirror) (a b : Vec) : Rounded.rcross rnd (S.vec a) (S.axial b * S.e) = S.vec (Rounded.rcross rnd a b) * S.e := by
  rcases S with ⟨sx, sy, sz, e, rfl | rfl, rfl | rfl, rfl | rfl, rfl | rfl⟩ <;> ext <;> simp [vec, axial, Rounded.rcross, hr, add_neg' hr]

theorem det_sq (S : Mirror) (k : ℝ) : S.sx * S.sy * S.sz * k * (S.sx * S.sy * S.sz * k) = k * k := by
  rcases S with ⟨sx, sy, sz, e, rfl | rfl, rfl | rfl, rfl | rfl, he⟩ <;> ring

variable (hr : ∀ x, rnd (-x) = -rnd x) (S : Mirror) (q : ℝ) (P E B : Vec)
include hr

theorem prime : Rounded.vayPrime rnd (S.e * q) (S.vec P) (S.vec E * S.e) = S.vec (Rounded.vayPrime rnd q P E) := by
  rw [Rounded.vayPrime, vdiv_e hr, vmul_e hr, vadd_vec hr]; rfl

theorem sigma : Rounded.vaySigma rnd (S.e * q) (S.vec P) (S.vec E * S.e) (S.axial B * S.e) = Rounded.vaySigma rnd q P E B := by
  rw [Rounded.vaySigma, prime hr, tau hr, abs2_vec, abs2_axial]; rfl

theorem disc : Rounded.vayDisc rnd (S.e * q) (S.vec P) (S.vec E * S.e) (S.axial B * S.e) = Rounded.vayDisc rnd q P E B := by
  simp only [Rounded.vayDisc]
  rw [sigma hr, prime hr, tau hr, dot_axial hr, det_sq, abs2_axial]

theorem gamma2 : Rounded.vayGamma2 rnd (S.e * q) (S.vec P) (S.vec E * S.e) (S.axial B * S.e) = Rounded.vayGamma2 rnd q P E B := by
  rw [Rounded.vayGamma2, sigma hr, disc hr]; rfl

theorem gamma : Rounded.vayGamma rnd (S.e * q) (S.vec P) (S.vec E * S.e) (S.axial B * S.e) = Rounded.vayGamma rnd q P E B := by
  rw [Rounded.vayGamma, gamma2 hr]; rfl

theorem t : Rounded.vayT rnd (S.e * q) (S.vec P) (S.vec E * S.e) (S.axial B * S.e) = S.axial (Rounded.vayT rnd q P E B) := by
  rw [Rounded.vayT, tau hr, gamma hr, vdiv_axial hr]; rfl

theorem den : Rounded.vayDen rnd (S.e * q) (S.vec P) (S.vec E * S.e) (S.axial B * S.e) = Rounded.vayDen rnd q P E B := by
  rw [Rounded.vayDen, t hr, abs2_axial]; rfl

theorem momentum : Rounded.vayMomentum rnd (S.e * q) (S.vec P) (S.vec E * S.e) (S.axial B * S.e) = S.vec (Rounded.vayMomentum rnd q P E B) := by
  simp only [Rounded.vayMomentum]
  rw [prime hr, t hr, den hr, dot_axial hr, axial_dot hr, cross_axial hr, vadd_vec hr, vadd_vec hr, vdiv_vec hr]

omit hr in
theorem h2 : Rounded.vayH2 rnd (S.vec P) = Rounded.vayH2 rnd P := by
  rw [Rounded.vayH2, abs2_vec]; rfl

theorem accel : Rounded.vayAccel rnd (S.e * q) (S.vec P) (S.vec E * S.e) (S.axial B * S.e) = S.vec (Rounded.vayAccel rnd q P E B) := by
  rw [Rounded.vayAccel, h2, vdiv_vec hr, cross_e hr, vdiv_e hr, vadd_e hr, vmul_e hr]; rfl

theorem defined : Rounded.VayDefined rnd (S.e * q) (S.vec P) (S.vec E * S.e) (S.axial B * S.e) ↔ Rounded.VayDefined rnd q P E B := by
  simp only [Rounded.VayDefined]
  rw [disc hr, gamma2 hr, gamma hr, den hr, h2]

omit hr in
theorem scale (hr : ∀ x, rnd (-x) = -rnd x) (S : Mirror) (x : ℝ) : rnd (S.e * x) = S.e * rnd x := by
  rcases S with ⟨sx, sy, sz, e, hx, hy, hz, rfl | rfl⟩ <;> simp [hr]

end Mirror

namespace Rounded

/-- the position after the step, the stored momentum and the particle after a step in the field `EB` -/
noncomputable def nextX (rnd : ℝ → ℝ) (p : Particle) : Vec := vadd rnd p.XCur (vmul rnd (vmul rnd (vdiv rnd p.VYp p.VYgamma) SpeedOfLight) p.dt)
noncomputable def nextP (rnd : ℝ → ℝ) (p : Particle) (EB : EMField) : Vec :=
  vadd rnd p.VYp (vmul rnd (vadd rnd (vdiv rnd EB.E SpeedOfLight) (rcross rnd (vdiv rnd p.VYp p.VYgamma) EB.B)) p.qmt2)
noncomputable def next (rnd : ℝ → ℝ) (p : Particle) (EB : EMField) : Particle :=
  { p with tCur := rnd (p.tCur + p.dt), XCur := nextX rnd p, ECur := EB.E, BCur := EB.B, PCur := nextP rnd p EB
           ACur := vayAccel rnd p.qm (nextP rnd p EB) EB.E EB.B, VYgamma := vayGamma rnd p.qmt2 (nextP rnd p EB) EB.E EB.B
           VYp := vayMomentum rnd p.qmt2 (nextP rnd p EB) EB.E EB.B }

variable {rnd : ℝ → ℝ} {p : Particle} {f : FieldFn}

theorem step_zero (h : p.VYgamma = 0) : StepVay rnd p f = .error (.nan, p) := by
  unfold StepVay
  rw [if_pos h]

theorem step_error (h : p.VYgamma ≠ 0) {e : Err} (hf : f (rnd (p.tCur + p.dt)) (nextX rnd p) = .error e) :
    StepVay rnd p f = .error (e, { p with tCur := rnd (p.tCur + p.dt), XCur := nextX rnd p }) := by
  unfold StepVay
  rw [if_neg h]
  unfold nextX at hf
  simp only [hf]
  rfl

theorem step_nan (h : p.VYgamma ≠ 0) {EB : EMField} (hf : f (rnd (p.tCur + p.dt)) (nextX rnd p) = .ok EB)
    (hd : ¬ VayDefined rnd p.qmt2 (nextP rnd p EB) EB.E EB.B) : StepVay rnd p f = .error (.nan, next rnd p EB) := by
  unfold StepVay
  rw [if_neg h]
  unfold nextX at hf
  simp only [hf]
  exact if_pos hd

theorem step_ok (h : p.VYgamma ≠ 0) {EB : EMField} (hf : f (rnd (p.tCur + p.dt)) (nextX rnd p) = .ok EB)
    (hd : VayDefined rnd p.qmt2 (nextP rnd p EB) EB.E EB.B) :
    StepVay rnd p f = .ok ((next rnd p EB).storeTrajectoryPoint (rnd (p.tCur + p.dt)) (nextX rnd p) (nextP rnd p EB) (vayAccel rnd p.qm (nextP rnd p EB) EB.E EB.B)) := by
  unfold StepVay
  rw [if_neg h]
  unfold nextX at hf
  simp only [hf]
  exact if_neg (not_not.mpr hd)

end Rounded

/-- the mirror image of a field value -/
noncomputable def Mirror.value (S : Mirror) (F : EMField) : EMField := ⟨S.vec F.E * S.e, S.axial F.B * S.e⟩

theorem Mirror.field_eq (S : Mirror) (f : FieldFn) (t : ℝ) (X : Vec) : S.field f t (S.vec X) = (f t X).map S.value := by
  unfold Mirror.field
  rw [Mirror.vec_vec]
  rfl

/-- C134: the mirror image of a step of the tracker is the step of the mirror image, to the last bit, even if it fails. -/
theorem C134_step (rnd : ℝ → ℝ) (u : ℝ) (hrnd : IsRounding rnd u) (S : Mirror) (p : Particle) (f : FieldFn) :
    Rounded.StepVay rnd (S.particle p) (S.field f) = S.outcome (Rounded.StepVay rnd p f) := by
  have hr := hrnd.neg
  have hb : Rounded.vdiv rnd (S.vec p.VYp) p.VYgamma = S.vec (Rounded.vdiv rnd p.VYp p.VYgamma) := Mirror.vdiv_vec hr S _ _
  by_cases hg : p.VYgamma = 0
  · rw [Rounded.step_zero hg, Rounded.step_zero (show (S.particle p).VYgamma = 0 from hg)]
    rfl
  have hg' : (S.particle p).VYgamma ≠ 0 := hg
  have hX : Rounded.nextX rnd (S.particle p) = S.vec (Rounded.nextX rnd p) := by
    show Rounded.vadd rnd (S.vec p.XCur) (Rounded.vmul rnd (Rounded.vmul rnd (Rounded.vdiv rnd (S.vec p.VYp) p.VYgamma) SpeedOfLight) p.dt) = _
    rw [hb, Mirror.vmul_vec hr, Mirror.vmul_vec hr, Mirror.vadd_vec hr]
    rfl
  have hF : S.field f (rnd ((S.particle p).tCur + (S.particle p).dt)) (Rounded.nextX rnd (S.particle p)) = (f (rnd (p.tCur + p.dt)) (Rounded.nextX rnd p)).map S.value := by
    rw [hX]
    exact S.field_eq f _ _
  cases hf : f (rnd (p.tCur + p.dt)) (Rounded.nextX rnd p) with
  | error e =>
    rw [hf] at hF
    rw [Rounded.step_error hg hf, Rounded.step_error hg' hF, hX]
    rfl
  | ok EB =>
    rw [hf] at hF
    have hF' : S.field f (rnd ((S.particle p).tCur + (S.particle p).dt)) (Rounded.nextX rnd (S.particle p)) = .ok (S.value EB) := hF
    have hP : Rounded.nextP rnd (S.particle p) (S.value EB) = S.vec (Rounded.nextP rnd p EB) := by
      show Rounded.vadd rnd (S.vec p.VYp) (Rounded.vmul rnd (Rounded.vadd rnd (Rounded.vdiv rnd (S.vec EB.E * S.e) SpeedOfLight)
          (Rounded.rcross rnd (Rounded.vdiv rnd (S.vec p.VYp) p.VYgamma) (S.axial EB.B * S.e))) (S.e * p.qmt2)) = _
      rw [hb, Mirror.vdiv_e hr, Mirror.cross_e hr, Mirror.vadd_e hr, Mirror.vmul_e hr, Mirror.vadd_vec hr]
      rfl
    have hA : Rounded.vayAccel rnd (S.particle p).qm (Rounded.nextP rnd (S.particle p) (S.value EB)) (S.value EB).E (S.value EB).B =
        S.vec (Rounded.vayAccel rnd p.qm (Rounded.nextP rnd p EB) EB.E EB.B) := by
      rw [hP]
      exact Mirror.accel hr S _ _ _ _
    have hN : Rounded.next rnd (S.particle p) (S.value EB) = S.particle (Rounded.next rnd p EB) := by
      unfold Rounded.next
      rw [hA, hP, hX, show Rounded.vayGamma rnd (S.particle p).qmt2 (S.vec (Rounded.nextP rnd p EB)) (S.value EB).E (S.value EB).B = _ from Mirror.gamma hr S _ _ _ _,
        show Rounded.vayMomentum rnd (S.particle p).qmt2 (S.vec (Rounded.nextP rnd p EB)) (S.value EB).E (S.value EB).B = _ from Mirror.momentum hr S _ _ _ _]
      rfl
    have hdi : Rounded.VayDefined rnd (S.particle p).qmt2 (Rounded.nextP rnd (S.particle p) (S.value EB)) (S.value EB).E (S.value EB).B ↔
        Rounded.VayDefined rnd p.qmt2 (Rounded.nextP rnd p EB) EB.E EB.B := by
      rw [hP]
      exact Mirror.defined hr S _ _ _ _
    by_cases hd : Rounded.VayDefined rnd p.qmt2 (Rounded.nextP rnd p EB) EB.E EB.B
    · rw [Rounded.step_ok hg hf hd, Rounded.step_ok hg' hF' (hdi.mpr hd), hA, hP, hX, hN]
      simp [Mirror.outcome, Mirror.particle, Particle.storeTrajectoryPoint]
    · rw [Rounded.step_nan hg hf hd, Rounded.step_nan hg' hF' (fun h => hd (hdi.mp h)), hN]
      rfl

namespace Rounded

noncomputable def startQm (rnd : ℝ → ℝ) (p : Particle) : ℝ := rnd (rnd (p.Charge / p.Mass) * InvRestMass)
noncomputable def startQ (rnd : ℝ → ℝ) (p : Particle) (h : ℝ) : ℝ := rnd (rnd (startQm rnd p * 0.5) * h)
/-- the particle before and after the field is known -/
noncomputable def begun (rnd : ℝ → ℝ) (p : Particle) (h t : ℝ) (x pm : Vec) : Particle :=
  { p with dt := h, qm := startQm rnd p, qmt2 := startQ rnd p h, tCur := t, XCur := x, PCur := pm }
noncomputable def started (rnd : ℝ → ℝ) (p : Particle) (h t : ℝ) (x pm : Vec) (EB : EMField) : Particle :=
  { begun rnd p h t x pm with
    ECur := EB.E, BCur := EB.B, VYgamma := vayGamma rnd (startQ rnd p h) pm EB.E EB.B, VYp := vayMomentum rnd (startQ rnd p h) pm EB.E EB.B
    ACur := vayAccel rnd (startQm rnd p) pm EB.E EB.B }

variable {rnd : ℝ → ℝ} {p : Particle} {f : FieldFn} {h t : ℝ} {x pm : Vec}

theorem init_error (h1 : ¬ p.NP < 1) (h2 : p.Mass ≠ 0) (gt : p.Time.getLast? = some t) (gx : p.X.getLast? = some x) (gp : p.P.getLast? = some pm) {e : Err}
    (hf : f t x = .error e) : InitVay rnd p h f = .error (e, begun rnd p h t x pm) := by
  unfold InitVay
  rw [if_neg h1, if_neg h2]
  simp only [gt, gx, gp, hf]
  rfl

theorem init_nan (h1 : ¬ p.NP < 1) (h2 : p.Mass ≠ 0) (gt : p.Time.getLast? = some t) (gx : p.X.getLast? = some x) (gp : p.P.getLast? = some pm) {EB : EMField}
    (hf : f t x = .ok EB) (hd : ¬ VayDefined rnd (startQ rnd p h) pm EB.E EB.B) : InitVay rnd p h f = .error (.nan, started rnd p h t x pm EB) := by
  unfold InitVay
  rw [if_neg h1, if_neg h2]
  simp only [gt, gx, gp, hf]
  exact if_pos hd

theorem init_ub (h1 : ¬ p.NP < 1) (h2 : p.Mass ≠ 0) (gt : p.Time.getLast? = some t) (gx : p.X.getLast? = some x) (gp : p.P.getLast? = some pm) {EB : EMField}
    (hf : f t x = .ok EB) (hd : VayDefined rnd (startQ rnd p h) pm EB.E EB.B) (hA : p.A = []) : InitVay rnd p h f = .error (.ub, started rnd p h t x pm EB) := by
  unfold InitVay
  rw [if_neg h1, if_neg h2]
  simp only [gt, gx, gp, hf]
  exact (if_neg (not_not.mpr hd)).trans (if_pos hA)

theorem init_ok (h1 : ¬ p.NP < 1) (h2 : p.Mass ≠ 0) (gt : p.Time.getLast? = some t) (gx : p.X.getLast? = some x) (gp : p.P.getLast? = some pm) {EB : EMField}
    (hf : f t x = .ok EB) (hd : VayDefined rnd (startQ rnd p h) pm EB.E EB.B) (hA : p.A ≠ []) :
    InitVay rnd p h f = .ok { started rnd p h t x pm EB with A := p.A.dropLast ++ [vayAccel rnd (startQm rnd p) pm EB.E EB.B] } := by
  unfold InitVay
  rw [if_neg h1, if_neg h2]
  simp only [gt, gx, gp, hf]
  exact (if_neg (not_not.mpr hd)).trans (if_neg hA)

theorem init_none (h1 : ¬ p.NP < 1) (h2 : p.Mass ≠ 0) (hn : p.Time.getLast? = none ∨ p.X.getLast? = none ∨ p.P.getLast? = none) :
    InitVay rnd p h f = .error (.ub, p) := by
  unfold InitVay
  rw [if_neg h1, if_neg h2]
  cases gt : p.Time.getLast? with
  | none => rfl
  | some t =>
  cases gx : p.X.getLast? with
  | none => rfl
  | some x =>
  cases gp : p.P.getLast? with
  | none => rfl
  | some pm =>
  rw [gt, gx, gp] at hn
  simp at hn

end Rounded

/-- C134: the same for the start of the tracking. -/
theorem C134_start (rnd : ℝ → ℝ) (u : ℝ) (hrnd : IsRounding rnd u) (S : Mirror) (p : Particle) (h : ℝ) (f : FieldFn) :
    Rounded.InitVay rnd (S.particle p) h (S.field f) = S.outcome (Rounded.InitVay rnd p h f) := by
  have hr := hrnd.neg
  have q1 : Rounded.startQm rnd (S.particle p) = S.e * Rounded.startQm rnd p := by
    show rnd (rnd (S.e * p.Charge / p.Mass) * InvRestMass) = S.e * rnd (rnd (p.Charge / p.Mass) * InvRestMass)
    rw [mul_div_assoc, Mirror.scale hr, mul_assoc, Mirror.scale hr]
  have q2 : Rounded.startQ rnd (S.particle p) h = S.e * Rounded.startQ rnd p h := by
    unfold Rounded.startQ
    rw [q1, mul_assoc, Mirror.scale hr, mul_assoc, Mirror.scale hr]
  by_cases h1 : p.NP < 1
  · unfold Rounded.InitVay
    rw [if_pos h1, if_pos (show (S.particle p).NP < 1 from h1)]
    rfl
  by_cases h2 : p.Mass = 0
  · unfold Rounded.InitVay
    rw [if_neg h1, if_neg (show ¬ (S.particle p).NP < 1 from h1), if_pos h2, if_pos (show (S.particle p).Mass = 0 from h2)]
    rfl
  have h1' : ¬ (S.particle p).NP < 1 := h1
  have h2' : (S.particle p).Mass ≠ 0 := h2
  have mX : (S.particle p).X.getLast? = p.X.getLast?.map S.vec := List.getLast?_map
  have mP : (S.particle p).P.getLast? = p.P.getLast?.map S.vec := List.getLast?_map
  cases gt : p.Time.getLast? with
  | none =>
    rw [Rounded.init_none h1 h2 (.inl gt), Rounded.init_none h1' h2' (.inl gt)]
    rfl
  | some t =>
  cases gx : p.X.getLast? with
  | none =>
    rw [gx] at mX
    rw [Rounded.init_none h1 h2 (.inr (.inl gx)), Rounded.init_none h1' h2' (.inr (.inl mX))]
    rfl
  | some x =>
  cases gp : p.P.getLast? with
  | none =>
    rw [gp] at mP
    rw [Rounded.init_none h1 h2 (.inr (.inr gp)), Rounded.init_none h1' h2' (.inr (.inr mP))]
    rfl
  | some pm =>
  rw [gx] at mX
  rw [gp] at mP
  have gt' : (S.particle p).Time.getLast? = some t := gt
  have hbegun : Rounded.begun rnd (S.particle p) h t (S.vec x) (S.vec pm) = S.particle (Rounded.begun rnd p h t x pm) := by
    unfold Rounded.begun
    rw [q1, q2]
    rfl
  cases hf : f t x with
  | error e =>
    have hF : S.field f t (S.vec x) = .error e := by rw [S.field_eq, hf]; rfl
    rw [Rounded.init_error h1 h2 gt gx gp hf, Rounded.init_error h1' h2' gt' mX mP hF, hbegun]
    rfl
  | ok EB =>
    have hF : S.field f t (S.vec x) = .ok (S.value EB) := by rw [S.field_eq, hf]; rfl
    have hA : Rounded.vayAccel rnd (Rounded.startQm rnd (S.particle p)) (S.vec pm) (S.value EB).E (S.value EB).B =
        S.vec (Rounded.vayAccel rnd (Rounded.startQm rnd p) pm EB.E EB.B) := by
      rw [q1]
      exact Mirror.accel hr S _ _ _ _
    have hN : Rounded.started rnd (S.particle p) h t (S.vec x) (S.vec pm) (S.value EB) = S.particle (Rounded.started rnd p h t x pm EB) := by
      unfold Rounded.started
      rw [hA, hbegun, q2, show Rounded.vayGamma rnd (S.e * Rounded.startQ rnd p h) (S.vec pm) (S.value EB).E (S.value EB).B = _ from Mirror.gamma hr S _ _ _ _,
        show Rounded.vayMomentum rnd (S.e * Rounded.startQ rnd p h) (S.vec pm) (S.value EB).E (S.value EB).B = _ from Mirror.momentum hr S _ _ _ _]
      rfl
    have hdi : Rounded.VayDefined rnd (Rounded.startQ rnd (S.particle p) h) (S.vec pm) (S.value EB).E (S.value EB).B ↔
        Rounded.VayDefined rnd (Rounded.startQ rnd p h) pm EB.E EB.B := by
      rw [q2]
      exact Mirror.defined hr S _ _ _ _
    have eA : (S.particle p).A = p.A.map S.vec := rfl
    by_cases hd : Rounded.VayDefined rnd (Rounded.startQ rnd p h) pm EB.E EB.B
    · by_cases hA0 : p.A = []
      · rw [Rounded.init_ub h1 h2 gt gx gp hf hd hA0, Rounded.init_ub h1' h2' gt' mX mP hF (hdi.mpr hd) (by rw [eA, hA0]; rfl), hN]
        rfl
      · rw [Rounded.init_ok h1 h2 gt gx gp hf hd hA0, Rounded.init_ok h1' h2' gt' mX mP hF (hdi.mpr hd) (by rw [eA]; simpa using hA0), hA, hN, eA]
        simp [Mirror.outcome, Mirror.particle, List.map_dropLast]
    · rw [Rounded.init_nan h1 h2 gt gx gp hf hd, Rounded.init_nan h1' h2' gt' mX mP hF (fun h => hd (hdi.mp h)), hN]
      rfl

/-- C134: a whole run: the trajectory of the mirror image in the mirror image of the fields is the mirror image of the trajectory, to the last bit, whatever
the rounding errors.  This includes particles of opposite charge in fields of opposite sign. -/
theorem C134_mirror (rnd : ℝ → ℝ) (u : ℝ) (hrnd : IsRounding rnd u) (S : Mirror) (a : Particle) (h : ℝ) (f0 : FieldFn) (fs : List FieldFn) (a1 a2 : Particle)
    (e1 : Rounded.InitVay rnd a h f0 = .ok a1) (e2 : Rounded.steps rnd a1 fs = .ok a2) :
    ∃ b1 b2, Rounded.InitVay rnd (S.particle a) h (S.field f0) = .ok b1 ∧ Rounded.steps rnd b1 (fs.map S.field) = .ok b2 ∧ b2.getNP = a2.getNP ∧
      ∀ i : ℕ, b2.TrajTime i = a2.TrajTime i ∧ b2.TrajPoint i = (a2.TrajPoint i).map S.vec ∧ b2.TrajMomentum i = (a2.TrajMomentum i).map S.vec ∧
        b2.TrajAccel i = (a2.TrajAccel i).map S.vec := by
  have key : ∀ (fs : List FieldFn) (a1 a2 : Particle), Rounded.steps rnd a1 fs = .ok a2 → Rounded.steps rnd (S.particle a1) (fs.map S.field) = .ok (S.particle a2) := by
    intro fs
    induction fs with
    | nil =>
      intro a1 a2 h
      cases h
      rfl
    | cons f fs ih =>
      intro a1 a2 h
      unfold Rounded.steps at h ⊢
      rw [List.foldlM_cons] at h
      rw [List.map_cons, List.foldlM_cons, C134_step rnd u hrnd]
      cases hs : Rounded.StepVay rnd a1 f with
      | error e => rw [hs] at h; cases h
      | ok q =>
        rw [hs] at h
        exact ih q a2 h
  have at_map : ∀ (l : List Vec) (i : ℕ), Particle.vecAt (l.map S.vec) i = (Particle.vecAt l i).map S.vec := by
    intro l i
    unfold Particle.vecAt
    rw [List.getElem?_map]
    cases l[i]? <;> rfl
  refine ⟨S.particle a1, S.particle a2, by rw [C134_start rnd u hrnd, e1]; rfl, key fs a1 a2 e2, rfl, fun i => ⟨rfl, ?_, ?_, ?_⟩⟩
  · unfold Particle.TrajPoint
    rw [show Particle.vecAt (S.particle a2).X _ = _ from at_map a2.X _]
    rw [apply_ite (Except.map S.vec)]
    rfl
  · unfold Particle.TrajMomentum
    rw [show Particle.vecAt (S.particle a2).P _ = _ from at_map a2.P _]
    rw [apply_ite (Except.map S.vec)]
    rfl
  · unfold Particle.TrajAccel
    rw [show Particle.vecAt (S.particle a2).A _ = _ from at_map a2.A _]
    rw [apply_ite (Except.map S.vec)]
    rfl

/-- reflection at the plane `x = 0` together with a change of the sign of the charge -/
noncomputable def Mirror.sample : Mirror := ⟨-1, 1, 1, -1, .inr rfl, .inl rfl, .inl rfl, .inr rfl⟩

/-- the hypotheses are met: a hundred steps of an electron in crossed fields, and those of the reflected positron -/
example : ∃ N : ℕ, ∀ digits : ℕ, N ≤ digits → ∃ a1 a2 b1 b2,
    Rounded.InitVay (binary digits) (POp.exec Particle.default (.init 0 0 ⟨0, 0, 60⟩ 0)) 1e-10 (fun _ _ => .ok ⟨⟨0, 0, 1000⟩, ⟨0, 1, 0⟩⟩) = .ok a1 ∧
    Rounded.steps (binary digits) a1 (List.replicate 100 fun _ _ => .ok ⟨⟨0, 0, 1000⟩, ⟨0, 1, 0⟩⟩) = .ok a2 ∧
    (Mirror.sample.particle (POp.exec Particle.default (.init 0 0 ⟨0, 0, 60⟩ 0))).Charge = 1 ∧
    Rounded.InitVay (binary digits) (Mirror.sample.particle (POp.exec Particle.default (.init 0 0 ⟨0, 0, 60⟩ 0))) 1e-10
      (fun _ _ => .ok ⟨⟨0, 0, -1000⟩, ⟨0, 1, 0⟩⟩) = .ok b1 ∧
    Rounded.steps (binary digits) b1 (List.replicate 100 fun _ _ => .ok ⟨⟨0, 0, -1000⟩, ⟨0, 1, 0⟩⟩) = .ok b2 ∧
    ∀ i : ℕ, b2.TrajPoint i = (a2.TrajPoint i).map fun v => ⟨-v.x, v.y, v.z⟩ := by
  obtain ⟨κ, hκ, H⟩ := C133_slower_than_light (-1 / 1 * InvRestMass) 0 60 1000 1 1e-8 (by norm_num)
  obtain ⟨N, hN⟩ := exists_pow_lt_of_lt_one (show 0 < κ * 1e-10 by positivity) (show (1 / 2 : ℝ) < 1 by norm_num)
  refine ⟨N + 1, fun digits hd => ?_⟩
  have hu : (2 : ℝ) ^ (-(digits : Int)) ≤ (1 / 2) ^ N := by
    rw [zpow_neg, zpow_natCast, one_div, inv_pow]
    exact inv_anti₀ (by positivity) (pow_le_pow_right₀ (by norm_num) (by omega))
  obtain ⟨a1, a2, e1, e2, -, -⟩ := H (binary digits) _ (binary_isRounding (by omega)) 1e-10 (by norm_num) (by norm_num) (hu.trans hN.le)
    (fun _ _ => .ok ⟨⟨0, 0, 1000⟩, ⟨0, 1, 0⟩⟩) (List.replicate 100 fun _ _ => .ok ⟨⟨0, 0, 1000⟩, ⟨0, 1, 0⟩⟩)
    (by rw [List.length_replicate]; norm_num)
    (by
      intro f hf t X _
      have hf' : f = fun _ _ => .ok ⟨⟨0, 0, 1000⟩, ⟨0, 1, 0⟩⟩ := by
        rcases List.mem_cons.mp hf with rfl | hf
        · rfl
        · exact List.eq_of_mem_replicate hf
      subst hf'
      refine ⟨_, rfl, ?_, ?_⟩ <;> rw [Vec.norm_def] <;> simp [Vec.abs2nd])
    (POp.exec Particle.default (.init 0 0 ⟨0, 0, 60⟩ 0))
    ⟨_, [.init 0 0 ⟨0, 0, 60⟩ 0], Or.inr (Or.inr (Or.inl rfl)), rfl⟩
    (by simp [POp.exec, POp.result, Particle.initTrajectory, Particle.default, Particle.new])
    (by simp [POp.exec, POp.result, Particle.initTrajectory, Particle.default, Particle.new]) 0 0 ⟨0, 0, 60⟩ rfl rfl rfl
    (by rw [Vec.norm_zero])
    (by
      rw [Vec.norm_def]
      simp [Vec.abs2nd])
  obtain ⟨b1, b2, g1, g2, -, g3⟩ := C134_mirror (binary digits) _ (binary_isRounding (by omega)) Mirror.sample _ _ _ _ a1 a2 e1 e2
  have hf : Mirror.sample.field (fun _ _ => .ok ⟨⟨0, 0, 1000⟩, ⟨0, 1, 0⟩⟩) = fun _ _ => .ok ⟨⟨0, 0, -1000⟩, ⟨0, 1, 0⟩⟩ := by
    funext t X
    simp [Mirror.field, Mirror.sample, Mirror.vec, Mirror.axial, Except.map]
    constructor <;> ext <;> simp
  rw [List.map_replicate, hf] at g2
  rw [hf] at g1
  refine ⟨a1, a2, b1, b2, e1, e2, ?_, g1, g2, fun i => ?_⟩
  · simp [Mirror.particle, Mirror.sample, POp.exec, POp.result, Particle.initTrajectory, Particle.default, Particle.new]
  · rw [(g3 i).2.1]
    congr 1
    funext v
    ext <;> simp [Mirror.vec, Mirror.sample]

end Teufel
