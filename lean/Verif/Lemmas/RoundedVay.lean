import Verif.Lemmas.Appr
import Verif.Lemmas.Vay

/-! # Rounding errors of one step of the tracker -/

namespace Teufel
open Vec

namespace Rounded
variable {ι : Type*} {u : ι → ℝ} {rnd : ι → ℝ → ℝ} {P P' E E' B B' : ι → Vec} {q q' g g' : ι → ℝ}

/-- the root in eq. (11) -/
theorem disc_ge (p t : Vec) : 1 ≤ (p.abs2nd + 1.0 - t.abs2nd) * (p.abs2nd + 1.0 - t.abs2nd) + 4.0 * (t.abs2nd + dot p t * dot p t) := by
  have h1 := abs2nd_nonneg p
  have h2 := abs2nd_nonneg t
  have h3 := mul_self_nonneg (dot p t)
  norm_num
  generalize p.abs2nd = a at *
  generalize t.abs2nd = b at *
  generalize dot p t * dot p t = c at *
  rcases le_total b 1 with h | h
  · nlinarith [mul_nonneg h1 h1, mul_nonneg h1 (sub_nonneg.mpr h)]
  · nlinarith [mul_self_nonneg (a + 1 - b)]

theorem gamma2_ge (q : ℝ) (P E B : Vec) :
    let p' := P + E / SpeedOfLight * q
    let t := B * q
    1 ≤ 0.5 * ((p'.abs2nd + 1.0 - t.abs2nd) + Real.sqrt ((p'.abs2nd + 1.0 - t.abs2nd) * (p'.abs2nd + 1.0 - t.abs2nd) + 4.0 * (t.abs2nd + dot p' t * dot p' t))) := by
  intro p' t
  have h := gammaOf_ge (Particle.vayMomentum q P E B)
  rw [← Setting.gamma_eq] at h
  by_contra hc
  push Not at hc
  have : Particle.vayGamma q P E B < 1 := by
    unfold Particle.vayGamma
    rw [Real.sqrt_lt' one_pos]
    simpa using hc
  linarith

theorem appr_prime (hr : Rounds u rnd) (hP : VAppr u P' P) (hE : VAppr u E' E) (hq : Appr u q' q) :
    VAppr u (fun i => vayPrime (rnd i) (q' i) (P' i) (E' i)) (fun i => P i + E i / SpeedOfLight * q i) :=
  hP.add hr ((hE.div hr (.const SpeedOfLight) SpeedOfLight_pos fun _ => le_rfl).mul hr hq)

theorem appr_sigma (hr : Rounds u rnd) (hP : VAppr u P' P) (hE : VAppr u E' E) (hB : VAppr u B' B) (hq : Appr u q' q) :
    Appr u (fun i => vaySigma (rnd i) (q' i) (P' i) (E' i) (B' i)) (fun i => (P i + E i / SpeedOfLight * q i).abs2nd + 1.0 - (B i * q i).abs2nd) :=
  (((((appr_prime hr hP hE hq).abs2nd hr).add (.const 1.0)).round hr).sub ((hB.mul hr hq).abs2nd hr)).round hr

theorem appr_disc (hr : Rounds u rnd) (hP : VAppr u P' P) (hE : VAppr u E' E) (hB : VAppr u B' B) (hq : Appr u q' q) :
    Appr u (fun i => vayDisc (rnd i) (q' i) (P' i) (E' i) (B' i)) (fun i =>
      ((P i + E i / SpeedOfLight * q i).abs2nd + 1.0 - (B i * q i).abs2nd) * ((P i + E i / SpeedOfLight * q i).abs2nd + 1.0 - (B i * q i).abs2nd) +
      4.0 * ((B i * q i).abs2nd + dot (P i + E i / SpeedOfLight * q i) (B i * q i) * dot (P i + E i / SpeedOfLight * q i) (B i * q i))) := by
  have hs := appr_sigma hr hP hE hB hq
  have ht := hB.mul hr hq
  have hd := (appr_prime hr hP hE hq).dot hr ht
  exact (((hs.mul hr.nonneg hs).round hr).add
    (((Appr.const 4.0).mul hr.nonneg (((ht.abs2nd hr).add ((hd.mul hr.nonneg hd).round hr)).round hr)).round hr)).round hr

theorem appr_gamma2 (hr : Rounds u rnd) (hP : VAppr u P' P) (hE : VAppr u E' E) (hB : VAppr u B' B) (hq : Appr u q' q) :
    Appr u (fun i => vayGamma2 (rnd i) (q' i) (P' i) (E' i) (B' i)) (fun i => 0.5 * (
      ((P i + E i / SpeedOfLight * q i).abs2nd + 1.0 - (B i * q i).abs2nd) + Real.sqrt (
      ((P i + E i / SpeedOfLight * q i).abs2nd + 1.0 - (B i * q i).abs2nd) * ((P i + E i / SpeedOfLight * q i).abs2nd + 1.0 - (B i * q i).abs2nd) +
      4.0 * ((B i * q i).abs2nd + dot (P i + E i / SpeedOfLight * q i) (B i * q i) * dot (P i + E i / SpeedOfLight * q i) (B i * q i))))) :=
  ((Appr.const 0.5).mul hr.nonneg (((appr_sigma hr hP hE hB hq).add
    (((appr_disc hr hP hE hB hq).sqrt hr.nonneg one_pos fun i => disc_ge _ _).round hr)).round hr)).round hr

theorem appr_gamma (hr : Rounds u rnd) (hP : VAppr u P' P) (hE : VAppr u E' E) (hB : VAppr u B' B) (hq : Appr u q' q) :
    Appr u (fun i => vayGamma (rnd i) (q' i) (P' i) (E' i) (B' i)) (fun i => Particle.vayGamma (q i) (P i) (E i) (B i)) :=
  ((appr_gamma2 hr hP hE hB hq).sqrt hr.nonneg one_pos fun i => gamma2_ge _ _ _ _).round hr

theorem gamma_ge (q : ℝ) (P E B : Vec) : 1 ≤ Particle.vayGamma q P E B := by
  rw [Setting.gamma_eq]
  exact gammaOf_ge _

theorem appr_T (hr : Rounds u rnd) (hP : VAppr u P' P) (hE : VAppr u E' E) (hB : VAppr u B' B) (hq : Appr u q' q) :
    VAppr u (fun i => vayT (rnd i) (q' i) (P' i) (E' i) (B' i)) (fun i => B i * q i / Particle.vayGamma (q i) (P i) (E i) (B i)) :=
  (hB.mul hr hq).div hr (appr_gamma hr hP hE hB hq) one_pos fun i => gamma_ge _ _ _ _

theorem appr_den (hr : Rounds u rnd) (hP : VAppr u P' P) (hE : VAppr u E' E) (hB : VAppr u B' B) (hq : Appr u q' q) :
    Appr u (fun i => vayDen (rnd i) (q' i) (P' i) (E' i) (B' i)) (fun i => 1 + (B i * q i / Particle.vayGamma (q i) (P i) (E i) (B i)).abs2nd) :=
  ((Appr.const 1).add ((appr_T hr hP hE hB hq).abs2nd hr)).round hr

theorem appr_momentum (hr : Rounds u rnd) (hP : VAppr u P' P) (hE : VAppr u E' E) (hB : VAppr u B' B) (hq : Appr u q' q) :
    VAppr u (fun i => vayMomentum (rnd i) (q' i) (P' i) (E' i) (B' i)) (fun i => Particle.vayMomentum (q i) (P i) (E i) (B i)) := by
  have hp := appr_prime hr hP hE hq
  have ht := appr_T hr hP hE hB hq
  exact ((hp.add hr (ht.mul hr (hp.dot hr ht))).add hr (hp.cross hr ht)).div hr (appr_den hr hP hE hB hq) one_pos fun i => by
    have := abs2nd_nonneg (B i * q i / Particle.vayGamma (q i) (P i) (E i) (B i))
    linarith

theorem appr_H2 (hr : Rounds u rnd) (hP : VAppr u P' P) : Appr u (fun i => vayH2 (rnd i) (P' i)) (fun i => (P i).abs2nd + 1.0) :=
  ((hP.abs2nd hr).add (.const 1.0)).round hr

theorem H2_ge (P : Vec) : 1 ≤ P.abs2nd + 1.0 := by
  have := abs2nd_nonneg P
  norm_num
  linarith

theorem sqrt_H2_ge (P : Vec) : 1 ≤ Real.sqrt (P.abs2nd + 1.0) := by
  rw [Real.one_le_sqrt]
  exact H2_ge P

theorem appr_H (hr : Rounds u rnd) (hP : VAppr u P' P) :
    Appr u (fun i => rnd i (Real.sqrt (vayH2 (rnd i) (P' i)))) (fun i => Real.sqrt ((P i).abs2nd + 1.0)) :=
  ((appr_H2 hr hP).sqrt hr.nonneg one_pos fun _ => H2_ge _).round hr

theorem appr_accel (hr : Rounds u rnd) (hP : VAppr u P' P) (hE : VAppr u E' E) (hB : VAppr u B' B) (hq : Appr u q' q) :
    VAppr u (fun i => vayAccel (rnd i) (q' i) (P' i) (E' i) (B' i)) (fun i => Particle.vayAccel (q i) (P i) (E i) (B i)) :=
  ((((hP.div hr (appr_H hr hP) one_pos fun _ => sqrt_H2_ge _).cross hr hB).add hr
    (hE.div hr (.const SpeedOfLight) SpeedOfLight_pos fun _ => le_rfl))).mul hr hq

theorem appr_defined (hr : Rounds u rnd) (hP : VAppr u P' P) (hE : VAppr u E' E) (hB : VAppr u B' B) (hq : Appr u q' q) :
    ∃ u0 : ℝ, 0 < u0 ∧ ∀ i, u i ≤ u0 → VayDefined (rnd i) (q' i) (P' i) (E' i) (B' i) := by
  obtain ⟨u1, p1, h1⟩ := (appr_disc hr hP hE hB hq).lower hr.nonneg one_pos fun i => disc_ge _ _
  obtain ⟨u2, p2, h2⟩ := (appr_gamma2 hr hP hE hB hq).lower hr.nonneg one_pos fun i => gamma2_ge _ _ _ _
  obtain ⟨u3, p3, h3⟩ := (appr_gamma hr hP hE hB hq).lower hr.nonneg one_pos fun i => gamma_ge _ _ _ _
  obtain ⟨u4, p4, h4⟩ := (appr_den hr hP hE hB hq).lower hr.nonneg one_pos fun i => by
    have := abs2nd_nonneg (B i * q i / Particle.vayGamma (q i) (P i) (E i) (B i))
    linarith
  obtain ⟨u5, p5, h5⟩ := (appr_H2 hr hP).lower hr.nonneg one_pos fun i => H2_ge _
  obtain ⟨u6, p6, h6⟩ := (appr_H hr hP).lower hr.nonneg one_pos fun i => sqrt_H2_ge _
  refine ⟨min (min (min u1 u2) (min u3 u4)) (min u5 u6), by simp only [lt_min_iff]; tauto, ?_⟩
  intro i hi
  simp only [le_min_iff] at hi
  have := h1 i hi.1.1.1
  have := h2 i hi.1.1.2
  have a3 := h3 i hi.1.2.1
  have a4 := h4 i hi.1.2.2
  have := h5 i hi.2.1
  have a6 := h6 i hi.2.2
  refine ⟨by linarith, by linarith, fun h => ?_, fun h => ?_, by linarith, fun h => ?_⟩
  · rw [h] at a3; norm_num at a3
  · rw [h] at a4; norm_num at a4
  · rw [h] at a6; norm_num at a6

/-- inputs of the second half step, with bounds -/
structure HalfData (Pm Em Bm Q F : ℝ) where
  rnd : ℝ → ℝ
  u : ℝ
  P : Vec
  E' : Vec
  E : Vec
  B' : Vec
  B : Vec
  q' : ℝ
  q : ℝ
  k' : ℝ
  k : ℝ
  hu : 0 ≤ u
  hr : ∀ x, |rnd x - x| ≤ u * |x|
  hP : P.norm ≤ Pm
  hE : E.norm ≤ Em
  hE' : (E' - E).norm ≤ F * u
  hB : B.norm ≤ Bm
  hB' : (B' - B).norm ≤ F * u
  hq : |q| ≤ Q
  hq' : |q' - q| ≤ F * u
  hk : |k| ≤ Q
  hk' : |k' - k| ≤ F * u

/-- errors of the second half step -/
theorem half_defect (Pm Em Bm Q F : ℝ) : ∃ D u0 : ℝ, 0 ≤ D ∧ 0 < u0 ∧ ∀ i : HalfData Pm Em Bm Q F, i.u ≤ u0 →
    VayDefined i.rnd i.q' i.P i.E' i.B' ∧
    |vayGamma i.rnd i.q' i.P i.E' i.B' - gammaOf (vayMomentum i.rnd i.q' i.P i.E' i.B')| ≤ D * i.u ∧
    (vayMomentum i.rnd i.q' i.P i.E' i.B' - Particle.vayMomentum i.q i.P i.E i.B).norm ≤ D * i.u ∧
    (vayAccel i.rnd i.k' i.P i.E' i.B' - Particle.vayAccel i.k i.P i.E i.B).norm ≤ D * i.u := by
  let U : HalfData Pm Em Bm Q F → ℝ := fun i => i.u
  let R : HalfData Pm Em Bm Q F → ℝ → ℝ := fun i => i.rnd
  have hr : Rounds U R := ⟨fun i => i.hu, fun i => i.hr⟩
  have hP : VAppr U (fun i => i.P) (fun i => i.P) := .refl _ Pm fun i => i.hP
  have hE : VAppr U (fun i => i.E') (fun i => i.E) := .of _ _ F Em hr.nonneg (fun i => i.hE) fun i => i.hE'
  have hB : VAppr U (fun i => i.B') (fun i => i.B) := .of _ _ F Bm hr.nonneg (fun i => i.hB) fun i => i.hB'
  have hq : Appr U (fun i => i.q') (fun i => i.q) := .of _ _ F Q hr.nonneg (fun i => i.hq) fun i => i.hq'
  have hk : Appr U (fun i => i.k') (fun i => i.k) := .of _ _ F Q hr.nonneg (fun i => i.hk) fun i => i.hk'
  obtain ⟨u1, p1, h1⟩ := appr_defined hr hP hE hB hq
  obtain ⟨K2, M2, u2, k2, -, p2, h2⟩ := appr_gamma hr hP hE hB hq
  obtain ⟨K3, M3, u3, k3, -, p3, h3⟩ := (appr_momentum hr hP hE hB hq).bound
  obtain ⟨K4, M4, u4, k4, -, p4, h4⟩ := (appr_accel hr hP hE hB hk).bound
  refine ⟨K2 + K3 + K4, min (min u1 u2) (min u3 u4), by positivity, lt_min (lt_min p1 p2) (lt_min p3 p4), ?_⟩
  intro i hi
  simp only [le_min_iff] at hi
  have hu := i.hu
  have a2 := (h2 i hi.1.2).2
  have a3 := (h3 i hi.2.1).2
  have a4 := (h4 i hi.2.2).2
  have e2 : 0 ≤ K2 * i.u := by positivity
  have e3 : 0 ≤ K3 * i.u := by positivity
  have e4 : 0 ≤ K4 * i.u := by positivity
  refine ⟨h1 i hi.1.1, ?_, ?_, ?_⟩
  · simp only [U, R] at a2 a3
    rw [Setting.gamma_eq] at a2
    have a5 := gammaOf_lip (Particle.vayMomentum i.q i.P i.E i.B) (vayMomentum i.rnd i.q' i.P i.E' i.B')
    rw [Vec.norm_sub_comm] at a5
    have := abs_add_le (vayGamma i.rnd i.q' i.P i.E' i.B' - gammaOf (Particle.vayMomentum i.q i.P i.E i.B))
      (gammaOf (Particle.vayMomentum i.q i.P i.E i.B) - gammaOf (vayMomentum i.rnd i.q' i.P i.E' i.B'))
    rw [sub_add_sub_cancel] at this
    linarith
  · simp only [U, R] at a3
    linarith
  · simp only [U, R] at a4
    linarith

/-- inputs of a step, with bounds -/
structure StepData (Xm Vm Em Bm Q H F D : ℝ) where
  rnd : ℝ → ℝ
  u : ℝ
  X : Vec
  V : Vec
  g : ℝ
  E : Vec
  B : Vec
  q' : ℝ
  q : ℝ
  k' : ℝ
  k : ℝ
  h : ℝ
  hu : 0 ≤ u
  hr : ∀ x, |rnd x - x| ≤ u * |x|
  hX : X.norm ≤ Xm
  hV : V.norm ≤ Vm
  hg : |g - gammaOf V| ≤ D * u
  hE : E.norm ≤ Em
  hB : B.norm ≤ Bm
  hq : |q| ≤ Q
  hq' : |q' - q| ≤ F * u
  hk : |k| ≤ Q
  hk' : |k' - k| ≤ F * u
  hh : |h| ≤ H

/-- velocity, position and momentum of the step -/
noncomputable def StepData.beta {Xm Vm Em Bm Q H F D : ℝ} (i : StepData Xm Vm Em Bm Q H F D) : Vec := vdiv i.rnd i.V i.g
noncomputable def StepData.pos {Xm Vm Em Bm Q H F D : ℝ} (i : StepData Xm Vm Em Bm Q H F D) : Vec :=
  vadd i.rnd i.X (vmul i.rnd (vmul i.rnd i.beta SpeedOfLight) i.h)
noncomputable def StepData.mom {Xm Vm Em Bm Q H F D : ℝ} (i : StepData Xm Vm Em Bm Q H F D) : Vec :=
  vadd i.rnd i.V (vmul i.rnd (vadd i.rnd (vdiv i.rnd i.E SpeedOfLight) (rcross i.rnd i.beta i.B)) i.q')
noncomputable def StepData.mom0 {Xm Vm Em Bm Q H F D : ℝ} (i : StepData Xm Vm Em Bm Q H F D) : Vec :=
  i.V + (i.E / SpeedOfLight + cross (velOf i.V) i.B) * i.q

/-- errors of a step -/
theorem step_defect (Xm Vm Em Bm Q H F D : ℝ) : ∃ K u0 : ℝ, 0 ≤ K ∧ 0 < u0 ∧ ∀ i : StepData Xm Vm Em Bm Q H F D, i.u ≤ u0 →
    i.g ≠ 0 ∧ VayDefined i.rnd i.q' i.mom i.E i.B ∧
    (i.pos - (i.X + velOf i.V * SpeedOfLight * i.h)).norm ≤ K * i.u ∧
    (i.mom - i.mom0).norm ≤ K * i.u ∧
    (vayMomentum i.rnd i.q' i.mom i.E i.B - Particle.vayMomentum i.q i.mom0 i.E i.B).norm ≤ K * i.u ∧
    (vayAccel i.rnd i.k' i.mom i.E i.B - Particle.vayAccel i.k i.mom0 i.E i.B).norm ≤ K * i.u := by
  let U : StepData Xm Vm Em Bm Q H F D → ℝ := fun i => i.u
  let R : StepData Xm Vm Em Bm Q H F D → ℝ → ℝ := fun i => i.rnd
  have hr : Rounds U R := ⟨fun i => i.hu, fun i => i.hr⟩
  have hX : VAppr U (fun i => i.X) (fun i => i.X) := .refl _ Xm fun i => i.hX
  have hV : VAppr U (fun i => i.V) (fun i => i.V) := .refl _ Vm fun i => i.hV
  have hE : VAppr U (fun i => i.E) (fun i => i.E) := .refl _ Em fun i => i.hE
  have hB : VAppr U (fun i => i.B) (fun i => i.B) := .refl _ Bm fun i => i.hB
  have hq : Appr U (fun i => i.q') (fun i => i.q) := .of _ _ F Q hr.nonneg (fun i => i.hq) fun i => i.hq'
  have hk : Appr U (fun i => i.k') (fun i => i.k) := .of _ _ F Q hr.nonneg (fun i => i.hk) fun i => i.hk'
  have hh : Appr U (fun i => i.h) (fun i => i.h) := .refl _ H fun i => i.hh
  have hc : Appr U (fun _ => SpeedOfLight) (fun _ => SpeedOfLight) := .const _
  have hg : Appr U (fun i => i.g) (fun i => gammaOf i.V) := .of _ _ D (1 + Vm) hr.nonneg (fun i => by
    have h1 := gammaOf_lip i.V 0
    have h2 : gammaOf (0 : Vec) = 1 := by simp [gammaOf, Vec.abs2nd]
    rw [h2, show i.V - 0 = i.V by ext <;> simp] at h1
    have h3 := i.hV
    have h4 := gammaOf_pos i.V
    rw [abs_of_pos h4]
    linarith [(abs_le.mp h1).2]) fun i => i.hg
  have hb : VAppr U (fun i => i.beta) (fun i => velOf i.V) := hV.div hr hg one_pos fun i => gammaOf_ge _
  have hx : VAppr U (fun i => i.pos) (fun i => i.X + velOf i.V * SpeedOfLight * i.h) := hX.add hr ((hb.mul hr hc).mul hr hh)
  have hp : VAppr U (fun i => i.mom) (fun i => i.mom0) :=
    hV.add hr (((hE.div hr hc SpeedOfLight_pos fun _ => le_rfl).add hr (hb.cross hr hB)).mul hr hq)
  obtain ⟨u0, p0, h0⟩ := hg.lower hr.nonneg one_pos fun i => gammaOf_ge _
  obtain ⟨u1, p1, h1⟩ := appr_defined hr hp hE hB hq
  obtain ⟨K2, M2, u2, k2, -, p2, h2⟩ := hx.bound
  obtain ⟨K3, M3, u3, k3, m3, p3, h3⟩ := hp.bound
  obtain ⟨K4, M4, u4, k4, -, p4, h4⟩ := (appr_momentum hr hp hE hB hq).bound
  obtain ⟨K5, M5, u5, k5, -, p5, h5⟩ := (appr_accel hr hp hE hB hk).bound
  refine ⟨K2 + K3 + K4 + K5 + M3, min (min (min u1 u2) (min u3 u4)) (min (min u5 u0) 1), by positivity, by simp only [lt_min_iff]; exact ⟨⟨⟨p1, p2⟩, p3, p4⟩, ⟨p5, p0⟩, one_pos⟩, ?_⟩
  intro i hi
  simp only [le_min_iff] at hi
  have hu := i.hu
  have a0 := h0 i hi.2.1.2
  have a2 := (h2 i hi.1.1.2).2
  have a3 := (h3 i hi.1.2.1)
  have a4 := (h4 i hi.1.2.2).2
  have a5 := (h5 i hi.2.1.1).2
  have hu1 := hi.2.2
  simp only [U, R] at a2 a3 a4 a5
  have e2 : 0 ≤ K2 * i.u := by positivity
  have e3 : 0 ≤ K3 * i.u := by positivity
  have e4 : 0 ≤ K4 * i.u := by positivity
  have e5 : 0 ≤ K5 * i.u := by positivity
  have e6 : 0 ≤ M3 * i.u := by positivity
  refine ⟨fun h => by rw [h] at a0; norm_num at a0, h1 i hi.1.1.1, by linarith, by linarith, by linarith, by linarith⟩

theorem StepData.mom0_le {Xm Vm Em Bm Q H F D : ℝ} (i : StepData Xm Vm Em Bm Q H F D) : i.mom0.norm ≤ Vm + (Em / SpeedOfLight + Bm) * Q := by
  have hc := SpeedOfLight_pos
  unfold mom0
  refine (Vec.norm_add_le _ _).trans (add_le_add i.hV ?_)
  rw [Vec.norm_mul]
  refine mul_le_mul ?_ i.hq (abs_nonneg _) ?_
  · refine (Vec.norm_add_le _ _).trans (add_le_add ?_ ?_)
    · rw [norm_div, abs_of_pos hc]
      exact div_le_div_of_nonneg_right i.hE hc.le
    · have := norm_cross_bound (velOf_le i.V) i.hB
      linarith
  · have h1 := (Vec.norm_nonneg i.E).trans i.hE
    have h2 := (Vec.norm_nonneg i.B).trans i.hB
    positivity

end Rounded
end Teufel
