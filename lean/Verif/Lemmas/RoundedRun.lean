import Verif.Lemmas.RoundedVay
import Verif.Lemmas.Particle
import Verif.Spec.Computed
import Verif.Spec.Rounding

/-! # A run of the tracker with rounded numbers compared with the exact motion -/

namespace Teufel
open Vec

namespace Rounded

/-- fixed numbers of the estimate: bounds of the inputs of the steps and the resulting errors -/
structure Consts (qm T L F Bm : ℝ) where
  Xm : ℝ
  Vm : ℝ
  Em : ℝ
  Bn : ℝ
  Pm : ℝ
  F1 : ℝ
  D : ℝ
  K : ℝ
  Ct : ℝ
  u0 : ℝ
  hD : 0 ≤ D
  hK : 0 ≤ K
  hCt : 0 ≤ Ct
  hPm : Vm + (Em / SpeedOfLight + Bn) * |qm| + 1 ≤ Pm
  half : ∀ i : HalfData Pm Em Bn |qm| F1, i.u ≤ u0 →
    VayDefined i.rnd i.q' i.P i.E' i.B' ∧
    |vayGamma i.rnd i.q' i.P i.E' i.B' - gammaOf (vayMomentum i.rnd i.q' i.P i.E' i.B')| ≤ D * i.u ∧
    (vayMomentum i.rnd i.q' i.P i.E' i.B' - Particle.vayMomentum i.q i.P i.E i.B).norm ≤ D * i.u ∧
    (vayAccel i.rnd i.k' i.P i.E' i.B' - Particle.vayAccel i.k i.P i.E i.B).norm ≤ D * i.u
  step : ∀ i : StepData Xm Vm Em Bn |qm| 2 F1 D, i.u ≤ u0 →
    i.g ≠ 0 ∧ VayDefined i.rnd i.q' i.mom i.E i.B ∧
    (i.pos - (i.X + velOf i.V * SpeedOfLight * i.h)).norm ≤ K * i.u ∧
    (i.mom - i.mom0).norm ≤ K * i.u ∧
    (vayMomentum i.rnd i.q' i.mom i.E i.B - Particle.vayMomentum i.q i.mom0 i.E i.B).norm ≤ K * i.u ∧
    (vayAccel i.rnd i.k' i.mom i.E i.B - Particle.vayAccel i.k i.mom0 i.E i.B).norm ≤ K * i.u

variable {qm : ℝ} {field fieldR : FieldFn} {x p : ℝ → Vec} {t0 T r L F Bm M : ℝ}

/-- rounding errors added in a step -/
noncomputable def Consts.D1 (c : Consts qm T L F Bm) : ℝ := 3 * c.K + 1 + 2 * Setting.K qm (L + F) Bm * T * c.Ct

theorem Consts.D1_nonneg (c : Consts qm T L F Bm) (hT : 0 ≤ T) (hK : 0 ≤ Setting.K qm (L + F) Bm) : 0 ≤ c.D1 := by
  have := c.hK
  have := c.hCt
  unfold D1
  positivity

/-- what holds of the particle after `k` steps -/
structure After (c : Consts qm T L F Bm) (x p : ℝ → Vec) (t0 s u qmR qR A0 A1 : ℝ) (k : Nat) (q : Particle) : Prop where
  dt : q.dt = 2 * s
  ratio : q.qm = qmR
  qmt2 : q.qmt2 = qR
  time : |q.tCur - (t0 + k * (2 * s))| ≤ k * (c.Ct * u)
  gamma : |q.VYgamma - gammaOf q.VYp| ≤ c.D * u
  err : (q.XCur - x (t0 + k * (2 * s))).norm + (q.VYp - p (t0 + k * (2 * s) + s)).norm ≤
    (1 + s * Setting.rate qm (L + F) Bm) ^ k * (A0 * s ^ 2 + k * A1 * s ^ 3)

/-- the situation of a run: step `2 s`, unit roundoff `u` -/
structure Run (c : Consts qm T L F Bm) (field fieldR : FieldFn) (x p : ℝ → Vec) (t0 r M s u qmR qR A0 : ℝ) (rnd : ℝ → ℝ) : Prop where
  S : Setting qm field x p t0 T r L Bm M s
  hF : 0 ≤ F
  comp : ComputesNear field fieldR x t0 T r F u
  hs : 0 < s
  hs1 : s ≤ 1
  hsK : 2 * s * Setting.K qm (L + F) Bm ≤ 1 / 2
  hu : 0 ≤ u
  hu1 : u ≤ 1
  huc : u ≤ c.u0
  hDu : c.D * u ≤ 1
  hKu : c.K * u ≤ 1
  hr : ∀ y, |rnd y - y| ≤ u * |y|
  hqm : |qmR - qm| ≤ c.F1 * u
  hq : |qR - qm * s| ≤ c.F1 * u
  hA0 : 0 ≤ A0
  hX : ∀ t, t0 ≤ t → t ≤ t0 + T → (x t).norm + 1 ≤ c.Xm
  hP : ∀ t, t0 ≤ t → t ≤ t0 + T + 1 → (p t).norm + 1 ≤ c.Vm
  hE : ∀ t, t0 ≤ t → t ≤ t0 + T → ∀ EB, field t (x t) = .ok EB → EB.E.norm + L * r + F * 2 ≤ c.Em
  hB : Bm + L * r + F * 2 ≤ c.Bn
  hCt : |t0| + T + 1 ≤ c.Ct
  htime : T * c.Ct * u ≤ 2 * s
  htime' : T * c.Ct * u ≤ 2 * s * r
  htot : Real.exp (Setting.rate qm (L + F) Bm * T) * (A0 + T * (Setting.local3 qm Bm M + c.D1 * u / s ^ 3)) * s ^ 2 ≤ r
  htot1 : Real.exp (Setting.rate qm (L + F) Bm * T) * (A0 + T * (Setting.local3 qm Bm M + c.D1 * u / s ^ 3)) * s ^ 2 ≤ 1

/-- the bound of the errors -/
noncomputable def bound (c : Consts qm T L F Bm) (M s u A0 : ℝ) : ℝ :=
  Real.exp (Setting.rate qm (L + F) Bm * T) * (A0 + T * (Setting.local3 qm Bm M + c.D1 * u / s ^ 3)) * s ^ 2

theorem TameNear.mono {field : FieldFn} {x : ℝ → Vec} {t0 T r L L' Bm : ℝ} (h : TameNear field x t0 T r L Bm) (hL : L ≤ L') : TameNear field x t0 T r L' Bm :=
  ⟨h.magnetic, fun t h1 h2 EB hE X hX => by
    obtain ⟨EB', a, b, d⟩ := h.near t h1 h2 EB hE X hX
    have := mul_le_mul_of_nonneg_right hL (Vec.norm_nonneg (X - x t))
    exact ⟨EB', a, b.trans this, d.trans this⟩⟩

set_option maxHeartbeats 1000000 in
theorem advance {c : Consts qm T L F Bm} {s u qmR qR A0 : ℝ} {rnd : ℝ → ℝ} (R : Run c field fieldR x p t0 r M s u qmR qR A0 rnd) {k : Nat}
    (hk : (k + 1 : ℕ) * (2 * s) ≤ T) {q : Particle}
    (h : After c x p t0 s u qmR qR A0 (Setting.local3 qm Bm M + c.D1 * u / s ^ 3) k q) :
    ∃ q' P A, Rounded.StepVay rnd q fieldR = .ok q' ∧
      After c x p t0 s u qmR qR A0 (Setting.local3 qm Bm M + c.D1 * u / s ^ 3) (k + 1) q' ∧
      q'.Time = q.Time ++ [q'.tCur] ∧ q'.X = q.X ++ [q'.XCur] ∧ q'.P = q.P ++ [P] ∧ q'.A = q.A ++ [A] ∧ q'.NP = q.NP + 1 ∧
      (P - p (t0 + (k + 1 : ℕ) * (2 * s))).norm ≤
        c.K * u + 2 * bound c M s u A0 + (u + T * c.Ct * u / (2 * s)) + (2 * |qm| * Bm + 1) * M * s ^ 2 ∧
      ∀ v, HasVelocity p v (t0 + (k + 1 : ℕ) * (2 * s)) → (A - v).norm ≤
        c.K * u + |qm| * (((L + F) / SpeedOfLight + (L + F)) * (bound c M s u A0 + (u + T * c.Ct * u / (2 * s))) +
          2 * Bm * (2 * bound c M s u A0 + (u + T * c.Ct * u / (2 * s)) + (2 * |qm| * Bm + 1) * M * s ^ 2)) := by
  obtain ⟨S1, hF, comp, hs, hs1, hsK, hu, hu1, huc, hDu, hKu, hr, hqm, hq, hA0, hXb, hPb, hEb, hBb, hCt, htime, htime', htot, htot1⟩ := R
  have hL := S1.hL
  have hB := S1.hB
  have hM := S1.hM
  have hT := S1.hT
  have hc := SpeedOfLight_pos
  have S : Setting qm field x p t0 T r (L + F) Bm M s := ⟨S1.motion, TameNear.mono S1.tame (by linarith), S1.mom, S1.vel, hM, by linarith, hB, hT⟩
  have hK := S.K_nonneg
  have hRate : 0 ≤ Setting.rate qm (L + F) Bm := by unfold Setting.rate; linarith
  have hLoc : 0 ≤ Setting.local3 qm Bm M := by unfold Setting.local3; positivity
  have hD1 := c.D1_nonneg hT hK
  set A1 := Setting.local3 qm Bm M + c.D1 * u / s ^ 3 with hA1
  have hA1p : 0 ≤ A1 := by positivity
  have hs3 : 0 < s ^ 3 := by positivity
  have hA1s : A1 * s ^ 3 = Setting.local3 qm Bm M * s ^ 3 + c.D1 * u := by rw [hA1]; field_simp
  have hks : 0 ≤ (k : ℝ) * (2 * s) := by positivity
  have hk' : (k : ℝ) * (2 * s) + 2 * s ≤ T := by push_cast at hk; linarith
  set G := bound c M s u A0 with hG
  -- the state before the step
  set t := t0 + k * (2 * s) with ht
  have e1 : t + s - s = t := by ring
  have e2 : t + s + s = t0 + (k + 1 : ℕ) * (2 * s) := by push_cast; ring
  set t' := t0 + (k + 1 : ℕ) * (2 * s) with ht'
  have e3 : t' - s = t + s := by linarith
  set d := (q.XCur - x t).norm with hd
  set w := (q.VYp - p (t + s)).norm with hw
  have hd0 : 0 ≤ d := Vec.norm_nonneg _
  have hw0 : 0 ≤ w := Vec.norm_nonneg _
  have hdw : d + w ≤ G := h.err.trans (gronwall_total hRate hs.le hA1p hA0 (by linarith))
  have hG1 : G ≤ 1 := htot1
  have hGr : G ≤ r := htot
  have hXn : q.XCur.norm ≤ c.Xm := by
    have := Vec.norm_add_le (q.XCur - x t) (x t)
    rw [show q.XCur - x t + x t = q.XCur by ext <;> simp] at this
    linarith [hXb t (by linarith) (by linarith)]
  have hVn : q.VYp.norm ≤ c.Vm := by
    have := Vec.norm_add_le (q.VYp - p (t + s)) (p (t + s))
    rw [show q.VYp - p (t + s) + p (t + s) = q.VYp by ext <;> simp] at this
    linarith [hPb (t + s) (by linarith) (by linarith)]
  have hs2 : |2 * s| ≤ 2 := by rw [abs_of_pos (by linarith)]; linarith
  have hqs : |qm * s| ≤ |qm| := by
    rw [abs_mul, abs_of_pos hs]
    exact mul_le_of_le_one_right (abs_nonneg _) hs1
  have hrn : 0 ≤ r := by linarith
  have hEn0 : 0 ≤ c.Em := by
    obtain ⟨EB, hE, -⟩ := S1.motion.momentum t (by linarith) (by linarith)
    have := hEb t (by linarith) (by linarith) EB hE
    have := Vec.norm_nonneg EB.E
    have := mul_nonneg hL hrn
    linarith
  have hBn0 : 0 ≤ c.Bn := by
    have := mul_nonneg hL hrn
    linarith
  -- the new position
  let i0 : StepData c.Xm c.Vm c.Em c.Bn |qm| 2 c.F1 c.D := {
    rnd := rnd, u := u, X := q.XCur, V := q.VYp, g := q.VYgamma, E := 0, B := 0, q' := qR, q := qm * s, k' := qmR, k := qm, h := 2 * s
    hu := hu, hr := hr, hX := hXn, hV := hVn, hg := h.gamma, hE := by rw [Vec.norm_zero]; exact hEn0, hB := by rw [Vec.norm_zero]; exact hBn0
    hq := hqs, hq' := hq, hk := le_rfl, hk' := hqm, hh := hs2 }
  obtain ⟨g0, -, dpos, -⟩ := c.step i0 huc
  set X' : Vec := vadd rnd q.XCur (vmul rnd (vmul rnd (vdiv rnd q.VYp q.VYgamma) SpeedOfLight) (2 * s)) with hX'
  have dpos' : (X' - (q.XCur + velOf q.VYp * SpeedOfLight * (2 * s))).norm ≤ c.K * u := dpos
  clear dpos
  have hpos := S.position (t + s) s hs.le le_rfl (by linarith) (by linarith) q.XCur q.VYp
  rw [e1, e2] at hpos
  set d' := (X' - x t').norm with hd'
  have hd0' : 0 ≤ d' := Vec.norm_nonneg _
  have hpos' : d' ≤ d + 4 * SpeedOfLight * s * w + M * SpeedOfLight * s ^ 3 + c.K * u := by
    have := Vec.norm_add_le (X' - (q.XCur + velOf q.VYp * SpeedOfLight * (2 * s))) (q.XCur + velOf q.VYp * SpeedOfLight * (2 * s) - x t')
    rw [show X' - (q.XCur + velOf q.VYp * SpeedOfLight * (2 * s)) + (q.XCur + velOf q.VYp * SpeedOfLight * (2 * s) - x t') = X' - x t' by ext <;> simp] at this
    linarith
  set Rr := |qm| * M * Bm + M with hRr
  have hR0 : 0 ≤ Rr := by positivity
  have hKu0 : 0 ≤ c.K * u := mul_nonneg c.hK hu
  have hD1u : 3 * (c.K * u) + u + 2 * (Setting.K qm (L + F) Bm * T * c.Ct * u) = c.D1 * u := by unfold Consts.D1; ring
  have hKT : 0 ≤ Setting.K qm (L + F) Bm * T * c.Ct * u := by have := c.hCt; positivity
  have g0' : d' ≤ (1 + s * Setting.rate qm (L + F) Bm) * (d + w) + A1 * s ^ 3 := by
    have a1 : 0 ≤ M * SpeedOfLight * s ^ 3 := by positivity
    have a2 : 0 ≤ Rr * s ^ 3 := by positivity
    have a3 : 0 ≤ s * Setting.K qm (L + F) Bm * (d + w) := by positivity
    have a4 : 0 ≤ SpeedOfLight * s * d := by positivity
    have a5 : 0 ≤ SpeedOfLight * s * w := by positivity
    have : (1 + s * Setting.rate qm (L + F) Bm) * (d + w) + Setting.local3 qm Bm M * s ^ 3 =
        d + w + 8 * (s * Setting.K qm (L + F) Bm * (d + w)) + 8 * (SpeedOfLight * s * d) + 8 * (SpeedOfLight * s * w) +
        2 * (M * SpeedOfLight * s ^ 3) + 2 * (Rr * s ^ 3) := by unfold Setting.rate Setting.local3; ring
    rw [hA1s]
    linarith
  have g1 : d' ≤ G := (gronwall hRate hs.le hA1p hA0 h.err g0').trans (gronwall_total hRate hs.le hA1p hA0 hk)
  -- the new time
  set τ' := rnd (q.tCur + 2 * s) with hτ'
  have hkC : ((k : ℝ) + 1) * (c.Ct * u) ≤ T * c.Ct * u / (2 * s) := by
    rw [le_div_iff₀ (by linarith)]
    have : ((k : ℝ) + 1) * (2 * s) ≤ T := by push_cast at hk; linarith
    have := mul_le_mul_of_nonneg_right this (show 0 ≤ c.Ct * u from mul_nonneg c.hCt hu)
    linarith
  have hkC1 : T * c.Ct * u / (2 * s) ≤ 1 := by
    rw [div_le_one (by linarith)]
    exact htime
  have hkCr : T * c.Ct * u / (2 * s) ≤ r := by
    rw [div_le_iff₀ (by linarith)]
    linarith
  have htm : |τ' - t'| ≤ ((k : ℝ) + 1) * (c.Ct * u) := by
    have a1 := hr (q.tCur + 2 * s)
    have a2 := h.time
    have a3 : q.tCur + 2 * s - t' = q.tCur - t := by rw [← e2]; ring
    have a4 : |τ' - t'| ≤ |τ' - (q.tCur + 2 * s)| + |q.tCur - t| := by
      rw [← a3]
      have := abs_add_le (τ' - (q.tCur + 2 * s)) (q.tCur + 2 * s - t')
      rwa [sub_add_sub_cancel] at this
    have a5 : |q.tCur + 2 * s| ≤ |q.tCur - t| + (|t0| + T) := by
      have b1 : q.tCur + 2 * s = (q.tCur - t) + t0 + ((k : ℝ) * (2 * s) + 2 * s) := by rw [ht]; ring
      rw [b1]
      have b2 := abs_add_le (q.tCur - t + t0) ((k : ℝ) * (2 * s) + 2 * s)
      have b3 := abs_add_le (q.tCur - t) t0
      rw [abs_of_nonneg (a := (k : ℝ) * (2 * s) + 2 * s) (by linarith)] at b2
      linarith
    have a6 : |q.tCur - t| ≤ 1 := by
      have : (k : ℝ) * (c.Ct * u) ≤ ((k : ℝ) + 1) * (c.Ct * u) := mul_le_mul_of_nonneg_right (by linarith) (mul_nonneg c.hCt hu)
      linarith
    have a7 : u * |q.tCur + 2 * s| ≤ u * c.Ct := mul_le_mul_of_nonneg_left (by linarith) hu
    linarith
  -- the field there
  obtain ⟨EB, EBx, f1, f2, f3, f4, f5, f6⟩ := S1.fields t' (by linarith) (by linarith) X' (by rw [← hd']; linarith)
  obtain ⟨EB', f2', n1, n2⟩ := comp.near t' (by linarith) (by linarith) τ' (by linarith) X' (by rw [← hd']; linarith) EBx f2
  set δ := u + |τ' - t'| with hδ
  have hδ0 : 0 ≤ δ := by have := abs_nonneg (τ' - t'); linarith
  have hδ2 : δ ≤ u + T * c.Ct * u / (2 * s) := by linarith
  have hδ3 : δ ≤ 2 := by linarith
  have f5' : (EB'.E - EB.E).norm ≤ (L + F) * (d' + δ) := by
    have := Vec.norm_add_le (EB'.E - EBx.E) (EBx.E - EB.E)
    rw [show EB'.E - EBx.E + (EBx.E - EB.E) = EB'.E - EB.E by ext <;> simp] at this
    have := mul_nonneg hF hd0'
    have := mul_nonneg hL hδ0
    linarith
  have f6' : (EB'.B - EB.B).norm ≤ (L + F) * (d' + δ) := by
    have := Vec.norm_add_le (EB'.B - EBx.B) (EBx.B - EB.B)
    rw [show EB'.B - EBx.B + (EBx.B - EB.B) = EB'.B - EB.B by ext <;> simp] at this
    have := mul_nonneg hF hd0'
    have := mul_nonneg hL hδ0
    linarith
  have hLd : L * d' ≤ L * r := mul_le_mul_of_nonneg_left (by linarith) hL
  have hFd : F * δ ≤ F * 2 := mul_le_mul_of_nonneg_left hδ3 hF
  have hEn : EB'.E.norm ≤ c.Em := by
    have a1 := Vec.norm_add_le (EB'.E - EBx.E) (EBx.E - EB.E + EB.E)
    rw [show EB'.E - EBx.E + (EBx.E - EB.E + EB.E) = EB'.E by ext <;> simp] at a1
    have a2 := Vec.norm_add_le (EBx.E - EB.E) EB.E
    linarith [hEb t' (by linarith) (by linarith) EB f1]
  have hBn : EB'.B.norm ≤ c.Bn := by
    have a1 := Vec.norm_add_le (EB'.B - EBx.B) (EBx.B - EB.B + EB.B)
    rw [show EB'.B - EBx.B + (EBx.B - EB.B + EB.B) = EB'.B by ext <;> simp] at a1
    have a2 := Vec.norm_add_le (EBx.B - EB.B) EB.B
    linarith
  -- the new momentum
  let i : StepData c.Xm c.Vm c.Em c.Bn |qm| 2 c.F1 c.D := {
    rnd := rnd, u := u, X := q.XCur, V := q.VYp, g := q.VYgamma, E := EB'.E, B := EB'.B, q' := qR, q := qm * s, k' := qmR, k := qm, h := 2 * s
    hu := hu, hr := hr, hX := hXn, hV := hVn, hg := h.gamma, hE := hEn, hB := hBn, hq := hqs, hq' := hq, hk := le_rfl, hk' := hqm, hh := hs2 }
  obtain ⟨-, vd, -, dP, dV, dA⟩ := c.step i huc
  have hP0 := i.mom0_le
  set P := i.mom with hPdef
  set P0 := i.mom0 with hP0def
  have hPn : P.norm ≤ c.Pm := by
    have := Vec.norm_add_le (P - P0) P0
    rw [show P - P0 + P0 = P by ext <;> simp] at this
    have := c.hPm
    have : (P - P0).norm ≤ c.K * u := dP
    linarith
  have hF1u : 0 ≤ c.F1 * u := (abs_nonneg _).trans hqm
  let j : HalfData c.Pm c.Em c.Bn |qm| c.F1 := {
    rnd := rnd, u := u, P := P, E' := EB'.E, E := EB'.E, B' := EB'.B, B := EB'.B, q' := qR, q := qm * s, k' := qmR, k := qm
    hu := hu, hr := hr, hP := hPn, hE := hEn, hE' := by rw [sub_self, Vec.norm_zero]; exact hF1u, hB := hBn
    hB' := by rw [sub_self, Vec.norm_zero]; exact hF1u, hq := hqs, hq' := hq, hk := le_rfl, hk' := hqm }
  obtain ⟨-, jg, -, -⟩ := c.half j huc
  set V' := vayMomentum rnd qR P EB'.E EB'.B with hV'
  set V0 := Particle.vayMomentum (qm * s) P0 EB'.E EB'.B with hV0
  have dV' : (V' - V0).norm ≤ c.K * u := dV
  have himp : V0 = q.VYp + (EB'.E / SpeedOfLight * (2 : ℝ) + cross (velOf q.VYp + velOf V0) EB'.B) * (qm * s) := by
    have := Particle.vay_implicit (qm * s) P0 EB'.E EB'.B
    rw [← hV0] at this
    generalize V0 = w' at this
    rw [show P0 = q.VYp + (EB'.E / SpeedOfLight + cross (velOf q.VYp) EB'.B) * (qm * s) from rfl] at this
    conv_lhs => rw [this]
    ext <;> simp [cross] <;> ring
  have hmom := S.momentum t' s hs.le le_rfl hs1 (by linarith) (by linarith) (d' + δ) (by linarith) q.VYp V0 EB EB' f3 f4 f5' f6' himp
  rw [e3, ← hw] at hmom
  set w0 := (V0 - p (t' + s)).norm with hw0'
  have hδK : 2 * s * Setting.K qm (L + F) Bm * δ ≤ 1 / 2 * u + Setting.K qm (L + F) Bm * T * c.Ct * u := by
    have a1 : 2 * s * Setting.K qm (L + F) Bm * u ≤ 1 / 2 * u := mul_le_mul_of_nonneg_right hsK hu
    have a2 : 2 * s * Setting.K qm (L + F) Bm * |τ' - t'| ≤ 2 * s * Setting.K qm (L + F) Bm * (T * c.Ct * u / (2 * s)) :=
      mul_le_mul_of_nonneg_left (by linarith) (by positivity)
    have a3 : 2 * s * Setting.K qm (L + F) Bm * (T * c.Ct * u / (2 * s)) = Setting.K qm (L + F) Bm * T * c.Ct * u := by field_simp
    rw [hδ]
    linarith
  have hsum := step_sum (d := d) (w := w) (d' := d') (w' := w0) (K := Setting.K qm (L + F) Bm) (c := SpeedOfLight) (M := M + c.K * u / (SpeedOfLight * s ^ 3))
    (R := Rr + (1 / 2 * u + Setting.K qm (L + F) Bm * T * c.Ct * u) / s ^ 3) (s := s) hd0 hw0 hd0' hK hc.le (by positivity) (by positivity) hs.le hsK
    (by
      have : (M + c.K * u / (SpeedOfLight * s ^ 3)) * SpeedOfLight * s ^ 3 = M * SpeedOfLight * s ^ 3 + c.K * u := by field_simp
      rw [this]
      linarith)
    (by
      have : (Rr + (1 / 2 * u + Setting.K qm (L + F) Bm * T * c.Ct * u) / s ^ 3) * s ^ 3 = Rr * s ^ 3 + (1 / 2 * u + Setting.K qm (L + F) Bm * T * c.Ct * u) := by field_simp
      rw [this]
      linarith)
  have hsum' : d' + (V' - p (t' + s)).norm ≤ (1 + s * Setting.rate qm (L + F) Bm) * (d + w) + A1 * s ^ 3 := by
    have a1 := Vec.norm_add_le (V' - V0) (V0 - p (t' + s))
    rw [show V' - V0 + (V0 - p (t' + s)) = V' - p (t' + s) by ext <;> simp] at a1
    have a2 : 2 * ((M + c.K * u / (SpeedOfLight * s ^ 3)) * SpeedOfLight + (Rr + (1 / 2 * u + Setting.K qm (L + F) Bm * T * c.Ct * u) / s ^ 3)) * s ^ 3 =
        Setting.local3 qm Bm M * s ^ 3 + (2 * (c.K * u) + u + 2 * (Setting.K qm (L + F) Bm * T * c.Ct * u)) := by
      unfold Setting.local3
      field_simp
      ring
    rw [a2] at hsum
    rw [hA1s, ← hD1u]
    unfold Setting.rate
    linarith
  have herr := gronwall (Λ := Setting.rate qm (L + F) Bm) (S := A1) hRate hs.le hA1p hA0 h.err hsum'
  have hst := S.stored t' s hs.le hs1 (by linarith) (by linarith) (d' + δ) (by linarith) q.VYp P0 EB EB' f3 f4 f5' f6' rfl
  rw [e3, ← hw] at hst
  have hwG : w ≤ G := by linarith
  have hP0t : (P0 - p t').norm ≤ 2 * G + (u + T * c.Ct * u / (2 * s)) + (2 * |qm| * Bm + 1) * M * s ^ 2 := by
    have a1 : 2 * s * Setting.K qm (L + F) Bm * (d' + δ + w) ≤ 1 / 2 * (d' + δ + w) := mul_le_mul_of_nonneg_right hsK (by linarith)
    linarith
  have hPt : (P - p t').norm ≤ c.K * u + 2 * G + (u + T * c.Ct * u / (2 * s)) + (2 * |qm| * Bm + 1) * M * s ^ 2 := by
    have := Vec.norm_add_le (P - P0) (P0 - p t')
    rw [show P - P0 + (P0 - p t') = P - p t' by ext <;> simp] at this
    have : (P - P0).norm ≤ c.K * u := dP
    linarith
  have hA := S.accel t' (d' + δ) P0 EB EB' f3 f5' f6'
  have hstep : Rounded.StepVay rnd q fieldR = .ok (({ q with tCur := τ', XCur := X', ECur := EB'.E, BCur := EB'.B, PCur := P
                                                             ACur := vayAccel rnd qmR P EB'.E EB'.B
                                                             VYgamma := vayGamma rnd qR P EB'.E EB'.B
                                                             VYp := V' } : Particle).storeTrajectoryPoint τ' X' P (vayAccel rnd qmR P EB'.E EB'.B)) := by
    unfold Rounded.StepVay
    rw [if_neg g0]
    simp only [h.dt, h.ratio, h.qmt2]
    rw [← hX', ← hτ', f2']
    simp only [h.dt, h.ratio, h.qmt2]
    rw [if_neg]
    · rfl
    · rw [h.qmt2]
      exact not_not.mpr vd
  refine ⟨_, P, vayAccel rnd qmR P EB'.E EB'.B, hstep, ⟨h.dt, h.ratio, h.qmt2, ?_, jg, herr⟩, rfl, rfl, rfl, rfl, rfl, hPt, ?_⟩
  · show |τ' - t'| ≤ ((k + 1 : ℕ) : ℝ) * (c.Ct * u)
    rw [Nat.cast_add, Nat.cast_one]
    exact htm
  · intro v hv
    rw [hv.unique f4]
    have a1 := Vec.norm_add_le (vayAccel rnd qmR P EB'.E EB'.B - Particle.vayAccel qm P0 EB'.E EB'.B)
      (Particle.vayAccel qm P0 EB'.E EB'.B - (EB.E / SpeedOfLight + cross (velOf (p t')) EB.B) * qm)
    rw [show vayAccel rnd qmR P EB'.E EB'.B - Particle.vayAccel qm P0 EB'.E EB'.B + (Particle.vayAccel qm P0 EB'.E EB'.B -
      (EB.E / SpeedOfLight + cross (velOf (p t')) EB.B) * qm) = vayAccel rnd qmR P EB'.E EB'.B - (EB.E / SpeedOfLight + cross (velOf (p t')) EB.B) * qm by
        ext <;> simp] at a1
    have a2 : (vayAccel rnd qmR P EB'.E EB'.B - Particle.vayAccel qm P0 EB'.E EB'.B).norm ≤ c.K * u := dA
    have a3 : |qm| * (((L + F) / SpeedOfLight + (L + F)) * (d' + δ) + 2 * Bm * (P0 - p t').norm) ≤
        |qm| * (((L + F) / SpeedOfLight + (L + F)) * (G + (u + T * c.Ct * u / (2 * s))) +
          2 * Bm * (2 * G + (u + T * c.Ct * u / (2 * s)) + (2 * |qm| * Bm + 1) * M * s ^ 2)) := by
      refine mul_le_mul_of_nonneg_left (add_le_add ?_ ?_) (abs_nonneg _)
      · exact mul_le_mul_of_nonneg_left (by linarith) (by positivity)
      · exact mul_le_mul_of_nonneg_left hP0t (by positivity)
    linarith

/-- errors of the stored momentum and acceleration -/
noncomputable def boundP (c : Consts qm T L F Bm) (M s u A0 : ℝ) : ℝ :=
  c.K * u + 2 * bound c M s u A0 + (u + T * c.Ct * u / (2 * s)) + (2 * |qm| * Bm + 1) * M * s ^ 2
noncomputable def boundA (c : Consts qm T L F Bm) (M s u A0 : ℝ) : ℝ :=
  c.D * u + c.K * u + |qm| * (((L + F) / SpeedOfLight + (L + F)) * (bound c M s u A0 + (u + T * c.Ct * u / (2 * s))) +
    2 * Bm * (2 * bound c M s u A0 + (u + T * c.Ct * u / (2 * s)) + (2 * |qm| * Bm + 1) * M * s ^ 2))

/-- the stored point number `j` is close to the exact motion at the time `t` -/
def Close (c : Consts qm T L F Bm) (x p : ℝ → Vec) (M s u A0 : ℝ) (q : Particle) (j : Nat) (t : ℝ) : Prop :=
  ∃ τ X P A, q.Time[j]? = some τ ∧ q.X[j]? = some X ∧ q.P[j]? = some P ∧ q.A[j]? = some A ∧
    |τ - t| ≤ T * c.Ct * u / (2 * s) ∧ (X - x t).norm ≤ bound c M s u A0 ∧ (P - p t).norm ≤ boundP c M s u A0 ∧
    ∀ v, HasVelocity p v t → (A - v).norm ≤ boundA c M s u A0

theorem run {c : Consts qm T L F Bm} {s u qmR qR A0 : ℝ} {rnd : ℝ → ℝ} (R : Run c field fieldR x p t0 r M s u qmR qR A0 rnd) {a1 : Particle} {N : Nat}
    (hc : a1.Cons) (hN : a1.NP = N + 1) (h0 : After c x p t0 s u qmR qR A0 (Setting.local3 qm Bm M + c.D1 * u / s ^ 3) 0 a1)
    (hfirst : Close c x p M s u A0 a1 N t0) (n : Nat) (hn : (n : ℝ) * (2 * s) ≤ T) :
    ∃ a2, Rounded.steps rnd a1 (List.replicate n fieldR) = .ok a2 ∧ a2.Cons ∧ a2.NP = N + 1 + n ∧
      After c x p t0 s u qmR qR A0 (Setting.local3 qm Bm M + c.D1 * u / s ^ 3) n a2 ∧
      ∀ k : ℕ, k ≤ n → Close c x p M s u A0 a2 (N + k) (t0 + k * (2 * s)) := by
  have hs := R.hs
  induction n with
  | zero =>
    refine ⟨a1, rfl, hc, by omega, h0, ?_⟩
    intro k hk
    obtain rfl : k = 0 := by omega
    simpa using hfirst
  | succ n ih =>
    obtain ⟨a2, h1, hc2, hN2, h2, h3⟩ := ih (by push_cast at hn; nlinarith)
    obtain ⟨q', P, A, e1, e2, eT, eX, eP, eA, eN, bP, bA⟩ := advance R hn h2
    have hT := R.S.hT
    have hL := R.S.hL
    have hB := R.S.hB
    have hM := R.S.hM
    have hK : 0 ≤ Setting.K qm (L + F) Bm := by
      have := R.hF
      have := SpeedOfLight_pos
      unfold Setting.K
      positivity
    have hDu : 0 ≤ c.D * u := mul_nonneg c.hD R.hu
    have hRate : 0 ≤ Setting.rate qm (L + F) Bm := by have := SpeedOfLight_pos; unfold Setting.rate; linarith
    have hLoc : 0 ≤ Setting.local3 qm Bm M := by have := SpeedOfLight_pos; unfold Setting.local3; positivity
    have hA1p : 0 ≤ Setting.local3 qm Bm M + c.D1 * u / s ^ 3 := by
      have := c.D1_nonneg hT hK
      have := R.hu
      positivity
    have hl : a2.Time.length = N + 1 + n ∧ a2.X.length = N + 1 + n ∧ a2.P.length = N + 1 + n ∧ a2.A.length = N + 1 + n := by
      obtain ⟨l1, l2, l3, l4⟩ := hc2
      omega
    obtain ⟨l1, l2, l3, l4⟩ := hl
    refine ⟨q', ?_, ?_, by omega, e2, ?_⟩
    · unfold Rounded.steps at h1 ⊢
      rw [List.replicate_succ', List.foldlM_append, h1]
      show List.foldlM (fun q field => Rounded.StepVay rnd q field) a2 [fieldR] = _
      simp only [List.foldlM_cons, List.foldlM_nil, e1]
      rfl
    · refine ⟨?_, ?_, ?_, ?_⟩
      · rw [eT]; simp; omega
      · rw [eX]; simp; omega
      · rw [eP]; simp; omega
      · rw [eA]; simp; omega
    · intro k hk
      rcases Nat.lt_or_ge n k with hk' | hk'
      · obtain rfl : k = n + 1 := by omega
        refine ⟨q'.tCur, q'.XCur, P, A, ?_, ?_, ?_, ?_, ?_, ?_, bP, fun v hv => (bA v hv).trans ?_⟩
        · rw [eT, List.getElem?_append_right (by omega), l1, show N + (n + 1) - (N + 1 + n) = 0 by omega]; rfl
        · rw [eX, List.getElem?_append_right (by omega), l2, show N + (n + 1) - (N + 1 + n) = 0 by omega]; rfl
        · rw [eP, List.getElem?_append_right (by omega), l3, show N + (n + 1) - (N + 1 + n) = 0 by omega]; rfl
        · rw [eA, List.getElem?_append_right (by omega), l4, show N + (n + 1) - (N + 1 + n) = 0 by omega]; rfl
        · refine e2.time.trans ?_
          rw [le_div_iff₀ (by linarith)]
          have := mul_le_mul_of_nonneg_right hn (show 0 ≤ c.Ct * u from mul_nonneg c.hCt R.hu)
          linarith
        · have h5 := e2.err.trans (gronwall_total hRate hs.le hA1p R.hA0 hn)
          have h6 := Vec.norm_nonneg (q'.VYp - p (t0 + (n + 1 : ℕ) * (2 * s) + s))
          unfold bound
          linarith
        · unfold boundA
          linarith
      · obtain ⟨τ, X, P', A', g1, g2, g3, g4, b⟩ := h3 k hk'
        refine ⟨τ, X, P', A', ?_, ?_, ?_, ?_, b⟩
        · rw [eT, List.getElem?_append_left (by omega)]; exact g1
        · rw [eX, List.getElem?_append_left (by omega)]; exact g2
        · rw [eP, List.getElem?_append_left (by omega)]; exact g3
        · rw [eA, List.getElem?_append_left (by omega)]; exact g4

end Rounded
end Teufel
