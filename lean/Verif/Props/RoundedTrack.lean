import Verif.Lemmas.RoundedRun
import Verif.Props.RoundedClock
import Verif.Props.Convergence

/-!
# C101: rounding errors of the tracked trajectory

C92 compares the tracker computing with exact numbers with the exact motion.  Here every arithmetic operation of the tracker is rounded (Model/RoundedVay), and
the field it asks for is itself only known up to rounding errors (Spec/Computed).
-/

namespace Teufel
open Vec

namespace Rounded

private theorem gamma_id (q : ℝ) (P E B : Vec) : vayGamma id q P E B = Particle.vayGamma q P E B := rfl
private theorem momentum_id (q : ℝ) (P E B : Vec) : vayMomentum id q P E B = Particle.vayMomentum q P E B := rfl
private theorem accel_id (q : ℝ) (P E B : Vec) : vayAccel id q P E B = Particle.vayAccel q P E B := rfl

/-- without rounding errors the half step is always defined -/
private theorem defined_id (q : ℝ) (P E B : Vec) : VayDefined id q P E B := by
  refine ⟨?_, ?_, ?_, ?_, ?_, ?_⟩
  · exact zero_le_one.trans (disc_ge (P + E / SpeedOfLight * q) (B * q))
  · exact zero_le_one.trans (gamma2_ge q P E B)
  · exact (lt_of_lt_of_le one_pos (gamma_ge q P E B)).ne'
  · have h : 0 ≤ (B * q / Particle.vayGamma q P E B).abs2nd := abs2nd_nonneg _
    exact (lt_of_lt_of_le one_pos (le_add_of_nonneg_right h)).ne'
  · exact zero_le_one.trans (H2_ge P)
  · exact (lt_of_lt_of_le one_pos (sqrt_H2_ge P)).ne'

/-- C101: if nothing is rounded then the tracker is that of C92. -/
theorem InitVay_id (p : Particle) (h : ℝ) (field : FieldFn) : InitVay id p h field = p.InitVay h field := by
  unfold InitVay Particle.InitVay
  split
  · rfl
  split
  · rfl
  simp only [id, not_true_eq_false, if_false, defined_id]
  rfl

theorem StepVay_id (p : Particle) (field : FieldFn) (h : p.VYgamma ≠ 0) : StepVay id p field = p.StepVay field := by
  unfold StepVay Particle.StepVay
  rw [if_neg h]
  simp only [id, not_true_eq_false, if_false, defined_id]
  rfl

end Rounded

/-- C101: without rounding errors the tracker of this claim is the tracker of C92. -/
theorem C101_without_rounding (p : Particle) (h : ℝ) (field : FieldFn) :
    Rounded.InitVay id p h field = p.InitVay h field ∧ (p.VYgamma ≠ 0 → Rounded.StepVay id p field = p.StepVay field) :=
  ⟨Rounded.InitVay_id p h field, Rounded.StepVay_id p field⟩

private theorem norm_bounded {x : ℝ → Vec} {a b : ℝ} {v : ℝ → Vec} (h : ∀ t, a ≤ t → t ≤ b → HasVelocity x (v t) t) :
    ∃ m, 0 ≤ m ∧ ∀ t, a ≤ t → t ≤ b → (x t).norm ≤ m := by
  have hc : ContinuousOn (fun t => (x t).norm) (Set.Icc a b) := by
    intro t ht
    obtain ⟨h1, h2, h3⟩ := h t ht.1 ht.2
    have c1 := h1.continuousAt
    have c2 := h2.continuousAt
    have c3 := h3.continuousAt
    refine ContinuousAt.continuousWithinAt ?_
    unfold Vec.norm
    exact (((c1.mul c1).add (c2.mul c2)).add (c3.mul c3)).sqrt
  obtain ⟨m, hm⟩ := isCompact_Icc.exists_bound_of_continuousOn hc
  refine ⟨|m|, abs_nonneg m, fun t h1 h2 => ?_⟩
  have := hm t ⟨h1, h2⟩
  rw [Real.norm_eq_abs, abs_of_nonneg (Vec.norm_nonneg _)] at this
  exact this.trans (le_abs_self m)

theorem Rounded.ratio_error {rnd : ℝ → ℝ} {u : ℝ} (hr : ∀ y, |rnd y - y| ≤ u * |y|) (hu : 0 ≤ u) (hu1 : u ≤ 1) (z : ℝ) {h : ℝ} (hh : 0 < h) (hh1 : h ≤ 1) :
    |rnd (rnd z * InvRestMass) - z * InvRestMass| ≤ 8 * |z * InvRestMass| * u ∧
    |rnd (rnd (rnd (rnd z * InvRestMass) * 0.5) * h) - z * InvRestMass * (h / 2)| ≤ 8 * |z * InvRestMass| * u := by
  have hI := InvRestMass_pos
  set I := InvRestMass
  have one : ∀ y, |rnd y| ≤ 2 * |y| := by
    intro y
    have h1 := hr y
    have h2 := abs_add_le (rnd y - y) y
    rw [sub_add_cancel] at h2
    have h3 := mul_le_mul_of_nonneg_right hu1 (abs_nonneg y)
    linarith
  set Q := |z * I| with hQ
  have hQ0 : 0 ≤ Q := abs_nonneg _
  have hQz : |z| * I = Q := by rw [hQ, abs_mul, abs_of_pos hI]
  set w := rnd z * I with hw
  have a1 : |w - z * I| ≤ Q * u := by
    have := mul_le_mul_of_nonneg_right (hr z) hI.le
    rw [← abs_of_pos hI, ← abs_mul, abs_of_pos hI] at this
    rw [hw, ← sub_mul]
    calc _ ≤ _ := this
      _ = |z| * I * u := by ring
      _ = _ := by rw [hQz]
  have a2 : |w| ≤ 2 * Q := by
    rw [hw, abs_mul, abs_of_pos hI, ← hQz]
    have := mul_le_mul_of_nonneg_right (one z) hI.le
    linarith
  set k := rnd w with hk
  have a3 : |k - w| ≤ 2 * Q * u := (hr w).trans (by nlinarith)
  have a4 : |k - z * I| ≤ 3 * Q * u := by
    have := abs_add_le (k - w) (w - z * I)
    rw [sub_add_sub_cancel] at this
    linarith
  have a5 : |k| ≤ 4 * Q := (one w).trans (by linarith)
  set e := rnd (k * 0.5) with he
  have a6 : |k * 0.5| ≤ 2 * Q := by rw [abs_mul, abs_of_pos (by norm_num : (0 : ℝ) < 0.5)]; linarith
  have a7 : |e - k * 0.5| ≤ 2 * Q * u := (hr _).trans (by nlinarith)
  have a8 : |e| ≤ 4 * Q := (one _).trans (by linarith)
  have a9 : |e - z * I * (1 / 2)| ≤ 7 / 2 * (Q * u) := by
    have h1 := abs_add_le (e - k * 0.5) ((k - z * I) * (1 / 2))
    rw [show e - k * 0.5 + (k - z * I) * (1 / 2) = e - z * I * (1 / 2) by ring, abs_mul (k - z * I), abs_of_pos (by norm_num : (0 : ℝ) < 1 / 2)] at h1
    linarith
  have a10 : |e * h| ≤ 4 * Q := by
    rw [abs_mul, abs_of_pos hh]
    exact (mul_le_of_le_one_right (abs_nonneg _) hh1).trans a8
  have a11 : |rnd (e * h) - e * h| ≤ 4 * Q * u := (hr _).trans (by nlinarith)
  have hQu : 0 ≤ Q * u := mul_nonneg hQ0 hu
  refine ⟨by linarith, ?_⟩
  have h1 := abs_add_le (rnd (e * h) - e * h) ((e - z * I * (1 / 2)) * h)
  rw [show rnd (e * h) - e * h + (e - z * I * (1 / 2)) * h = rnd (e * h) - z * I * (h / 2) by ring, abs_mul (e - z * I * (1 / 2)), abs_of_pos hh] at h1
  have h2 : |e - z * I * (1 / 2)| * h ≤ |e - z * I * (1 / 2)| := mul_le_of_le_one_right (abs_nonneg _) hh1
  linarith

theorem Rounded.bound_eq {X0 S0 T loc D D1 u s : ℝ} (hs : s ≠ 0) :
    X0 * (S0 + D * u / s ^ 2 + T * (loc + D1 * u / s ^ 3)) * s ^ 2 = X0 * ((S0 + T * loc) * s ^ 2 + D * u + 2 * T * D1 * (u / (2 * s))) := by
  field_simp
  ring

set_option maxHeartbeats 1000000 in
theorem Rounded.run_from {qm : ℝ} {field fieldR : FieldFn} {x p : ℝ → Vec} {t0 T r L F Bm M : ℝ} {c : Rounded.Consts qm T L F Bm} {s u A0 S0 : ℝ} {rnd : ℝ → ℝ} {a : Particle}
    (R : Rounded.Run c field fieldR x p t0 r M s u (rnd (rnd (a.Charge / a.Mass) * InvRestMass)) (rnd (rnd (rnd (rnd (a.Charge / a.Mass) * InvRestMass) * 0.5) * (2 * s))) A0 rnd)
    (hr : 0 < r) (hF1 : F ≤ c.F1) {EB : EMField} (hEB : field t0 (x t0) = .ok EB)
    (hv : HasVelocity p ((EB.E / SpeedOfLight + cross (velOf (p t0)) EB.B) * qm) t0)
    (hS0 : S0 = 2 * |qm| ^ 2 * (EB.E.norm / SpeedOfLight + Bm) * Bm + M) (hA0 : A0 = S0 + c.D * u / s ^ 2)
    (ha : a.Reachable) (hmass : a.Mass ≠ 0) (hat : a.TrajTime (a.getNP - 1 : Nat) = .ok t0)
    (hax : a.TrajPoint (a.getNP - 1 : Nat) = .ok (x t0)) (hap : a.TrajMomentum (a.getNP - 1 : Nat) = .ok (p t0)) (n : Nat) (hn : (n : ℝ) * (2 * s) ≤ T) :
    ∃ a1 a2, Rounded.InitVay rnd a (2 * s) fieldR = .ok a1 ∧ Rounded.steps rnd a1 (List.replicate n fieldR) = .ok a2 ∧ a2.Cons ∧
      ∀ k : ℕ, k ≤ n → Rounded.Close c x p M s u A0 a2 (a.NP - 1 + k) (t0 + k * (2 * s)) := by
  set qmR := rnd (rnd (a.Charge / a.Mass) * InvRestMass) with hqmR
  set qR := rnd (rnd (qmR * 0.5) * (2 * s)) with hqR
  have S := R.S
  have hT := S.hT
  have hB := S.hB
  have hM := S.hM
  have hL := S.hL
  have hF := R.hF
  have hs := R.hs
  have hs1 := R.hs1
  have hu := R.hu
  have hc := SpeedOfLight_pos
  have hcomp := R.comp
  have hLr : 0 ≤ L * r := mul_nonneg hL hr.le
  have hFu : 0 ≤ F * u := mul_nonneg hF hu
  have hFF : F * u ≤ c.F1 * u := mul_le_mul_of_nonneg_right hF1 hu
  have hBm := S.tame.magnetic t0 le_rfl (by linarith) EB hEB
  have hEc := R.hE t0 le_rfl (by linarith) EB hEB
  have hBn := R.hB
  have hEn := Vec.norm_nonneg EB.E
  have hEc0 : 0 ≤ c.Em := by linarith
  have hBn0 : 0 ≤ c.Bn := by linarith
  have hKK : 0 ≤ Setting.K qm (L + F) Bm := by unfold Setting.K; positivity
  have hD10 := c.D1_nonneg hT hKK
  have hCt0 := c.hCt
  have hA00 := R.hA0
  have hLoc : 0 ≤ Setting.local3 qm Bm M := by unfold Setting.local3; positivity
  have hb0 : 0 ≤ Rounded.bound c M s u A0 := by unfold Rounded.bound; positivity
  have hcons := cons_reachable ha
  have hNP : 1 ≤ a.NP := by
    have := (List.getElem?_eq_some_iff.mp (get_of_TrajTime hat)).1
    rw [hcons.1] at this
    omega
  have gT' := get_of_TrajTime hat
  have gX' := get_of_TrajPoint hax
  have gP' := get_of_TrajMomentum hap
  have gT : a.Time.getLast? = some t0 := by rw [List.getLast?_eq_getElem?, hcons.1]; exact gT'
  have gX : a.X.getLast? = some (x t0) := by rw [List.getLast?_eq_getElem?, hcons.2.1]; exact gX'
  have gP : a.P.getLast? = some (p t0) := by rw [List.getLast?_eq_getElem?, hcons.2.2.1]; exact gP'
  have gA : a.A ≠ [] := by
    intro h0
    have := hcons.2.2.2
    rw [h0] at this
    simp at this
    omega
  -- the first half step
  obtain ⟨EB', f1, f2, f3⟩ := hcomp.near t0 le_rfl (by linarith) t0 (by rw [sub_self, abs_zero]; exact hr.le) (x t0)
    (by rw [sub_self, Vec.norm_zero]; exact hr.le) EB hEB
  rw [sub_self, abs_zero, add_zero] at f2 f3
  have hqs : |qm * s| ≤ |qm| := by
    rw [abs_mul, abs_of_pos hs]
    exact mul_le_of_le_one_right (abs_nonneg _) hs1
  let i : Rounded.HalfData c.Pm c.Em c.Bn |qm| c.F1 := {
    rnd := rnd, u := u, P := p t0, E' := EB'.E, E := EB.E, B' := EB'.B, B := EB.B, q' := qR, q := qm * s, k' := qmR, k := qm
    hu := hu, hr := R.hr
    hP := by
      have h1 := R.hP t0 le_rfl (by linarith)
      have h2 : 0 ≤ (c.Em / SpeedOfLight + c.Bn) * |qm| := by positivity
      have h3 := c.hPm
      linarith
    hE := by linarith
    hE' := f2.trans hFF
    hB := by linarith
    hB' := f3.trans hFF
    hq := hqs, hq' := R.hq, hk := le_rfl, hk' := R.hqm }
  obtain ⟨d1, d2, d3, d4⟩ := c.half i R.huc
  simp only [i] at d1 d2 d3 d4
  have hstart := S.start s hs.le hs1 (Particle.vayMomentum (qm * s) (p t0) EB.E EB.B) EB hBm hv (Particle.vay_implicit (qm * s) (p t0) EB.E EB.B)
  have hinit : ∃ a1, Rounded.InitVay rnd a (2 * s) fieldR = .ok a1 ∧ a1.dt = 2 * s ∧ a1.qm = qmR ∧ a1.qmt2 = qR ∧ a1.tCur = t0 ∧ a1.XCur = x t0 ∧
      a1.VYgamma = Rounded.vayGamma rnd qR (p t0) EB'.E EB'.B ∧ a1.VYp = Rounded.vayMomentum rnd qR (p t0) EB'.E EB'.B ∧
      a1.NP = a.NP ∧ a1.Time = a.Time ∧ a1.X = a.X ∧ a1.P = a.P ∧ a1.A = a.A.dropLast ++ [Rounded.vayAccel rnd qmR (p t0) EB'.E EB'.B] := by
    simp only [Rounded.InitVay]
    rw [if_neg (by omega), if_neg hmass]
    simp only [gT, gX, gP, f1]
    rw [if_neg (not_not.mpr d1), if_neg gA]
    exact ⟨_, rfl, rfl, rfl, rfl, rfl, rfl, rfl, rfl, rfl, rfl, rfl, rfl, rfl⟩
  obtain ⟨a1, e0, e1, e2, e3, e4, e5, e6, e7, e8, e9, e10, e11, e12⟩ := hinit
  have hc1 : a1.Cons := by
    obtain ⟨l1, l2, l3, l4⟩ := hcons
    refine ⟨by rw [e9, e8]; exact l1, by rw [e10, e8]; exact l2, by rw [e11, e8]; exact l3, ?_⟩
    rw [e12, e8]
    simp
    omega
  have hAfter : Rounded.After c x p t0 s u qmR qR A0 (Setting.local3 qm Bm M + c.D1 * u / s ^ 3) 0 a1 := by
    refine ⟨e1, e2, e3, ?_, ?_, ?_⟩
    · rw [e4]; simp
    · rw [e6, e7]; exact d2
    · simp only [Nat.cast_zero, zero_mul, add_zero, pow_zero, one_mul]
      rw [e5, sub_self, Vec.norm_zero, zero_add, e7]
      have h5 := Vec.norm_add_le (Rounded.vayMomentum rnd qR (p t0) EB'.E EB'.B - Particle.vayMomentum (qm * s) (p t0) EB.E EB.B)
        (Particle.vayMomentum (qm * s) (p t0) EB.E EB.B - p (t0 + s))
      rw [show Rounded.vayMomentum rnd qR (p t0) EB'.E EB'.B - Particle.vayMomentum (qm * s) (p t0) EB.E EB.B +
        (Particle.vayMomentum (qm * s) (p t0) EB.E EB.B - p (t0 + s)) = Rounded.vayMomentum rnd qR (p t0) EB'.E EB'.B - p (t0 + s) by ext <;> simp] at h5
      have h6 : A0 * s ^ 2 = S0 * s ^ 2 + c.D * u := by rw [hA0]; field_simp
      rw [h6]
      rw [← hS0] at hstart
      linarith
  have hex : Particle.vayAccel qm (p t0) EB.E EB.B = (EB.E / SpeedOfLight + cross (velOf (p t0)) EB.B) * qm := by
    have h8 := S.accel t0 0 (p t0) EB EB hBm (by rw [sub_self, Vec.norm_zero]; simp) (by rw [sub_self, Vec.norm_zero]; simp)
    rw [sub_self (p t0), Vec.norm_zero] at h8
    simp only [mul_zero, add_zero] at h8
    exact sub_eq_zero.mp (Vec.norm_eq_zero.mp (le_antisymm h8 (Vec.norm_nonneg _)))
  have hN : a1.NP = (a.NP - 1) + 1 := by omega
  have hDu0 : 0 ≤ c.D * u := mul_nonneg c.hD hu
  have hKu0 : 0 ≤ c.K * u := mul_nonneg c.hK hu
  have hTt : 0 ≤ T * c.Ct * u / (2 * s) := by positivity
  have hClose : Rounded.Close c x p M s u A0 a1 (a.NP - 1) t0 := by
    refine ⟨t0, x t0, p t0, Rounded.vayAccel rnd qmR (p t0) EB'.E EB'.B, ?_, ?_, ?_, ?_, ?_, ?_, ?_, ?_⟩
    · rw [e9]; exact gT'
    · rw [e10]; exact gX'
    · rw [e11]; exact gP'
    · rw [e12, List.getElem?_append_right (by simp [hcons.2.2.2])]
      simp [hcons.2.2.2]
    · rw [sub_self, abs_zero]; exact hTt
    · rw [sub_self, Vec.norm_zero]; exact hb0
    · rw [sub_self, Vec.norm_zero]
      unfold Rounded.boundP
      have : 0 ≤ (2 * |qm| * Bm + 1) * M * s ^ 2 := by positivity
      have : 0 ≤ c.K * u := hKu0
      have : 0 ≤ T * c.Ct * u / (2 * s) := hTt
      linarith
    · intro v hv'
      rw [hv'.unique hv, ← hex]
      refine d4.trans ?_
      unfold Rounded.boundA
      have g1 : 0 ≤ c.K * u := hKu0
      have g2 : 0 ≤ T * c.Ct * u / (2 * s) := hTt
      have : 0 ≤ |qm| * (((L + F) / SpeedOfLight + (L + F)) * (Rounded.bound c M s u A0 + (u + T * c.Ct * u / (2 * s))) +
          2 * Bm * (2 * Rounded.bound c M s u A0 + (u + T * c.Ct * u / (2 * s)) + (2 * |qm| * Bm + 1) * M * s ^ 2)) := by positivity
      linarith
  obtain ⟨a2, r1, r2, r3, r4, r5⟩ := Rounded.run R hc1 hN hAfter hClose n hn
  exact ⟨a1, a2, e0, r1, r2, r5⟩

set_option maxHeartbeats 1000000 in
/-- C101: if the exact motion is smooth then every stored point of a run of the Vay tracker with rounded arithmetic and a field computed with rounding errors
differs from the exact motion by at most a constant times h² + u/h, where h is the time step and u the relative error of an arithmetic operation.  The clock
is off by at most a constant times u/h.  No operation of such a run divides by zero or takes the root of a negative number.  The constants depend neither on
the way numbers are rounded nor on the time step nor on the number of steps nor on the particle's past. -/
theorem C101_rounded_tracking (qm : ℝ) (field : FieldFn) (x p : ℝ → Vec) (t0 T r L Bm Em F : ℝ) (hm : Motion qm field x p t0 T) (hp : Smooth p)
    (ht : TameNear field x t0 T r L Bm) (hE : ∀ t, t0 ≤ t → t ≤ t0 + T → ∀ EB, field t (x t) = .ok EB → EB.E.norm ≤ Em)
    (hr : 0 < r) (hL : 0 ≤ L) (hT : 0 ≤ T) (hF : 0 ≤ F) :
    ∃ C h0 κ : ℝ, 0 < h0 ∧ 0 < κ ∧ ∀ rnd u, IsRounding rnd u → ∀ h : ℝ, 0 < h → h ≤ h0 → u ≤ κ * h →
      ∀ fieldR, ComputesNear field fieldR x t0 T r F u → ∀ n : ℕ, n * h ≤ T →
      ∀ a : Particle, a.Reachable → a.Mass ≠ 0 → a.Charge / a.Mass * InvRestMass = qm →
        a.TrajTime (a.getNP - 1 : Nat) = .ok t0 → a.TrajPoint (a.getNP - 1 : Nat) = .ok (x t0) → a.TrajMomentum (a.getNP - 1 : Nat) = .ok (p t0) →
        ∃ a1 a2, Rounded.InitVay rnd a h fieldR = .ok a1 ∧ Rounded.steps rnd a1 (List.replicate n fieldR) = .ok a2 ∧
          ∀ k : ℕ, k ≤ n → ∃ t X P A,
            a2.TrajTime (a.getNP - 1 + k : Nat) = .ok t ∧ a2.TrajPoint (a.getNP - 1 + k : Nat) = .ok X ∧
            a2.TrajMomentum (a.getNP - 1 + k : Nat) = .ok P ∧ a2.TrajAccel (a.getNP - 1 + k : Nat) = .ok A ∧
            |t - (t0 + k * h)| ≤ C * (u / h) ∧
            (X - x (t0 + k * h)).norm ≤ C * (h ^ 2 + u / h) ∧ (P - p (t0 + k * h)).norm ≤ C * (h ^ 2 + u / h) ∧
            ∀ v, HasVelocity p v (t0 + k * h) → (A - v).norm ≤ C * (h ^ 2 + u / h) := by
  obtain ⟨M1, hM1, b1⟩ := hp.bounds (t0 - 1) (t0 + T + 1)
  obtain ⟨M2, hM2, b2⟩ := hp.velOf.bounds (t0 - 1) (t0 + T + 1)
  obtain ⟨M3, hM3, b3⟩ := hp.bounds (t0 - (T + 1)) (t0 + T + 1)
  obtain ⟨EB, hEB, hv'⟩ := hm.momentum t0 le_rfl (by linarith)
  have hBm := ht.magnetic t0 le_rfl (by linarith) EB hEB
  have hB : 0 ≤ Bm := (Vec.norm_nonneg _).trans hBm
  have hEm := hE t0 le_rfl (by linarith) EB hEB
  have hEm0 : 0 ≤ Em := (Vec.norm_nonneg _).trans hEm
  have S : Setting qm field x p t0 T r L Bm (M1 + M2) 0 :=
    ⟨hm, ht, (b1.mono (by linarith)).mom 0, (b2.mono (by linarith)).vel 0, by linarith, hL, hB, hT⟩
  set M := M1 + M2 with hMdef
  have hc := SpeedOfLight_pos
  have hM := S.hM
  obtain ⟨Xm, hXm, bX⟩ := norm_bounded (fun t h1 h2 => hm.position t h1 h2)
  obtain ⟨EB1, EB2, g1, g2, g3, hv, -, -⟩ := S.fields t0 le_rfl (by linarith) (x t0) (by rw [sub_self, Vec.norm_zero]; exact hr.le)
  rw [hEB] at g1 g2
  cases g1
  cases g2
  clear hv' g3
  set Vm := (p t0).norm + M3 * (T + 1) + 1 with hVm
  have bV : ∀ t, t0 ≤ t → t ≤ t0 + T + 1 → (p t).norm + 1 ≤ Vm := by
    intro t h1 h2
    have h3 := b3.zeroth t0 (t - t0) (by rw [abs_of_nonneg (by linarith)]; linarith) (by rw [abs_of_nonneg (by linarith)]; linarith)
    rw [show t0 + (t - t0) = t by ring, abs_of_nonneg (by linarith)] at h3
    have h4 := Vec.norm_add_le (p t - p t0) (p t0)
    rw [show p t - p t0 + p t0 = p t by ext <;> simp] at h4
    have : M3 * (t - t0) ≤ M3 * (T + 1) := mul_le_mul_of_nonneg_left (by linarith) hM3
    linarith
  have hLr : 0 ≤ L * r := mul_nonneg hL hr.le
  set Ec := Em + L * r + F * 2 with hEc
  set Bn := Bm + L * r + F * 2 with hBn
  have hEc0 : 0 ≤ Ec := by positivity
  have hBn0 : 0 ≤ Bn := by positivity
  set Pm := Vm + (Ec / SpeedOfLight + Bn) * |qm| + 1 with hPm
  set F1 := F + 8 * |qm| with hF1
  have hqm0 := abs_nonneg qm
  obtain ⟨D, u1, hD, hu1, dHalf⟩ := Rounded.half_defect Pm Ec Bn |qm| F1
  obtain ⟨K, u2, hK, hu2, dStep⟩ := Rounded.step_defect (Xm + 1) Vm Ec Bn |qm| 2 F1 D
  set Ct := |t0| + T + 1 with hCt
  have hCt0 : 0 ≤ Ct := by positivity
  let c : Rounded.Consts qm T L F Bm := {
    Xm := Xm + 1, Vm := Vm, Em := Ec, Bn := Bn, Pm := Pm, F1 := F1, D := D, K := K, Ct := Ct, u0 := min u1 u2
    hD := hD, hK := hK, hCt := hCt0, hPm := le_rfl
    half := fun i hi => dHalf i (hi.trans (min_le_left _ _))
    step := fun i hi => dStep i (hi.trans (min_le_right _ _)) }
  have hKK : 0 ≤ Setting.K qm (L + F) Bm := by unfold Setting.K; positivity
  set D1 := c.D1 with hD1
  have hD10 : 0 ≤ D1 := c.D1_nonneg hT hKK
  set S0 := 2 * |qm| ^ 2 * (EB.E.norm / SpeedOfLight + Bm) * Bm + M with hS0def
  have hEn := Vec.norm_nonneg EB.E
  have hS0 : 0 ≤ S0 := by positivity
  set loc := Setting.local3 qm Bm M with hloc
  have hLoc : 0 ≤ loc := by rw [hloc]; unfold Setting.local3; positivity
  set X0 := Real.exp (Setting.rate qm (L + F) Bm * T) with hX0
  have hX00 : 0 ≤ X0 := (Real.exp_pos _).le
  set CG := X0 * (S0 + T * loc + D + 2 * T * D1) with hCG
  have hCG0 : 0 ≤ CG := by positivity
  set CP := K + 2 * CG + (1 + T * Ct) + (2 * |qm| * Bm + 1) * M with hCP
  have hCP0 : 0 ≤ CP := by positivity
  set CA := D + K + |qm| * (((L + F) / SpeedOfLight + (L + F)) * (CG + (1 + T * Ct)) + 2 * Bm * (2 * CG + (1 + T * Ct) + (2 * |qm| * Bm + 1) * M)) with hCA
  have hCA0 : 0 ≤ CA := by positivity
  set m := min r 1 with hmdef
  have hm0 : 0 < m := lt_min hr one_pos
  have hm1 : m ≤ 1 := min_le_right _ _
  have hmr : m ≤ r := min_le_left _ _
  set ε := m / (2 * (CG + 1)) with hε
  have hε0 : 0 < ε := by positivity
  have hεm : CG * (ε + ε) ≤ m := by
    rw [hε]
    have : CG * (m / (2 * (CG + 1)) + m / (2 * (CG + 1))) = m * (CG / (CG + 1)) := by field_simp; ring
    rw [this]
    exact mul_le_of_le_one_right hm0.le ((div_le_one (by linarith)).mpr (by linarith))
  refine ⟨CG + CP + CA + T * Ct, min (min 1 ε) (1 / (2 * Setting.K qm (L + F) Bm + 1)),
    min (min (min 1 ε) (min (1 / (D + 1)) (1 / (K + 1)))) (min (min u1 u2) (m / (T * Ct + 1))), lt_min (lt_min one_pos hε0) (by positivity),
    lt_min (lt_min (lt_min one_pos hε0) (lt_min (by positivity) (by positivity))) (lt_min (lt_min hu1 hu2) (by positivity)), ?_⟩
  intro rnd u hrnd h hh hh0 huκ fieldR hcomp n hn a ha hmass hqm hat hax hap
  set κ := min (min (min 1 ε) (min (1 / (D + 1)) (1 / (K + 1)))) (min (min u1 u2) (m / (T * Ct + 1))) with hκ
  have hκ0 : 0 ≤ κ := (lt_min (lt_min (lt_min one_pos hε0) (lt_min (by positivity) (by positivity))) (lt_min (lt_min hu1 hu2) (by positivity))).le
  have k1 : κ ≤ 1 := (min_le_left _ _).trans ((min_le_left _ _).trans (min_le_left _ _))
  have k2 : κ ≤ ε := (min_le_left _ _).trans ((min_le_left _ _).trans (min_le_right _ _))
  have k3 : κ ≤ 1 / (D + 1) := (min_le_left _ _).trans ((min_le_right _ _).trans (min_le_left _ _))
  have k4 : κ ≤ 1 / (K + 1) := (min_le_left _ _).trans ((min_le_right _ _).trans (min_le_right _ _))
  have k5 : κ ≤ min u1 u2 := (min_le_right _ _).trans (min_le_left _ _)
  have k6 : κ ≤ m / (T * Ct + 1) := (min_le_right _ _).trans (min_le_right _ _)
  clear_value κ
  have h1 : h ≤ 1 := hh0.trans ((min_le_left _ _).trans (min_le_left _ _))
  have h2 : h ≤ ε := hh0.trans ((min_le_left _ _).trans (min_le_right _ _))
  have h3 : h ≤ 1 / (2 * Setting.K qm (L + F) Bm + 1) := hh0.trans (min_le_right _ _)
  have hu : 0 ≤ u := hrnd.u_nonneg
  have hround := hrnd.err
  have huκ' : u ≤ κ := huκ.trans (mul_le_of_le_one_right hκ0 h1)
  have huone : u ≤ 1 := huκ'.trans k1
  have huh : u / h ≤ κ := by rw [div_le_iff₀ hh]; exact huκ
  have huh0 : 0 ≤ u / h := by positivity
  have huuh : u ≤ u / h := by rw [le_div_iff₀ hh]; exact mul_le_of_le_one_right hu h1
  set s := h / 2 with hsdef
  have hs : 0 < s := by positivity
  have hh2 : h = 2 * s := by rw [hsdef]; ring
  have hs1 : s ≤ 1 := by linarith
  set η := h ^ 2 + u / h with hη
  have hh20 : 0 ≤ h ^ 2 := sq_nonneg h
  have hη0 : 0 ≤ η := by positivity
  have hηε : η ≤ ε + ε := by
    have : h ^ 2 ≤ h := by
      rw [sq]
      exact mul_le_of_le_one_left hh.le h1
    linarith only [this, h2, k2, huh, hη]
  have hsη : s ^ 2 ≤ h ^ 2 := pow_le_pow_left₀ hs.le (by linarith only [hh2, hs]) 2
  have hTu : T * Ct * u ≤ h * m := by
    have e1 : T * Ct * κ ≤ m := by
      rw [le_div_iff₀ (by positivity)] at k6
      have := mul_nonneg (mul_nonneg hT hCt0) hκ0
      linarith
    calc T * Ct * u ≤ T * Ct * (κ * h) := mul_le_mul_of_nonneg_left huκ (by positivity)
      _ = h * (T * Ct * κ) := by ring
      _ ≤ h * m := mul_le_mul_of_nonneg_left e1 hh.le
  set A0 := S0 + D * u / s ^ 2 with hA0
  have hA00 : 0 ≤ A0 := by positivity
  have hbound : Rounded.bound c M s u A0 ≤ CG * η := by
    have e1 : Rounded.bound c M s u A0 = X0 * ((S0 + T * loc) * s ^ 2 + D * u + 2 * T * D1 * (u / h)) := by
      rw [hh2]
      exact Rounded.bound_eq hs.ne'
    rw [e1, hCG, mul_assoc X0]
    refine mul_le_mul_of_nonneg_left ?_ hX00
    have e2 : (S0 + T * loc) * s ^ 2 ≤ (S0 + T * loc) * η := mul_le_mul_of_nonneg_left (by linarith) (by positivity)
    have e3 : D * u ≤ D * η := mul_le_mul_of_nonneg_left (by linarith) hD
    have e4 : 2 * T * D1 * (u / h) ≤ 2 * T * D1 * η := mul_le_mul_of_nonneg_left (by linarith) (by positivity)
    linarith
  have hbm : Rounded.bound c M s u A0 ≤ m := hbound.trans ((mul_le_mul_of_nonneg_left hηε hCG0).trans hεm)
  have hb0 : 0 ≤ Rounded.bound c M s u A0 := by unfold Rounded.bound; have := hD10; positivity
  have hz : a.Charge / a.Mass * InvRestMass = qm := hqm
  obtain ⟨q1, q2⟩ := Rounded.ratio_error hround hu huone (a.Charge / a.Mass) hh h1
  rw [hz] at q1 q2
  set qmR := rnd (rnd (a.Charge / a.Mass) * InvRestMass) with hqmR
  set qR := rnd (rnd (qmR * 0.5) * h) with hqR
  have hFu : 0 ≤ F * u := mul_nonneg hF hu
  have hqu : 0 ≤ 8 * |qm| * u := by positivity
  have q1' : |qmR - qm| ≤ F1 * u := by rw [hF1]; linarith
  have q2' : |qR - qm * s| ≤ F1 * u := by rw [hF1]; linarith
  have R : Rounded.Run c field fieldR x p t0 r M s u qmR qR A0 rnd := {
    S := ⟨hm, ht, (b1.mono (by linarith)).mom s, (b2.mono (by linarith)).vel s, hM, hL, hB, hT⟩, hF := hF, comp := hcomp, hs := hs, hs1 := hs1
    hsK := by
      rw [← hh2]
      rw [le_div_iff₀ (by positivity)] at h3
      linarith
    hu := hu, hu1 := huone, huc := huκ'.trans k5
    hDu := by
      have := huκ'.trans k3
      rw [le_div_iff₀ (by positivity)] at this
      show D * u ≤ 1
      linarith
    hKu := by
      have := huκ'.trans k4
      rw [le_div_iff₀ (by positivity)] at this
      show K * u ≤ 1
      linarith
    hr := hround, hqm := q1', hq := q2', hA0 := hA00
    hX := fun t h1 h2 => by have := bX t h1 h2; show _ ≤ Xm + 1; linarith
    hP := bV
    hE := fun t h1 h2 EB hEB => by have := hE t h1 h2 EB hEB; show _ ≤ Em + L * r + F * 2; linarith
    hB := le_rfl, hCt := le_rfl
    htime := by
      rw [← hh2]
      exact hTu.trans (mul_le_of_le_one_right hh.le hm1)
    htime' := by
      rw [← hh2]
      exact hTu.trans (mul_le_mul_of_nonneg_left hmr hh.le)
    htot := hbm.trans hmr
    htot1 := hbm.trans hm1 }
  have hA0s : A0 = S0 + c.D * u / s ^ 2 := hA0
  rw [hqR, hqmR, hh2] at R
  obtain ⟨a1, a2, e0, r1, r2, r5⟩ := Rounded.run_from R hr (show F ≤ F1 by rw [hF1]; linarith) hEB hv hS0def hA0s ha hmass hat hax hap n (by rw [← hh2]; exact hn)
  refine ⟨a1, a2, by rw [hh2]; exact e0, r1, ?_⟩
  intro k hk
  obtain ⟨τ, X, P, A, g1, g2, g3, g4, g5, g6, g7, g8⟩ := r5 k hk
  rw [← hh2] at g5 g6 g7 g8
  have hTh : T * Ct * u / h = T * Ct * (u / h) := by ring
  have w1 : u + T * c.Ct * u / (2 * s) ≤ (1 + T * Ct) * η := by
    rw [← hh2]
    show u + T * Ct * u / h ≤ _
    rw [hTh]
    have : T * Ct * (u / h) ≤ T * Ct * η := mul_le_mul_of_nonneg_left (by linarith) (by positivity)
    linarith
  have w2 : (2 * |qm| * Bm + 1) * M * s ^ 2 ≤ (2 * |qm| * Bm + 1) * M * η := mul_le_mul_of_nonneg_left (by linarith) (by positivity)
  have w3 : c.K * u ≤ K * η := mul_le_mul_of_nonneg_left (by linarith) hK
  have w4 : c.D * u ≤ D * η := mul_le_mul_of_nonneg_left (by linarith) hD
  have up : ∀ {e g : ℝ}, e ≤ g * η → g ≤ CG + CP + CA + T * Ct → e ≤ (CG + CP + CA + T * Ct) * η :=
    fun h1 h2 => h1.trans (mul_le_mul_of_nonneg_right h2 hη0)
  have hTC : 0 ≤ T * Ct := by positivity
  refine ⟨τ, X, P, A, TrajTime_of_get r2 g1, TrajPoint_of_get r2 g2, TrajMomentum_of_get r2 g3, TrajAccel_of_get r2 g4, ?_, ?_, ?_, ?_⟩
  · refine g5.trans ?_
    show T * Ct * u / h ≤ _
    rw [hTh]
    exact mul_le_mul_of_nonneg_right (by linarith) huh0
  · exact up (g6.trans hbound) (by linarith)
  · refine up (g := CP) (g7.trans ?_) (by linarith)
    unfold Rounded.boundP
    rw [hCP]
    linarith
  · intro v hv'
    refine up (g := CA) ((g8 v hv').trans ?_) (by linarith)
    unfold Rounded.boundA
    have i1 : ((L + F) / SpeedOfLight + (L + F)) * (Rounded.bound c M s u A0 + (u + T * c.Ct * u / (2 * s))) ≤
        ((L + F) / SpeedOfLight + (L + F)) * ((CG + (1 + T * Ct)) * η) := mul_le_mul_of_nonneg_left (by linarith) (by positivity)
    have i2 : 2 * Bm * (2 * Rounded.bound c M s u A0 + (u + T * c.Ct * u / (2 * s)) + (2 * |qm| * Bm + 1) * M * s ^ 2) ≤
        2 * Bm * ((2 * CG + (1 + T * Ct) + (2 * |qm| * Bm + 1) * M) * η) := mul_le_mul_of_nonneg_left (by linarith) (by positivity)
    have i3 := mul_le_mul_of_nonneg_left (add_le_add i1 i2) hqm0
    rw [hCA]
    linarith

/-- C101: any accuracy is reached with a small enough time step and then enough digits. -/
theorem C101_precision (qm : ℝ) (field : FieldFn) (x p : ℝ → Vec) (t0 T r L Bm Em F : ℝ) (hm : Motion qm field x p t0 T) (hp : Smooth p)
    (ht : TameNear field x t0 T r L Bm) (hE : ∀ t, t0 ≤ t → t ≤ t0 + T → ∀ EB, field t (x t) = .ok EB → EB.E.norm ≤ Em)
    (hr : 0 < r) (hL : 0 ≤ L) (hT : 0 ≤ T) (hF : 0 ≤ F) (ε : ℝ) (hε : 0 < ε) :
    ∃ h0 : ℝ, 0 < h0 ∧ ∀ h : ℝ, 0 < h → h ≤ h0 → ∃ N : ℕ, ∀ digits : ℕ, N ≤ digits →
      ∀ fieldR, ComputesNear field fieldR x t0 T r F (2 ^ (-(digits : Int))) → ∀ n : ℕ, n * h ≤ T →
      ∀ a : Particle, a.Reachable → a.Mass ≠ 0 → a.Charge / a.Mass * InvRestMass = qm →
        a.TrajTime (a.getNP - 1 : Nat) = .ok t0 → a.TrajPoint (a.getNP - 1 : Nat) = .ok (x t0) → a.TrajMomentum (a.getNP - 1 : Nat) = .ok (p t0) →
        ∃ a1 a2, Rounded.InitVay (binary digits) a h fieldR = .ok a1 ∧ Rounded.steps (binary digits) a1 (List.replicate n fieldR) = .ok a2 ∧
          ∀ k : ℕ, k ≤ n → ∃ t X P,
            a2.TrajTime (a.getNP - 1 + k : Nat) = .ok t ∧ a2.TrajPoint (a.getNP - 1 + k : Nat) = .ok X ∧ a2.TrajMomentum (a.getNP - 1 + k : Nat) = .ok P ∧
            |t - (t0 + k * h)| ≤ ε ∧ (X - x (t0 + k * h)).norm ≤ ε ∧ (P - p (t0 + k * h)).norm ≤ ε := by
  obtain ⟨C, h0, κ, hh0, hκ, H⟩ := C101_rounded_tracking qm field x p t0 T r L Bm Em F hm hp ht hE hr hL hT hF
  have hC := abs_nonneg C
  set δ := ε / (2 * (|C| + 1)) with hδ
  have hδ0 : 0 < δ := by positivity
  have hδe : |C| * (δ + δ) ≤ ε := by
    rw [hδ, show |C| * (ε / (2 * (|C| + 1)) + ε / (2 * (|C| + 1))) = ε * (|C| / (|C| + 1)) by field_simp; ring]
    exact mul_le_of_le_one_right hε.le ((div_le_one (by linarith)).mpr (by linarith))
  refine ⟨min h0 (min 1 δ), lt_min hh0 (lt_min one_pos hδ0), ?_⟩
  intro h hh hle
  have l0 : h ≤ h0 := hle.trans (min_le_left _ _)
  have l1 : h ≤ 1 := hle.trans ((min_le_right _ _).trans (min_le_left _ _))
  have l2 : h ≤ δ := hle.trans ((min_le_right _ _).trans (min_le_right _ _))
  obtain ⟨N, hN⟩ := exists_pow_lt_of_lt_one (show 0 < min (κ * h) (δ * h) from lt_min (by positivity) (by positivity)) (show (1 / 2 : ℝ) < 1 by norm_num)
  refine ⟨N + 1, ?_⟩
  intro digits hd fieldR hcomp n hn a ha hmass hqm hat hax hap
  have hu : (2 : ℝ) ^ (-(digits : Int)) ≤ (1 / 2) ^ N := by
    rw [zpow_neg, zpow_natCast, one_div, inv_pow]
    exact inv_anti₀ (by positivity) (pow_le_pow_right₀ (by norm_num) (by omega))
  have hround := binary_isRounding (p := digits) (by omega)
  have hu0 := hround.u_nonneg
  have u1 := (hu.trans hN.le).trans (min_le_left _ _)
  have u2 := (hu.trans hN.le).trans (min_le_right _ _)
  generalize (2 : ℝ) ^ (-(digits : Int)) = u at *
  obtain ⟨a1, a2, h1, h2, h3⟩ := H (binary digits) u hround h hh l0 u1 fieldR hcomp n hn a ha hmass hqm hat hax hap
  refine ⟨a1, a2, h1, h2, ?_⟩
  intro k hk
  obtain ⟨t, X, P, A, e1, e2, e3, -, e5, e6, e7, -⟩ := h3 k hk
  have v1 : u / h ≤ δ := by rw [div_le_iff₀ hh]; exact u2
  have v0 : 0 ≤ u / h := by positivity
  have v2 : h ^ 2 ≤ δ := by nlinarith
  have v3 : C * (h ^ 2 + u / h) ≤ ε :=
    ((mul_le_mul_of_nonneg_right (le_abs_self C) (by positivity)).trans (mul_le_mul_of_nonneg_left (add_le_add v2 v1) hC)).trans hδe
  have v4 : C * (u / h) ≤ ε :=
    ((mul_le_mul_of_nonneg_right (le_abs_self C) v0).trans (mul_le_mul_of_nonneg_left (by linarith) hC)).trans hδe
  exact ⟨t, X, P, e1, e2, e3, e5.trans v4, e6.trans v3, e7.trans v3⟩

/-- one plus less than half a digit -/
private theorem binary_one_add {p : Nat} (hp : 1 ≤ p) {h : ℝ} (hh : 0 ≤ h) (hh' : h < 2 ^ (-(p : Int))) : binary p (1 + h) = 1 := by
  have hpow : (2 : ℝ) ^ (-(p : Int)) ≤ 1 / 2 := by
    rw [zpow_neg, zpow_natCast, one_div]
    exact inv_anti₀ (by norm_num) (le_self_pow₀ (by norm_num) (by omega))
  have hlog : Int.log 2 |1 + h| = 0 := by
    rw [abs_of_nonneg (by linarith)]
    have h1 : Int.log 2 (1 + h) < 1 := (Int.lt_zpow_iff_log_lt (by norm_num) (by linarith)).mp (by norm_num; linarith)
    have h2 : 0 ≤ Int.log 2 (1 + h) := (Int.zpow_le_iff_le_log (by norm_num) (by linarith)).mp (by norm_num; linarith)
    omega
  have hulp : ulp p (1 + h) = ((2 : ℝ) ^ (p - 1))⁻¹ := by
    unfold ulp
    rw [hlog, zero_sub, zpow_neg, show ((p : Int) - 1) = ((p - 1 : Nat) : Int) by omega, zpow_natCast]
  have hw : (0 : ℝ) < 2 ^ (p - 1) := by positivity
  have hx : (1 + h) / ulp p (1 + h) = ((2 ^ (p - 1) : Int) : ℝ) + 2 ^ (p - 1) * h := by
    rw [hulp, div_inv_eq_mul]
    push_cast
    ring
  have hlt : (2 : ℝ) ^ (p - 1) * h < 1 / 2 := by
    have : (2 : ℝ) ^ (p - 1) * 2 ^ (-(p : Int)) = 1 / 2 := by
      rw [zpow_neg, zpow_natCast, show (2 : ℝ) ^ p = 2 ^ (p - 1) * 2 by rw [← pow_succ]; congr 1; omega]
      field_simp
    have := mul_lt_mul_of_pos_left hh' hw
    linarith
  have h0 : 0 ≤ (2 : ℝ) ^ (p - 1) * h := by positivity
  have hfl : ⌊(1 + h) / ulp p (1 + h)⌋ = 2 ^ (p - 1) := by
    rw [hx, Int.floor_intCast_add, Int.floor_eq_zero_iff.mpr ⟨h0, by linarith⟩, add_zero]
  unfold binary
  rw [if_neg (by linarith)]
  unfold nearestEven
  rw [hfl, if_pos (by rw [hx]; linarith), hulp]
  push_cast
  field_simp

/-- C101: a time step below the resolution of the clock is lost. One second after the start of the clock, steps smaller than 2⁻⁵³ s do not advance it,
although the particle moves on.  So u/h cannot be left out of the bound. -/
theorem C101_clock_stops (a a' : Particle) (h : ℝ) (field : FieldFn) (hh : 0 ≤ h) (hh' : h < u64) (ht : a.tCur = 1) (hd : a.dt = h)
    (ok : Rounded.StepVay binary64 a field = .ok a') : a'.tCur = 1 ∧ a'.dt = h ∧ a'.getNP = a.getNP + 1 := by
  have hb : binary64 (a.tCur + a.dt) = 1 := by rw [ht, hd]; exact binary_one_add (p := 53) (by norm_num) hh hh'
  unfold Rounded.StepVay at ok
  split at ok
  · cases ok
  simp only [hb] at ok
  split at ok
  · cases ok
  split at ok
  · cases ok
  · cases ok
    exact ⟨rfl, hd, rfl⟩

/-- non-vacuity: the circulating electron of C92, in a field known up to a relative error of the size of the unit roundoff, meets all hypotheses of C101 -/
example (u : ℝ) (hu : 0 ≤ u) : (∀ t, 0 ≤ t → t ≤ 0 + 1 → ∀ EB, circleField t (circleX t) = .ok EB → EB.E.norm ≤ 0) ∧
    ComputesNear circleField (fun _ _ => .ok ⟨0, ⟨0, 1 + u, 0⟩⟩) circleX 0 1 1 1 u := by
  refine ⟨?_, ⟨?_⟩⟩
  · intro t _ _ EB h
    cases h
    simp [Vec.norm_zero]
  · intro t _ _ t' _ X _ EB h
    cases h
    refine ⟨_, rfl, ?_, ?_⟩
    · simp [Vec.norm_zero]
      positivity
    · have : Vec.norm (⟨0, 1 + u, 0⟩ - ⟨0, 1, 0⟩) = u := by simp [Vec.norm, abs2nd, Real.sqrt_mul_self hu]
      rw [this]
      have := abs_nonneg (t' - t)
      linarith

/-- non-vacuity: a moving particle takes a step although the clock stands still -/
example : ∃ a a' : Particle, a.tCur = 1 ∧ a.dt = 2 ^ (-60 : Int) ∧ a.VYp ≠ 0 ∧ Rounded.StepVay binary64 a (fun _ _ => .ok ⟨0, 0⟩) = .ok a' := by
  have b0 : binary64 0 = 0 := binary_zero 53
  have b1 : binary64 1 = 1 := by simpa using binary_zpow (p := 53) (by norm_num) 0
  have b2 : binary64 2 = 2 := by simpa using binary_zpow (p := 53) (by norm_num) 1
  have b4 : binary64 4 = 4 := by
    have := binary_zpow (p := 53) (by norm_num) 2
    norm_num at this
    exact this
  have bs : binary64 (Real.sqrt 2) ≠ 0 := binary64_isRounding.ne_zero (by norm_num) (by positivity)
  have r4 : Real.sqrt 4 = 2 := by rw [show (4 : ℝ) = 2 * 2 by norm_num]; exact Real.sqrt_mul_self (by norm_num)
  have hP : ∀ q V, Rounded.vadd binary64 ⟨0, 0, 1⟩ (Rounded.vmul binary64 (Rounded.vadd binary64 (Rounded.vdiv binary64 (0 : Vec) SpeedOfLight) (Rounded.rcross binary64 V (0 : Vec))) q) = ⟨0, 0, 1⟩ := by
    intro q V
    simp [Rounded.vadd, Rounded.vmul, Rounded.vdiv, Rounded.rcross, b0, b1]
  have hp' : ∀ q, Rounded.vayPrime binary64 q ⟨0, 0, 1⟩ 0 = ⟨0, 0, 1⟩ := by
    intro q
    simp [Rounded.vayPrime, Rounded.vadd, Rounded.vmul, Rounded.vdiv, b0, b1]
  have hs : ∀ q, Rounded.vaySigma binary64 q ⟨0, 0, 1⟩ 0 0 = 2 := by
    intro q
    rw [Rounded.vaySigma, hp']
    simp [Rounded.rabs2nd, Rounded.vmul, b0, b1]
    norm_num [b2]
  have hd : ∀ q, Rounded.vayDisc binary64 q ⟨0, 0, 1⟩ 0 0 = 4 := by
    intro q
    simp only [Rounded.vayDisc]
    rw [hs, hp']
    simp [Rounded.rabs2nd, Rounded.rdot, Rounded.vmul, b0]
    norm_num [b4]
  have hg : ∀ q, Rounded.vayGamma2 binary64 q ⟨0, 0, 1⟩ 0 0 = 2 := by
    intro q
    rw [Rounded.vayGamma2, hd, hs, r4, b2]
    norm_num [b2, b4]
  have hh : Rounded.vayH2 binary64 ⟨0, 0, 1⟩ = 2 := by
    simp [Rounded.vayH2, Rounded.rabs2nd, b0, b1]
    norm_num [b2]
  have hv : ∀ q, Rounded.VayDefined binary64 q ⟨0, 0, 1⟩ 0 0 := by
    intro q
    refine ⟨by rw [hd]; norm_num, by rw [hg]; norm_num, ?_, ?_, by rw [hh]; norm_num, by rw [hh]; exact bs⟩
    · rw [Rounded.vayGamma, hg]; exact bs
    · simp [Rounded.vayDen, Rounded.vayT, Rounded.rabs2nd, Rounded.vmul, Rounded.vdiv, b0, b1]
  refine ⟨{ Particle.default with tCur := 1, dt := 2 ^ (-60 : Int), VYp := ⟨0, 0, 1⟩, VYgamma := 1 }, ?_⟩
  simp only [Rounded.StepVay, hP, hv, not_true_eq_false, if_false, one_ne_zero]
  refine ⟨_, trivial, trivial, ?_, rfl⟩
  intro h
  have := congrArg Vec.z h
  simp at this

end Teufel
