import Verif.Props.RoundedFields

/-!
# The tracker with rounded numbers, without an assumption on the motion
-/

namespace Teufel
open Vec

theorem TameNear.shrink {field : FieldFn} {x : ℝ → Vec} {t0 T r r' L Bm : ℝ} (h : TameNear field x t0 T r L Bm) (hr : r' ≤ r) : TameNear field x t0 T r' L Bm :=
  ⟨h.magnetic, fun t h1 h2 EB hE X hX => h.near t h1 h2 EB hE X (hX.trans hr)⟩

set_option maxHeartbeats 1000000 in
/-- C130: in a regular field every stored point of a run of the Vay tracker with rounded arithmetic and a field computed with rounding errors differs from
the exact motion by at most a constant times h + u/h, where h is the time step and u the relative error of an arithmetic operation.  The clock is off by at
most a constant times u/h.  No operation of such a run divides by zero or takes the root of a negative number.  Nothing is assumed of the exact motion: it
may pass the places where the derivative of the field jumps. -/
theorem C130_first_order (qm : ℝ) (field : FieldFn) (hf : RegularField field) (x p : ℝ → Vec) (t0 T r F : ℝ) (hm : Motion qm field x p t0 T)
    (hr : 0 < r) (hT : 0 ≤ T) (hF : 0 ≤ F) :
    ∃ C h0 κ : ℝ, 0 < h0 ∧ 0 < κ ∧ ∀ rnd u, IsRounding rnd u → ∀ h : ℝ, 0 < h → h ≤ h0 → u ≤ κ * h →
      ∀ fieldR, ComputesNear field fieldR x t0 T r F u → ∀ n : ℕ, n * h ≤ T →
      ∀ a : Particle, a.Reachable → a.Mass ≠ 0 → a.Charge / a.Mass * InvRestMass = qm →
        a.TrajTime (a.getNP - 1 : Nat) = .ok t0 → a.TrajPoint (a.getNP - 1 : Nat) = .ok (x t0) → a.TrajMomentum (a.getNP - 1 : Nat) = .ok (p t0) →
        ∃ a1 a2, Rounded.InitVay rnd a h fieldR = .ok a1 ∧ Rounded.steps rnd a1 (List.replicate n fieldR) = .ok a2 ∧
          ∀ k : ℕ, k ≤ n → ∃ t X P A,
            a2.TrajTime (a.getNP - 1 + k : Nat) = .ok t ∧ a2.TrajPoint (a.getNP - 1 + k : Nat) = .ok X ∧
            a2.TrajMomentum (a.getNP - 1 + k : Nat) = .ok P ∧ a2.TrajAccel (a.getNP - 1 + k : Nat) = .ok A ∧
            |t - (t0 + k * h)| ≤ C * (u / h) ∧
            (X - x (t0 + k * h)).norm ≤ C * (h + u / h) ∧ (P - p (t0 + k * h)).norm ≤ C * (h + u / h) ∧
            ∀ v, HasVelocity p v (t0 + k * h) → (A - v).norm ≤ C * (h + u / h) := by
  have hc := SpeedOfLight_pos
  obtain ⟨e, b, L, Bm, y, q, hy, hq, E⟩ := Exist.extended_exists hf qm t0 T hT (x t0) (p t0)
  have same : ∀ t, t0 ≤ t → t ≤ t0 + T → x t = y t ∧ p t = q t := fun t h1 h2 => E.unique hT hm hy.symm hq.symm t h1 h2
  have hL := E.cut.hL
  have hB := E.cut.hM
  have hFo := E.F_nonneg
  have hCo := E.C_nonneg
  set N := 5 * Exist.F qm Bm + 3 * Exist.C qm L Bm with hN
  have hN0 : 0 ≤ N := by positivity
  have hmy := E.motion hT
  have hE : ∀ t, t0 ≤ t → t ≤ t0 + T → ∀ EB, field t (y t) = .ok EB → EB.E.norm ≤ Bm := by
    intro t h1 h2 EB hEB
    have h3 := E.near hT t (by linarith) (by linarith)
    rw [E.cut.eq t (y t) (by linarith) (by linarith) (h3.trans (by nlinarith))] at hEB
    cases hEB
    exact E.cut.boundE t (y t) (by linarith) (by linarith)
  obtain ⟨r', hr', hrr, hr1⟩ : ∃ r', 0 < r' ∧ r' ≤ r ∧ r' ≤ 1 := ⟨min r 1, lt_min hr one_pos, min_le_left _ _, min_le_right _ _⟩
  have hS : ∀ {s : ℝ}, 0 < s → s ≤ 1 → Setting qm field y q t0 T r' L Bm (N / s) s := by
    intro s hs hs1
    obtain ⟨c1, c2, c3, c4, c5, c6, c7, c8⟩ := E.setting hT hs hs1
    exact ⟨c1, TameNear.shrink c2 hr1, c3, c4, c5, c6, c7, c8⟩
  have hcomp' : ∀ {fieldR : FieldFn} {u : ℝ}, ComputesNear field fieldR x t0 T r F u → ComputesNear field fieldR y t0 T r' F u := by
    intro fieldR u h
    refine ⟨fun t h1 h2 t' ht' X hX EB hEB => h.near t h1 h2 t' (ht'.trans hrr) X ?_ EB hEB⟩
    rw [(same t h1 h2).1]
    exact hX.trans hrr
  obtain ⟨EB, hEB, -⟩ := hmy.momentum t0 le_rfl (by linarith)
  obtain ⟨EB1, EB2, g1, g2, g3, hv, -, -⟩ := (hS one_pos le_rfl).fields t0 le_rfl (by linarith) (y t0) (by rw [sub_self, Vec.norm_zero]; exact hr'.le)
  rw [hEB] at g1 g2
  cases g1
  cases g2
  clear g3
  obtain ⟨Xm, hXm, bX⟩ := Rounded.path_bounded (fun t h1 h2 => hmy.position t h1 h2)
  set Vm := (q t0).norm + Exist.F qm Bm * (T + 1) + 1 with hVm
  have bV : ∀ t, t0 ≤ t → t ≤ t0 + T + 1 → (q t).norm + 1 ≤ Vm := by
    intro t h1 h2
    have h3 := E.mom_lip (s := t0) (t := t) (by linarith) (by linarith) (by linarith) (by linarith)
    rw [abs_of_nonneg (by linarith)] at h3
    have h4 := Vec.norm_add_le (q t - q t0) (q t0)
    rw [show q t - q t0 + q t0 = q t by ext <;> simp] at h4
    have : Exist.F qm Bm * (t - t0) ≤ Exist.F qm Bm * (T + 1) := mul_le_mul_of_nonneg_left (by linarith) hFo
    linarith
  have hLr : 0 ≤ L * r' := mul_nonneg hL hr'.le
  set Ec := Bm + L * r' + F * 2 with hEc
  set Bn := Bm + L * r' + F * 2 with hBn
  have hEc0 : 0 ≤ Ec := by positivity
  have hBn0 : 0 ≤ Bn := by positivity
  set Pm := Vm + (Ec / SpeedOfLight + Bn) * |qm| + 1 with hPm
  set F1 := F + 8 * |qm| with hF1
  have hqm0 := abs_nonneg qm
  obtain ⟨D, u1, hD, hu1, dHalf⟩ := Rounded.half_defect Pm Ec Bn |qm| F1
  obtain ⟨K, u2, hK, hu2, dStep⟩ := Rounded.step_defect (Xm + 1) Vm Ec Bn |qm| 2 F1 D
  set Ct := |t0| + T + 1 with hCt
  have hCt0 : 0 ≤ Ct := by positivity
  let c : Rounded.Consts qm T L F Bm := {
    Xm := Xm + 1, Vm := Vm, Em := Ec, Bn := Bn, Pm := Pm, F1 := F1, D := D, K := K, Ct := Ct, u0 := min u1 u2
    hD := hD, hK := hK, hCt := hCt0, hPm := le_rfl
    half := fun i hi => dHalf i (hi.trans (min_le_left _ _))
    step := fun i hi => dStep i (hi.trans (min_le_right _ _)) }
  have hKK : 0 ≤ Setting.K qm (L + F) Bm := by unfold Setting.K; positivity
  set D1 := c.D1 with hD1
  have hD10 : 0 ≤ D1 := c.D1_nonneg hT hKK
  set Z := 2 * |qm| ^ 2 * (EB.E.norm / SpeedOfLight + Bm) * Bm with hZ
  have hEn := Vec.norm_nonneg EB.E
  have hZ0 : 0 ≤ Z := by positivity
  set loc := Setting.local3 qm Bm N with hloc
  have hLoc : 0 ≤ loc := by rw [hloc]; unfold Setting.local3; positivity
  set X0 := Real.exp (Setting.rate qm (L + F) Bm * T) with hX0
  have hX00 : 0 ≤ X0 := (Real.exp_pos _).le
  set CG := X0 * (Z + N + T * loc + D + 2 * T * D1) with hCG
  have hCG0 : 0 ≤ CG := by positivity
  set CP := K + 2 * CG + (1 + T * Ct) + (2 * |qm| * Bm + 1) * N with hCP
  have hCP0 : 0 ≤ CP := by positivity
  set CA := D + K + |qm| * (((L + F) / SpeedOfLight + (L + F)) * (CG + (1 + T * Ct)) + 2 * Bm * (2 * CG + (1 + T * Ct) + (2 * |qm| * Bm + 1) * N)) with hCA
  have hCA0 : 0 ≤ CA := by positivity
  set m := min r' 1 with hmdef
  have hm0 : 0 < m := lt_min hr' one_pos
  have hm1 : m ≤ 1 := min_le_right _ _
  have hmr : m ≤ r' := min_le_left _ _
  set ε := m / (2 * (CG + 1)) with hε
  have hε0 : 0 < ε := by positivity
  have hεm : CG * (ε + ε) ≤ m := by
    rw [hε]
    have : CG * (m / (2 * (CG + 1)) + m / (2 * (CG + 1))) = m * (CG / (CG + 1)) := by field_simp; ring
    rw [this]
    exact mul_le_of_le_one_right hm0.le ((div_le_one (by linarith)).mpr (by linarith))
  refine ⟨CG + CP + CA + T * Ct, min (min 1 ε) (1 / (2 * Setting.K qm (L + F) Bm + 1)),
    min (min (min 1 ε) (min (1 / (D + 1)) (1 / (K + 1)))) (min (min u1 u2) (m / (T * Ct + 1))), lt_min (lt_min one_pos hε0) (by positivity),
    lt_min (lt_min (lt_min one_pos hε0) (lt_min (by positivity) (by positivity))) (lt_min (lt_min hu1 hu2) (by positivity)), ?_⟩
  intro rnd u hrnd h hh hh0 huκ fieldR hcomp n hn a ha hmass hqm hat hax hap
  set κ := min (min (min 1 ε) (min (1 / (D + 1)) (1 / (K + 1)))) (min (min u1 u2) (m / (T * Ct + 1))) with hκ
  have hκ0 : 0 ≤ κ := (lt_min (lt_min (lt_min one_pos hε0) (lt_min (by positivity) (by positivity))) (lt_min (lt_min hu1 hu2) (by positivity))).le
  have k1 : κ ≤ 1 := (min_le_left _ _).trans ((min_le_left _ _).trans (min_le_left _ _))
  have k2 : κ ≤ ε := (min_le_left _ _).trans ((min_le_left _ _).trans (min_le_right _ _))
  have k3 : κ ≤ 1 / (D + 1) := (min_le_left _ _).trans ((min_le_right _ _).trans (min_le_left _ _))
  have k4 : κ ≤ 1 / (K + 1) := (min_le_left _ _).trans ((min_le_right _ _).trans (min_le_right _ _))
  have k5 : κ ≤ min u1 u2 := (min_le_right _ _).trans (min_le_left _ _)
  have k6 : κ ≤ m / (T * Ct + 1) := (min_le_right _ _).trans (min_le_right _ _)
  clear_value κ
  have h1 : h ≤ 1 := hh0.trans ((min_le_left _ _).trans (min_le_left _ _))
  have h2 : h ≤ ε := hh0.trans ((min_le_left _ _).trans (min_le_right _ _))
  have h3 : h ≤ 1 / (2 * Setting.K qm (L + F) Bm + 1) := hh0.trans (min_le_right _ _)
  have hu : 0 ≤ u := hrnd.u_nonneg
  have hround := hrnd.err
  have huκ' : u ≤ κ := huκ.trans (mul_le_of_le_one_right hκ0 h1)
  have huone : u ≤ 1 := huκ'.trans k1
  have huh : u / h ≤ κ := by rw [div_le_iff₀ hh]; exact huκ
  have huh0 : 0 ≤ u / h := by positivity
  have huuh : u ≤ u / h := by rw [le_div_iff₀ hh]; exact mul_le_of_le_one_right hu h1
  set s := h / 2 with hsdef
  have hs : 0 < s := by positivity
  have hh2 : h = 2 * s := by rw [hsdef]; ring
  have hs1 : s ≤ 1 := by linarith
  set M := N / s with hMdef
  have hM : 0 ≤ M := by positivity
  set S0 := Z + M with hS0def
  have hS0 : 0 ≤ S0 := by positivity
  set η := h + u / h with hη
  have hη0 : 0 ≤ η := by positivity
  have hηε : η ≤ ε + ε := by
    linarith only [h2, k2, huh, hη]
  have hsη : s ≤ η := by linarith only [hh2, hs, huh0, hη]
  have hTu : T * Ct * u ≤ h * m := by
    have e1 : T * Ct * κ ≤ m := by
      rw [le_div_iff₀ (by positivity)] at k6
      have := mul_nonneg (mul_nonneg hT hCt0) hκ0
      linarith
    calc T * Ct * u ≤ T * Ct * (κ * h) := mul_le_mul_of_nonneg_left huκ (by positivity)
      _ = h * (T * Ct * κ) := by ring
      _ ≤ h * m := mul_le_mul_of_nonneg_left e1 hh.le
  set A0 := S0 + D * u / s ^ 2 with hA0
  have hA00 : 0 ≤ A0 := by positivity
  have hbound : Rounded.bound c M s u A0 ≤ CG * η := by
    have e1 : Rounded.bound c M s u A0 = X0 * ((S0 + T * Setting.local3 qm Bm M) * s ^ 2 + D * u + 2 * T * D1 * (u / h)) := by
      rw [hh2]
      exact Rounded.bound_eq hs.ne'
    rw [e1, hCG, mul_assoc X0]
    refine mul_le_mul_of_nonneg_left ?_ hX00
    have e0 : (S0 + T * Setting.local3 qm Bm M) * s ^ 2 = (Z * s + N + T * loc) * s := by
      rw [hS0def, hMdef, hloc]
      unfold Setting.local3
      field_simp
    have e2 : (S0 + T * Setting.local3 qm Bm M) * s ^ 2 ≤ (Z + N + T * loc) * η := by
      rw [e0]
      refine mul_le_mul ?_ hsη hs.le (by positivity)
      have := mul_le_of_le_one_right hZ0 hs1
      linarith
    have e3 : D * u ≤ D * η := mul_le_mul_of_nonneg_left (by linarith) hD
    have e4 : 2 * T * D1 * (u / h) ≤ 2 * T * D1 * η := mul_le_mul_of_nonneg_left (by linarith) (by positivity)
    linarith
  have hbm : Rounded.bound c M s u A0 ≤ m := hbound.trans ((mul_le_mul_of_nonneg_left hηε hCG0).trans hεm)
  have hLoc' : 0 ≤ Setting.local3 qm Bm M := by unfold Setting.local3; positivity
  have hb0 : 0 ≤ Rounded.bound c M s u A0 := by unfold Rounded.bound; have := hD10; positivity
  have hz : a.Charge / a.Mass * InvRestMass = qm := hqm
  obtain ⟨q1, q2⟩ := Rounded.ratio_error hround hu huone (a.Charge / a.Mass) hh h1
  rw [hz] at q1 q2
  set qmR := rnd (rnd (a.Charge / a.Mass) * InvRestMass) with hqmR
  set qR := rnd (rnd (qmR * 0.5) * h) with hqR
  have hFu : 0 ≤ F * u := mul_nonneg hF hu
  have hqu : 0 ≤ 8 * |qm| * u := by positivity
  have q1' : |qmR - qm| ≤ F1 * u := by rw [hF1]; linarith
  have q2' : |qR - qm * s| ≤ F1 * u := by rw [hF1]; linarith
  have R : Rounded.Run c field fieldR y q t0 r' M s u qmR qR A0 rnd := {
    S := hS hs hs1, hF := hF, comp := hcomp' hcomp, hs := hs, hs1 := hs1
    hsK := by
      rw [← hh2]
      rw [le_div_iff₀ (by positivity)] at h3
      linarith
    hu := hu, hu1 := huone, huc := huκ'.trans k5
    hDu := by
      have := huκ'.trans k3
      rw [le_div_iff₀ (by positivity)] at this
      show D * u ≤ 1
      linarith
    hKu := by
      have := huκ'.trans k4
      rw [le_div_iff₀ (by positivity)] at this
      show K * u ≤ 1
      linarith
    hr := hround, hqm := q1', hq := q2', hA0 := hA00
    hX := fun t h1 h2 => by have := bX t h1 h2; show _ ≤ Xm + 1; linarith
    hP := bV
    hE := fun t h1 h2 EB hEB => by have := hE t h1 h2 EB hEB; show _ ≤ Bm + L * r' + F * 2; linarith
    hB := le_rfl, hCt := le_rfl
    htime := by
      rw [← hh2]
      exact hTu.trans (mul_le_of_le_one_right hh.le hm1)
    htime' := by
      rw [← hh2]
      exact hTu.trans (mul_le_mul_of_nonneg_left hmr hh.le)
    htot := hbm.trans hmr
    htot1 := hbm.trans hm1 }
  have hA0s : A0 = S0 + c.D * u / s ^ 2 := hA0
  rw [hqR, hqmR, hh2] at R
  obtain ⟨a1, a2, e0, r1, r2, r5⟩ := Rounded.run_from R hr' (show F ≤ F1 by rw [hF1]; linarith) hEB hv hS0def hA0s ha hmass hat (by rw [hax, hy]) (by rw [hap, hq]) n (by rw [← hh2]; exact hn)
  refine ⟨a1, a2, by rw [hh2]; exact e0, r1, ?_⟩
  intro k hk
  obtain ⟨τ, X, P, A, g1, g2, g3, g4, g5, g6, g7, g8⟩ := r5 k hk
  rw [← hh2] at g5 g6 g7 g8
  have hTh : T * Ct * u / h = T * Ct * (u / h) := by ring
  have w1 : u + T * c.Ct * u / (2 * s) ≤ (1 + T * Ct) * η := by
    rw [← hh2]
    show u + T * Ct * u / h ≤ _
    rw [hTh]
    have : T * Ct * (u / h) ≤ T * Ct * η := mul_le_mul_of_nonneg_left (by linarith) (by positivity)
    linarith
  have w2 : (2 * |qm| * Bm + 1) * M * s ^ 2 ≤ (2 * |qm| * Bm + 1) * N * η := by
    have : (2 * |qm| * Bm + 1) * M * s ^ 2 = (2 * |qm| * Bm + 1) * N * s := by rw [hMdef]; field_simp
    rw [this]
    exact mul_le_mul_of_nonneg_left hsη (by positivity)
  have w3 : c.K * u ≤ K * η := mul_le_mul_of_nonneg_left (by linarith) hK
  have w4 : c.D * u ≤ D * η := mul_le_mul_of_nonneg_left (by linarith) hD
  have up : ∀ {e g : ℝ}, e ≤ g * η → g ≤ CG + CP + CA + T * Ct → e ≤ (CG + CP + CA + T * Ct) * η :=
    fun h1 h2 => h1.trans (mul_le_mul_of_nonneg_right h2 hη0)
  have hTC : 0 ≤ T * Ct := by positivity
  have hk0 : (0 : ℝ) ≤ k * h := by positivity
  have hkT : (k : ℝ) * h ≤ T := by
    have h4 : (k : ℝ) ≤ n := by exact_mod_cast hk
    exact (mul_le_mul_of_nonneg_right h4 hh.le).trans hn
  obtain ⟨sx, sp⟩ := same (t0 + k * h) (by linarith) (by linarith)
  refine ⟨τ, X, P, A, TrajTime_of_get r2 g1, TrajPoint_of_get r2 g2, TrajMomentum_of_get r2 g3, TrajAccel_of_get r2 g4, ?_, ?_, ?_, ?_⟩
  · refine g5.trans ?_
    show T * Ct * u / h ≤ _
    rw [hTh]
    exact mul_le_mul_of_nonneg_right (by linarith) huh0
  · rw [sx]; exact up (g6.trans hbound) (by linarith)
  · rw [sp]
    refine up (g := CP) (g7.trans ?_) (by linarith)
    unfold Rounded.boundP
    rw [hCP]
    linarith
  · intro v hv'
    have hv2 : HasVelocity q v (t0 + k * h) := by
      obtain ⟨F1, f1, f2⟩ := hm.momentum (t0 + k * h) (by linarith) (by linarith)
      obtain ⟨F2, f3, f4⟩ := hmy.momentum (t0 + k * h) (by linarith) (by linarith)
      rw [sx] at f1
      rw [f1] at f3
      cases f3
      rw [hv'.unique f2, sp]
      exact f4
    refine up (g := CA) ((g8 v hv2).trans ?_) (by linarith)
    unfold Rounded.boundA
    have i1 : ((L + F) / SpeedOfLight + (L + F)) * (Rounded.bound c M s u A0 + (u + T * c.Ct * u / (2 * s))) ≤
        ((L + F) / SpeedOfLight + (L + F)) * ((CG + (1 + T * Ct)) * η) := mul_le_mul_of_nonneg_left (by linarith) (by positivity)
    have i2 : 2 * Bm * (2 * Rounded.bound c M s u A0 + (u + T * c.Ct * u / (2 * s)) + (2 * |qm| * Bm + 1) * M * s ^ 2) ≤
        2 * Bm * ((2 * CG + (1 + T * Ct) + (2 * |qm| * Bm + 1) * N) * η) := mul_le_mul_of_nonneg_left (by linarith) (by positivity)
    have i3 := mul_le_mul_of_nonneg_left (add_le_add i1 i2) hqm0
    rw [hCA]
    linarith


/-- C130: a run of the tracker in which everything is rounded - the arithmetic of the tracker and that of the fields of a lattice of magnets - differs from
the exact motion by at most a constant times h + u/h. -/
theorem C130_magnets (lat : List Magnet) (hl : ∀ e ∈ lat, e.Proper) (qm : ℝ) (x p : ℝ → Vec) (t0 T K : ℝ) (hT : 0 ≤ T)
    (hm : Motion qm (Lattice.field (lat.map Magnet.exact)) x p t0 T) :
    ∃ C h0 κ : ℝ, 0 < h0 ∧ 0 < κ ∧ ∀ rnd u, IsRounding rnd u → ∀ h : ℝ, 0 < h → h ≤ h0 → u ≤ κ * h →
      ∀ M : MathLib, M.IsAccurate K u → ∀ n : ℕ, n * h ≤ T →
      ∀ a : Particle, a.Reachable → a.Mass ≠ 0 → a.Charge / a.Mass * InvRestMass = qm →
        a.TrajTime (a.getNP - 1 : Nat) = .ok t0 → a.TrajPoint (a.getNP - 1 : Nat) = .ok (x t0) → a.TrajMomentum (a.getNP - 1 : Nat) = .ok (p t0) →
        ∃ a1 a2, Rounded.InitVay rnd a h (Rounded.latticeField rnd M lat) = .ok a1 ∧
          Rounded.steps rnd a1 (List.replicate n (Rounded.latticeField rnd M lat)) = .ok a2 ∧
          ∀ k : ℕ, k ≤ n → ∃ t X P A,
            a2.TrajTime (a.getNP - 1 + k : Nat) = .ok t ∧ a2.TrajPoint (a.getNP - 1 + k : Nat) = .ok X ∧
            a2.TrajMomentum (a.getNP - 1 + k : Nat) = .ok P ∧ a2.TrajAccel (a.getNP - 1 + k : Nat) = .ok A ∧
            |t - (t0 + k * h)| ≤ C * (u / h) ∧
            (X - x (t0 + k * h)).norm ≤ C * (h + u / h) ∧ (P - p (t0 + k * h)).norm ≤ C * (h + u / h) ∧
            ∀ v, HasVelocity p v (t0 + k * h) → (A - v).norm ≤ C * (h + u / h) := by
  obtain ⟨Xm, hXm, bX⟩ := Rounded.path_bounded (fun t h1 h2 => hm.position t h1 h2)
  have inX : ∀ t, t0 ≤ t → t ≤ t0 + T → ∀ X, (X - x t).norm ≤ 1 → X.norm ≤ Xm + 1 := by
    intro t h1 h2 X hX
    have := Vec.norm_add_le (X - x t) (x t)
    rw [show X - x t + x t = X by ext <;> simp] at this
    have := bX t h1 h2
    linarith
  obtain ⟨F, u0, hF, hu0, HF⟩ := C129_lattice lat hl (Xm + 1) K
  obtain ⟨C, h0, κ, hh0, hκ, H⟩ := C130_first_order qm _ (Rounded.regular lat hl) x p t0 T 1 F hm one_pos hT hF
  refine ⟨C, h0, min κ (u0 / h0), hh0, lt_min hκ (by positivity), ?_⟩
  intro rnd u hr h hh hle hu M hM
  refine H rnd u hr h hh hle (hu.trans (mul_le_mul_of_nonneg_right (min_le_left _ _) hh.le)) _ ⟨?_⟩
  have hu' : u ≤ u0 := by
    refine hu.trans ((mul_le_mul_of_nonneg_right (min_le_right _ _) hh.le).trans ?_)
    rw [div_mul_eq_mul_div, div_le_iff₀ hh0]
    exact mul_le_mul_of_nonneg_left hle hu0.le
  intro t h1 h2 t' ht' X hX EB hEB
  obtain ⟨G, G', g1, g2, g3, g4⟩ := HF rnd u hr hu' M hM t t' X (inX t h1 h2 X hX)
  rw [hEB] at g1
  cases g1
  have : F * u ≤ F * (u + |t' - t|) := mul_le_mul_of_nonneg_left (by linarith [abs_nonneg (t' - t)]) hF
  exact ⟨G', g2, g3.trans this, g4.trans this⟩

/-- C130: in a lattice of magnets there is an exact motion from every start, and any accuracy of the tracked points is reached with a small enough time step
and then enough digits.  Nothing but the lattice and the start is given. -/
theorem C130_precision (lat : List Magnet) (hl : ∀ e ∈ lat, e.Proper) (qm t0 T K : ℝ) (x0 p0 : Vec) (hT : 0 ≤ T) :
    ∃ x p : ℝ → Vec, x t0 = x0 ∧ p t0 = p0 ∧ Motion qm (Lattice.field (lat.map Magnet.exact)) x p t0 T ∧
    ∀ ε : ℝ, 0 < ε → ∃ h0 : ℝ, 0 < h0 ∧ ∀ h : ℝ, 0 < h → h ≤ h0 → ∃ N : ℕ, ∀ digits : ℕ, N ≤ digits →
      ∀ M : MathLib, M.IsAccurate K (2 ^ (-(digits : Int))) → ∀ n : ℕ, n * h ≤ T →
      ∀ a : Particle, a.Reachable → a.Mass ≠ 0 → a.Charge / a.Mass * InvRestMass = qm →
        a.TrajTime (a.getNP - 1 : Nat) = .ok t0 → a.TrajPoint (a.getNP - 1 : Nat) = .ok x0 → a.TrajMomentum (a.getNP - 1 : Nat) = .ok p0 →
        ∃ a1 a2, Rounded.InitVay (binary digits) a h (Rounded.latticeField (binary digits) M lat) = .ok a1 ∧
          Rounded.steps (binary digits) a1 (List.replicate n (Rounded.latticeField (binary digits) M lat)) = .ok a2 ∧
          ∀ k : ℕ, k ≤ n → ∃ t X P A,
            a2.TrajTime (a.getNP - 1 + k : Nat) = .ok t ∧ a2.TrajPoint (a.getNP - 1 + k : Nat) = .ok X ∧
            a2.TrajMomentum (a.getNP - 1 + k : Nat) = .ok P ∧ a2.TrajAccel (a.getNP - 1 + k : Nat) = .ok A ∧
            |t - (t0 + k * h)| ≤ ε ∧ (X - x (t0 + k * h)).norm ≤ ε ∧ (P - p (t0 + k * h)).norm ≤ ε ∧
            ∀ v, HasVelocity p v (t0 + k * h) → (A - v).norm ≤ ε := by
  obtain ⟨x, p, hx, hp, hm⟩ := C118_motion_exists qm _ (Rounded.regular lat hl) t0 T x0 p0 hT
  refine ⟨x, p, hx, hp, hm, fun ε hε => ?_⟩
  obtain ⟨C, h0, κ, hh0, hκ, H⟩ := C130_magnets lat hl qm x p t0 T K hT hm
  have hC := abs_nonneg C
  set δ := ε / (2 * (|C| + 1)) with hδ
  have hδ0 : 0 < δ := by positivity
  have hδe : |C| * (δ + δ) ≤ ε := by
    rw [hδ, show |C| * (ε / (2 * (|C| + 1)) + ε / (2 * (|C| + 1))) = ε * (|C| / (|C| + 1)) by field_simp; ring]
    exact mul_le_of_le_one_right hε.le ((div_le_one (by linarith)).mpr (by linarith))
  refine ⟨min h0 δ, lt_min hh0 hδ0, ?_⟩
  intro h hh hle
  have l0 : h ≤ h0 := hle.trans (min_le_left _ _)
  have l2 : h ≤ δ := hle.trans (min_le_right _ _)
  obtain ⟨N, hN⟩ := exists_pow_lt_of_lt_one (show 0 < min (κ * h) (δ * h) from lt_min (by positivity) (by positivity)) (show (1 / 2 : ℝ) < 1 by norm_num)
  refine ⟨N + 1, ?_⟩
  intro digits hd M hM n hn a ha hmass hqm hat hax hap
  have hu : (2 : ℝ) ^ (-(digits : Int)) ≤ (1 / 2) ^ N := by
    rw [zpow_neg, zpow_natCast, one_div, inv_pow]
    exact inv_anti₀ (by positivity) (pow_le_pow_right₀ (by norm_num) (by omega))
  have hround := binary_isRounding (p := digits) (by omega)
  have hu0 := hround.u_nonneg
  have u1 := (hu.trans hN.le).trans (min_le_left _ _)
  have u2 := (hu.trans hN.le).trans (min_le_right _ _)
  generalize (2 : ℝ) ^ (-(digits : Int)) = u at *
  obtain ⟨a1, a2, h1, h2, h3⟩ := H (binary digits) u hround h hh l0 u1 M hM n hn a ha hmass hqm hat (by rw [hax, hx]) (by rw [hap, hp])
  refine ⟨a1, a2, h1, h2, ?_⟩
  intro k hk
  obtain ⟨t, X, P, A, e1, e2, e3, e4, e5, e6, e7, e8⟩ := h3 k hk
  have v1 : u / h ≤ δ := by rw [div_le_iff₀ hh]; exact u2
  have v0 : 0 ≤ u / h := by positivity
  have v3 : C * (h + u / h) ≤ ε :=
    ((mul_le_mul_of_nonneg_right (le_abs_self C) (by positivity)).trans (mul_le_mul_of_nonneg_left (add_le_add l2 v1) hC)).trans hδe
  have v4 : C * (u / h) ≤ ε :=
    ((mul_le_mul_of_nonneg_right (le_abs_self C) v0).trans (mul_le_mul_of_nonneg_left (by linarith) hC)).trans hδe
  exact ⟨t, X, P, A, e1, e2, e3, e4, e5.trans v4, e6.trans v3, e7.trans v3, fun v hv => (e8 v hv).trans v3⟩

theorem magnetLine_proper : ∀ e ∈ magnetLine, e.Proper := by
  intro e he
  simp only [magnetLine, List.mem_cons, List.not_mem_nil, or_false] at he
  rcases he with rfl | rfl | rfl | rfl
  · exact ⟨by norm_num, by norm_num⟩
  · exact ⟨by norm_num, by norm_num⟩
  · exact ⟨by norm_num, by norm_num⟩
  · trivial

/-- non-vacuity: an electron with the momentum 60 is tracked with rounded numbers through the undulators and the dipole of the line, one micrometre of accuracy -/
example : ∃ x p : ℝ → Vec, x 0 = 0 ∧ p 0 = ⟨0, 0, 60⟩ ∧ Motion (-1 / 1 * InvRestMass) (Lattice.field (magnetLine.map Magnet.exact)) x p 0 1e-8 ∧
    ∃ h0 : ℝ, 0 < h0 ∧ ∀ h : ℝ, 0 < h → h ≤ h0 → ∃ N : ℕ, ∀ digits : ℕ, N ≤ digits →
      ∀ M : MathLib, M.IsAccurate 1 (2 ^ (-(digits : Int))) → ∀ n : ℕ, n * h ≤ 1e-8 →
      ∃ a1 a2, Rounded.InitVay (binary digits) (Particle.default.initTrajectory 0 0 ⟨0, 0, 60⟩ 0) h (Rounded.latticeField (binary digits) M magnetLine) = .ok a1 ∧
        Rounded.steps (binary digits) a1 (List.replicate n (Rounded.latticeField (binary digits) M magnetLine)) = .ok a2 ∧
        ∀ k : ℕ, k ≤ n → ∃ X, a2.TrajPoint (k : Nat) = .ok X ∧ (X - x (0 + k * h)).norm ≤ 1e-6 := by
  obtain ⟨x, p, hx, hp, hm, H⟩ := C130_precision magnetLine magnetLine_proper (-1 / 1 * InvRestMass) 0 1e-8 1 0 ⟨0, 0, 60⟩ (by norm_num)
  obtain ⟨h0, hh0, H⟩ := H 1e-6 (by norm_num)
  refine ⟨x, p, hx, hp, hm, h0, hh0, fun h hh hle => ?_⟩
  obtain ⟨N, H⟩ := H h hh hle
  refine ⟨N, fun digits hd M hM n hn => ?_⟩
  obtain ⟨a1, a2, e1, e2, e3⟩ := H digits hd M hM n hn (POp.exec Particle.default (.init 0 0 ⟨0, 0, 60⟩ 0))
    ⟨_, [.init 0 0 ⟨0, 0, 60⟩ 0], Or.inr (Or.inr (Or.inl rfl)), rfl⟩
    (by simp [POp.exec, POp.result, Particle.initTrajectory, Particle.default, Particle.new])
    (by simp [POp.exec, POp.result, Particle.initTrajectory, Particle.default, Particle.new]) rfl rfl rfl
  refine ⟨a1, a2, e1, e2, fun k hk => ?_⟩
  obtain ⟨t, X, P, A, f1, f2, f3, f4, f5, f6, -⟩ := e3 k hk
  refine ⟨X, ?_, f6⟩
  have : (POp.exec Particle.default (.init 0 0 ⟨0, 0, 60⟩ 0)).getNP - 1 + k = k := by
    show 1 - 1 + k = k
    omega
  rw [this] at f2
  exact f2

end Teufel
