import Verif.Lemmas.Gronwall
import Verif.Props.Vay
import Mathlib.Analysis.SpecialFunctions.Trigonometric.Deriv
import Mathlib.Analysis.SpecialFunctions.Trigonometric.DerivHyp

/-!
# C92: the tracked trajectory converges to the solution of the equation of motion

The exact motion is described in Spec/Motion: `Motion qm field x p t0 T` says that position `x` and momentum `p` (in units of m c) obey
dx/dt = β c and dp/dt = q/(m c) (E + β c × B) from the time t0 to t0 + T, `TameNear` that the field is defined near the path and does not change
abruptly across it.
-/

namespace Teufel
open Vec

private theorem widen {e g C s2 h2 : ℝ} (he : e ≤ g * s2) (hg : 0 ≤ g) (hC : g ≤ C) (hs : s2 ≤ h2) (hh : 0 ≤ h2) : e ≤ C * h2 :=
  he.trans ((mul_le_mul_of_nonneg_left hs hg).trans (mul_le_mul_of_nonneg_right hC hh))

/-- a tracked particle which starts on the exact motion, for one time step `2 * s` -/
theorem Setting.tracked {qm : ℝ} {field : FieldFn} {x p : ℝ → Vec} {t0 T r L Bm M σ : ℝ} (S : Setting qm field x p t0 T r L Bm M σ) (hr : 0 < r)
    {EB : EMField} (hE : field t0 (x t0) = .ok EB) {s h : ℝ} (hs : 0 ≤ s) (hσ : σ ≤ s) (hs1 : s ≤ 1) (hh2 : h = 2 * s)
    (hsK : 2 * s * Setting.K qm L Bm ≤ 1 / 2)
    (hsr : Setting.total qm L Bm M (2 * |qm| ^ 2 * (EB.E.norm / SpeedOfLight + Bm) * Bm + M) T * s ^ 2 ≤ r) (n : ℕ) (hn : n * h ≤ T)
    (a : Particle) (ha : a.Reachable) (hmass : a.Mass ≠ 0) (hqm : a.Charge / a.Mass * InvRestMass = qm)
    (hat : a.TrajTime (a.getNP - 1 : Nat) = .ok t0) (hax : a.TrajPoint (a.getNP - 1 : Nat) = .ok (x t0))
    (hap : a.TrajMomentum (a.getNP - 1 : Nat) = .ok (p t0)) :
    ∃ a1 a2, a.InitVay h field = .ok a1 ∧ a1.steps (List.replicate n field) = .ok a2 ∧
      ∀ k : ℕ, k ≤ n → ∃ X P A,
        a2.TrajTime (a.getNP - 1 + k : Nat) = .ok (t0 + k * h) ∧ a2.TrajPoint (a.getNP - 1 + k : Nat) = .ok X ∧
        a2.TrajMomentum (a.getNP - 1 + k : Nat) = .ok P ∧ a2.TrajAccel (a.getNP - 1 + k : Nat) = .ok A ∧
        (X - x (t0 + k * h)).norm ≤ Setting.total qm L Bm M (2 * |qm| ^ 2 * (EB.E.norm / SpeedOfLight + Bm) * Bm + M) T * s ^ 2 ∧
        (P - p (t0 + k * h)).norm ≤ Setting.totalP qm L Bm M (2 * |qm| ^ 2 * (EB.E.norm / SpeedOfLight + Bm) * Bm + M) T * s ^ 2 ∧
        ∀ v, HasVelocity p v (t0 + k * h) →
          (A - v).norm ≤ Setting.totalA qm L Bm M (2 * |qm| ^ 2 * (EB.E.norm / SpeedOfLight + Bm) * Bm + M) T * s ^ 2 := by
  have hc := SpeedOfLight_pos
  have hM := S.hM
  have hB := S.hB
  have hL := S.hL
  have hT := S.hT
  obtain ⟨EB1, EB2, f1, f2, f3, f4, -, -⟩ := S.fields t0 le_rfl (by linarith) (x t0) (by rw [sub_self, Vec.norm_zero]; exact hr.le)
  rw [hE] at f1 f2
  cases f1
  cases f2
  set S0 := 2 * |qm| ^ 2 * (EB.E.norm / SpeedOfLight + Bm) * Bm + M with hS0def
  have hEn := Vec.norm_nonneg EB.E
  have hS0 : 0 ≤ S0 := by positivity
  have hK := S.K_nonneg
  set G := Setting.total qm L Bm M S0 T with hG
  set GP := Setting.totalP qm L Bm M S0 T with hGP
  set GA := Setting.totalA qm L Bm M S0 T with hGA
  have hRate : 0 ≤ Setting.rate qm L Bm := by unfold Setting.rate; linarith
  have hLoc : 0 ≤ Setting.local3 qm Bm M := by unfold Setting.local3; positivity
  have hG0 : 0 ≤ G := by rw [hG]; unfold Setting.total; positivity
  have hGP0 : 0 ≤ GP := by rw [hGP]; unfold Setting.totalP; positivity
  have hGA0 : 0 ≤ GA := by rw [hGA]; unfold Setting.totalA; positivity
  have hsdef : s = h / 2 := by linarith
  have hcons := cons_reachable ha
  have hNP : 1 ≤ a.NP := by
    have := (List.getElem?_eq_some_iff.mp (get_of_TrajTime hat)).1
    rw [hcons.1] at this
    omega
  have gT : a.Time.getLast? = some t0 := by rw [List.getLast?_eq_getElem?, hcons.1]; exact get_of_TrajTime hat
  have gX : a.X.getLast? = some (x t0) := by rw [List.getLast?_eq_getElem?, hcons.2.1]; exact get_of_TrajPoint hax
  have gP : a.P.getLast? = some (p t0) := by rw [List.getLast?_eq_getElem?, hcons.2.2.1]; exact get_of_TrajMomentum hap
  have gA : a.A ≠ [] := by
    intro h0
    have := hcons.2.2.2
    rw [h0] at this
    simp at this
    omega
  have hinit : ∃ a1, a.InitVay h field = .ok a1 := by
    simp only [Particle.InitVay]
    rw [if_neg (by omega), if_neg hmass]
    simp only [gT, gX, gP, hE, gA, if_false]
    exact ⟨_, rfl⟩
  obtain ⟨a1, h1⟩ := hinit
  have hnp1 : a1.NP = a.NP ∧ Setting.After qm x p t0 s (Setting.rate qm L Bm) S0 (Setting.local3 qm Bm M) GP GA 0 a1 := by
    obtain ⟨-, -, t, y, pm, EB', hT', hX', hP', -, hf, e⟩ := Particle.InitVay_ok h1
    rw [gT] at hT'
    rw [gX] at hX'
    rw [gP] at hP'
    cases hT'
    cases hX'
    cases hP'
    rw [hE] at hf
    cases hf
    have q2 : a1.qmt2 = qm * s := by rw [e]; simp only [hqm]; rw [hsdef]; ring
    have hu := S.start s hs hs1 a1.VYp EB f3 f4 (by
      have h5 := Particle.vay_implicit (qm * s) (p t0) EB.E EB.B
      have h6 : a1.VYp = Particle.vayMomentum (qm * s) (p t0) EB.E EB.B := by rw [← q2, e]
      rw [h6]
      exact h5)
    refine ⟨by rw [e], ⟨by rw [e]; exact hh2, by rw [e]; exact hqm, q2, by rw [e]; simp, ?_, ?_, ?_, ?_⟩⟩
    · rw [e]
      exact Setting.gamma_eq _ _ _ _
    · simp only [Nat.cast_zero, zero_mul, add_zero, pow_zero, one_mul]
      rw [show a1.XCur = x t0 by rw [e], sub_self, Vec.norm_zero, zero_add]
      exact hu
    · rw [show a1.PCur = p t0 by rw [e]]
      simp only [Nat.cast_zero, zero_mul, add_zero]
      rw [sub_self, Vec.norm_zero]
      positivity
    · intro v hv'
      simp only [Nat.cast_zero, zero_mul, add_zero] at hv'
      rw [hv'.unique f4]
      have h8 := S.accel t0 0 (p t0) EB EB f3 (by rw [sub_self, Vec.norm_zero]; simp) (by rw [sub_self, Vec.norm_zero]; simp)
      rw [sub_self (p t0), Vec.norm_zero] at h8
      simp only [mul_zero, add_zero] at h8
      have : a1.ACur = Particle.vayAccel qm (p t0) EB.E EB.B := by rw [e]; simp only [hqm]
      rw [this]
      exact h8.trans (by positivity)
  obtain ⟨hnp, hA0⟩ := hnp1
  obtain ⟨a2, h2, -⟩ := S.run hs hσ hs1 hsK hS0 hsr hA0 n (by rw [← hh2]; exact hn)
  refine ⟨a1, a2, h1, h2, ?_⟩
  intro k hk
  obtain ⟨-, e2, -⟩ := C05_equidistant a a1 a2 ha h field (List.replicate n field) t0 hat h1 h2
  have hc1 := Particle.cons_init hcons h1
  have hc2 := (Particle.steps_facts h2).1 hc1
  obtain ⟨q, q1, -, -, qX, qP, qA⟩ := Particle.run_index hc1 (Particle.atEnd_init h1) h2 k (by simpa using hk)
  rw [List.take_replicate, min_eq_left hk] at q1
  have hkT : (k : ℝ) * (2 * s) ≤ T := by
    have : (k : ℝ) ≤ n := by exact_mod_cast hk
    rw [← hh2]
    nlinarith
  obtain ⟨q', q3, q4⟩ := S.run hs hσ hs1 hsK hS0 hsr hA0 k hkT
  rw [q1] at q3
  cases q3
  rw [hnp] at qX qP qA
  refine ⟨q.XCur, q.PCur, q.ACur, e2 k (by simpa using hk), TrajPoint_of_get hc2 qX, TrajMomentum_of_get hc2 qP, TrajAccel_of_get hc2 qA, ?_, ?_, ?_⟩
  · have h5 := q4.err.trans (gronwall_total hRate hs hLoc hS0 hkT)
    have h6 := Vec.norm_nonneg (q.VYp - p (t0 + k * (2 * s) + s))
    have h7 : (q.XCur - x (t0 + k * (2 * s))).norm ≤ G * s ^ 2 := by rw [hG]; unfold Setting.total; linarith
    rw [← hh2] at h7
    exact h7
  · have h7 := q4.mom
    rw [← hh2] at h7
    exact h7
  · intro v hv'
    rw [hh2] at hv'
    exact q4.acc v hv'

/-- C92: if the exact motion is smooth then every stored point of a run of the Vay tracker which starts on it - position, momentum and rate of change of the
momentum - differs from the exact motion at the stored time by at most a constant times the square of the time step.  No step of such a run
fails. The constant depends neither on the time step nor on the number of steps nor on the particle's past. -/
theorem C92_second_order (qm : ℝ) (field : FieldFn) (x p : ℝ → Vec) (t0 T r L Bm : ℝ) (hm : Motion qm field x p t0 T) (hp : Smooth p)
    (ht : TameNear field x t0 T r L Bm) (hr : 0 < r) (hL : 0 ≤ L) (hT : 0 ≤ T) :
    ∃ C h0 : ℝ, 0 < h0 ∧ ∀ h : ℝ, 0 < h → h ≤ h0 → ∀ n : ℕ, n * h ≤ T →
      ∀ a : Particle, a.Reachable → a.Mass ≠ 0 → a.Charge / a.Mass * InvRestMass = qm →
        a.TrajTime (a.getNP - 1 : Nat) = .ok t0 → a.TrajPoint (a.getNP - 1 : Nat) = .ok (x t0) → a.TrajMomentum (a.getNP - 1 : Nat) = .ok (p t0) →
        ∃ a1 a2, a.InitVay h field = .ok a1 ∧ a1.steps (List.replicate n field) = .ok a2 ∧
          ∀ k : ℕ, k ≤ n → ∃ X P A,
            a2.TrajTime (a.getNP - 1 + k : Nat) = .ok (t0 + k * h) ∧ a2.TrajPoint (a.getNP - 1 + k : Nat) = .ok X ∧
            a2.TrajMomentum (a.getNP - 1 + k : Nat) = .ok P ∧ a2.TrajAccel (a.getNP - 1 + k : Nat) = .ok A ∧
            (X - x (t0 + k * h)).norm ≤ C * h ^ 2 ∧ (P - p (t0 + k * h)).norm ≤ C * h ^ 2 ∧
            ∀ v, HasVelocity p v (t0 + k * h) → (A - v).norm ≤ C * h ^ 2 := by
  obtain ⟨M1, hM1, b1⟩ := hp.bounds (t0 - 1) (t0 + T + 1)
  obtain ⟨M2, hM2, b2⟩ := hp.velOf.bounds (t0 - 1) (t0 + T + 1)
  obtain ⟨EB, hE, hv⟩ := hm.momentum t0 le_rfl (by linarith)
  have hB : 0 ≤ Bm := (Vec.norm_nonneg _).trans (ht.magnetic t0 le_rfl (by linarith) EB hE)
  have S : Setting qm field x p t0 T r L Bm (M1 + M2) 0 :=
    ⟨hm, ht, (b1.mono (by linarith)).mom 0, (b2.mono (by linarith)).vel 0, by linarith, hL, hB, hT⟩
  set M := M1 + M2 with hMdef
  have hc := SpeedOfLight_pos
  have hM := S.hM
  set S0 := 2 * |qm| ^ 2 * (EB.E.norm / SpeedOfLight + Bm) * Bm + M with hS0def
  have hEn := Vec.norm_nonneg EB.E
  have hS0 : 0 ≤ S0 := by positivity
  have hK := S.K_nonneg
  set G := Setting.total qm L Bm M S0 T with hG
  set GP := Setting.totalP qm L Bm M S0 T with hGP
  set GA := Setting.totalA qm L Bm M S0 T with hGA
  have hRate : 0 ≤ Setting.rate qm L Bm := by unfold Setting.rate; linarith
  have hLoc : 0 ≤ Setting.local3 qm Bm M := by unfold Setting.local3; positivity
  have hG0 : 0 ≤ G := by rw [hG]; unfold Setting.total; positivity
  have hGP0 : 0 ≤ GP := by rw [hGP]; unfold Setting.totalP; positivity
  have hGA0 : 0 ≤ GA := by rw [hGA]; unfold Setting.totalA; positivity
  set s0 := min 1 (min (1 / (4 * Setting.K qm L Bm + 1)) (r / (G + 1))) with hs0
  have hs0p : 0 < s0 := lt_min one_pos (lt_min (by positivity) (by positivity))
  refine ⟨G + GP + GA, 2 * s0, by linarith, ?_⟩
  intro h hh hh0 n hn a ha hmass hqm hat hax hap
  set s := h / 2 with hsdef
  have hs : 0 ≤ s := by positivity
  have hh2 : h = 2 * s := by rw [hsdef]; ring
  have hss0 : s ≤ s0 := by linarith
  have hs1 : s ≤ 1 := hss0.trans (min_le_left _ _)
  have hsK : 2 * s * Setting.K qm L Bm ≤ 1 / 2 := by
    have := hss0.trans ((min_le_right _ _).trans (min_le_left _ _))
    rw [le_div_iff₀ (by positivity)] at this
    nlinarith
  have hsr : G * s ^ 2 ≤ r := by
    have := hss0.trans ((min_le_right _ _).trans (min_le_right _ _))
    rw [le_div_iff₀ (by positivity)] at this
    nlinarith [mul_nonneg hG0 (mul_nonneg hs (sub_nonneg.mpr hs1))]
  obtain ⟨a1, a2, h1, h2, h3⟩ := S.tracked hr hE hs hs hs1 hh2 hsK hsr n hn a ha hmass hqm hat hax hap
  refine ⟨a1, a2, h1, h2, fun k hk => ?_⟩
  obtain ⟨X, P, A, e1, e2, e3, e4, e5, e6, e7⟩ := h3 k hk
  have hCs : s ^ 2 ≤ h ^ 2 := by rw [hh2]; nlinarith [sq_nonneg s]
  have hh20 := sq_nonneg h
  exact ⟨X, P, A, e1, e2, e3, e4, widen e5 hG0 (by linarith) hCs hh20, widen e6 hGP0 (by linarith) hCs hh20,
    fun v hv => widen (e7 v hv) hGA0 (by linarith) hCs hh20⟩

/-- C92: any accuracy is reached by making the time step small enough. -/
theorem C92_converges (qm : ℝ) (field : FieldFn) (x p : ℝ → Vec) (t0 T r L Bm : ℝ) (hm : Motion qm field x p t0 T) (hp : Smooth p)
    (ht : TameNear field x t0 T r L Bm) (hr : 0 < r) (hL : 0 ≤ L) (hT : 0 ≤ T) (ε : ℝ) (hε : 0 < ε) :
    ∃ h0 : ℝ, 0 < h0 ∧ ∀ h : ℝ, 0 < h → h ≤ h0 → ∀ n : ℕ, n * h ≤ T →
      ∀ a : Particle, a.Reachable → a.Mass ≠ 0 → a.Charge / a.Mass * InvRestMass = qm →
        a.TrajTime (a.getNP - 1 : Nat) = .ok t0 → a.TrajPoint (a.getNP - 1 : Nat) = .ok (x t0) → a.TrajMomentum (a.getNP - 1 : Nat) = .ok (p t0) →
        ∃ a1 a2, a.InitVay h field = .ok a1 ∧ a1.steps (List.replicate n field) = .ok a2 ∧
          ∀ k : ℕ, k ≤ n → ∃ X P,
            a2.TrajTime (a.getNP - 1 + k : Nat) = .ok (t0 + k * h) ∧ a2.TrajPoint (a.getNP - 1 + k : Nat) = .ok X ∧
            a2.TrajMomentum (a.getNP - 1 + k : Nat) = .ok P ∧ (X - x (t0 + k * h)).norm ≤ ε ∧ (P - p (t0 + k * h)).norm ≤ ε := by
  obtain ⟨C, h0, hh0, H⟩ := C92_second_order qm field x p t0 T r L Bm hm hp ht hr hL hT
  refine ⟨min h0 (min 1 (ε / (|C| + 1))), lt_min hh0 (lt_min one_pos (by positivity)), ?_⟩
  intro h hh hle n hn a ha hmass hqm hat hax hap
  obtain ⟨a1, a2, h1, h2, h3⟩ := H h hh (hle.trans (min_le_left _ _)) n hn a ha hmass hqm hat hax hap
  refine ⟨a1, a2, h1, h2, ?_⟩
  intro k hk
  obtain ⟨X, P, A, e1, e2, e3, -, e5, e6, -⟩ := h3 k hk
  have l1 : h ≤ 1 := hle.trans ((min_le_right _ _).trans (min_le_left _ _))
  have l2 : h ≤ ε / (|C| + 1) := hle.trans ((min_le_right _ _).trans (min_le_right _ _))
  rw [le_div_iff₀ (by positivity)] at l2
  have hC := abs_nonneg C
  have hCe : C * h ^ 2 ≤ ε := by
    have : C * h ^ 2 ≤ |C| * h ^ 2 := mul_le_mul_of_nonneg_right (le_abs_self C) (sq_nonneg h)
    have : |C| * h ^ 2 ≤ |C| * h := mul_le_mul_of_nonneg_left (by nlinarith) hC
    nlinarith
  exact ⟨X, P, e1, e2, e3, e5.trans hCe, e6.trans hCe⟩

/-- momentum, position and field of the example: an electron circulates in a uniform magnetic field -/
noncomputable def circleW : ℝ := -1 / 1 * InvRestMass / Real.sqrt 2
noncomputable def circleP (t : ℝ) : Vec := ⟨-Real.sin (circleW * t), 0, Real.cos (circleW * t)⟩
noncomputable def circleX (t : ℝ) : Vec :=
  ⟨SpeedOfLight / (Real.sqrt 2 * circleW) * Real.cos (circleW * t), 0, SpeedOfLight / (Real.sqrt 2 * circleW) * Real.sin (circleW * t)⟩
noncomputable def circleField : FieldFn := fun _ _ => .ok ⟨0, ⟨0, 1, 0⟩⟩

/-- non-vacuity: the circulating electron meets all hypotheses -/
theorem circle_example : Motion (-1 / 1 * InvRestMass) circleField circleX circleP 0 1 ∧ Smooth circleP ∧ TameNear circleField circleX 0 1 1 0 1 ∧
    ∃ a : Particle, a.Reachable ∧ a.Mass ≠ 0 ∧ a.Charge / a.Mass * InvRestMass = -1 / 1 * InvRestMass ∧
      a.TrajTime (a.getNP - 1 : Nat) = .ok 0 ∧ a.TrajPoint (a.getNP - 1 : Nat) = .ok (circleX 0) ∧ a.TrajMomentum (a.getNP - 1 : Nat) = .ok (circleP 0) := by
  have hc := SpeedOfLight_pos.ne'
  have h2 : Real.sqrt 2 ≠ 0 := by positivity
  have hw : circleW ≠ 0 := by
    unfold circleW
    have := InvRestMass_pos.ne'
    simp [this]
  have hl : ∀ t : ℝ, HasDerivAt (fun s => circleW * s) circleW t := fun t => by simpa using (hasDerivAt_id t).const_mul circleW
  have hg : ∀ t, Real.sqrt (1 + (circleP t).abs2nd) = Real.sqrt 2 := by
    intro t
    congr 1
    have := Real.sin_sq_add_cos_sq (circleW * t)
    simp only [circleP, abs2nd]
    nlinarith
  refine ⟨⟨?_, ?_⟩, ?_, ⟨?_, ?_⟩, ?_⟩
  · intro t _ _
    unfold velOf
    rw [hg]
    refine ⟨?_, ?_, ?_⟩
    · have := ((hl t).cos).const_mul (SpeedOfLight / (Real.sqrt 2 * circleW))
      refine this.congr_deriv ?_
      simp [circleP]
      field_simp
    · simpa [circleP, circleX] using hasDerivAt_const t (0 : ℝ)
    · have := ((hl t).sin).const_mul (SpeedOfLight / (Real.sqrt 2 * circleW))
      refine this.congr_deriv ?_
      simp [circleP]
      field_simp
  · intro t _ _
    refine ⟨_, rfl, ?_⟩
    unfold velOf
    rw [hg]
    refine ⟨?_, ?_, ?_⟩
    · have := ((hl t).sin).neg
      refine this.congr_deriv ?_
      simp [circleP, cross]
      unfold circleW
      field_simp
    · simpa [circleP, cross] using hasDerivAt_const t (0 : ℝ)
    · have := (hl t).cos
      refine this.congr_deriv ?_
      simp [circleP, cross]
      unfold circleW
      field_simp
  · refine Smooth.of_contDiff ?_ ?_ ?_
    · exact (Real.contDiff_sin.comp (contDiff_const.mul contDiff_id)).neg
    · exact contDiff_const
    · exact Real.contDiff_cos.comp (contDiff_const.mul contDiff_id)
  · intro t _ _ EB h
    cases h
    simp [Vec.norm, abs2nd]
  · intro t _ _ EB h X _
    cases h
    exact ⟨_, rfl, by simp [Vec.norm_zero], by simp [Vec.norm_zero]⟩
  · refine ⟨POp.exec Particle.default (.init 0 (circleX 0) (circleP 0) 0), ⟨_, [.init 0 (circleX 0) (circleP 0) 0], Or.inr (Or.inr (Or.inl rfl)), rfl⟩, ?_, ?_, ?_, ?_, ?_⟩
    · simp [POp.exec, POp.result, Particle.initTrajectory, Particle.default, Particle.new]
    · simp [POp.exec, POp.result, Particle.initTrajectory, Particle.default, Particle.new]
    all_goals rfl

end Teufel
