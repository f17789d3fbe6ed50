import Mathlib.MeasureTheory.Integral.IntervalIntegral.Basic
import Mathlib.MeasureTheory.Integral.DominatedConvergence
import Mathlib.Topology.MetricSpace.Lipschitz
import Mathlib.Topology.Order.IntermediateValue

/-! # A signal known at finitely many times and linear in between

`τ t` is the arrival time and `F t` the signal of what was sent at the time `t`.  The nodes `R k`, `G k` are approximations of
arrival time and signal for the times `t0 + k h`. -/

namespace Teufel
open MeasureTheory

/-- arrival time and signal have first order expansions -/
structure Sent (τ F : ℝ → ℝ) (t0 T δ K : ℝ) : Prop where
  δ_pos : 0 < δ
  K_nonneg : 0 ≤ K
  T_nonneg : 0 ≤ T
  slope : ∃ τ' : ℝ → ℝ, ∀ s ∈ Set.Icc t0 (t0 + T), δ ≤ τ' s ∧ ∀ t ∈ Set.Icc t0 (t0 + T), |τ t - τ s - τ' s * (t - s)| ≤ K * (t - s) ^ 2
  lower : ∀ s ∈ Set.Icc t0 (t0 + T), ∀ t ∈ Set.Icc t0 (t0 + T), s ≤ t → δ * (t - s) ≤ τ t - τ s
  upper : ∀ s ∈ Set.Icc t0 (t0 + T), ∀ t ∈ Set.Icc t0 (t0 + T), |τ t - τ s| ≤ K * |t - s|
  bound : ∀ s ∈ Set.Icc t0 (t0 + T), |F s| ≤ K
  lip : ∀ s ∈ Set.Icc t0 (t0 + T), ∀ t ∈ Set.Icc t0 (t0 + T), |F t - F s| ≤ K * |t - s|
  rate : ∃ F' : ℝ → ℝ, ∀ s ∈ Set.Icc t0 (t0 + T), |F' s| ≤ K ∧ ∀ t ∈ Set.Icc t0 (t0 + T), |F t - F s - F' s * (t - s)| ≤ K * (t - s) ^ 2

/-- the part of it needed to sum up errors: nothing but Lipschitz continuity -/
structure Sent0 (τ F : ℝ → ℝ) (t0 T δ K : ℝ) : Prop where
  δ_pos : 0 < δ
  K_nonneg : 0 ≤ K
  T_nonneg : 0 ≤ T
  lower : ∀ s ∈ Set.Icc t0 (t0 + T), ∀ t ∈ Set.Icc t0 (t0 + T), s ≤ t → δ * (t - s) ≤ τ t - τ s
  upper : ∀ s ∈ Set.Icc t0 (t0 + T), ∀ t ∈ Set.Icc t0 (t0 + T), |τ t - τ s| ≤ K * |t - s|
  bound : ∀ s ∈ Set.Icc t0 (t0 + T), |F s| ≤ K
  lip : ∀ s ∈ Set.Icc t0 (t0 + T), ∀ t ∈ Set.Icc t0 (t0 + T), |F t - F s| ≤ K * |t - s|

theorem Sent.weak {τ F : ℝ → ℝ} {t0 T δ K : ℝ} (S : Sent τ F t0 T δ K) : Sent0 τ F t0 T δ K :=
  ⟨S.δ_pos, S.K_nonneg, S.T_nonneg, S.lower, S.upper, S.bound, S.lip⟩

/-- approximate nodes for the times `t0 + k h`, `k ≤ n`; `ε` is the size of the errors -/
structure Nodes (τ F : ℝ → ℝ) (t0 T K h ε : ℝ) (n : ℕ) (R G : ℕ → ℝ) : Prop where
  h_pos : 0 < h
  fits : n * h ≤ T
  time : ∀ k ≤ n, |R k - τ (t0 + k * h)| ≤ K * ε
  value : ∀ k ≤ n, |G k - F (t0 + k * h)| ≤ K * ε
  incr : ∀ k < n, R k < R (k + 1)

/-- the value at `θ` of the line through `(r1, g1)` and `(r2, g2)` -/
noncomputable def lineAt (r1 r2 g1 g2 θ : ℝ) : ℝ := g1 + (g2 - g1) * ((θ - r1) / (r2 - r1))

noncomputable def nodeU (δ K : ℝ) : ℝ := 5 * K / δ
noncomputable def nodeC2 (δ K : ℝ) : ℝ := (2 * K + K * nodeU δ K ^ 2 + 3 * K) / δ
noncomputable def nodeC (δ K : ℝ) : ℝ := 4 * K + K * nodeC2 δ K + K * nodeU δ K ^ 2

namespace Nodes
variable {τ F : ℝ → ℝ} {t0 T δ K h ε : ℝ} {n : ℕ} {R G : ℕ → ℝ}

theorem mem (H : Nodes τ F t0 T K h ε n R G) {k : ℕ} (hk : k ≤ n) : t0 + k * h ∈ Set.Icc t0 (t0 + T) := by
  have h0 := H.h_pos
  have h1 := H.fits
  have : (k : ℝ) * h ≤ n * h := mul_le_mul_of_nonneg_right (by exact_mod_cast hk) h0.le
  have : 0 ≤ (k : ℝ) * h := by positivity
  exact ⟨by linarith, by linarith⟩

theorem mono (H : Nodes τ F t0 T K h ε n R G) {j k : ℕ} (hjk : j ≤ k) (hk : k ≤ n) : R j ≤ R k := by
  induction k with
  | zero => have : j = 0 := by omega
            rw [this]
  | succ k ih =>
    rcases Nat.lt_or_ge j (k + 1) with hlt | hge
    · exact (ih (by omega) (by omega)).trans (H.incr k (by omega)).le
    · have : j = k + 1 := by omega
      rw [this]

private theorem slope_err {a l hh u e2 e3 δ c1 c3 q : ℝ} (hδ : 0 < δ) (ha : δ ≤ a) (hl0 : 0 ≤ l) (hl1 : l ≤ 1) (hq : 0 ≤ q) (hc3 : 0 ≤ c3)
    (e : a * (l * hh - u) = e3 - l * e2) (h3 : |e3| ≤ c1 * q) (h2 : |e2| ≤ c3 * q) : |l * hh - u| ≤ (c1 + c3) / δ * q := by
  rw [div_mul_eq_mul_div, le_div_iff₀ hδ]
  have h4 : |a * (l * hh - u)| ≤ (c1 + c3) * q := by
    rw [e]
    refine (abs_sub _ _).trans ?_
    rw [abs_mul, abs_of_nonneg hl0]
    have : l * |e2| ≤ 1 * (c3 * q) := mul_le_mul hl1 h2 (abs_nonneg _) zero_le_one
    linarith
  rw [abs_mul, abs_of_pos (by linarith)] at h4
  nlinarith [abs_nonneg (l * hh - u)]

/-- between two nodes the line is close to the signal -/
theorem point (S : Sent τ F t0 T δ K) (H : Nodes τ F t0 T K h (h ^ 2) n R G) (h1 : h ≤ 1) {k : ℕ} (hk : k < n) {θ s : ℝ}
    (hθ : θ ∈ Set.Icc (R k) (R (k + 1))) (hs : s ∈ Set.Icc t0 (t0 + T)) (hθs : |θ - τ s| ≤ K * h ^ 2) :
    |lineAt (R k) (R (k + 1)) (G k) (G (k + 1)) θ - F s| ≤ nodeC δ K * h ^ 2 := by
  have hδ := S.δ_pos
  have hK := S.K_nonneg
  have hh := H.h_pos
  obtain ⟨τ', hτ'⟩ := S.slope
  obtain ⟨F', hF'⟩ := S.rate
  have hq : 0 ≤ h ^ 2 := sq_nonneg h
  have m0 := H.mem hk.le
  have m1 := H.mem (k := k + 1) hk
  set tk := t0 + (k : ℝ) * h with htk
  have htk1 : t0 + ((k + 1 : ℕ) : ℝ) * h = tk + h := by rw [htk]; push_cast; ring
  have r0 := H.time k hk.le
  have r1 := H.time (k + 1) hk
  have g0 := H.value k hk.le
  have g1 := H.value (k + 1) hk
  rw [htk1] at r1 g1 m1
  rw [← htk] at r0 g0
  obtain ⟨ha, hτ⟩ := hτ' tk m0
  obtain ⟨hb, hF⟩ := hF' tk m0
  set a := τ' tk
  set b := F' tk
  have hD : 0 < R (k + 1) - R k := by have := H.incr k hk; linarith
  set D := R (k + 1) - R k with hDdef
  have tau1 := hτ (tk + h) m1
  have F1 := hF (tk + h) m1
  rw [show tk + h - tk = h by ring] at tau1 F1
  have tau2 := hτ s hs
  have F2 := hF s hs
  set u := s - tk with hu
  -- size of u
  have hDle : D ≤ 3 * K * h := by
    have h2 := S.upper tk m0 (tk + h) m1
    rw [show tk + h - tk = h by ring, abs_of_pos hh] at h2
    have e : D = (R (k + 1) - τ (tk + h)) + (τ (tk + h) - τ tk) - (R k - τ tk) := by rw [hDdef]; ring
    have hKq : K * h ^ 2 ≤ K * h := mul_le_mul_of_nonneg_left (by nlinarith) hK
    have := (abs_le.mp r1).2
    have := (abs_le.mp h2).2
    have := (abs_le.mp r0).1
    linarith
  have hθR : |θ - R k| ≤ D := by rw [abs_of_nonneg (by linarith [hθ.1])]; linarith [hθ.2]
  have hKq : K * h ^ 2 ≤ K * h := mul_le_mul_of_nonneg_left (by nlinarith) hK
  have hdτ : |τ s - τ tk| ≤ 5 * K * h := by
    have e : τ s - τ tk = -(θ - τ s) + (θ - R k) + (R k - τ tk) := by ring
    rw [e]
    refine (abs_add_le _ _).trans ((add_le_add_left (abs_add_le _ _) _).trans ?_)
    rw [abs_neg]
    linarith
  have hdu : δ * |u| ≤ |τ s - τ tk| := by
    rcases le_total tk s with hle | hle
    · have := S.lower tk m0 s hs hle
      rw [abs_of_nonneg (by rw [hu]; linarith)]
      exact this.trans (le_abs_self _)
    · have := S.lower s hs tk m0 hle
      rw [abs_of_nonpos (by rw [hu]; linarith)]
      have h2 := neg_abs_le (τ s - τ tk)
      have e : δ * -u = δ * (tk - s) := by rw [hu]; ring
      rw [e]
      linarith
  have hU : |u| ≤ nodeU δ K * h := by
    unfold nodeU
    rw [div_mul_eq_mul_div, le_div_iff₀ hδ]
    linarith
  have hU0 : 0 ≤ nodeU δ K := by unfold nodeU; positivity
  have hu2 : u ^ 2 ≤ nodeU δ K ^ 2 * h ^ 2 := by
    rw [← sq_abs, ← mul_pow]
    exact pow_le_pow_left₀ (abs_nonneg _) hU 2
  have hKu : K * u ^ 2 ≤ K * nodeU δ K ^ 2 * h ^ 2 := by
    rw [mul_assoc]
    exact mul_le_mul_of_nonneg_left hu2 hK
  -- position on the line
  set l := (θ - R k) / D with hl
  have hl0 : 0 ≤ l := div_nonneg (by linarith [hθ.1]) hD.le
  have hl1 : l ≤ 1 := by rw [hl, div_le_one hD]; linarith [hθ.2]
  have hlD : l * D = θ - R k := by rw [hl]; field_simp
  have e3 : |θ - R k - a * u| ≤ (2 * K + K * nodeU δ K ^ 2) * h ^ 2 := by
    have e : θ - R k - a * u = (θ - τ s) - (R k - τ tk) + (τ s - τ tk - a * u) := by ring
    rw [e]
    refine (abs_add_le _ _).trans ((add_le_add_left (abs_sub _ _) _).trans ?_)
    linarith
  have e2 : |D - a * h| ≤ 3 * K * h ^ 2 := by
    have e : D - a * h = (R (k + 1) - τ (tk + h)) - (R k - τ tk) + (τ (tk + h) - τ tk - a * h) := by rw [hDdef]; ring
    rw [e]
    refine (abs_add_le _ _).trans ((add_le_add_left (abs_sub _ _) _).trans ?_)
    linarith
  have hlu : |l * h - u| ≤ nodeC2 δ K * h ^ 2 :=
    slope_err hδ ha hl0 hl1 hq (by positivity) (by linear_combination hlD) e3 e2
  have e4 : |G (k + 1) - G k - b * h| ≤ 3 * K * h ^ 2 := by
    have e : G (k + 1) - G k - b * h = (G (k + 1) - F (tk + h)) - (G k - F tk) + (F (tk + h) - F tk - b * h) := by ring
    rw [e]
    refine (abs_add_le _ _).trans ((add_le_add_left (abs_sub _ _) _).trans ?_)
    linarith
  have e5 : lineAt (R k) (R (k + 1)) (G k) (G (k + 1)) θ - F s
      = (G k - F tk) + b * (l * h - u) + l * (G (k + 1) - G k - b * h) - (F s - F tk - b * u) := by
    show G k + (G (k + 1) - G k) * l - F s = _
    ring
  rw [e5]
  have n1 : |b * (l * h - u)| ≤ K * (nodeC2 δ K * h ^ 2) := by
    rw [abs_mul]
    exact mul_le_mul hb hlu (abs_nonneg _) hK
  have n2 : |l * (G (k + 1) - G k - b * h)| ≤ 3 * K * h ^ 2 := by
    rw [abs_mul, abs_of_nonneg hl0]
    have := mul_le_mul hl1 e4 (abs_nonneg _) zero_le_one
    linarith
  refine (abs_sub _ _).trans ((add_le_add_left ((abs_add_le _ _).trans (add_le_add_left (abs_add_le _ _) _)) _).trans ?_)
  unfold nodeC
  linarith

/-- the same without expansions: the error is proportional to the time step -/
theorem point_first (S : Sent0 τ F t0 T δ K) (H : Nodes τ F t0 T K h h n R G) {k : ℕ} (hk : k < n) {θ s : ℝ}
    (hθ : θ ∈ Set.Icc (R k) (R (k + 1))) (hs : s ∈ Set.Icc t0 (t0 + T)) (hθs : |θ - τ s| ≤ K * h) :
    |lineAt (R k) (R (k + 1)) (G k) (G (k + 1)) θ - F s| ≤ (4 * K + K * nodeU δ K) * h := by
  have hδ := S.δ_pos
  have hK := S.K_nonneg
  have hh := H.h_pos
  have m0 := H.mem hk.le
  have m1 := H.mem (k := k + 1) hk
  set tk := t0 + (k : ℝ) * h with htk
  have htk1 : t0 + ((k + 1 : ℕ) : ℝ) * h = tk + h := by rw [htk]; push_cast; ring
  have r0 := H.time k hk.le
  have r1 := H.time (k + 1) hk
  have g0 := H.value k hk.le
  have g1 := H.value (k + 1) hk
  rw [htk1] at r1 g1 m1
  rw [← htk] at r0 g0
  have hD : 0 < R (k + 1) - R k := by have := H.incr k hk; linarith
  set D := R (k + 1) - R k with hDdef
  have hDle : D ≤ 3 * K * h := by
    have h2 := S.upper tk m0 (tk + h) m1
    rw [show tk + h - tk = h by ring, abs_of_pos hh] at h2
    have e : D = (R (k + 1) - τ (tk + h)) + (τ (tk + h) - τ tk) - (R k - τ tk) := by rw [hDdef]; ring
    have := (abs_le.mp r1).2
    have := (abs_le.mp h2).2
    have := (abs_le.mp r0).1
    linarith
  have hθR : |θ - R k| ≤ D := by rw [abs_of_nonneg (by linarith [hθ.1])]; linarith [hθ.2]
  have hdτ : |τ s - τ tk| ≤ 5 * K * h := by
    have e : τ s - τ tk = -(θ - τ s) + (θ - R k) + (R k - τ tk) := by ring
    rw [e]
    refine (abs_add_le _ _).trans ((add_le_add_left (abs_add_le _ _) _).trans ?_)
    rw [abs_neg]
    linarith
  have hdu : δ * |s - tk| ≤ |τ s - τ tk| := by
    rcases le_total tk s with hle | hle
    · have := S.lower tk m0 s hs hle
      rw [abs_of_nonneg (by linarith)]
      exact this.trans (le_abs_self _)
    · have := S.lower s hs tk m0 hle
      rw [abs_of_nonpos (by linarith)]
      have h2 := neg_abs_le (τ s - τ tk)
      have e : δ * -(s - tk) = δ * (tk - s) := by ring
      rw [e]
      linarith
  have hU : |s - tk| ≤ nodeU δ K * h := by
    unfold nodeU
    rw [div_mul_eq_mul_div, le_div_iff₀ hδ]
    linarith
  set l := (θ - R k) / D with hl
  have hl0 : 0 ≤ l := div_nonneg (by linarith [hθ.1]) hD.le
  have hl1 : l ≤ 1 := by rw [hl, div_le_one hD]; linarith [hθ.2]
  have e4 : |G (k + 1) - G k| ≤ 3 * K * h := by
    have h2 := S.lip tk m0 (tk + h) m1
    rw [show tk + h - tk = h by ring, abs_of_pos hh] at h2
    have e : G (k + 1) - G k = (G (k + 1) - F (tk + h)) - (G k - F tk) + (F (tk + h) - F tk) := by ring
    rw [e]
    refine (abs_add_le _ _).trans ((add_le_add_left (abs_sub _ _) _).trans ?_)
    linarith
  have e5 : lineAt (R k) (R (k + 1)) (G k) (G (k + 1)) θ - F s = (G k - F tk) + l * (G (k + 1) - G k) - (F s - F tk) := by
    show G k + (G (k + 1) - G k) * l - F s = _
    ring
  rw [e5]
  have n2 : |l * (G (k + 1) - G k)| ≤ 3 * K * h := by
    rw [abs_mul, abs_of_nonneg hl0]
    have := mul_le_mul hl1 e4 (abs_nonneg _) zero_le_one
    linarith
  have n3 := (S.lip tk m0 s hs).trans (mul_le_mul_of_nonneg_left hU hK)
  refine (abs_sub _ _).trans ((add_le_add_left (abs_add_le _ _) _).trans ?_)
  linarith

end Nodes

/-- integration over a part of an interval -/
theorem cut (f : ℝ → ℝ) {a b : ℝ} (hab : a ≤ b) (A B : ℝ) :
    ∫ t in Set.Icc a b ∩ Set.Icc A B, f t = ∫ t in a..b, (Set.Icc A B).indicator f t := by
  rw [intervalIntegral.integral_of_le hab, ← integral_Icc_eq_integral_Ioc, setIntegral_indicator measurableSet_Icc]

/-- Errors at single times add up to an error of the integral of the same size. -/
theorem signal_sum {τ F : ℝ → ℝ} {t0 T δ K h ε N : ℝ} {n : ℕ} {R G : ℕ → ℝ} (S : Sent0 τ F t0 T δ K) (H : Nodes τ F t0 T K h ε n R G) (hq : 0 ≤ ε) (hq1 : ε ≤ 1)
    (hN : 0 ≤ N) (hpt : ∀ k < n, ∀ θ ∈ Set.Icc (R k) (R (k + 1)), ∀ s ∈ Set.Icc t0 (t0 + T), |θ - τ s| ≤ K * ε →
      |lineAt (R k) (R (k + 1)) (G k) (G (k + 1)) θ - F s| ≤ N * ε)
    (σ : ℝ → ℝ) (hσ : ∀ t ∈ Set.Icc t0 (t0 + T), σ (τ t) = F t) (A B : ℝ) :
    |((List.range n).map fun k => ∫ θ in Set.Icc (R k) (R (k + 1)) ∩ Set.Icc A B, lineAt (R k) (R (k + 1)) (G k) (G (k + 1)) θ).sum
      - ∫ θ in Set.Icc (τ t0) (τ (t0 + n * h)) ∩ Set.Icc A B, σ θ| ≤ (N * (K * T + 2 * K) + 2 * K ^ 2) * ε := by
  have hδ := S.δ_pos
  have hK := S.K_nonneg
  have hh := H.h_pos
  set tn := t0 + (n : ℝ) * h with htn
  have m0 : t0 ∈ Set.Icc t0 (t0 + T) := ⟨le_rfl, by linarith [S.T_nonneg]⟩
  have mn : tn ∈ Set.Icc t0 (t0 + T) := H.mem le_rfl
  have ht0n : t0 ≤ tn := mn.1
  have hτ0n : τ t0 ≤ τ tn := by
    have := S.lower t0 m0 tn mn ht0n
    nlinarith
  have r0 : |R 0 - τ t0| ≤ K * ε := by simpa using H.time 0 (Nat.zero_le _)
  have rn : |R n - τ tn| ≤ K * ε := H.time n le_rfl
  have hcont : ContinuousOn τ (Set.Icc t0 tn) := by
    have : LipschitzOnWith (Real.toNNReal K) τ (Set.Icc t0 tn) := by
      refine LipschitzOnWith.of_dist_le_mul fun x hx y hy => ?_
      rw [Real.dist_eq, Real.dist_eq, Real.coe_toNNReal K hK]
      exact S.upper y ⟨hy.1, hy.2.trans mn.2⟩ x ⟨hx.1, hx.2.trans mn.2⟩
    exact this.continuousOn
  have sent : ∀ θ ∈ Set.Icc (τ t0) (τ tn), ∃ s ∈ Set.Icc t0 (t0 + T), τ s = θ := by
    intro θ hθ
    obtain ⟨s, hs, e⟩ := intermediate_value_Icc ht0n hcont hθ
    exact ⟨s, ⟨hs.1, hs.2.trans mn.2⟩, e⟩
  -- the signal, constant before the first and after the last arrival
  set clamp : ℝ → ℝ := fun θ => max (τ t0) (min θ (τ tn)) with hclamp
  have hcl : ∀ θ, clamp θ ∈ Set.Icc (τ t0) (τ tn) := fun θ => ⟨le_max_left _ _, max_le hτ0n (min_le_right _ _)⟩
  set sg : ℝ → ℝ := fun θ => σ (clamp θ) with hsg
  have sg_bound : ∀ θ, |sg θ| ≤ K := by
    intro θ
    obtain ⟨s, hs, e⟩ := sent _ (hcl θ)
    simp only [hsg]
    rw [← e, hσ s hs]
    exact S.bound s hs
  have sg_cont : Continuous sg := by
    have hl : LipschitzOnWith (Real.toNNReal (K / δ)) σ (Set.Icc (τ t0) (τ tn)) := by
      refine LipschitzOnWith.of_dist_le_mul fun x hx y hy => ?_
      obtain ⟨s, hs, e⟩ := sent x hx
      obtain ⟨t, ht, e'⟩ := sent y hy
      rw [Real.dist_eq, Real.dist_eq, Real.coe_toNNReal (K / δ) (by positivity), ← e, ← e', hσ s hs, hσ t ht]
      refine (S.lip t ht s hs).trans ?_
      rw [div_mul_eq_mul_div, le_div_iff₀ hδ, mul_assoc]
      refine mul_le_mul_of_nonneg_left ?_ hK
      rcases le_total t s with hle | hle
      · have := S.lower t ht s hs hle
        rw [abs_of_nonneg (by linarith)]
        linarith [le_abs_self (τ s - τ t)]
      · have := S.lower s hs t ht hle
        rw [abs_of_nonpos (by linarith)]
        linarith [neg_abs_le (τ s - τ t)]
    have hc : Continuous clamp := by rw [hclamp]; fun_prop
    exact hl.continuousOn.comp_continuous hc hcl
  have near : ∀ k < n, ∀ θ ∈ Set.Icc (R k) (R (k + 1)), |lineAt (R k) (R (k + 1)) (G k) (G (k + 1)) θ - sg θ| ≤ N * ε := by
    intro k hk θ hθ
    obtain ⟨s, hs, e⟩ := sent _ (hcl θ)
    simp only [hsg]
    rw [← e, hσ s hs]
    refine hpt k hk θ hθ s hs ?_
    rw [e]
    have b0 := H.mono (Nat.zero_le k) hk.le
    have bn := H.mono (j := k + 1) hk (le_refl n)
    have hKq : 0 ≤ K * ε := by positivity
    simp only [hclamp]
    rcases le_total θ (τ tn) with hle | hle
    · rw [min_eq_left hle]
      rcases le_total (τ t0) θ with hle' | hle'
      · rw [max_eq_right hle', sub_self, abs_zero]
        exact hKq
      · rw [max_eq_left hle', abs_of_nonpos (by linarith)]
        linarith [(abs_le.mp r0).1, hθ.1]
    · rw [min_eq_right hle, max_eq_right hτ0n, abs_of_nonneg (by linarith)]
      linarith [(abs_le.mp rn).2, hθ.2]
  have hInd : ∀ (f : ℝ → ℝ), Continuous f → ∀ a b : ℝ, IntervalIntegrable ((Set.Icc A B).indicator f) volume a b := by
    intro f hf a b
    have h2 := hf.intervalIntegrable (μ := volume) a b
    exact ⟨h2.1.indicator measurableSet_Icc, h2.2.indicator measurableSet_Icc⟩
  have lcont : ∀ k, Continuous (lineAt (R k) (R (k + 1)) (G k) (G (k + 1))) := by
    intro k
    unfold lineAt
    fun_prop
  have hC0 : 0 ≤ N * ε := by positivity
  -- sum over the steps
  have steps : ∀ m ≤ n, |((List.range m).map fun k => ∫ θ in Set.Icc (R k) (R (k + 1)) ∩ Set.Icc A B, lineAt (R k) (R (k + 1)) (G k) (G (k + 1)) θ).sum
      - ∫ θ in (R 0)..(R m), (Set.Icc A B).indicator sg θ| ≤ N * ε * (R m - R 0) := by
    intro m
    induction m with
    | zero => intro _; simp
    | succ m ih =>
      intro hm
      have i1 := ih (by omega)
      have hlt := H.incr m (by omega)
      rw [List.range_succ, List.map_append, List.sum_append]
      simp only [List.map_cons, List.map_nil, List.sum_cons, List.sum_nil, add_zero]
      rw [← intervalIntegral.integral_add_adjacent_intervals (hInd sg sg_cont (R 0) (R m)) (hInd sg sg_cont (R m) (R (m + 1))), cut _ hlt.le]
      have i2 : |(∫ θ in (R m)..(R (m + 1)), (Set.Icc A B).indicator (lineAt (R m) (R (m + 1)) (G m) (G (m + 1))) θ)
          - ∫ θ in (R m)..(R (m + 1)), (Set.Icc A B).indicator sg θ| ≤ N * ε * (R (m + 1) - R m) := by
        rw [← intervalIntegral.integral_sub (hInd _ (lcont m) _ _) (hInd _ sg_cont _ _)]
        have := intervalIntegral.norm_integral_le_of_norm_le_const (a := R m) (b := R (m + 1)) (C := N * ε)
          (f := fun θ => (Set.Icc A B).indicator (lineAt (R m) (R (m + 1)) (G m) (G (m + 1))) θ - (Set.Icc A B).indicator sg θ) (by
            intro θ hθ
            rw [Set.uIoc_of_le hlt.le] at hθ
            by_cases hin : θ ∈ Set.Icc A B
            · simp only [Set.indicator_of_mem hin, Real.norm_eq_abs]
              exact near m (by omega) θ ⟨hθ.1.le, hθ.2⟩
            · simp only [Set.indicator_of_notMem hin, sub_self, norm_zero]
              exact hC0)
        rw [abs_of_pos (a := R (m + 1) - R m) (by linarith)] at this
        exact this
      set s1 := ((List.range m).map fun k => ∫ θ in Set.Icc (R k) (R (k + 1)) ∩ Set.Icc A B, lineAt (R k) (R (k + 1)) (G k) (G (k + 1)) θ).sum
      have e : ∀ x y z w : ℝ, x + y - (z + w) = (x - z) + (y - w) := fun x y z w => by ring
      rw [e]
      refine (abs_add_le _ _).trans ?_
      linarith
  have last := steps n le_rfl
  -- the ends
  have ends : |(∫ θ in (R 0)..(R n), (Set.Icc A B).indicator sg θ) - ∫ θ in (τ t0)..(τ tn), (Set.Icc A B).indicator sg θ| ≤ 2 * K ^ 2 * ε := by
    have ib : ∀ θ, ‖(Set.Icc A B).indicator sg θ‖ ≤ K := by
      intro θ
      by_cases hin : θ ∈ Set.Icc A B
      · rw [Set.indicator_of_mem hin, Real.norm_eq_abs]; exact sg_bound θ
      · rw [Set.indicator_of_notMem hin, norm_zero]; exact hK
    have e : (∫ θ in (R 0)..(R n), (Set.Icc A B).indicator sg θ) - ∫ θ in (τ t0)..(τ tn), (Set.Icc A B).indicator sg θ
        = (∫ θ in (R 0)..(τ t0), (Set.Icc A B).indicator sg θ) + ∫ θ in (τ tn)..(R n), (Set.Icc A B).indicator sg θ := by
      have j1 := intervalIntegral.integral_add_adjacent_intervals (hInd sg sg_cont (R 0) (τ t0)) (hInd sg sg_cont (τ t0) (R n))
      have j2 := intervalIntegral.integral_add_adjacent_intervals (hInd sg sg_cont (τ t0) (τ tn)) (hInd sg sg_cont (τ tn) (R n))
      linarith
    rw [e]
    have k1 := intervalIntegral.norm_integral_le_of_norm_le_const (a := R 0) (b := τ t0) (C := K) (f := (Set.Icc A B).indicator sg) (fun θ _ => ib θ)
    have k2 := intervalIntegral.norm_integral_le_of_norm_le_const (a := τ tn) (b := R n) (C := K) (f := (Set.Icc A B).indicator sg) (fun θ _ => ib θ)
    rw [Real.norm_eq_abs] at k1 k2
    rw [abs_sub_comm (τ t0)] at k1
    refine (abs_add_le _ _).trans ?_
    have l1 := mul_le_mul_of_nonneg_left r0 hK
    have l2 := mul_le_mul_of_nonneg_left rn hK
    nlinarith
  have same : ∫ θ in Set.Icc (τ t0) (τ tn) ∩ Set.Icc A B, σ θ = ∫ θ in (τ t0)..(τ tn), (Set.Icc A B).indicator sg θ := by
    rw [← cut sg hτ0n]
    refine setIntegral_congr_fun (measurableSet_Icc.inter measurableSet_Icc) ?_
    intro θ hθ
    simp only [hsg, hclamp]
    rw [min_eq_left hθ.1.2, max_eq_right hθ.1.1]
  rw [same]
  have hRn : R n - R 0 ≤ K * T + 2 * K := by
    have h3 := S.upper t0 m0 tn mn
    have h4 : |tn - t0| ≤ T := by rw [abs_of_nonneg (by linarith)]; linarith [mn.2]
    have h5 := mul_le_mul_of_nonneg_left h4 hK
    have h6 : K * ε ≤ K := by nlinarith
    linarith [(abs_le.mp r0).1, (abs_le.mp rn).2, le_abs_self (τ tn - τ t0)]
  have hlast := mul_le_mul_of_nonneg_left hRn hC0
  have e : ∀ x y z : ℝ, x - z = (x - y) + (y - z) := fun x y z => by ring
  rw [e _ (∫ θ in (R 0)..(R n), (Set.Icc A B).indicator sg θ)]
  refine (abs_add_le _ _).trans ?_
  linarith

noncomputable def signalC (δ K T : ℝ) : ℝ := nodeC δ K * (K * T + 2 * K) + 2 * K ^ 2

/-- The integral of the piecewise linear signal over any interval is that of the exact signal up to the square of the time step. -/
theorem signal_converges {τ F : ℝ → ℝ} {t0 T δ K h : ℝ} {n : ℕ} {R G : ℕ → ℝ} (S : Sent τ F t0 T δ K) (H : Nodes τ F t0 T K h (h ^ 2) n R G) (h1 : h ≤ 1)
    (σ : ℝ → ℝ) (hσ : ∀ t ∈ Set.Icc t0 (t0 + T), σ (τ t) = F t) (A B : ℝ) :
    |((List.range n).map fun k => ∫ θ in Set.Icc (R k) (R (k + 1)) ∩ Set.Icc A B, lineAt (R k) (R (k + 1)) (G k) (G (k + 1)) θ).sum
      - ∫ θ in Set.Icc (τ t0) (τ (t0 + n * h)) ∩ Set.Icc A B, σ θ| ≤ signalC δ K T * h ^ 2 := by
  have hδ := S.δ_pos
  have hK := S.K_nonneg
  have hh := H.h_pos
  exact signal_sum S.weak H (sq_nonneg h) (by nlinarith) (N := nodeC δ K) (by unfold nodeC nodeC2 nodeU; positivity)
    (fun k hk θ hθ s hs => H.point S h1 hk hθ hs) σ hσ A B

noncomputable def signalC1 (δ K T : ℝ) : ℝ := (4 * K + K * nodeU δ K) * (K * T + 2 * K) + 2 * K ^ 2

/-- For signals without expansions the error is proportional to the time step. -/
theorem signal_first {τ F : ℝ → ℝ} {t0 T δ K h : ℝ} {n : ℕ} {R G : ℕ → ℝ} (S : Sent0 τ F t0 T δ K) (H : Nodes τ F t0 T K h h n R G) (h1 : h ≤ 1)
    (σ : ℝ → ℝ) (hσ : ∀ t ∈ Set.Icc t0 (t0 + T), σ (τ t) = F t) (A B : ℝ) :
    |((List.range n).map fun k => ∫ θ in Set.Icc (R k) (R (k + 1)) ∩ Set.Icc A B, lineAt (R k) (R (k + 1)) (G k) (G (k + 1)) θ).sum
      - ∫ θ in Set.Icc (τ t0) (τ (t0 + n * h)) ∩ Set.Icc A B, σ θ| ≤ signalC1 δ K T * h := by
  have hδ := S.δ_pos
  have hK := S.K_nonneg
  have hh := H.h_pos
  exact signal_sum S H hh.le h1 (N := 4 * K + K * nodeU δ K) (by unfold nodeU; positivity)
    (fun k hk θ hθ s hs => H.point_first S hk hθ hs) σ hσ A B

end Teufel
