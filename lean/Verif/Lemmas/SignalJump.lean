import Verif.Lemmas.Signal

/-! # A signal with jumps, known at finitely many times and linear in between

As in Lemmas/Signal, but the signal sent may jump at the times in the list `Z`, and near these times nothing is known about the nodes but that they are bounded. -/

namespace Teufel
open MeasureTheory

/-- the signal is Lipschitz continuous between the jumps -/
structure SentJ (τ F : ℝ → ℝ) (Z : List ℝ) (t0 T δ K : ℝ) : Prop where
  δ_pos : 0 < δ
  K_nonneg : 0 ≤ K
  T_nonneg : 0 ≤ T
  mem : ∀ z ∈ Z, z ∈ Set.Icc t0 (t0 + T)
  lower : ∀ s ∈ Set.Icc t0 (t0 + T), ∀ t ∈ Set.Icc t0 (t0 + T), s ≤ t → δ * (t - s) ≤ τ t - τ s
  upper : ∀ s ∈ Set.Icc t0 (t0 + T), ∀ t ∈ Set.Icc t0 (t0 + T), |τ t - τ s| ≤ K * |t - s|
  bound : ∀ s ∈ Set.Icc t0 (t0 + T), |F s| ≤ K
  lip : ∀ s ∈ Set.Icc t0 (t0 + T), ∀ t ∈ Set.Icc t0 (t0 + T), (∀ z ∈ Z, z ∉ Set.uIcc s t) → |F t - F s| ≤ K * |t - s|

/-- nodes for the times `t0 + k h`, `k ≤ n`, with errors of the size of the time step away from the jumps -/
structure NodesJ (τ F : ℝ → ℝ) (Z : List ℝ) (t0 T K D h : ℝ) (n : ℕ) (R G : ℕ → ℝ) : Prop where
  h_pos : 0 < h
  fits : n * h ≤ T
  time : ∀ k ≤ n, |R k - τ (t0 + k * h)| ≤ K * h
  bound : ∀ k ≤ n, |G k| ≤ K
  value : ∀ k ≤ n, (∀ z ∈ Z, D * h ≤ |t0 + k * h - z|) → |G k - F (t0 + k * h)| ≤ K * h
  incr : ∀ k < n, R k < R (k + 1)

/-- a function which is large near given points and has a small integral -/
theorem bumps (Z : List ℝ) {r M : ℝ} (hr : 0 ≤ r) (hM : 0 ≤ M) :
    ∃ W : ℝ → ℝ, (∀ a b, IntervalIntegrable W volume a b) ∧ (∀ a b, a ≤ b → ∫ θ in a..b, W θ ≤ Z.length * (M * (2 * r))) ∧ (∀ θ, 0 ≤ W θ) ∧
      ∀ θ, ∀ z ∈ Z, |θ - z| ≤ r → M ≤ W θ := by
  induction Z with
  | nil => exact ⟨fun _ => 0, fun a b => intervalIntegrable_const, fun a b _ => by simp, fun _ => le_rfl, by simp⟩
  | cons c Z ih =>
    obtain ⟨W, h1, h2, h3, h4⟩ := ih
    have i1 : ∀ a b, IntervalIntegrable ((Set.Icc (c - r) (c + r)).indicator fun _ => M) volume a b := by
      intro a b
      have h2 := (continuous_const (y := M)).intervalIntegrable (μ := volume) a b
      exact ⟨h2.1.indicator measurableSet_Icc, h2.2.indicator measurableSet_Icc⟩
    have nn : ∀ θ, 0 ≤ (Set.Icc (c - r) (c + r)).indicator (fun _ => M) θ := fun θ => Set.indicator_nonneg (fun _ _ => hM) θ
    refine ⟨fun θ => W θ + (Set.Icc (c - r) (c + r)).indicator (fun _ => M) θ, fun a b => (h1 a b).add (i1 a b), fun a b hab => ?_, fun θ => add_nonneg (h3 θ) (nn θ), ?_⟩
    · rw [intervalIntegral.integral_add (h1 a b) (i1 a b), ← cut _ hab, setIntegral_const, smul_eq_mul]
      have m1 : volume.real (Set.Icc a b ∩ Set.Icc (c - r) (c + r)) ≤ 2 * r := by
        have := measureReal_mono (μ := volume) (Set.inter_subset_right (s := Set.Icc a b) (t := Set.Icc (c - r) (c + r))) (by simp)
        rw [Real.volume_real_Icc_of_le (by linarith)] at this
        linarith
      have := h2 a b hab
      have := mul_le_mul_of_nonneg_right m1 hM
      rw [List.length_cons]
      push_cast
      linarith
    · intro θ z hz hd
      rcases List.mem_cons.mp hz with rfl | hz
      · have : θ ∈ Set.Icc (z - r) (z + r) := by
          rw [abs_le] at hd
          exact ⟨by linarith, by linarith⟩
        show M ≤ W θ + (Set.Icc (z - r) (z + r)).indicator (fun _ => M) θ
        rw [Set.indicator_of_mem this]
        linarith [h3 θ]
      · show M ≤ W θ + (Set.Icc (c - r) (c + r)).indicator (fun _ => M) θ
        linarith [h4 θ z hz hd, nn θ]

namespace NodesJ
variable {τ F : ℝ → ℝ} {Z : List ℝ} {t0 T δ K D h : ℝ} {n : ℕ} {R G : ℕ → ℝ}

theorem mem (H : NodesJ τ F Z t0 T K D h n R G) {k : ℕ} (hk : k ≤ n) : t0 + k * h ∈ Set.Icc t0 (t0 + T) := by
  have h0 := H.h_pos
  have h1 := H.fits
  have : (k : ℝ) * h ≤ n * h := mul_le_mul_of_nonneg_right (by exact_mod_cast hk) h0.le
  have : 0 ≤ (k : ℝ) * h := by positivity
  exact ⟨by linarith, by linarith⟩

theorem mono (H : NodesJ τ F Z t0 T K D h n R G) {j k : ℕ} (hjk : j ≤ k) (hk : k ≤ n) : R j ≤ R k := by
  induction k with
  | zero => have : j = 0 := by omega
            rw [this]
  | succ k ih =>
    rcases Nat.lt_or_ge j (k + 1) with hlt | hge
    · exact (ih (by omega) (by omega)).trans (H.incr k (by omega)).le
    · have : j = k + 1 := by omega
      rw [this]

/-- the line stays within the bounds of the nodes -/
theorem line_bound (H : NodesJ τ F Z t0 T K D h n R G) {k : ℕ} (hk : k < n) {θ : ℝ} (hθ : θ ∈ Set.Icc (R k) (R (k + 1))) :
    |lineAt (R k) (R (k + 1)) (G k) (G (k + 1)) θ| ≤ K := by
  have hD : 0 < R (k + 1) - R k := by have := H.incr k hk; linarith
  have b0 := H.bound k hk.le
  have b1 := H.bound (k + 1) hk
  unfold lineAt
  set l := (θ - R k) / (R (k + 1) - R k) with hl
  have hl0 : 0 ≤ l := div_nonneg (by linarith [hθ.1]) hD.le
  have hl1 : l ≤ 1 := by rw [hl, div_le_one hD]; linarith [hθ.2]
  have e : G k + (G (k + 1) - G k) * l = (1 - l) * G k + l * G (k + 1) := by ring
  rw [e]
  refine (abs_add_le _ _).trans ?_
  rw [abs_mul, abs_mul, abs_of_nonneg hl0, abs_of_nonneg (by linarith : 0 ≤ 1 - l)]
  have c0 := mul_le_mul_of_nonneg_left b0 (by linarith : 0 ≤ 1 - l)
  have c1 := mul_le_mul_of_nonneg_left b1 hl0
  linarith

/-- Between two nodes the line is close to the signal, if no jump is near. -/
theorem point (S : SentJ τ F Z t0 T δ K) (H : NodesJ τ F Z t0 T K D h n R G) (hD0 : 0 ≤ D) {k : ℕ} (hk : k < n) {θ s : ℝ}
    (hθ : θ ∈ Set.Icc (R k) (R (k + 1))) (hs : s ∈ Set.Icc t0 (t0 + T)) (hθs : |θ - τ s| ≤ K * h)
    (hfar : ∀ z ∈ Z, ¬ |θ - τ z| ≤ (K * (nodeU δ K + 1 + D) + 4 * K) * h) :
    |lineAt (R k) (R (k + 1)) (G k) (G (k + 1)) θ - F s| ≤ (4 * K + K * nodeU δ K) * h ∧ s ∉ Z := by
  have hδ := S.δ_pos
  have hK := S.K_nonneg
  have hh := H.h_pos
  have m0 := H.mem hk.le
  have m1 := H.mem (k := k + 1) hk
  set tk := t0 + (k : ℝ) * h with htk
  have htk1 : t0 + ((k + 1 : ℕ) : ℝ) * h = tk + h := by rw [htk]; push_cast; ring
  have r0 := H.time k hk.le
  have r1 := H.time (k + 1) hk
  have g0 := H.value k hk.le
  have g1 := H.value (k + 1) hk
  rw [htk1] at r1 g1 m1
  rw [← htk] at r0 g0
  have hD : 0 < R (k + 1) - R k := by have := H.incr k hk; linarith
  set D' := R (k + 1) - R k with hDdef
  have hDle : D' ≤ 3 * K * h := by
    have h2 := S.upper tk m0 (tk + h) m1
    rw [show tk + h - tk = h by ring, abs_of_pos hh] at h2
    have e : D' = (R (k + 1) - τ (tk + h)) + (τ (tk + h) - τ tk) - (R k - τ tk) := by rw [hDdef]; ring
    have := (abs_le.mp r1).2
    have := (abs_le.mp h2).2
    have := (abs_le.mp r0).1
    linarith
  have hθR : |θ - R k| ≤ D' := by rw [abs_of_nonneg (by linarith [hθ.1])]; linarith [hθ.2]
  have hθt : |θ - τ tk| ≤ 4 * K * h := by
    have e : θ - τ tk = (θ - R k) + (R k - τ tk) := by ring
    rw [e]
    refine (abs_add_le _ _).trans ?_
    linarith
  have hdτ : |τ s - τ tk| ≤ 5 * K * h := by
    have e : τ s - τ tk = -(θ - τ s) + (θ - τ tk) := by ring
    rw [e]
    refine (abs_add_le _ _).trans ?_
    rw [abs_neg]
    linarith
  have hdu : δ * |s - tk| ≤ |τ s - τ tk| := by
    rcases le_total tk s with hle | hle
    · have := S.lower tk m0 s hs hle
      rw [abs_of_nonneg (by linarith)]
      exact this.trans (le_abs_self _)
    · have := S.lower s hs tk m0 hle
      rw [abs_of_nonpos (by linarith)]
      have h2 := neg_abs_le (τ s - τ tk)
      have e : δ * -(s - tk) = δ * (tk - s) := by ring
      rw [e]
      linarith
  have hU : |s - tk| ≤ nodeU δ K * h := by
    unfold nodeU
    rw [div_mul_eq_mul_div, le_div_iff₀ hδ]
    linarith
  have hU0 : 0 ≤ nodeU δ K := by unfold nodeU; positivity
  -- the jumps are far away
  have far : ∀ z ∈ Z, (nodeU δ K + 1 + D) * h < |z - tk| := by
    intro z hz
    have h1 := hfar z hz
    push Not at h1
    have h2 := S.upper tk m0 z (S.mem z hz)
    have h3 : |θ - τ z| ≤ |θ - τ tk| + |τ z - τ tk| := by
      have e : θ - τ z = (θ - τ tk) - (τ z - τ tk) := by ring
      rw [e]
      exact abs_sub _ _
    by_contra h4
    push Not at h4
    have h5 := mul_le_mul_of_nonneg_left h4 hK
    linarith
  have hUh : 0 ≤ nodeU δ K * h := by positivity
  have hDh : 0 ≤ D * h := by positivity
  have far' : ∀ z ∈ Z, z < tk - (nodeU δ K + 1 + D) * h ∨ tk + (nodeU δ K + 1 + D) * h < z := by
    intro z hz
    rcases lt_abs.mp (far z hz) with h | h
    · right; linarith
    · left; linarith
  have hsne := abs_le.mp hU
  have n1 : ∀ z ∈ Z, z ∉ Set.uIcc tk (tk + h) := by
    intro z hz hm
    rw [Set.uIcc_of_le (by linarith)] at hm
    rcases far' z hz with h | h <;> linarith [hm.1, hm.2]
  have n2 : ∀ z ∈ Z, z ∉ Set.uIcc tk s := by
    intro z hz hm
    rw [Set.mem_uIcc] at hm
    rcases far' z hz with h | h <;> rcases hm with hm | hm <;> linarith [hm.1, hm.2]
  have g0' := g0 fun z hz => by
    rcases far' z hz with h | h
    · rw [abs_of_nonneg (by linarith)]; linarith
    · rw [abs_of_nonpos (by linarith)]; linarith
  have g1' := g1 fun z hz => by
    rcases far' z hz with h | h
    · rw [abs_of_nonneg (by linarith)]; linarith
    · rw [abs_of_nonpos (by linarith)]; linarith
  refine ⟨?_, fun hs' => n2 s hs' Set.right_mem_uIcc⟩
  set l := (θ - R k) / D' with hl
  have hl0 : 0 ≤ l := div_nonneg (by linarith [hθ.1]) hD.le
  have hl1 : l ≤ 1 := by rw [hl, div_le_one hD]; linarith [hθ.2]
  have e4 : |G (k + 1) - G k| ≤ 3 * K * h := by
    have h2 := S.lip tk m0 (tk + h) m1 n1
    rw [show tk + h - tk = h by ring, abs_of_pos hh] at h2
    have e : G (k + 1) - G k = (G (k + 1) - F (tk + h)) - (G k - F tk) + (F (tk + h) - F tk) := by ring
    rw [e]
    refine (abs_add_le _ _).trans ((add_le_add_left (abs_sub _ _) _).trans ?_)
    linarith
  have e5 : lineAt (R k) (R (k + 1)) (G k) (G (k + 1)) θ - F s = (G k - F tk) + l * (G (k + 1) - G k) - (F s - F tk) := by
    show G k + (G (k + 1) - G k) * l - F s = _
    ring
  rw [e5]
  have m2 : |l * (G (k + 1) - G k)| ≤ 3 * K * h := by
    rw [abs_mul, abs_of_nonneg hl0]
    have := mul_le_mul hl1 e4 (abs_nonneg _) zero_le_one
    linarith
  have m3 := (S.lip tk m0 s hs n2).trans (mul_le_mul_of_nonneg_left hU hK)
  refine (abs_sub _ _).trans ((add_le_add_left (abs_add_le _ _) _).trans ?_)
  linarith

end NodesJ

namespace SentJ
variable {τ F : ℝ → ℝ} {Z : List ℝ} {t0 T δ K : ℝ}

/-- the signal without its values at the jumps is measurable -/
theorem measurable (S : SentJ τ F Z t0 T δ K) : Measurable ((Set.Icc t0 (t0 + T) \ {t | t ∈ Z}).indicator F) := by
  classical
  have hfin : ({t | t ∈ Z} : Set ℝ).Finite := Z.finite_toSet
  have hms : MeasurableSet (Set.Icc t0 (t0 + T) \ {t | t ∈ Z}) := measurableSet_Icc.diff hfin.measurableSet
  have hc : ContinuousOn F (Set.Icc t0 (t0 + T) \ {t | t ∈ Z}) := by
    rintro t ⟨ht, htz⟩
    obtain ⟨r, hr, hball⟩ := Metric.isOpen_iff.mp hfin.isClosed.isOpen_compl t htz
    rw [Metric.continuousWithinAt_iff]
    intro ε hε
    refine ⟨min r (ε / (K + 1)), lt_min hr (by have := S.K_nonneg; positivity), fun {s} hs hd => ?_⟩
    have hK := S.K_nonneg
    have hd1 := hd.trans_le (min_le_left _ _)
    have hd2 := hd.trans_le (min_le_right _ _)
    rw [lt_div_iff₀ (by linarith)] at hd2
    rw [Real.dist_eq] at hd1 hd2 ⊢
    have := S.lip t ht s hs.1 fun z hz hm => by
      have : z ∈ Metric.ball t r := by
        rw [Metric.mem_ball, Real.dist_eq]
        refine lt_of_le_of_lt ?_ hd1
        rw [Set.mem_uIcc] at hm
        rcases hm with hm | hm
        · rw [abs_of_nonneg (by linarith [hm.1]), abs_of_nonneg (by linarith [hm.1, hm.2])]; linarith [hm.2]
        · rw [abs_of_nonpos (by linarith [hm.2]), abs_of_nonpos (by linarith [hm.1, hm.2])]; linarith [hm.1]
      exact hball this hz
    nlinarith [abs_nonneg (s - t)]
  have := hc.measurable_piecewise (g := 0) continuous_zero.continuousOn hms
  rwa [Set.piecewise_eq_indicator] at this

end SentJ

/-- the constant of the error -/
noncomputable def jumpC (δ K T D : ℝ) (m : ℕ) : ℝ :=
  (4 * K + K * nodeU δ K) * (K * T + 2 * K) + 2 * K ^ 2 + m * (2 * K * (2 * (K * (nodeU δ K + 1 + D) + 4 * K)))

set_option maxHeartbeats 1000000 in
/-- Errors of the size of the time step away from the jumps add up to an error of the integral of that size. -/
theorem signal_jumps {τ F : ℝ → ℝ} {Z : List ℝ} {t0 T δ K D h : ℝ} {n : ℕ} {R G : ℕ → ℝ} (S : SentJ τ F Z t0 T δ K) (H : NodesJ τ F Z t0 T K D h n R G)
    (hD : 0 ≤ D) (h1 : h ≤ 1) (σ : ℝ → ℝ) (hσ : ∀ t ∈ Set.Icc t0 (t0 + T), t ∉ Z → σ (τ t) = F t) (A B : ℝ) :
    |((List.range n).map fun k => ∫ θ in Set.Icc (R k) (R (k + 1)) ∩ Set.Icc A B, lineAt (R k) (R (k + 1)) (G k) (G (k + 1)) θ).sum
      - ∫ θ in Set.Icc (τ t0) (τ (t0 + n * h)) ∩ Set.Icc A B, σ θ| ≤ jumpC δ K T D Z.length * h := by
  have hδ := S.δ_pos
  have hK := S.K_nonneg
  have hh := H.h_pos
  set N := 4 * K + K * nodeU δ K with hNdef
  have hU0 : 0 ≤ nodeU δ K := by unfold nodeU; positivity
  have hN : 0 ≤ N := by positivity
  set tn := t0 + (n : ℝ) * h with htn
  have m0 : t0 ∈ Set.Icc t0 (t0 + T) := ⟨le_rfl, by linarith [S.T_nonneg]⟩
  have mn : tn ∈ Set.Icc t0 (t0 + T) := H.mem le_rfl
  have ht0n : t0 ≤ tn := mn.1
  have hτ0n : τ t0 ≤ τ tn := by
    have := S.lower t0 m0 tn mn ht0n
    nlinarith
  have r0 : |R 0 - τ t0| ≤ K * h := by simpa using H.time 0 (Nat.zero_le _)
  have rn : |R n - τ tn| ≤ K * h := H.time n le_rfl
  have hcont : ContinuousOn τ (Set.Icc t0 tn) := by
    have : LipschitzOnWith (Real.toNNReal K) τ (Set.Icc t0 tn) := by
      refine LipschitzOnWith.of_dist_le_mul fun x hx y hy => ?_
      rw [Real.dist_eq, Real.dist_eq, Real.coe_toNNReal K hK]
      exact S.upper y ⟨hy.1, hy.2.trans mn.2⟩ x ⟨hx.1, hx.2.trans mn.2⟩
    exact this.continuousOn
  set clamp : ℝ → ℝ := fun θ => max (τ t0) (min θ (τ tn)) with hclamp
  have hcl : ∀ θ, clamp θ ∈ Set.Icc (τ t0) (τ tn) := fun θ => ⟨le_max_left _ _, max_le hτ0n (min_le_right _ _)⟩
  have sent : ∀ θ, ∃ s ∈ Set.Icc t0 (t0 + T), τ s = clamp θ := by
    intro θ
    obtain ⟨s, hs, e⟩ := intermediate_value_Icc ht0n hcont (hcl θ)
    exact ⟨s, ⟨hs.1, hs.2.trans mn.2⟩, e⟩
  choose inv hinv hτinv using sent
  have inv_mono : Monotone inv := by
    intro a b hab
    by_contra hlt
    push Not at hlt
    have h2 := S.lower _ (hinv b) _ (hinv a) hlt.le
    rw [hτinv, hτinv] at h2
    have h3 : clamp a ≤ clamp b := max_le_max le_rfl (min_le_min hab le_rfl)
    have h4 : 0 < δ * (inv a - inv b) := mul_pos hδ (by linarith)
    linarith
  -- the signal without its values at the jumps, constant before the first and after the last arrival
  set F0 := (Set.Icc t0 (t0 + T) \ {t | t ∈ Z}).indicator F with hF0
  set sg : ℝ → ℝ := fun θ => F0 (inv θ) with hsg
  have F0_of : ∀ t ∈ Set.Icc t0 (t0 + T), t ∉ Z → F0 t = F t := fun t ht hz => Set.indicator_of_mem (show t ∈ _ \ _ from ⟨ht, hz⟩) F
  have sg_bound : ∀ θ, |sg θ| ≤ K := by
    intro θ
    simp only [hsg, hF0]
    by_cases hz : inv θ ∈ Set.Icc t0 (t0 + T) \ {t | t ∈ Z}
    · rw [Set.indicator_of_mem hz]
      exact S.bound _ (hinv θ)
    · rw [Set.indicator_of_notMem hz, abs_zero]
      exact hK
  have sg_meas : Measurable sg := S.measurable.comp inv_mono.measurable
  have sg_int : ∀ a b : ℝ, IntervalIntegrable ((Set.Icc A B).indicator sg) volume a b := by
    have key : ∀ s : Set ℝ, volume s ≠ ⊤ → IntegrableOn sg s volume := by
      intro s hs
      exact Measure.integrableOn_of_bounded hs sg_meas.aestronglyMeasurable (M := K) (Filter.Eventually.of_forall fun θ => by
        rw [Real.norm_eq_abs]; exact sg_bound θ)
    intro a b
    exact ⟨(key _ (by simp)).indicator measurableSet_Icc, (key _ (by simp)).indicator measurableSet_Icc⟩
  set r := (K * (nodeU δ K + 1 + D) + 4 * K) * h with hr
  have hr0 : 0 ≤ r := by positivity
  obtain ⟨W, W1, W2, W3, W4⟩ := bumps (Z.map τ) hr0 (M := 2 * K) (by linarith)
  have near : ∀ k < n, ∀ θ ∈ Set.Icc (R k) (R (k + 1)), |lineAt (R k) (R (k + 1)) (G k) (G (k + 1)) θ - sg θ| ≤ N * h + W θ := by
    intro k hk θ hθ
    have hNh : 0 ≤ N * h := by positivity
    by_cases hfar : ∀ z ∈ Z, ¬ |θ - τ z| ≤ r
    · have hd : |θ - τ (inv θ)| ≤ K * h := by
        rw [hτinv]
        have b0 := H.mono (Nat.zero_le k) hk.le
        have bn := H.mono (j := k + 1) hk (le_refl n)
        have hKq : 0 ≤ K * h := by positivity
        simp only [hclamp]
        rcases le_total θ (τ tn) with hle | hle
        · rw [min_eq_left hle]
          rcases le_total (τ t0) θ with hle' | hle'
          · rw [max_eq_right hle', sub_self, abs_zero]
            exact hKq
          · rw [max_eq_left hle', abs_of_nonpos (by linarith)]
            linarith [(abs_le.mp r0).1, hθ.1]
        · rw [min_eq_right hle, max_eq_right hτ0n, abs_of_nonneg (by linarith)]
          linarith [(abs_le.mp rn).2, hθ.2]
      obtain ⟨p1, p2⟩ := NodesJ.point S H hD hk hθ (hinv θ) hd hfar
      simp only [hsg]
      rw [F0_of _ (hinv θ) p2]
      linarith [W3 θ]
    · push Not at hfar
      obtain ⟨z, hz, hzd⟩ := hfar
      have hW := W4 θ (τ z) (List.mem_map_of_mem hz) hzd
      have := H.line_bound hk hθ
      have := sg_bound θ
      refine (abs_sub _ _).trans ?_
      linarith
  have lcont : ∀ k, Continuous (lineAt (R k) (R (k + 1)) (G k) (G (k + 1))) := by
    intro k
    unfold lineAt
    fun_prop
  have lint : ∀ k (a b : ℝ), IntervalIntegrable ((Set.Icc A B).indicator (lineAt (R k) (R (k + 1)) (G k) (G (k + 1)))) volume a b := by
    intro k a b
    have h2 := (lcont k).intervalIntegrable (μ := volume) a b
    exact ⟨h2.1.indicator measurableSet_Icc, h2.2.indicator measurableSet_Icc⟩
  have hC0 : 0 ≤ N * h := by positivity
  have gint : ∀ a b : ℝ, IntervalIntegrable (fun θ => N * h + W θ) volume a b := fun a b => intervalIntegrable_const.add (W1 a b)
  have gval : ∀ a b : ℝ, ∫ θ in a..b, (N * h + W θ) = N * h * (b - a) + ∫ θ in a..b, W θ := by
    intro a b
    rw [intervalIntegral.integral_add intervalIntegrable_const (W1 a b), intervalIntegral.integral_const, smul_eq_mul]
    ring
  -- sum over the steps
  have steps : ∀ m ≤ n, |((List.range m).map fun k => ∫ θ in Set.Icc (R k) (R (k + 1)) ∩ Set.Icc A B, lineAt (R k) (R (k + 1)) (G k) (G (k + 1)) θ).sum
      - ∫ θ in (R 0)..(R m), (Set.Icc A B).indicator sg θ| ≤ N * h * (R m - R 0) + ∫ θ in (R 0)..(R m), W θ := by
    intro m
    induction m with
    | zero => intro _; simp
    | succ m ih =>
      intro hm
      have i1 := ih (by omega)
      have hlt := H.incr m (by omega)
      rw [List.range_succ, List.map_append, List.sum_append]
      simp only [List.map_cons, List.map_nil, List.sum_cons, List.sum_nil, add_zero]
      rw [← intervalIntegral.integral_add_adjacent_intervals (sg_int (R 0) (R m)) (sg_int (R m) (R (m + 1))), cut _ hlt.le,
        ← intervalIntegral.integral_add_adjacent_intervals (W1 (R 0) (R m)) (W1 (R m) (R (m + 1)))]
      have i2 : |(∫ θ in (R m)..(R (m + 1)), (Set.Icc A B).indicator (lineAt (R m) (R (m + 1)) (G m) (G (m + 1))) θ)
          - ∫ θ in (R m)..(R (m + 1)), (Set.Icc A B).indicator sg θ| ≤ N * h * (R (m + 1) - R m) + ∫ θ in (R m)..(R (m + 1)), W θ := by
        rw [← intervalIntegral.integral_sub (lint m _ _) (sg_int _ _), ← gval]
        have := intervalIntegral.norm_integral_le_of_norm_le (a := R m) (b := R (m + 1)) (μ := volume) (g := fun θ => N * h + W θ)
          (f := fun θ => (Set.Icc A B).indicator (lineAt (R m) (R (m + 1)) (G m) (G (m + 1))) θ - (Set.Icc A B).indicator sg θ) hlt.le
          (Filter.Eventually.of_forall (by
            intro θ hθ
            by_cases hin : θ ∈ Set.Icc A B
            · simp only [Set.indicator_of_mem hin, Real.norm_eq_abs]
              exact near m (by omega) θ ⟨hθ.1.le, hθ.2⟩
            · simp only [Set.indicator_of_notMem hin, sub_self, norm_zero]
              linarith [W3 θ])) (gint _ _)
        exact this
      set s1 := ((List.range m).map fun k => ∫ θ in Set.Icc (R k) (R (k + 1)) ∩ Set.Icc A B, lineAt (R k) (R (k + 1)) (G k) (G (k + 1)) θ).sum
      have e : ∀ x y z w : ℝ, x + y - (z + w) = (x - z) + (y - w) := fun x y z w => by ring
      rw [e]
      refine (abs_add_le _ _).trans ?_
      linarith
  have last := steps n le_rfl
  have Wn := W2 (R 0) (R n) (H.mono (Nat.zero_le n) le_rfl)
  -- the ends
  have ends : |(∫ θ in (R 0)..(R n), (Set.Icc A B).indicator sg θ) - ∫ θ in (τ t0)..(τ tn), (Set.Icc A B).indicator sg θ| ≤ 2 * K ^ 2 * h := by
    have ib : ∀ θ, ‖(Set.Icc A B).indicator sg θ‖ ≤ K := by
      intro θ
      by_cases hin : θ ∈ Set.Icc A B
      · rw [Set.indicator_of_mem hin, Real.norm_eq_abs]; exact sg_bound θ
      · rw [Set.indicator_of_notMem hin, norm_zero]; exact hK
    have e : (∫ θ in (R 0)..(R n), (Set.Icc A B).indicator sg θ) - ∫ θ in (τ t0)..(τ tn), (Set.Icc A B).indicator sg θ
        = (∫ θ in (R 0)..(τ t0), (Set.Icc A B).indicator sg θ) + ∫ θ in (τ tn)..(R n), (Set.Icc A B).indicator sg θ := by
      have j1 := intervalIntegral.integral_add_adjacent_intervals (sg_int (R 0) (τ t0)) (sg_int (τ t0) (R n))
      have j2 := intervalIntegral.integral_add_adjacent_intervals (sg_int (τ t0) (τ tn)) (sg_int (τ tn) (R n))
      linarith
    rw [e]
    have k1 := intervalIntegral.norm_integral_le_of_norm_le_const (a := R 0) (b := τ t0) (C := K) (f := (Set.Icc A B).indicator sg) (fun θ _ => ib θ)
    have k2 := intervalIntegral.norm_integral_le_of_norm_le_const (a := τ tn) (b := R n) (C := K) (f := (Set.Icc A B).indicator sg) (fun θ _ => ib θ)
    rw [Real.norm_eq_abs] at k1 k2
    rw [abs_sub_comm (τ t0)] at k1
    refine (abs_add_le _ _).trans ?_
    have l1 := mul_le_mul_of_nonneg_left r0 hK
    have l2 := mul_le_mul_of_nonneg_left rn hK
    nlinarith
  have same : ∫ θ in Set.Icc (τ t0) (τ tn) ∩ Set.Icc A B, σ θ = ∫ θ in (τ t0)..(τ tn), (Set.Icc A B).indicator sg θ := by
    rw [← cut sg hτ0n]
    refine setIntegral_congr_ae (measurableSet_Icc.inter measurableSet_Icc) ?_
    have hfin : ({θ | θ ∈ Z.map τ} : Set ℝ).Finite := (Z.map τ).finite_toSet
    filter_upwards [hfin.countable.ae_notMem volume] with θ hz hθ
    have hc : clamp θ = θ := by simp only [hclamp]; rw [min_eq_left hθ.1.2, max_eq_right hθ.1.1]
    have e := hτinv θ
    rw [hc] at e
    have hnz : inv θ ∉ Z := fun hmem => hz (by show θ ∈ Z.map τ; rw [← e]; exact List.mem_map_of_mem hmem)
    simp only [hsg]
    rw [F0_of _ (hinv θ) hnz, ← hσ _ (hinv θ) hnz, e]
  rw [same]
  have hRn : R n - R 0 ≤ K * T + 2 * K := by
    have h3 := S.upper t0 m0 tn mn
    have h4 : |tn - t0| ≤ T := by rw [abs_of_nonneg (by linarith)]; linarith [mn.2]
    have h5 := mul_le_mul_of_nonneg_left h4 hK
    have h6 : K * h ≤ K := by nlinarith
    linarith [(abs_le.mp r0).1, (abs_le.mp rn).2, le_abs_self (τ tn - τ t0)]
  have hlast := mul_le_mul_of_nonneg_left hRn hC0
  have e : ∀ x y z : ℝ, x - z = (x - y) + (y - z) := fun x y z => by ring
  rw [e _ (∫ θ in (R 0)..(R n), (Set.Icc A B).indicator sg θ)]
  refine (abs_add_le _ _).trans ?_
  rw [List.length_map] at Wn
  have e2 : jumpC δ K T D Z.length * h = N * h * (K * T + 2 * K) + 2 * K ^ 2 * h + Z.length * (2 * K * (2 * r)) := by
    rw [hr]
    unfold jumpC
    ring
  rw [e2]
  linarith

end Teufel
