import Verif.Lemmas.Gronwall
import Verif.Props.Vay

/-! # Tracking through jumps of the field: error of one step, growth of the error in a passage -/

namespace Teufel
open Vec

namespace Edge

theorem step_vec (qm h c : ℝ) (u u' p0 p1 vu vu' vp E E' B B' : Vec) :
    u + (E' / c * (2 : ℝ) + cross (vu + vu') B') * (qm * (h / 2)) - p1 =
      u - p0 + ((E' - E) * (2 / c) + cross (vu + vu') (B' - B) + cross (vu - vp) B + cross (vu' - vp) B) * (qm * (h / 2)) -
        (p1 - p0 - (E / c + cross vp B) * (qm * h)) := by
  ext <;> simp [cross] <;> ring

theorem step_arith {d w d' v h c a b A F D : ℝ} (h0 : 0 ≤ h) (h1 : h ≤ 1) (hc : 0 ≤ c) (ha : 0 ≤ a) (hb : 0 ≤ b) (hA : 0 ≤ A) (hd : 0 ≤ d) (hw : 0 ≤ w)
    (k1 : d' ≤ d + 2 * c * h * w + A * h ^ 2) (k2 : v ≤ w + h * (a * d') + h * (b * (2 * w + 3 * (F * h))) + D * h ^ 2) :
    d' + v ≤ (1 + (2 * c + a + 2 * a * c + 2 * b) * h) * (d + w) + (A + a * A + 3 * b * F + D) * h ^ 2 := by
  have k3 : h * (a * d') ≤ h * (a * (d + 2 * c * h * w + A * h ^ 2)) := by gcongr
  have k4 : h * (a * (d + 2 * c * h * w + A * h ^ 2)) ≤ h * (a * d) + h * (2 * a * c * w) + a * A * h ^ 2 := by
    have i1 : 0 ≤ h * (2 * a * c * w) * (1 - h) := mul_nonneg (by positivity) (by linarith)
    have i2 : 0 ≤ a * A * h ^ 2 * (1 - h) := mul_nonneg (by positivity) (by linarith)
    linarith
  have j1 : 0 ≤ h * c * d := by positivity
  have j2 : 0 ≤ h * a * w := by positivity
  have j3 : 0 ≤ h * a * c * d := by positivity
  have j4 : 0 ≤ h * b * d := by positivity
  linarith

/-- growth of the error in a step in which the field seen by the tracked and by the exact particle differ by no more than their distance suggests -/
theorem one_step {X u X' u' x0 x1 p0 p1 E B E' B' : Vec} {qm h L M A D F : ℝ} (h0 : 0 ≤ h) (h1 : h ≤ 1) (hL : 0 ≤ L) (hM : 0 ≤ M) (hA : 0 ≤ A) 
    (hX' : X' = X + velOf u * (SpeedOfLight * h))
    (hu' : u' = u + (E' / SpeedOfLight * (2 : ℝ) + cross (velOf u + velOf u') B') * (qm * (h / 2)))
    (hx : (x1 - x0 - velOf p0 * (SpeedOfLight * h)).norm ≤ A * h ^ 2)
    (hp : (p1 - p0 - (E / SpeedOfLight + cross (velOf p1) B) * (qm * h)).norm ≤ D * h ^ 2)
    (hB : B.norm ≤ M) (hdE : (E' - E).norm ≤ L * (X' - x1).norm) (hdB : (B' - B).norm ≤ L * (X' - x1).norm)
    (hpp : (p1 - p0).norm ≤ F * h) (huu : (u' - u).norm ≤ F * h) :
    (X' - x1).norm + (u' - p1).norm ≤
      (1 + (2 * SpeedOfLight + |qm| * (L / SpeedOfLight + L) + 2 * (|qm| * (L / SpeedOfLight + L)) * SpeedOfLight + 2 * (|qm| * M)) * h) *
        ((X - x0).norm + (u - p0).norm) + (A + |qm| * (L / SpeedOfLight + L) * A + 3 * (|qm| * M) * F + D) * h ^ 2 := by
  have hc := SpeedOfLight_pos
  set d := (X - x0).norm with hd
  set w := (u - p0).norm with hw
  set d' := (X' - x1).norm with hd'
  have hd0 : 0 ≤ d := Vec.norm_nonneg _
  have hw0 : 0 ≤ w := Vec.norm_nonneg _
  have hd0' : 0 ≤ d' := Vec.norm_nonneg _
  have k1 : d' ≤ d + 2 * SpeedOfLight * h * w + A * h ^ 2 := by
    have e : X' - x1 = (X - x0) + (velOf u - velOf p0) * (SpeedOfLight * h) - (x1 - x0 - velOf p0 * (SpeedOfLight * h)) := by
      rw [hX']
      ext <;> simp <;> ring
    have n1 := norm_sub_le' ((X - x0) + (velOf u - velOf p0) * (SpeedOfLight * h)) (x1 - x0 - velOf p0 * (SpeedOfLight * h))
    rw [← e] at n1
    have n2 := Vec.norm_add_le (X - x0) ((velOf u - velOf p0) * (SpeedOfLight * h))
    rw [Vec.norm_mul, abs_of_nonneg (by positivity)] at n2
    have n3 := mul_le_mul_of_nonneg_right (velOf_lip u p0) (show 0 ≤ SpeedOfLight * h by positivity)
    linarith
  have q1 : (u - p1).norm ≤ w + F * h := by
    have e : u - p1 = (u - p0) - (p1 - p0) := by abel
    rw [e]
    have := norm_sub_le' (u - p0) (p1 - p0)
    linarith
  have q2 : (u' - p1).norm ≤ w + 2 * (F * h) := by
    have e : u' - p1 = (u' - u) + (u - p1) := by abel
    rw [e]
    have := Vec.norm_add_le (u' - u) (u - p1)
    linarith
  have c1 : (cross (velOf u + velOf u') (B' - B)).norm ≤ 2 * (L * d') :=
    norm_cross_bound ((Vec.norm_add_le _ _).trans (by linarith [velOf_le u, velOf_le u'])) hdB
  have c2 : (cross (velOf u - velOf p1) B).norm ≤ 2 * (w + F * h) * M := norm_cross_bound ((velOf_lip _ _).trans (by linarith)) hB
  have c3 : (cross (velOf u' - velOf p1) B).norm ≤ 2 * (w + 2 * (F * h)) * M := norm_cross_bound ((velOf_lip _ _).trans (by linarith)) hB
  have c5 : ((E' - E) * (2 / SpeedOfLight)).norm ≤ L * d' * (2 / SpeedOfLight) := by
    rw [Vec.norm_mul, abs_of_pos (by positivity)]
    exact mul_le_mul_of_nonneg_right hdE (by positivity)
  set G : Vec := (E' - E) * (2 / SpeedOfLight) + cross (velOf u + velOf u') (B' - B) + cross (velOf u - velOf p1) B + cross (velOf u' - velOf p1) B with hG
  have hGn : G.norm ≤ L * d' * (2 / SpeedOfLight) + 2 * (L * d') + 2 * (w + F * h) * M + 2 * (w + 2 * (F * h)) * M := by
    rw [hG]
    refine (Vec.norm_add_le _ _).trans (add_le_add ?_ c3)
    refine (Vec.norm_add_le _ _).trans (add_le_add ?_ c2)
    exact (Vec.norm_add_le _ _).trans (add_le_add c5 c1)
  have e : u' - p1 = (u - p0) + G * (qm * (h / 2)) - (p1 - p0 - (E / SpeedOfLight + cross (velOf p1) B) * (qm * h)) := by
    rw [hG]
    conv_lhs => rw [hu']
    exact step_vec qm h SpeedOfLight u u' p0 p1 _ _ _ E E' B B'
  have n1 := norm_sub_le' ((u - p0) + G * (qm * (h / 2))) (p1 - p0 - (E / SpeedOfLight + cross (velOf p1) B) * (qm * h))
  rw [← e] at n1
  have n2 := Vec.norm_add_le (u - p0) (G * (qm * (h / 2)))
  rw [Vec.norm_mul, abs_mul, abs_of_nonneg (show 0 ≤ h / 2 by positivity)] at n2
  have n3 := mul_le_mul_of_nonneg_right hGn (show 0 ≤ |qm| * (h / 2) by positivity)
  have e2 : (L * d' * (2 / SpeedOfLight) + 2 * (L * d') + 2 * (w + F * h) * M + 2 * (w + 2 * (F * h)) * M) * (|qm| * (h / 2)) =
      h * (|qm| * (L / SpeedOfLight + L) * d') + h * (|qm| * M * (2 * w + 3 * (F * h))) := by ring
  rw [e2] at n3
  clear_value G d w d'
  exact step_arith h0 h1 hc.le (by positivity) (by positivity) hA hd0 hw0 k1 (by linarith)

/-- the constants of a particle under way, at the time `t` -/
structure Consts (qm h t : ℝ) (q : Particle) : Prop where
  dt : q.dt = h
  ratio : q.qm = qm
  qmt2 : q.qmt2 = qm * (h / 2)
  time : q.tCur = t
  gamma : q.VYgamma = gammaOf q.VYp

/-- a step of the tracking -/
theorem step_of {qm h t : ℝ} {q : Particle} {field : FieldFn} (hq : Consts qm h t q) {EB : EMField}
    (hf : field (t + h) (q.XCur + velOf q.VYp * (SpeedOfLight * h)) = .ok EB) :
    ∃ q', q.StepVay field = .ok q' ∧ Consts qm h (t + h) q' ∧ q'.XCur = q.XCur + velOf q.VYp * (SpeedOfLight * h) ∧
      q'.VYp = q.VYp + (EB.E / SpeedOfLight * (2 : ℝ) + cross (velOf q.VYp + velOf q'.VYp) EB.B) * (qm * (h / 2)) ∧
      q'.PCur = q.VYp + (EB.E / SpeedOfLight + cross (velOf q.VYp) EB.B) * (qm * (h / 2)) := by
  have hbeta : q.VYp / q.VYgamma = velOf q.VYp := by rw [hq.gamma, velOf_eq]
  have hX : q.XCur + q.VYp / q.VYgamma * SpeedOfLight * q.dt = q.XCur + velOf q.VYp * (SpeedOfLight * h) := by
    rw [hbeta, hq.dt]
    ext <;> simp <;> ring
  have ht : q.tCur + q.dt = t + h := by rw [hq.time, hq.dt]
  simp only [Particle.StepVay]
  rw [ht, hX, hf]
  refine ⟨_, rfl, ⟨hq.dt, hq.ratio, hq.qmt2, rfl, ?_⟩, rfl, ?_, ?_⟩
  · exact Setting.gamma_eq _ _ _ _
  · show Particle.vayMomentum _ _ _ _ = _
    rw [hbeta, hq.qmt2]
    set P := q.VYp + (EB.E / SpeedOfLight + cross (velOf q.VYp) EB.B) * (qm * (h / 2)) with hP
    have := Particle.vay_implicit (qm * (h / 2)) P EB.E EB.B
    show _ = q.VYp + (EB.E / SpeedOfLight * (2 : ℝ) + cross (velOf q.VYp + velOf (Particle.vayMomentum (qm * (h / 2)) P EB.E EB.B)) EB.B) * (qm * (h / 2))
    generalize Particle.vayMomentum (qm * (h / 2)) P EB.E EB.B = w' at this
    rw [hP] at this
    conv_lhs => rw [this]
    ext <;> simp [cross] <;> ring
  · show q.VYp + (EB.E / SpeedOfLight + cross (q.VYp / q.VYgamma) EB.B) * q.qmt2 = _
    rw [hbeta, hq.qmt2]

/-- the factor of the time step in the error after the passage of a jump -/
noncomputable def growth (C0 T Λ N G R S σ : ℝ) : ℝ :=
  Real.exp (Λ * T) * (Real.exp (Λ * T) * (C0 + N * T) + G +
      G * ⌈(S * (R * (Real.exp (Λ * T) * (C0 + N * T) + G) / σ + 1) + R * (Real.exp (Λ * T) * (C0 + N * T) + G)) / σ +
        (R * (Real.exp (Λ * T) * (C0 + N * T) + G) / σ + 1) + 1⌉₊ + N * T)

set_option maxHeartbeats 1000000 in
/-- the error in the passage of a jump.  `e` is the error, `t` the time, `D n` the distances to the planes of the jumps.  In every step the error grows by at
most `G h`; before and behind all of the planes it grows as if there was no jump. -/
theorem phases {ι : Type*} {e t : ℕ → ℝ} {D : ι → ℕ → ℝ} {K : ℕ} {h τ s0 T C0 Λ N G R S σ : ℝ} (hh : 0 < h) (hΛ : 0 ≤ Λ) (hN : 0 ≤ N)
    (hG : 0 ≤ G) (hR : 0 ≤ R) (hS : 0 ≤ S) (hσ : 0 < σ) (hC0 : 0 ≤ C0) (ht : ∀ k, t k = s0 + k * h) (hs0 : s0 ≤ τ) (hT : ∀ k ≤ K, t k - s0 ≤ T) (hT0 : 0 ≤ T)
    (start : e 0 ≤ C0 * h)
    (crude : ∀ k < K, e (k + 1) ≤ e k + G * h)
    (before : ∀ k < K, t (k + 1) ≤ τ → (∀ n, D n (k + 1) < 0) → e (k + 1) ≤ (1 + Λ * h) * e k + N * h ^ 2)
    (behind : ∀ k < K, τ ≤ t k → (∀ n, 0 < D n (k + 1)) → e (k + 1) ≤ (1 + Λ * h) * e k + N * h ^ 2)
    (moving : ∀ k < K, ∀ n, D n k + σ * h ≤ D n (k + 1))
    (approach : ∀ k ≤ K, t k ≤ τ → ∀ n, D n k ≤ -(σ * (τ - t k)) + R * e k ∧ -(S * (τ - t k)) - R * e k ≤ D n k) :
    ∀ k ≤ K, e k ≤ growth C0 T Λ N G R S σ * h := by
  unfold growth
  set C1 := Real.exp (Λ * T) * (C0 + N * T) with hC1
  have hexp : 1 ≤ Real.exp (Λ * T) := Real.one_le_exp (by positivity)
  have hC10 : C0 ≤ C1 := by
    have : 0 ≤ N * T := by positivity
    nlinarith
  have hC1p : 0 ≤ C1 := hC0.trans hC10
  set a := R * (C1 + G) / σ + 1 with ha
  have ha1 : 1 ≤ a := by
    have : 0 ≤ R * (C1 + G) / σ := by positivity
    linarith
  have haσ : σ * a = R * (C1 + G) + σ := by rw [ha]; field_simp
  set B := ⌈(S * a + R * (C1 + G)) / σ + a + 1⌉₊ with hB
  have hBr : (S * a + R * (C1 + G)) / σ + a + 1 ≤ B := Nat.le_ceil _
  have hB1 : S * a + R * (C1 + G) < σ * B := by
    have h1 : (S * a + R * (C1 + G)) / σ < B := by linarith
    rw [div_lt_iff₀ hσ] at h1
    linarith
  have hBa : a ≤ B := by
    have : 0 ≤ (S * a + R * (C1 + G)) / σ := by positivity
    linarith
  have tstep : ∀ k, t (k + 1) = t k + h := fun k => by rw [ht, ht]; push_cast; ring
  have tmono : ∀ k l, k ≤ l → t k ≤ t l := fun k l hkl => by
    rw [ht, ht]
    have : (k : ℝ) ≤ l := by exact_mod_cast hkl
    nlinarith
  have tz : ∀ k, 0 ≤ t k - s0 := fun k => by
    rw [ht, add_sub_cancel_left]
    positivity
  -- growth in a good step
  have grow : ∀ (C z E0 E1 : ℝ), 0 ≤ C → 0 ≤ z → E0 ≤ Real.exp (Λ * z) * (C + N * z) * h → E1 ≤ (1 + Λ * h) * E0 + N * h ^ 2 →
      E1 ≤ Real.exp (Λ * (z + h)) * (C + N * (z + h)) * h := by
    intro C z E0 E1 hC hz h1 h2
    have e1 : Real.exp (Λ * (z + h)) = Real.exp (Λ * h) * Real.exp (Λ * z) := by rw [← Real.exp_add]; ring_nf
    have e2 : 1 + Λ * h ≤ Real.exp (Λ * h) := by linarith [Real.add_one_le_exp (Λ * h)]
    have e3 : 1 ≤ Real.exp (Λ * (z + h)) := Real.one_le_exp (by positivity)
    have e4 : 0 ≤ Real.exp (Λ * z) * (C + N * z) * h := by positivity
    have i1 : (1 + Λ * h) * E0 ≤ Real.exp (Λ * h) * (Real.exp (Λ * z) * (C + N * z) * h) :=
      (mul_le_mul_of_nonneg_left h1 (by positivity)).trans (mul_le_mul_of_nonneg_right e2 e4)
    have i2 : N * h ^ 2 ≤ Real.exp (Λ * (z + h)) * (N * h ^ 2) := by
      have : 0 ≤ N * h ^ 2 := by positivity
      nlinarith
    calc E1 ≤ _ := h2
      _ ≤ Real.exp (Λ * h) * (Real.exp (Λ * z) * (C + N * z) * h) + Real.exp (Λ * (z + h)) * (N * h ^ 2) := add_le_add i1 i2
      _ = _ := by rw [e1]; ring
  have within : ∀ (C z : ℝ), 0 ≤ C → 0 ≤ z → z ≤ T → Real.exp (Λ * z) * (C + N * z) * h ≤ Real.exp (Λ * T) * (C + N * T) * h := by
    intro C z hC hz hzT
    gcongr
  -- before the jump
  have one : ∀ k ≤ K, t k ≤ τ - a * h → e k ≤ Real.exp (Λ * (t k - s0)) * (C0 + N * (t k - s0)) * h := by
    intro k
    induction k with
    | zero =>
      intro _ _
      rw [ht 0]
      simpa using start
    | succ k ih =>
      intro hk hle
      have hz : 0 ≤ t k - s0 := tz k
      have hk' := ih (by omega) (by rw [tstep] at hle; linarith)
      have hk1 : e k ≤ C1 * h := hk'.trans (within C0 _ hC0 hz (hT k (by omega)))
      have hcr := crude k (by omega)
      have hneg : ∀ n, D n (k + 1) < 0 := by
        intro n
        have h1 := (approach (k + 1) hk (by nlinarith) n).1
        have h2 : σ * (a * h) ≤ σ * (τ - t (k + 1)) := mul_le_mul_of_nonneg_left (by linarith) hσ.le
        have h3 : R * e (k + 1) ≤ R * ((C1 + G) * h) := mul_le_mul_of_nonneg_left (by linarith) hR
        have h4 : σ * (a * h) = R * ((C1 + G) * h) + σ * h := by rw [← mul_assoc, haσ]; ring
        have h5 : 0 < σ * h := by positivity
        linarith
      have := grow C0 (t k - s0) _ _ hC0 hz hk' (before k (by omega) (by nlinarith) hneg)
      rw [show t k - s0 + h = t (k + 1) - s0 by rw [tstep]; ring] at this
      exact this
  have oneC : ∀ k ≤ K, t k ≤ τ - a * h → e k ≤ C1 * h := fun k hk h1 => by
    have hz : 0 ≤ t k - s0 := tz k
    exact (one k hk h1).trans (within C0 _ hC0 hz (hT k hk))
  have hBn : (0 : ℝ) ≤ B := Nat.cast_nonneg B
  set C2 := C1 + G + G * B with hC2
  have hC2p : 0 ≤ C2 := by positivity
  have hfin : ∀ C : ℝ, 0 ≤ C → C ≤ C2 → C * h ≤ Real.exp (Λ * T) * (C2 + N * T) * h := by
    intro C hC hCC
    have : 0 ≤ N * T := by positivity
    refine mul_le_mul_of_nonneg_right ?_ hh.le
    nlinarith
  intro k hk
  by_cases hcase : t k ≤ τ - a * h
  · exact (oneC k hk hcase).trans (hfin C1 hC1p (by rw [hC2]; linarith [mul_nonneg hG hBn]))
  -- the first point in the vicinity of the jump
  have hex : ∃ j, ¬ t j ≤ τ - a * h := ⟨k, hcase⟩
  classical
  set j := Nat.find hex with hj
  have hj1 : ¬ t j ≤ τ - a * h := Nat.find_spec hex
  have hjk : j ≤ k := Nat.find_min' hex hcase
  have hjlt : ∀ i < j, t i ≤ τ - a * h := fun i hi => not_not.mp (Nat.find_min hex hi)
  clear_value j
  have hej : e j ≤ (C1 + G) * h := by
    rcases Nat.eq_zero_or_pos j with h0 | h0
    · rw [h0]
      have : C0 * h ≤ (C1 + G) * h := mul_le_mul_of_nonneg_right (by linarith) hh.le
      linarith
    · obtain ⟨i, rfl⟩ : ∃ i, j = i + 1 := ⟨j - 1, by omega⟩
      have h1 := oneC i (by omega) (hjlt i (by omega))
      have h2 := crude i (by omega)
      linarith
  have htj : t j ≤ τ := by
    rcases Nat.eq_zero_or_pos j with h0 | h0
    · rw [h0, ht]
      simpa using hs0
    · obtain ⟨i, rfl⟩ : ∃ i, j = i + 1 := ⟨j - 1, by omega⟩
      have h1 := hjlt i (by omega)
      rw [tstep]
      nlinarith
  have hjlow : τ - t j ≤ a * h := by linarith
  -- the planes are crossed
  have cross : ∀ m, j + m ≤ K → ∀ n, D n j + σ * h * m ≤ D n (j + m) := by
    intro m
    induction m with
    | zero => intro _ n; simp
    | succ m ih =>
      intro hm n
      have h1 := ih (by omega) n
      have h2 := moving (j + m) (by omega) n
      have e1 : D n (j + (m + 1)) = D n (j + m + 1) := by rw [add_assoc]
      rw [e1]
      push_cast
      linarith
  have crossed : ∀ m, B ≤ m → j + m ≤ K → ∀ n, 0 < D n (j + m) := by
    intro m hm hmK n
    have h1 := cross m hmK n
    have h2 := (approach j (by omega) htj n).2
    have h3 : S * (τ - t j) ≤ S * (a * h) := mul_le_mul_of_nonneg_left hjlow hS
    have h4 : R * e j ≤ R * ((C1 + G) * h) := mul_le_mul_of_nonneg_left hej hR
    have h5 : (S * a + R * (C1 + G)) * h < σ * B * h := mul_lt_mul_of_pos_right hB1 hh
    have h6 : σ * h * B ≤ σ * h * m := mul_le_mul_of_nonneg_left (by exact_mod_cast hm) (by positivity)
    linarith
  have near : ∀ m, j + m ≤ K → e (j + m) ≤ (C1 + G + G * m) * h := by
    intro m
    induction m with
    | zero => intro _; simpa using hej
    | succ m ih =>
      intro hm
      have h1 := ih (by omega)
      have h2 := crude (j + m) (by omega)
      have e1 : e (j + (m + 1)) = e (j + m + 1) := by rw [add_assoc]
      rw [e1]
      push_cast
      linarith
  obtain ⟨m, rfl⟩ : ∃ m, k = j + m := ⟨k - j, by omega⟩
  by_cases hmB : m ≤ B
  · refine (near m hk).trans (hfin _ (by positivity) ?_)
    rw [hC2]
    have : G * (m : ℝ) ≤ G * B := mul_le_mul_of_nonneg_left (by exact_mod_cast hmB) hG
    linarith
  · obtain ⟨l, rfl⟩ : ∃ l, m = B + l := ⟨m - B, by omega⟩
    have hlate : ∀ l, j + (B + l) ≤ K → e (j + (B + l)) ≤ Real.exp (Λ * (l * h)) * (C2 + N * (l * h)) * h := by
      intro l
      induction l with
      | zero =>
        intro hl
        have := near B (by simpa using hl)
        simpa [hC2] using this
      | succ l ih =>
        intro hl
        have h1 := ih (by omega)
        have hτ : τ ≤ t (j + (B + l)) := by
          have h2 : t (j + (B + l)) = t j + (B + l) * h := by rw [ht, ht]; push_cast; ring
          have h3 : a * h ≤ B * h := mul_le_mul_of_nonneg_right hBa hh.le
          have h4 : (0 : ℝ) ≤ l * h := by positivity
          rw [h2]
          linarith
        have hpos := crossed (B + (l + 1)) (by omega) hl
        have e1 : j + (B + (l + 1)) = j + (B + l) + 1 := by omega
        rw [e1] at hpos ⊢
        have := grow C2 (l * h) _ _ hC2p (by positivity) h1 (behind _ (by omega) hτ hpos)
        push_cast
        rw [show ((l : ℝ) + 1) * h = l * h + h by ring]
        exact this
    have hlT : (l : ℝ) * h ≤ T := by
      have h2 := hT _ hk
      rw [ht] at h2
      push_cast at h2
      have h3 : (0 : ℝ) ≤ (j + B) * h := by positivity
      nlinarith
    exact (hlate l hk).trans (within C2 _ hC2p (by positivity) hlT)

end Edge
end Teufel
