import Verif.Lemmas.Converge

/-! # One step of the tracking compared with the exact motion -/

namespace Teufel
open Vec

/-- what is used of the momentum; central differences over `σ` or more -/
structure MomBounds (f : ℝ → Vec) (a b M σ : ℝ) : Prop where
  zeroth : ∀ t s, a ≤ t - |s| → t + |s| ≤ b → (f (t + s) - f t).norm ≤ M * |s|
  first : ∀ t s v, HasVelocity f v t → a ≤ t - |s| → t + |s| ≤ b → (f (t + s) - f t - v * s).norm ≤ M * s ^ 2
  central : ∀ t s v, HasVelocity f v t → 0 ≤ s → σ ≤ s → a ≤ t - s → t + s ≤ b → (f (t + s) - f (t - s) - v * (2 * s)).norm ≤ M * s ^ 3

/-- what is used of the velocity; differences over `σ` or more -/
structure VelBounds (f : ℝ → Vec) (a b M σ : ℝ) : Prop where
  second : ∀ t s, 0 ≤ s → σ ≤ s → a ≤ t - s → t + s ≤ b → (f (t + s) + f (t - s) - f t * (2 : ℝ)).norm ≤ M * s ^ 2
  path : ∀ (g : ℝ → Vec) (k a' b' : ℝ), a ≤ a' → b' ≤ b → (∀ t, a' ≤ t → t ≤ b' → HasVelocity g (f t * k) t) → ∀ t s, 0 ≤ s → σ ≤ s → a' ≤ t - s → t + s ≤ b' →
    (g (t + s) - g (t - s) - f t * (k * (2 * s))).norm ≤ M * |k| * s ^ 3

theorem Bounds.mom {f : ℝ → Vec} {a b M : ℝ} (h : Bounds f a b M) (σ : ℝ) : MomBounds f a b M σ :=
  ⟨h.zeroth, h.first, fun t s v hv hs _ => h.central t s v hv hs⟩

theorem Bounds.vel {f : ℝ → Vec} {a b M : ℝ} (h : Bounds f a b M) (σ : ℝ) : VelBounds f a b M σ :=
  ⟨fun t s hs _ => h.second t s hs, fun g k a' b' h1 h2 hg t s hs _ => h.path g k a' b' h1 h2 hg t s hs⟩

/-- all that is used of the exact motion, for half steps of at least `σ` -/
structure Setting (qm : ℝ) (field : FieldFn) (x p : ℝ → Vec) (t0 T r L Bm M σ : ℝ) : Prop where
  motion : Motion qm field x p t0 T
  tame : TameNear field x t0 T r L Bm
  mom : MomBounds p (t0 - 1) (t0 + T + 1) M σ
  vel : VelBounds (fun t => velOf (p t)) (t0 - 1) (t0 + T + 1) M σ
  hM : 0 ≤ M
  hL : 0 ≤ L
  hB : 0 ≤ Bm
  hT : 0 ≤ T

theorem Bounds.mono {f : ℝ → Vec} {a b M N : ℝ} (h : Bounds f a b M) (hMN : M ≤ N) : Bounds f a b N := by
  refine ⟨fun t s h1 h2 => (h.zeroth t s h1 h2).trans ?_, fun t s v hv h1 h2 => (h.first t s v hv h1 h2).trans ?_,
    fun t s hs h1 h2 => (h.second t s hs h1 h2).trans ?_, fun t s v hv hs h1 h2 => (h.central t s v hv hs h1 h2).trans ?_,
    fun g k a' b' h1 h2 hg t s hs h3 h4 => (h.path g k a' b' h1 h2 hg t s hs h3 h4).trans ?_⟩
  · exact mul_le_mul_of_nonneg_right hMN (abs_nonneg s)
  · exact mul_le_mul_of_nonneg_right hMN (sq_nonneg s)
  · exact mul_le_mul_of_nonneg_right hMN (sq_nonneg s)
  · exact mul_le_mul_of_nonneg_right hMN (by positivity)
  · rw [mul_assoc, mul_assoc]
    exact mul_le_mul_of_nonneg_right hMN (by positivity)

theorem norm_cross_bound {a b : Vec} {A B : ℝ} (ha : a.norm ≤ A) (hb : b.norm ≤ B) : (cross a b).norm ≤ A * B :=
  (norm_cross_le a b).trans (mul_le_mul ha hb (norm_nonneg b) ((norm_nonneg a).trans ha))

namespace Setting
variable {qm : ℝ} {field : FieldFn} {x p : ℝ → Vec} {t0 T r L Bm M σ : ℝ}

/-- coupling of the errors of position and momentum -/
noncomputable def K (qm L Bm : ℝ) : ℝ := |qm| * (L / SpeedOfLight + L + Bm)

theorem K_nonneg (S : Setting qm field x p t0 T r L Bm M σ) : 0 ≤ K qm L Bm := by
  have := SpeedOfLight_pos
  have := S.hL
  have := S.hB
  unfold K
  positivity

/-- growth of the error of the position in a step -/
theorem position (S : Setting qm field x p t0 T r L Bm M σ) (t s : ℝ) (hs : 0 ≤ s) (hσ : σ ≤ s) (h1 : t0 ≤ t - s) (h2 : t + s ≤ t0 + T) (X u : Vec) :
    (X + velOf u * SpeedOfLight * (2 * s) - x (t + s)).norm ≤
      (X - x (t - s)).norm + 4 * SpeedOfLight * s * (u - p t).norm + M * SpeedOfLight * s ^ 3 := by
  have hc := SpeedOfLight_pos
  have hb := S.vel.path x SpeedOfLight t0 (t0 + T) (by linarith) (by linarith) (fun t h h' => S.motion.position t h h') t s hs hσ h1 h2
  rw [abs_of_pos hc] at hb
  have e : X + velOf u * SpeedOfLight * (2 * s) - x (t + s) = (X - x (t - s)) + (velOf u - velOf (p t)) * (SpeedOfLight * (2 * s)) -
      (x (t + s) - x (t - s) - velOf (p t) * (SpeedOfLight * (2 * s))) := by
    ext <;> simp <;> ring
  rw [e]
  have n1 := norm_sub_le' ((X - x (t - s)) + (velOf u - velOf (p t)) * (SpeedOfLight * (2 * s))) (x (t + s) - x (t - s) - velOf (p t) * (SpeedOfLight * (2 * s)))
  have n2 := Vec.norm_add_le (X - x (t - s)) ((velOf u - velOf (p t)) * (SpeedOfLight * (2 * s)))
  rw [Vec.norm_mul, abs_of_nonneg (by positivity)] at n2
  have n3 := mul_le_mul_of_nonneg_right (velOf_lip u (p t)) (show 0 ≤ SpeedOfLight * (2 * s) by positivity)
  linarith

/-- the fields seen by the particle -/
theorem fields (S : Setting qm field x p t0 T r L Bm M σ) (t : ℝ) (h1 : t0 ≤ t) (h2 : t ≤ t0 + T) (X : Vec) (hX : (X - x t).norm ≤ r) :
    ∃ EB EB' : EMField, field t (x t) = .ok EB ∧ field t X = .ok EB' ∧ EB.B.norm ≤ Bm ∧
      HasVelocity p ((EB.E / SpeedOfLight + cross (velOf (p t)) EB.B) * qm) t ∧
      (EB'.E - EB.E).norm ≤ L * (X - x t).norm ∧ (EB'.B - EB.B).norm ≤ L * (X - x t).norm := by
  obtain ⟨EB, h3, h4⟩ := S.motion.momentum t h1 h2
  obtain ⟨EB', h5, h6, h7⟩ := S.tame.near t h1 h2 EB h3 X hX
  refine ⟨EB, EB', h3, h5, S.tame.magnetic t h1 h2 EB h3, ?_, h6, h7⟩
  have hc := SpeedOfLight_pos.ne'
  have : (EB.E + cross (velOf (p t) * SpeedOfLight) EB.B) * (qm / SpeedOfLight) = (EB.E / SpeedOfLight + cross (velOf (p t)) EB.B) * qm := by
    ext <;> simp [cross] <;> field_simp
  rwa [this] at h4

/-- growth of the error of the momentum in a step -/
theorem momentum (S : Setting qm field x p t0 T r L Bm M σ) (t s : ℝ) (hs : 0 ≤ s) (hσ : σ ≤ s) (hs1 : s ≤ 1) (h1 : t0 ≤ t) (h2 : t ≤ t0 + T) (d : ℝ) (hd : 0 ≤ d) (u u' : Vec)
    (EB EB' : EMField) (hB : EB.B.norm ≤ Bm) (hv : HasVelocity p ((EB.E / SpeedOfLight + cross (velOf (p t)) EB.B) * qm) t)
    (hdE : (EB'.E - EB.E).norm ≤ L * d) (hdB : (EB'.B - EB.B).norm ≤ L * d)
    (hu : u' = u + (EB'.E / SpeedOfLight * (2 : ℝ) + cross (velOf u + velOf u') EB'.B) * (qm * s)) :
    (u' - p (t + s)).norm ≤ (u - p (t - s)).norm + 2 * s * K qm L Bm * (d + (u - p (t - s)).norm + (u' - p (t + s)).norm) +
      (|qm| * M * Bm + M) * s ^ 3 := by
  have hc := SpeedOfLight_pos
  have b1 := S.mom.central t s _ hv hs hσ (by linarith) (by linarith)
  have b2 := S.vel.second t s hs hσ (by linarith) (by linarith)
  have hLd : 0 ≤ L * d := (Vec.norm_nonneg _).trans hdE
  have c1 : (cross (velOf u + velOf u') (EB'.B - EB.B)).norm ≤ 2 * (L * d) :=
    norm_cross_bound ((Vec.norm_add_le _ _).trans (by linarith [velOf_le u, velOf_le u'])) hdB
  have c2 : (cross (velOf u - velOf (p (t - s))) EB.B).norm ≤ 2 * (u - p (t - s)).norm * Bm := norm_cross_bound (velOf_lip _ _) hB
  have c3 : (cross (velOf u' - velOf (p (t + s))) EB.B).norm ≤ 2 * (u' - p (t + s)).norm * Bm := norm_cross_bound (velOf_lip _ _) hB
  have c4 : (cross (velOf (p (t + s)) + velOf (p (t - s)) - velOf (p t) * (2 : ℝ)) EB.B).norm ≤ M * s ^ 2 * Bm := norm_cross_bound b2 hB
  have c5 : ((EB'.E - EB.E) * (2 / SpeedOfLight)).norm ≤ L * d * (2 / SpeedOfLight) := by
    rw [Vec.norm_mul, abs_of_pos (by positivity)]
    exact mul_le_mul_of_nonneg_right hdE (by positivity)
  set F : Vec := (EB'.E - EB.E) * (2 / SpeedOfLight) + cross (velOf u + velOf u') (EB'.B - EB.B) + cross (velOf u - velOf (p (t - s))) EB.B +
    cross (velOf u' - velOf (p (t + s))) EB.B + cross (velOf (p (t + s)) + velOf (p (t - s)) - velOf (p t) * (2 : ℝ)) EB.B with hF
  have e : u' - p (t + s) = (u - p (t - s)) + F * (qm * s) -
      (p (t + s) - p (t - s) - (EB.E / SpeedOfLight + cross (velOf (p t)) EB.B) * qm * (2 * s)) := by
    rw [hF]
    conv_lhs => rw [hu]
    ext <;> simp [cross] <;> field_simp <;> ring
  have hFn : F.norm ≤ L * d * (2 / SpeedOfLight) + 2 * (L * d) + 2 * (u - p (t - s)).norm * Bm + 2 * (u' - p (t + s)).norm * Bm + M * s ^ 2 * Bm := by
    rw [hF]
    refine (Vec.norm_add_le _ _).trans (add_le_add ?_ c4)
    refine (Vec.norm_add_le _ _).trans (add_le_add ?_ c3)
    refine (Vec.norm_add_le _ _).trans (add_le_add ?_ c2)
    exact (Vec.norm_add_le _ _).trans (add_le_add c5 c1)
  have n1 := norm_sub_le' ((u - p (t - s)) + F * (qm * s)) (p (t + s) - p (t - s) - (EB.E / SpeedOfLight + cross (velOf (p t)) EB.B) * qm * (2 * s))
  rw [← e] at n1
  have n2 := Vec.norm_add_le (u - p (t - s)) (F * (qm * s))
  rw [Vec.norm_mul, abs_mul, abs_of_nonneg hs] at n2
  have n3 := mul_le_mul_of_nonneg_right hFn (show 0 ≤ |qm| * s by positivity)
  have hw := Vec.norm_nonneg (u - p (t - s))
  have hw' := Vec.norm_nonneg (u' - p (t + s))
  have hq : 0 ≤ |qm| * s := by positivity
  have hd0 : 0 ≤ L / SpeedOfLight * (u - p (t - s)).norm := mul_nonneg (div_nonneg S.hL hc.le) hw
  have hd1 : 0 ≤ L / SpeedOfLight * (u' - p (t + s)).norm := mul_nonneg (div_nonneg S.hL hc.le) hw'
  have hd2 : 0 ≤ L * (u - p (t - s)).norm := mul_nonneg S.hL hw
  have hd3 : 0 ≤ L * (u' - p (t + s)).norm := mul_nonneg S.hL hw'
  have key : (L * d * (2 / SpeedOfLight) + 2 * (L * d) + 2 * (u - p (t - s)).norm * Bm + 2 * (u' - p (t + s)).norm * Bm + M * s ^ 2 * Bm) * (|qm| * s)
      + 2 * s * |qm| * (Bm * d) ≤
      2 * s * K qm L Bm * (d + (u - p (t - s)).norm + (u' - p (t + s)).norm) + |qm| * M * Bm * s ^ 3 := by
    have : 2 * s * K qm L Bm * (d + (u - p (t - s)).norm + (u' - p (t + s)).norm) + |qm| * M * Bm * s ^ 3 =
      (L * d * (2 / SpeedOfLight) + 2 * (L * d) + 2 * (u - p (t - s)).norm * Bm + 2 * (u' - p (t + s)).norm * Bm + M * s ^ 2 * Bm) * (|qm| * s)
      + 2 * s * |qm| * (Bm * d) + 2 * (|qm| * s) * (L / SpeedOfLight * (u - p (t - s)).norm + L / SpeedOfLight * (u' - p (t + s)).norm +
        L * (u - p (t - s)).norm + L * (u' - p (t + s)).norm) := by
      unfold K
      ring
    rw [this]
    have : 0 ≤ 2 * (|qm| * s) * (L / SpeedOfLight * (u - p (t - s)).norm + L / SpeedOfLight * (u' - p (t + s)).norm +
        L * (u - p (t - s)).norm + L * (u' - p (t + s)).norm) := by positivity
    linarith
  have hBd : 0 ≤ 2 * s * |qm| * (Bm * d) := by
    have := S.hB
    positivity
  linarith

/-- error of the momentum half a step after the start -/
theorem start (S : Setting qm field x p t0 T r L Bm M σ) (s : ℝ) (hs : 0 ≤ s) (hs1 : s ≤ 1) (u : Vec) (EB : EMField) (hB : EB.B.norm ≤ Bm)
    (hv : HasVelocity p ((EB.E / SpeedOfLight + cross (velOf (p t0)) EB.B) * qm) t0)
    (hu : u = p t0 + (EB.E / SpeedOfLight + cross (velOf u) EB.B) * (qm * s)) :
    (u - p (t0 + s)).norm ≤ (2 * |qm| ^ 2 * (EB.E.norm / SpeedOfLight + Bm) * Bm + M) * s ^ 2 := by
  have hc := SpeedOfLight_pos
  have hT := S.hT
  have b1 := S.mom.first t0 s _ hv (by rw [abs_of_nonneg hs]; linarith) (by rw [abs_of_nonneg hs]; linarith)
  have c0 : (u - p t0).norm ≤ (EB.E.norm / SpeedOfLight + Bm) * (|qm| * s) := by
    have : u - p t0 = (EB.E / SpeedOfLight + cross (velOf u) EB.B) * (qm * s) := by
      conv_lhs => rw [hu]
      abel
    rw [this, Vec.norm_mul, abs_mul, abs_of_nonneg hs]
    refine mul_le_mul_of_nonneg_right ?_ (by positivity)
    refine (Vec.norm_add_le _ _).trans (add_le_add ?_ ?_)
    · rw [norm_div, abs_of_pos hc]
    · have := norm_cross_bound (velOf_le u) hB
      linarith
  have c1 : (cross (velOf u - velOf (p t0)) EB.B).norm ≤ 2 * ((EB.E.norm / SpeedOfLight + Bm) * (|qm| * s)) * Bm :=
    norm_cross_bound ((velOf_lip _ _).trans (by linarith)) hB
  have e : u - p (t0 + s) = cross (velOf u - velOf (p t0)) EB.B * (qm * s) -
      (p (t0 + s) - p t0 - (EB.E / SpeedOfLight + cross (velOf (p t0)) EB.B) * qm * s) := by
    conv_lhs => rw [hu]
    ext <;> simp [cross] <;> ring
  rw [e]
  refine (norm_sub_le' _ _).trans ?_
  rw [Vec.norm_mul, abs_mul, abs_of_nonneg hs]
  have := mul_le_mul_of_nonneg_right c1 (show 0 ≤ |qm| * s by positivity)
  linarith

/-- error of the momentum at the stored point -/
theorem stored (S : Setting qm field x p t0 T r L Bm M σ) (t s : ℝ) (hs : 0 ≤ s) (hs1 : s ≤ 1) (h1 : t0 ≤ t) (h2 : t ≤ t0 + T) (d : ℝ) (hd : 0 ≤ d) (u P : Vec)
    (EB EB' : EMField) (hB : EB.B.norm ≤ Bm) (hv : HasVelocity p ((EB.E / SpeedOfLight + cross (velOf (p t)) EB.B) * qm) t)
    (hdE : (EB'.E - EB.E).norm ≤ L * d) (hdB : (EB'.B - EB.B).norm ≤ L * d)
    (hP : P = u + (EB'.E / SpeedOfLight + cross (velOf u) EB'.B) * (qm * s)) :
    (P - p t).norm ≤ (u - p (t - s)).norm + 2 * s * K qm L Bm * (d + (u - p (t - s)).norm) + (2 * |qm| * Bm + 1) * M * s ^ 2 := by
  have hc := SpeedOfLight_pos
  have b1 := S.mom.first t (-s) _ hv (by rw [abs_neg, abs_of_nonneg hs]; linarith) (by rw [abs_neg, abs_of_nonneg hs]; linarith)
  have b0 := S.mom.zeroth t (-s) (by rw [abs_neg, abs_of_nonneg hs]; linarith) (by rw [abs_neg, abs_of_nonneg hs]; linarith)
  rw [abs_neg, abs_of_nonneg hs] at b0
  rw [neg_sq] at b1
  rw [← sub_eq_add_neg] at b0 b1
  have c1 : (cross (velOf u) (EB'.B - EB.B)).norm ≤ 1 * (L * d) := norm_cross_bound (velOf_le u) hdB
  have c2 : (cross (velOf u - velOf (p t)) EB.B).norm ≤ 2 * ((u - p (t - s)).norm + M * s) * Bm := by
    refine norm_cross_bound ((velOf_lip _ _).trans ?_) hB
    have : u - p t = (u - p (t - s)) + (p (t - s) - p t) := by abel
    rw [this]
    linarith [Vec.norm_add_le (u - p (t - s)) (p (t - s) - p t)]
  have c5 : ((EB'.E - EB.E) * (1 / SpeedOfLight)).norm ≤ L * d * (1 / SpeedOfLight) := by
    rw [Vec.norm_mul, abs_of_pos (by positivity)]
    exact mul_le_mul_of_nonneg_right hdE (by positivity)
  set F : Vec := (EB'.E - EB.E) * (1 / SpeedOfLight) + cross (velOf u) (EB'.B - EB.B) + cross (velOf u - velOf (p t)) EB.B with hF
  have hFn : F.norm ≤ L * d * (1 / SpeedOfLight) + 1 * (L * d) + 2 * ((u - p (t - s)).norm + M * s) * Bm := by
    rw [hF]
    refine (Vec.norm_add_le _ _).trans (add_le_add ?_ c2)
    exact (Vec.norm_add_le _ _).trans (add_le_add c5 c1)
  have e : P - p t = (u - p (t - s)) + F * (qm * s) + (p (t - s) - p t - (EB.E / SpeedOfLight + cross (velOf (p t)) EB.B) * qm * (-s)) := by
    rw [hF, hP]
    ext <;> simp [cross] <;> field_simp <;> ring
  rw [e]
  refine (Vec.norm_add_le _ _).trans ?_
  have n2 := Vec.norm_add_le (u - p (t - s)) (F * (qm * s))
  rw [Vec.norm_mul, abs_mul, abs_of_nonneg hs] at n2
  have n3 := mul_le_mul_of_nonneg_right hFn (show 0 ≤ |qm| * s by positivity)
  have hw := Vec.norm_nonneg (u - p (t - s))
  have hL := S.hL
  have hBm := S.hB
  have key : 2 * s * K qm L Bm * (d + (u - p (t - s)).norm) + 2 * |qm| * Bm * M * s ^ 2 =
      (L * d * (1 / SpeedOfLight) + 1 * (L * d) + 2 * ((u - p (t - s)).norm + M * s) * Bm) * (|qm| * s) +
      (|qm| * s) * (L / SpeedOfLight * d + L * d + 2 * (Bm * d) + 2 * (L / SpeedOfLight * (u - p (t - s)).norm) + 2 * (L * (u - p (t - s)).norm)) := by
    unfold K
    ring
  have : 0 ≤ (|qm| * s) * (L / SpeedOfLight * d + L * d + 2 * (Bm * d) + 2 * (L / SpeedOfLight * (u - p (t - s)).norm) + 2 * (L * (u - p (t - s)).norm)) := by
    positivity
  linarith

/-- error of the acceleration at the stored point -/
theorem accel (S : Setting qm field x p t0 T r L Bm M σ) (t : ℝ) (d : ℝ) (P : Vec)
    (EB EB' : EMField) (hB : EB.B.norm ≤ Bm) (hdE : (EB'.E - EB.E).norm ≤ L * d) (hdB : (EB'.B - EB.B).norm ≤ L * d) :
    (Particle.vayAccel qm P EB'.E EB'.B - (EB.E / SpeedOfLight + cross (velOf (p t)) EB.B) * qm).norm ≤
      |qm| * ((L / SpeedOfLight + L) * d + 2 * Bm * (P - p t).norm) := by
  have hc := SpeedOfLight_pos
  have c1 : (cross (velOf P) (EB'.B - EB.B)).norm ≤ 1 * (L * d) := norm_cross_bound (velOf_le P) hdB
  have c2 : (cross (velOf P - velOf (p t)) EB.B).norm ≤ 2 * (P - p t).norm * Bm := norm_cross_bound (velOf_lip _ _) hB
  have c5 : ((EB'.E - EB.E) * (1 / SpeedOfLight)).norm ≤ L * d * (1 / SpeedOfLight) := by
    rw [Vec.norm_mul, abs_of_pos (by positivity)]
    exact mul_le_mul_of_nonneg_right hdE (by positivity)
  have hb : P / Real.sqrt (P.abs2nd + 1.0) = velOf P := by
    unfold velOf
    rw [show P.abs2nd + 1.0 = 1 + P.abs2nd by norm_num; ring]
  have e : Particle.vayAccel qm P EB'.E EB'.B - (EB.E / SpeedOfLight + cross (velOf (p t)) EB.B) * qm =
      ((EB'.E - EB.E) * (1 / SpeedOfLight) + cross (velOf P) (EB'.B - EB.B) + cross (velOf P - velOf (p t)) EB.B) * qm := by
    unfold Particle.vayAccel
    simp only [hb]
    ext <;> simp [cross] <;> field_simp <;> ring
  rw [e, Vec.norm_mul, mul_comm]
  refine mul_le_mul_of_nonneg_left ?_ (abs_nonneg qm)
  refine (Vec.norm_add_le _ _).trans ?_
  have := Vec.norm_add_le ((EB'.E - EB.E) * (1 / SpeedOfLight)) (cross (velOf P) (EB'.B - EB.B))
  have e2 : (L / SpeedOfLight + L) * d + 2 * Bm * (P - p t).norm = L * d * (1 / SpeedOfLight) + 1 * (L * d) + 2 * (P - p t).norm * Bm := by ring
  rw [e2]
  linarith

end Setting

/-- the two error bounds of a step give a bound of the sum of the errors -/
theorem step_sum {d w d' w' K c M R s : ℝ} (hd : 0 ≤ d) (hw : 0 ≤ w) (hd' : 0 ≤ d') (hK : 0 ≤ K) (hc : 0 ≤ c) (hM : 0 ≤ M) (hR : 0 ≤ R) (hs : 0 ≤ s)
    (hsK : 2 * s * K ≤ 1 / 2) (h1 : d' ≤ d + 4 * c * s * w + M * c * s ^ 3) (h2 : w' ≤ w + 2 * s * K * (d' + w + w') + R * s ^ 3) :
    d' + w' ≤ (1 + s * (8 * K + 8 * c)) * (d + w) + 2 * (M * c + R) * s ^ 3 := by
  set a := 2 * s * K with ha
  have ha0 : 0 ≤ a := by positivity
  have hs3 : 0 ≤ R * s ^ 3 := by positivity
  have hm3 : 0 ≤ M * c * s ^ 3 := by positivity
  have hcs : 0 ≤ c * s * w := by positivity
  -- solve for w'
  have h3 : w' ≤ (1 + 4 * a) * w + 2 * a * d' + 2 * (R * s ^ 3) := by
    have h4 : (1 - a) * w' ≤ (1 + a) * w + a * d' + R * s ^ 3 := by linarith
    have h5 : (1 + a) * w + a * d' + R * s ^ 3 ≤ (1 - a) * ((1 + 4 * a) * w + 2 * a * d' + 2 * (R * s ^ 3)) := by
      nlinarith [mul_nonneg ha0 hw, mul_nonneg ha0 hd', mul_nonneg (sub_nonneg.mpr hsK) (mul_nonneg ha0 hw), mul_nonneg (sub_nonneg.mpr hsK) (mul_nonneg ha0 hd'),
        mul_nonneg (sub_nonneg.mpr hsK) hs3]
    exact le_of_mul_le_mul_left (h4.trans h5) (by linarith)
  have h6 : (1 + 2 * a) * d' ≤ (1 + 2 * a) * (d + 4 * c * s * w + M * c * s ^ 3) := mul_le_mul_of_nonneg_left h1 (by linarith)
  have h7 : (1 + 2 * a) * (d + 4 * c * s * w + M * c * s ^ 3) ≤ (1 + 2 * a) * d + 2 * (4 * (c * s * w)) + 2 * (M * c * s ^ 3) := by
    nlinarith [mul_nonneg (sub_nonneg.mpr hsK) hcs, mul_nonneg (sub_nonneg.mpr hsK) hm3]
  have h8 : s * (8 * K + 8 * c) * (d + w) = 4 * a * d + 4 * a * w + 8 * (c * s * d) + 8 * (c * s * w) := by rw [ha]; ring
  have h9 : 0 ≤ a * d := mul_nonneg ha0 hd
  have h10 : 0 ≤ c * s * d := by positivity
  nlinarith

/-- bound of the error after `k` steps -/
theorem gronwall {e B s Λ S0 S : ℝ} (hΛ : 0 ≤ Λ) (hs : 0 ≤ s) (hS : 0 ≤ S) (hA : 0 ≤ S0) {k : Nat}
    (h : e ≤ (1 + s * Λ) ^ k * (S0 * s ^ 2 + k * S * s ^ 3)) (hB : B ≤ (1 + s * Λ) * e + S * s ^ 3) :
    B ≤ (1 + s * Λ) ^ (k + 1) * (S0 * s ^ 2 + (k + 1 : ℕ) * S * s ^ 3) := by
  have h1 : 1 ≤ 1 + s * Λ := by nlinarith [mul_nonneg hs hΛ]
  have h2 : (1 + s * Λ) * e ≤ (1 + s * Λ) * ((1 + s * Λ) ^ k * (S0 * s ^ 2 + k * S * s ^ 3)) := mul_le_mul_of_nonneg_left h (by linarith)
  have h3 : S * s ^ 3 ≤ (1 + s * Λ) ^ (k + 1) * (S * s ^ 3) := by
    have := one_le_pow₀ h1 (n := k + 1)
    have : 0 ≤ S * s ^ 3 := by positivity
    nlinarith
  push_cast
  calc B ≤ _ := hB
    _ ≤ (1 + s * Λ) * ((1 + s * Λ) ^ k * (S0 * s ^ 2 + k * S * s ^ 3)) + (1 + s * Λ) ^ (k + 1) * (S * s ^ 3) := add_le_add h2 h3
    _ = _ := by ring

theorem gronwall_total {s Λ S0 S T : ℝ} (hΛ : 0 ≤ Λ) (hs : 0 ≤ s) (hS : 0 ≤ S) (hA : 0 ≤ S0) {k : Nat} (hk : k * (2 * s) ≤ T) :
    (1 + s * Λ) ^ k * (S0 * s ^ 2 + k * S * s ^ 3) ≤ Real.exp (Λ * T) * (S0 + T * S) * s ^ 2 := by
  have hks : 0 ≤ k * s := by positivity
  have hkT : k * s ≤ T := by linarith
  have h1 : (1 + s * Λ) ^ k ≤ Real.exp (Λ * T) := by
    calc (1 + s * Λ) ^ k ≤ (Real.exp (s * Λ)) ^ k := by
          refine pow_le_pow_left₀ (by positivity) ?_ k
          linarith [Real.add_one_le_exp (s * Λ)]
      _ = Real.exp (k * (s * Λ)) := by rw [← Real.exp_nat_mul]
      _ ≤ _ := Real.exp_le_exp.mpr (by nlinarith)
  have h2 : S0 * s ^ 2 + k * S * s ^ 3 ≤ (S0 + T * S) * s ^ 2 := by
    have : k * S * s ^ 3 = (k * s) * (S * s ^ 2) := by ring
    rw [this]
    have := mul_le_mul_of_nonneg_right hkT (show 0 ≤ S * s ^ 2 by positivity)
    linarith
  have := mul_le_mul h1 h2 (by positivity) (Real.exp_pos _).le
  linarith

theorem HasVelocity.unique {f : ℝ → Vec} {v w : Vec} {t : ℝ} (h : HasVelocity f v t) (h' : HasVelocity f w t) : v = w := by
  ext
  · exact h.1.unique h'.1
  · exact h.2.1.unique h'.2.1
  · exact h.2.2.unique h'.2.2

namespace Setting
variable {qm : ℝ} {field : FieldFn} {x p : ℝ → Vec} {t0 T r L Bm M σ : ℝ}

/-- what holds of the particle after `k` steps -/
structure After (qm : ℝ) (x p : ℝ → Vec) (t0 s Λ S0 S CP CA : ℝ) (k : Nat) (q : Particle) : Prop where
  dt : q.dt = 2 * s
  ratio : q.qm = qm
  qmt2 : q.qmt2 = qm * s
  time : q.tCur = t0 + k * (2 * s)
  gamma : q.VYgamma = gammaOf q.VYp
  err : (q.XCur - x (t0 + k * (2 * s))).norm + (q.VYp - p (t0 + k * (2 * s) + s)).norm ≤ (1 + s * Λ) ^ k * (S0 * s ^ 2 + k * S * s ^ 3)
  mom : (q.PCur - p (t0 + k * (2 * s))).norm ≤ CP * s ^ 2
  acc : ∀ v, HasVelocity p v (t0 + k * (2 * s)) → (q.ACur - v).norm ≤ CA * s ^ 2

/-- the constants of the estimate -/
noncomputable def rate (qm L Bm : ℝ) : ℝ := 8 * K qm L Bm + 8 * SpeedOfLight
noncomputable def local3 (qm Bm M : ℝ) : ℝ := 2 * (M * SpeedOfLight + (|qm| * M * Bm + M))
noncomputable def total (qm L Bm M S0 T : ℝ) : ℝ := Real.exp (rate qm L Bm * T) * (S0 + T * local3 qm Bm M)
noncomputable def totalP (qm L Bm M S0 T : ℝ) : ℝ := 2 * total qm L Bm M S0 T + (2 * |qm| * Bm + 1) * M
noncomputable def totalA (qm L Bm M S0 T : ℝ) : ℝ :=
  |qm| * ((L / SpeedOfLight + L) * total qm L Bm M S0 T + 2 * Bm * totalP qm L Bm M S0 T)

theorem gamma_eq (q : ℝ) (P E B : Vec) : Particle.vayGamma q P E B = gammaOf (Particle.vayMomentum q P E B) := by
  unfold gammaOf
  rw [← Particle.vay_shell, Real.sqrt_sq (Particle.vayGamma_pos q P E B).le]

theorem advance (S : Setting qm field x p t0 T r L Bm M σ) {s S0 : ℝ} (hs : 0 ≤ s) (hσ : σ ≤ s) (hs1 : s ≤ 1) (hsK : 2 * s * K qm L Bm ≤ 1 / 2) (hS0 : 0 ≤ S0)
    (hr : total qm L Bm M S0 T * s ^ 2 ≤ r) {k : Nat} (hk : (k + 1 : ℕ) * (2 * s) ≤ T) {q : Particle}
    (h : After qm x p t0 s (rate qm L Bm) S0 (local3 qm Bm M) (totalP qm L Bm M S0 T) (totalA qm L Bm M S0 T) k q) :
    ∃ q', q.StepVay field = .ok q' ∧
      After qm x p t0 s (rate qm L Bm) S0 (local3 qm Bm M) (totalP qm L Bm M S0 T) (totalA qm L Bm M S0 T) (k + 1) q' := by
  have hc := SpeedOfLight_pos
  have hK := S.K_nonneg
  have hM := S.hM
  have hL := S.hL
  have hB := S.hB
  have hRate : 0 ≤ rate qm L Bm := by unfold rate; linarith
  have hLoc : 0 ≤ local3 qm Bm M := by unfold local3; positivity
  have hks : 0 ≤ (k : ℝ) * (2 * s) := by positivity
  have hk' : (k : ℝ) * (2 * s) + 2 * s ≤ T := by push_cast at hk; linarith
  -- the new position
  set t := t0 + k * (2 * s) with ht
  have e1 : t + s - s = t := by ring
  have e2 : t + s + s = t0 + (k + 1 : ℕ) * (2 * s) := by push_cast; ring
  set t' := t0 + (k + 1 : ℕ) * (2 * s) with ht'
  have e3 : t' - s = t + s := by linarith
  set X' : Vec := q.XCur + q.VYp / q.VYgamma * SpeedOfLight * q.dt with hX'
  have hbeta : q.VYp / q.VYgamma = velOf q.VYp := by rw [h.gamma, velOf_eq]
  have hpos := S.position (t + s) s hs hσ (by linarith) (by linarith) q.XCur q.VYp
  have hX2 : X' = q.XCur + velOf q.VYp * SpeedOfLight * (2 * s) := by rw [hX', h.dt, hbeta]
  rw [e1, e2, ← hX2] at hpos
  set d := (q.XCur - x t).norm with hd
  set w := (q.VYp - p (t + s)).norm with hw
  set d' := (X' - x t').norm with hd'
  have hd0 : 0 ≤ d := Vec.norm_nonneg _
  have hw0 : 0 ≤ w := Vec.norm_nonneg _
  have hd0' : 0 ≤ d' := Vec.norm_nonneg _
  set R := |qm| * M * Bm + M with hR
  have hR0 : 0 ≤ R := by positivity
  have g0 : d' ≤ (1 + s * rate qm L Bm) * (d + w) + local3 qm Bm M * s ^ 3 := by
    have hs3 : 0 ≤ s ^ 3 := by positivity
    have a1 : 0 ≤ M * SpeedOfLight * s ^ 3 := by positivity
    have a2 : 0 ≤ R * s ^ 3 := by positivity
    have a3 : 0 ≤ s * K qm L Bm * (d + w) := by positivity
    have a4 : 0 ≤ SpeedOfLight * s * d := by positivity
    have a5 : 0 ≤ SpeedOfLight * s * w := by positivity
    have : (1 + s * rate qm L Bm) * (d + w) + local3 qm Bm M * s ^ 3 = d + w + 8 * (s * K qm L Bm * (d + w)) + 8 * (SpeedOfLight * s * d) + 8 * (SpeedOfLight * s * w) +
        2 * (M * SpeedOfLight * s ^ 3) + 2 * (R * s ^ 3) := by unfold rate local3; ring
    rw [this]
    linarith
  have g1 : d' ≤ total qm L Bm M S0 T * s ^ 2 :=
    (gronwall hRate hs hLoc hS0 h.err g0).trans (gronwall_total hRate hs hLoc hS0 hk)
  obtain ⟨EB, EB', f1, f2, f3, f4, f5, f6⟩ := S.fields t' (by linarith) (by linarith) X' (by rw [← hd']; linarith)
  have hstep : q.StepVay field = .ok (({ q with tCur := t', XCur := X', ECur := EB'.E, BCur := EB'.B
                                                PCur := q.VYp + (EB'.E / SpeedOfLight + cross (q.VYp / q.VYgamma) EB'.B) * q.qmt2
                                                ACur := Particle.vayAccel q.qm (q.VYp + (EB'.E / SpeedOfLight + cross (q.VYp / q.VYgamma) EB'.B) * q.qmt2) EB'.E EB'.B
                                                VYgamma := Particle.vayGamma q.qmt2 (q.VYp + (EB'.E / SpeedOfLight + cross (q.VYp / q.VYgamma) EB'.B) * q.qmt2) EB'.E EB'.B
                                                VYp := Particle.vayMomentum q.qmt2 (q.VYp + (EB'.E / SpeedOfLight + cross (q.VYp / q.VYgamma) EB'.B) * q.qmt2) EB'.E EB'.B } : Particle).storeTrajectoryPoint
        t' X' (q.VYp + (EB'.E / SpeedOfLight + cross (q.VYp / q.VYgamma) EB'.B) * q.qmt2)
        (Particle.vayAccel q.qm (q.VYp + (EB'.E / SpeedOfLight + cross (q.VYp / q.VYgamma) EB'.B) * q.qmt2) EB'.E EB'.B)) := by
    have htt : q.tCur + q.dt = t' := by rw [h.time, h.dt]; linarith
    simp only [Particle.StepVay]
    rw [htt, ← hX', f2]
  set P := q.VYp + (EB'.E / SpeedOfLight + cross (q.VYp / q.VYgamma) EB'.B) * q.qmt2 with hP
  set u' := Particle.vayMomentum q.qmt2 P EB'.E EB'.B with hu'
  have himp : u' = q.VYp + (EB'.E / SpeedOfLight * (2 : ℝ) + cross (velOf q.VYp + velOf u') EB'.B) * (qm * s) := by
    have := Particle.vay_implicit q.qmt2 P EB'.E EB'.B
    rw [← hu'] at this
    generalize u' = w' at this
    rw [hP, hbeta, h.qmt2] at this
    conv_lhs => rw [this]
    ext <;> simp [cross] <;> ring
  have hmom := S.momentum t' s hs hσ hs1 (by linarith) (by linarith) d' hd0' q.VYp u' EB EB' f3 f4 f5 f6 himp
  rw [e3, ← hw] at hmom
  have hsum := step_sum hd0 hw0 hd0' hK hc.le hM hR0 hs hsK hpos hmom
  have herr := gronwall (Λ := rate qm L Bm) (S := local3 qm Bm M) hRate hs hLoc hS0 h.err hsum
  have hPq : P = q.VYp + (EB'.E / SpeedOfLight + cross (velOf q.VYp) EB'.B) * (qm * s) := by rw [hP, hbeta, h.qmt2]
  have hst := S.stored t' s hs hs1 (by linarith) (by linarith) d' hd0' q.VYp P EB EB' f3 f4 f5 f6 hPq
  rw [e3, ← hw] at hst
  have hwG : w ≤ total qm L Bm M S0 T * s ^ 2 := by
    have := h.err.trans (gronwall_total hRate hs hLoc hS0 (T := T) (by linarith))
    unfold total
    linarith
  have hPt : (P - p t').norm ≤ totalP qm L Bm M S0 T * s ^ 2 := by
    have : 2 * s * K qm L Bm * (d' + w) ≤ 1 / 2 * (d' + w) := mul_le_mul_of_nonneg_right hsK (by linarith)
    unfold totalP
    linarith
  have hA := S.accel t' d' P EB EB' f3 f5 f6
  refine ⟨_, hstep, ⟨h.dt, h.ratio, h.qmt2, rfl, gamma_eq _ _ _ _, herr, hPt, ?_⟩⟩
  intro v hv
  rw [hv.unique f4]
  show (Particle.vayAccel q.qm P EB'.E EB'.B - _).norm ≤ _
  rw [h.ratio]
  refine hA.trans ?_
  unfold totalA
  rw [mul_assoc |qm|]
  refine mul_le_mul_of_nonneg_left ?_ (abs_nonneg qm)
  have i1 := mul_le_mul_of_nonneg_left g1 (show 0 ≤ L / SpeedOfLight + L by positivity)
  have i2 := mul_le_mul_of_nonneg_left hPt (show 0 ≤ 2 * Bm by positivity)
  linarith

theorem run (S : Setting qm field x p t0 T r L Bm M σ) {s S0 : ℝ} (hs : 0 ≤ s) (hσ : σ ≤ s) (hs1 : s ≤ 1) (hsK : 2 * s * K qm L Bm ≤ 1 / 2) (hS0 : 0 ≤ S0)
    (hr : total qm L Bm M S0 T * s ^ 2 ≤ r) {q : Particle}
    (h : After qm x p t0 s (rate qm L Bm) S0 (local3 qm Bm M) (totalP qm L Bm M S0 T) (totalA qm L Bm M S0 T) 0 q) (k : Nat) (hk : k * (2 * s) ≤ T) :
    ∃ q', q.steps (List.replicate k field) = .ok q' ∧
      After qm x p t0 s (rate qm L Bm) S0 (local3 qm Bm M) (totalP qm L Bm M S0 T) (totalA qm L Bm M S0 T) k q' := by
  induction k with
  | zero => exact ⟨q, rfl, h⟩
  | succ k ih =>
    obtain ⟨q1, h1, h2⟩ := ih (by push_cast at hk; linarith)
    obtain ⟨q2, h3, h4⟩ := S.advance hs hσ hs1 hsK hS0 hr hk h2
    refine ⟨q2, ?_, h4⟩
    rw [List.replicate_succ', Particle.steps_append_ok h1]
    simp only [Particle.steps, List.foldlM_cons, List.foldlM_nil]
    rw [h3]
    rfl

end Setting
end Teufel
