import Verif.Lemmas.Regular
import Verif.Props.Convergence

/-!
# C118: in fields without jumps the exact motion exists, is unique, and the tracking converges to it

`RegularField` (Spec/Regular) says that a field is defined everywhere and Lipschitz continuous in bounded regions; it may have kinks, like the ramps of
an undulator.  `Motion` (Spec/Motion) is the relativistic equation of motion.
-/

namespace Teufel
open Vec

namespace Exist

/-- the motion, continued beyond both ends of the time interval -/
structure Extended (qm : ℝ) (field : FieldFn) (t0 T : ℝ) (e b : ℝ → Vec → Vec) (L M : ℝ) (x p : ℝ → Vec) : Prop where
  cut : Cut field (x t0) (SpeedOfLight * (T + 4) + 1) (t0 - 2) (t0 + T + 2) e b L M
  pos : ∀ t, t0 - 1 ≤ t → t ≤ t0 + T + 1 → HasVelocity x (velOf (p t) * SpeedOfLight) t
  mom : ∀ t, t0 - 1 ≤ t → t ≤ t0 + T + 1 → HasVelocity p (force qm e b t (x t) (p t)) t

theorem speed (p : Vec) : (velOf p * SpeedOfLight).norm ≤ SpeedOfLight := by
  have hc := SpeedOfLight_pos
  rw [Vec.norm_mul, abs_of_pos hc]
  have := mul_le_mul_of_nonneg_right (velOf_le p) hc.le
  linarith

theorem force_eq (qm : ℝ) (e b : ℝ → Vec → Vec) (t : ℝ) (x p : Vec) :
    (e t x + cross (velOf p * SpeedOfLight) (b t x)) * (qm / SpeedOfLight) = force qm e b t x p := by
  have hc := SpeedOfLight_pos.ne'
  unfold force
  ext <;> simp [cross] <;> field_simp

theorem extended_exists {field : FieldFn} (hf : RegularField field) (qm t0 T : ℝ) (hT : 0 ≤ T) (x0 p0 : Vec) :
    ∃ e b L M x p, x t0 = x0 ∧ p t0 = p0 ∧ Extended qm field t0 T e b L M x p := by
  have hc := SpeedOfLight_pos
  obtain ⟨e, b, L, M, h⟩ := cut_exists hf x0 (D := SpeedOfLight * (T + 4) + 1) (lo := t0 - 2) (hi := t0 + T + 2) (by positivity) (by linarith)
  obtain ⟨x, p, hx, hp, hd⟩ := solve h qm p0 (t0 := t0) (by linarith) (by linarith)
  refine ⟨e, b, L, M, x, p, hx, hp, ?_, fun t h1 h2 => (hd t (by linarith) (by linarith)).1, fun t h1 h2 => (hd t (by linarith) (by linarith)).2⟩
  rw [hx]
  exact h

variable {qm : ℝ} {field : FieldFn} {t0 T : ℝ} {e b : ℝ → Vec → Vec} {L M : ℝ} {x p : ℝ → Vec}

theorem Extended.near (X : Extended qm field t0 T e b L M x p) (hT : 0 ≤ T) (t : ℝ) (h1 : t0 - 1 ≤ t) (h2 : t ≤ t0 + T + 1) :
    (x t - x t0).norm ≤ SpeedOfLight * (T + 2) := by
  have hc := SpeedOfLight_pos
  refine (moved X.pos (fun t _ _ => speed (p t)) (by linarith) (by linarith) h1 h2).trans (mul_le_mul_of_nonneg_left ?_ hc.le)
  rw [abs_le]
  constructor <;> linarith

theorem Extended.motion (X : Extended qm field t0 T e b L M x p) (hT : 0 ≤ T) : Motion qm field x p t0 T := by
  have hc := SpeedOfLight_pos
  refine ⟨fun t h1 h2 => X.pos t (by linarith) (by linarith), fun t h1 h2 => ⟨⟨e t (x t), b t (x t)⟩, ?_, ?_⟩⟩
  · refine X.cut.eq t (x t) (by linarith) (by linarith) ((X.near hT t (by linarith) (by linarith)).trans ?_)
    nlinarith
  · exact velocity_congr (X.mom t (by linarith) (by linarith)) (force_eq qm e b t _ _).symm

/-- every motion from the same start is this one -/
theorem Extended.unique (X : Extended qm field t0 T e b L M x p) (hT : 0 ≤ T) {x' p' : ℝ → Vec} (hm : Motion qm field x' p' t0 T) (hx : x' t0 = x t0)
    (hp : p' t0 = p t0) (t : ℝ) (h1 : t0 ≤ t) (h2 : t ≤ t0 + T) : x' t = x t ∧ p' t = p t := by
  have hc := SpeedOfLight_pos
  refine Exist.unique X.cut qm (t0 := t0) (t1 := t0 + T) (by linarith) (by linarith) hm.position ?_
    (fun t h1 h2 => X.pos t (by linarith) (by linarith)) (fun t h1 h2 => X.mom t (by linarith) (by linarith)) hx hp t h1 h2
  intro t h1 h2
  obtain ⟨EB, h3, h4⟩ := hm.momentum t h1 h2
  have hn : (x' t - x t0).norm ≤ SpeedOfLight * (T + 4) + 1 := by
    have := moved hm.position (fun t _ _ => speed (p' t)) (s := t0) (t := t) le_rfl (by linarith) h1 h2
    rw [hx, abs_of_nonneg (by linarith)] at this
    nlinarith
  rw [X.cut.eq t (x' t) (by linarith) (by linarith) hn] at h3
  cases h3
  exact velocity_congr h4 (force_eq qm e b t _ _)

/-- bounds of the rate of change of the momentum and of its own rate of change -/
noncomputable def F (qm M : ℝ) : ℝ := |qm| * (M / SpeedOfLight + M)
noncomputable def C (qm L M : ℝ) : ℝ := A qm L M * (1 + SpeedOfLight + F qm M)

theorem Extended.F_nonneg (X : Extended qm field t0 T e b L M x p) : 0 ≤ F qm M := by
  have := SpeedOfLight_pos
  have := X.cut.hM
  unfold F
  positivity

theorem Extended.C_nonneg (X : Extended qm field t0 T e b L M x p) : 0 ≤ C qm L M := by
  have := SpeedOfLight_pos
  have := X.F_nonneg
  have := X.cut.A_nonneg qm
  unfold C
  positivity

theorem Extended.mom_lip (X : Extended qm field t0 T e b L M x p) {s t : ℝ} (hs : t0 - 1 ≤ s) (hs' : s ≤ t0 + T + 1) (ht : t0 - 1 ≤ t) (ht' : t ≤ t0 + T + 1) :
    (p t - p s).norm ≤ F qm M * |t - s| :=
  moved X.mom (fun t h1 h2 => X.cut.force_bound qm (by linarith) (by linarith) _ _) hs hs' ht ht'

theorem Extended.force_lip (X : Extended qm field t0 T e b L M x p) {s t : ℝ} (hs : t0 - 1 ≤ s) (hs' : s ≤ t0 + T + 1) (ht : t0 - 1 ≤ t) (ht' : t ≤ t0 + T + 1) :
    (force qm e b t (x t) (p t) - force qm e b s (x s) (p s)).norm ≤ C qm L M * |t - s| := by
  have h1 := X.cut.force_lip qm (t := s) (t' := t) (by linarith) (by linarith) (by linarith) (by linarith) (x s) (x t) (p s) (p t)
  have h2 := X.mom_lip hs hs' ht ht'
  have h3 := moved X.pos (fun t _ _ => speed (p t)) hs hs' ht ht'
  refine h1.trans ?_
  unfold C
  rw [mul_assoc]
  exact mul_le_mul_of_nonneg_left (by linarith) (X.cut.A_nonneg qm)

theorem Extended.first (X : Extended qm field t0 T e b L M x p) {t s : ℝ} {v : Vec} (hv : HasVelocity p v t) (h1 : t0 - 1 ≤ t - |s|) (h2 : t + |s| ≤ t0 + T + 1) :
    (p (t + s) - p t - v * s).norm ≤ C qm L M * s ^ 2 := by
  have hs := abs_nonneg s
  rw [hv.unique (X.mom t (by linarith) (by linarith))]
  exact taylor X.mom (fun t t' a b c d => X.force_lip a b c d) h1 h2 X.C_nonneg

theorem Extended.momBounds (X : Extended qm field t0 T e b L M x p) {σ : ℝ} (hσ : 0 < σ) (hσ1 : σ ≤ 1) :
    MomBounds p (t0 - 1) (t0 + T + 1) ((5 * F qm M + 3 * C qm L M) / σ) σ := by
  have hF := X.F_nonneg
  have hC := X.C_nonneg
  have h1σ : 1 ≤ 1 / σ := by rw [le_div_iff₀ hσ]; linarith
  have hN : ∀ k, 0 ≤ k → k ≤ 5 * F qm M + 3 * C qm L M → k ≤ (5 * F qm M + 3 * C qm L M) / σ := by
    intro k h0 hk
    rw [le_div_iff₀ hσ]
    nlinarith
  refine ⟨fun t s h1 h2 => ?_, fun t s v hv h1 h2 => ?_, fun t s v hv hs hs' h1 h2 => ?_⟩
  · have hs := abs_nonneg s
    have := X.mom_lip (s := t) (t := t + s) (by linarith) (by linarith) (by linarith [neg_abs_le s]) (by linarith [le_abs_self s])
    rw [add_sub_cancel_left] at this
    exact this.trans (mul_le_mul_of_nonneg_right (hN _ hF (by linarith)) hs)
  · exact (X.first hv h1 h2).trans (mul_le_mul_of_nonneg_right (hN _ hC (by linarith)) (sq_nonneg s))
  · have a := X.first hv (s := s) (by rw [abs_of_nonneg hs]; linarith) (by rw [abs_of_nonneg hs]; linarith)
    have c := X.first hv (s := -s) (by rw [abs_neg, abs_of_nonneg hs]; linarith) (by rw [abs_neg, abs_of_nonneg hs]; linarith)
    rw [neg_sq, ← sub_eq_add_neg] at c
    have eq : p (t + s) - p (t - s) - v * (2 * s) = (p (t + s) - p t - v * s) - (p (t - s) - p t - v * (-s)) := by
      ext <;> simp <;> ring
    rw [eq]
    refine (norm_sub_le' _ _).trans ((add_le_add a c).trans ?_)
    have : (5 * F qm M + 3 * C qm L M) / σ * s ^ 3 = (5 * F qm M + 3 * C qm L M) * s ^ 2 * (s / σ) := by ring
    rw [this]
    have h3 : 1 ≤ s / σ := by rw [le_div_iff₀ hσ]; linarith
    have h4 : 0 ≤ (5 * F qm M + 3 * C qm L M) * s ^ 2 := by positivity
    have h5 : 0 ≤ F qm M * s ^ 2 := by positivity
    have h6 : 0 ≤ C qm L M * s ^ 2 := by positivity
    nlinarith

theorem Extended.velBounds (X : Extended qm field t0 T e b L M x p) {σ : ℝ} (hσ : 0 < σ) :
    VelBounds (fun t => velOf (p t)) (t0 - 1) (t0 + T + 1) ((5 * F qm M + 3 * C qm L M) / σ) σ := by
  have hF := X.F_nonneg
  have hC := X.C_nonneg
  have lip : ∀ {s t : ℝ}, t0 - 1 ≤ s → s ≤ t0 + T + 1 → t0 - 1 ≤ t → t ≤ t0 + T + 1 → (velOf (p t) - velOf (p s)).norm ≤ 2 * F qm M * |t - s| := by
    intro s t h1 h2 h3 h4
    have := velOf_lip (p t) (p s)
    have := X.mom_lip h1 h2 h3 h4
    linarith
  have hσs : ∀ s, σ ≤ s → 1 ≤ s / σ := fun s h => by rw [le_div_iff₀ hσ]; linarith
  refine ⟨fun t s hs hs' h1 h2 => ?_, fun g k a' b' ha hb hg t s hs hs' h1 h2 => ?_⟩
  · have a := lip (s := t) (t := t + s) (by linarith) (by linarith) (by linarith) (by linarith)
    have c := lip (s := t) (t := t - s) (by linarith) (by linarith) (by linarith) (by linarith)
    rw [add_sub_cancel_left, abs_of_nonneg hs] at a
    rw [sub_sub_cancel_left, abs_neg, abs_of_nonneg hs] at c
    have eq : velOf (p (t + s)) + velOf (p (t - s)) - velOf (p t) * (2 : ℝ) = (velOf (p (t + s)) - velOf (p t)) + (velOf (p (t - s)) - velOf (p t)) := by
      ext <;> simp <;> ring
    simp only [eq]
    refine (Vec.norm_add_le _ _).trans ((add_le_add a c).trans ?_)
    have : (5 * F qm M + 3 * C qm L M) / σ * s ^ 2 = (5 * F qm M + 3 * C qm L M) * s * (s / σ) := by ring
    rw [this]
    have h3 := hσs s hs'
    have h5 : 0 ≤ F qm M * s := by positivity
    have h6 : 0 ≤ C qm L M * s := by positivity
    nlinarith
  · have hd : ∀ r, t - s ≤ r → r ≤ t + s → HasVelocity (fun r => g r - velOf (p t) * k * r) ((velOf (p r) - velOf (p t)) * k) r := by
      intro r h3 h4
      obtain ⟨a, c, d⟩ := hg r (by linarith) (by linarith)
      have kk : ∀ q : ℝ, HasDerivAt (fun r => q * r) q r := fun q => by simpa using (hasDerivAt_id r).const_mul q
      refine velocity_congr (v := velOf (p r) * k - velOf (p t) * k) ⟨a.fun_sub (kk _), c.fun_sub (kk _), d.fun_sub (kk _)⟩ ?_
      ext <;> simp <;> ring
    have hbd : ∀ r, t - s ≤ r → r ≤ t + s → ((velOf (p r) - velOf (p t)) * k).norm ≤ 2 * F qm M * s * |k| := by
      intro r h3 h4
      rw [Vec.norm_mul]
      refine mul_le_mul_of_nonneg_right ((lip (s := t) (t := r) (by linarith) (by linarith) (by linarith) (by linarith)).trans ?_) (abs_nonneg k)
      refine mul_le_mul_of_nonneg_left ?_ (by positivity)
      rw [abs_le]
      constructor <;> linarith
    have := moved hd hbd (s := t - s) (t := t + s) le_rfl (by linarith) (by linarith) le_rfl
    rw [show t + s - (t - s) = 2 * s by ring, abs_of_nonneg (show 0 ≤ 2 * s by positivity)] at this
    have eq : g (t + s) - velOf (p t) * k * (t + s) - (g (t - s) - velOf (p t) * k * (t - s)) = g (t + s) - g (t - s) - velOf (p t) * (k * (2 * s)) := by
      ext <;> simp <;> ring
    rw [eq] at this
    refine this.trans ?_
    have e2 : (5 * F qm M + 3 * C qm L M) / σ * |k| * s ^ 3 = (5 * F qm M + 3 * C qm L M) * s ^ 2 * |k| * (s / σ) := by ring
    rw [e2]
    have h3 := hσs s hs'
    have h5 : 0 ≤ F qm M * s ^ 2 * |k| := by positivity
    have h6 : 0 ≤ C qm L M * s ^ 2 * |k| := by positivity
    nlinarith

theorem Extended.setting (X : Extended qm field t0 T e b L M x p) (hT : 0 ≤ T) {σ : ℝ} (hσ : 0 < σ) (hσ1 : σ ≤ 1) :
    Setting qm field x p t0 T 1 L M ((5 * F qm M + 3 * C qm L M) / σ) σ := by
  have hc := SpeedOfLight_pos
  have hF := X.F_nonneg
  have hC := X.C_nonneg
  refine ⟨X.motion hT, ⟨?_, ?_⟩, X.momBounds hσ hσ1, X.velBounds hσ, by positivity, X.cut.hL, X.cut.hM, hT⟩
  · intro t h1 h2 EB hEB
    have := X.near hT t (by linarith) (by linarith)
    rw [X.cut.eq t (x t) (by linarith) (by linarith) (by nlinarith)] at hEB
    cases hEB
    exact X.cut.boundB t (x t) (by linarith) (by linarith)
  · intro t h1 h2 EB hEB Y hY
    have hn := X.near hT t (by linarith) (by linarith)
    rw [X.cut.eq t (x t) (by linarith) (by linarith) (by nlinarith)] at hEB
    cases hEB
    have hYn : (Y - x t0).norm ≤ SpeedOfLight * (T + 4) + 1 := by
      have eq : Y - x t0 = (Y - x t) + (x t - x t0) := by abel
      rw [eq]
      have := Vec.norm_add_le (Y - x t) (x t - x t0)
      nlinarith
    refine ⟨_, X.cut.eq t Y (by linarith) (by linarith) hYn, ?_, ?_⟩
    · have := X.cut.lipE t t (x t) Y (by linarith) (by linarith) (by linarith) (by linarith)
      rwa [sub_self, abs_zero, zero_add] at this
    · have := X.cut.lipB t t (x t) Y (by linarith) (by linarith) (by linarith) (by linarith)
      rwa [sub_self, abs_zero, zero_add] at this

theorem total_scaled {qm L M N Z T s : ℝ} (hs : 0 < s) (hs1 : s ≤ 1) (hZ : 0 ≤ Z) :
    Setting.total qm L M (N / s) (Z + N / s) T * s ^ 2 ≤ Real.exp (Setting.rate qm L M * T) * (Z + N + T * Setting.local3 qm M N) * s := by
  have hloc : Setting.local3 qm M (N / s) = Setting.local3 qm M N / s := by unfold Setting.local3; ring
  have hexp := Real.exp_pos (Setting.rate qm L M * T)
  unfold Setting.total
  rw [hloc]
  generalize Setting.local3 qm M N = l at *
  generalize Real.exp (Setting.rate qm L M * T) = E at *
  have e1 : E * (Z + N / s + T * (l / s)) * s ^ 2 = E * ((Z * s + N + T * l) * s) := by field_simp
  rw [e1, mul_assoc]
  refine mul_le_mul_of_nonneg_left (mul_le_mul_of_nonneg_right ?_ hs.le) hexp.le
  nlinarith

theorem totalP_scaled {qm L M N Z T s G : ℝ} (hs : 0 < s) (h : Setting.total qm L M (N / s) (Z + N / s) T * s ^ 2 ≤ G * s) :
    Setting.totalP qm L M (N / s) (Z + N / s) T * s ^ 2 ≤ (2 * G + (2 * |qm| * M + 1) * N) * s := by
  unfold Setting.totalP
  generalize Setting.total qm L M (N / s) (Z + N / s) T = t at *
  have e1 : (2 * t + (2 * |qm| * M + 1) * (N / s)) * s ^ 2 = 2 * (t * s ^ 2) + (2 * |qm| * M + 1) * N * s := by field_simp
  rw [e1]
  linarith

theorem totalA_scaled {qm L M N Z T s G GP : ℝ} (hL : 0 ≤ L) (hM : 0 ≤ M) (h : Setting.total qm L M (N / s) (Z + N / s) T * s ^ 2 ≤ G * s)
    (h' : Setting.totalP qm L M (N / s) (Z + N / s) T * s ^ 2 ≤ GP * s) :
    Setting.totalA qm L M (N / s) (Z + N / s) T * s ^ 2 ≤ |qm| * ((L / SpeedOfLight + L) * G + 2 * M * GP) * s := by
  have hc := SpeedOfLight_pos
  unfold Setting.totalA
  generalize Setting.total qm L M (N / s) (Z + N / s) T = t at *
  generalize Setting.totalP qm L M (N / s) (Z + N / s) T = u at *
  have e1 : |qm| * ((L / SpeedOfLight + L) * t + 2 * M * u) * s ^ 2 = |qm| * ((L / SpeedOfLight + L) * (t * s ^ 2) + 2 * M * (u * s ^ 2)) := by ring
  rw [e1, mul_assoc |qm| _ s]
  refine mul_le_mul_of_nonneg_left ?_ (abs_nonneg qm)
  have i1 := mul_le_mul_of_nonneg_left h (show 0 ≤ L / SpeedOfLight + L by positivity)
  have i2 := mul_le_mul_of_nonneg_left h' (show 0 ≤ 2 * M by positivity)
  linarith

end Exist

/-- C118: in a regular field there is an exact motion from every start, for any length of time. -/
theorem C118_motion_exists (qm : ℝ) (field : FieldFn) (hf : RegularField field) (t0 T : ℝ) (x0 p0 : Vec) (hT : 0 ≤ T) :
    ∃ x p : ℝ → Vec, x t0 = x0 ∧ p t0 = p0 ∧ Motion qm field x p t0 T := by
  obtain ⟨e, b, L, M, x, p, hx, hp, X⟩ := Exist.extended_exists hf qm t0 T hT x0 p0
  exact ⟨x, p, hx, hp, X.motion hT⟩

/-- C118: in a regular field there is only one exact motion from every start. -/
theorem C118_motion_unique (qm : ℝ) (field : FieldFn) (hf : RegularField field) (t0 T : ℝ) (x p x' p' : ℝ → Vec)
    (hm : Motion qm field x p t0 T) (hm' : Motion qm field x' p' t0 T) (hx : x t0 = x' t0) (hp : p t0 = p' t0) :
    ∀ t, t0 ≤ t → t ≤ t0 + T → x t = x' t ∧ p t = p' t := by
  intro t h1 h2
  obtain ⟨e, b, L, M, y, q, hy, hq, X⟩ := Exist.extended_exists hf qm t0 T (by linarith) (x t0) (p t0)
  obtain ⟨a1, a2⟩ := X.unique (by linarith) hm hy.symm hq.symm t h1 h2
  obtain ⟨b1, b2⟩ := X.unique (by linarith) hm' (by rw [hy, hx]) (by rw [hq, hp]) t h1 h2
  exact ⟨a1.trans b1.symm, a2.trans b2.symm⟩

set_option maxHeartbeats 800000 in
/-- C118: in a regular field every stored point of a run of the tracker - position, momentum and rate of change of the momentum - differs from the
exact motion by at most a constant times the time step.  No step fails.  Nothing is assumed of the exact motion. -/
theorem C118_first_order (qm : ℝ) (field : FieldFn) (hf : RegularField field) (x p : ℝ → Vec) (t0 T : ℝ) (hT : 0 ≤ T) (hm : Motion qm field x p t0 T) :
    ∃ C h0 : ℝ, 0 < h0 ∧ ∀ h : ℝ, 0 < h → h ≤ h0 → ∀ n : ℕ, n * h ≤ T →
      ∀ a : Particle, a.Reachable → a.Mass ≠ 0 → a.Charge / a.Mass * InvRestMass = qm →
        a.TrajTime (a.getNP - 1 : Nat) = .ok t0 → a.TrajPoint (a.getNP - 1 : Nat) = .ok (x t0) → a.TrajMomentum (a.getNP - 1 : Nat) = .ok (p t0) →
        ∃ a1 a2, a.InitVay h field = .ok a1 ∧ a1.steps (List.replicate n field) = .ok a2 ∧
          ∀ k : ℕ, k ≤ n → ∃ X P A,
            a2.TrajTime (a.getNP - 1 + k : Nat) = .ok (t0 + k * h) ∧ a2.TrajPoint (a.getNP - 1 + k : Nat) = .ok X ∧
            a2.TrajMomentum (a.getNP - 1 + k : Nat) = .ok P ∧ a2.TrajAccel (a.getNP - 1 + k : Nat) = .ok A ∧
            (X - x (t0 + k * h)).norm ≤ C * h ∧ (P - p (t0 + k * h)).norm ≤ C * h ∧
            ∀ v, HasVelocity p v (t0 + k * h) → (A - v).norm ≤ C * h := by
  have hc := SpeedOfLight_pos
  obtain ⟨e, b, L, M, y, q, hy, hq, E⟩ := Exist.extended_exists hf qm t0 T hT (x t0) (p t0)
  have same : ∀ t, t0 ≤ t → t ≤ t0 + T → x t = y t ∧ p t = q t := fun t h1 h2 => E.unique hT hm hy.symm hq.symm t h1 h2
  have hL := E.cut.hL
  have hM := E.cut.hM
  have hF := E.F_nonneg
  have hC := E.C_nonneg
  set N := 5 * Exist.F qm M + 3 * Exist.C qm L M with hN
  have hN0 : 0 ≤ N := by positivity
  obtain ⟨EB, hEB, -⟩ := (E.motion hT).momentum t0 le_rfl (by linarith)
  have hEn := Vec.norm_nonneg EB.E
  set Z := 2 * |qm| ^ 2 * (EB.E.norm / SpeedOfLight + M) * M with hZ
  have hZ0 : 0 ≤ Z := by positivity
  have hK : 0 ≤ Setting.K qm L M := by unfold Setting.K; positivity
  have hRate : 0 ≤ Setting.rate qm L M := by unfold Setting.rate; linarith
  have hLoc : 0 ≤ Setting.local3 qm M N := by unfold Setting.local3; positivity
  set G := Real.exp (Setting.rate qm L M * T) * (Z + N + T * Setting.local3 qm M N) with hG
  set GP := 2 * G + (2 * |qm| * M + 1) * N with hGP
  set GA := |qm| * ((L / SpeedOfLight + L) * G + 2 * M * GP) with hGA
  have hG0 : 0 ≤ G := by positivity
  have hGP0 : 0 ≤ GP := by positivity
  have hGA0 : 0 ≤ GA := by positivity
  set s0 := min 1 (min (1 / (4 * Setting.K qm L M + 1)) (1 / (G + 1))) with hs0
  have hs0p : 0 < s0 := lt_min one_pos (lt_min (by positivity) (by positivity))
  refine ⟨G + GP + GA, 2 * s0, by linarith, ?_⟩
  intro h hh hh0 n hn a ha hmass hqm hat hax hap
  set s := h / 2 with hsdef
  have hs : 0 < s := by positivity
  have hh2 : h = 2 * s := by rw [hsdef]; ring
  have hss0 : s ≤ s0 := by linarith
  have hs1 : s ≤ 1 := hss0.trans (min_le_left _ _)
  have hsK : 2 * s * Setting.K qm L M ≤ 1 / 2 := by
    have := hss0.trans ((min_le_right _ _).trans (min_le_left _ _))
    rw [le_div_iff₀ (by positivity)] at this
    nlinarith
  have hsG : G * s ≤ 1 := by
    have := hss0.trans ((min_le_right _ _).trans (min_le_right _ _))
    rw [le_div_iff₀ (by positivity)] at this
    nlinarith
  have S := E.setting hT hs hs1
  have t1 : Setting.total qm L M (N / s) (Z + N / s) T * s ^ 2 ≤ G * s := Exist.total_scaled hs hs1 hZ0
  have t2 : Setting.totalP qm L M (N / s) (Z + N / s) T * s ^ 2 ≤ GP * s := Exist.totalP_scaled hs t1
  have t3 : Setting.totalA qm L M (N / s) (Z + N / s) T * s ^ 2 ≤ GA * s := Exist.totalA_scaled hL hM t1 t2
  clear_value GA GP G
  obtain ⟨a1, a2, h1, h2, h3⟩ := S.tracked one_pos hEB hs.le le_rfl hs1 hh2 hsK (t1.trans hsG) n hn a ha hmass hqm hat (by rw [hax, hy]) (by rw [hap, hq])
  refine ⟨a1, a2, h1, h2, fun k hk => ?_⟩
  obtain ⟨X, P, A, e1, e2, e3, e4, e5, e6, e7⟩ := h3 k hk
  have hk0 : (0 : ℝ) ≤ k * h := by positivity
  have hkT : (k : ℝ) * h ≤ T := by
    have h4 : (k : ℝ) ≤ n := by exact_mod_cast hk
    exact (mul_le_mul_of_nonneg_right h4 hh.le).trans hn
  obtain ⟨sx, sp⟩ := same (t0 + k * h) (by linarith) (by linarith)
  have w : ∀ {d g : ℝ}, d ≤ g * s → 0 ≤ g → g ≤ G + GP + GA → d ≤ (G + GP + GA) * h := by
    intro d g h4 h5 h6
    have : g * s ≤ g * h := mul_le_mul_of_nonneg_left (by linarith) h5
    have := mul_le_mul_of_nonneg_right h6 hh.le
    linarith
  refine ⟨X, P, A, e1, e2, e3, e4, ?_, ?_, ?_⟩
  · rw [sx]; exact w (e5.trans t1) hG0 (by linarith)
  · rw [sp]; exact w (e6.trans t2) hGP0 (by linarith)
  · intro v hv
    refine w ((e7 v ?_).trans t3) hGA0 (by linarith)
    obtain ⟨F1, f1, f2⟩ := hm.momentum (t0 + k * h) (by linarith) (by linarith)
    obtain ⟨F2, f3, f4⟩ := (E.motion hT).momentum (t0 + k * h) (by linarith) (by linarith)
    rw [sx] at f1
    rw [f1] at f3
    cases f3
    rw [hv.unique f2, sp]
    exact f4

/-- C118: the field of every lattice of homogeneous fields, undulators, soft-edge dipoles, waves and wave packets is regular. -/
theorem C118_lattice (lat : Lattice) (h : ∀ e ∈ lat, Jumpless e) : RegularField lat.field := by
  refine Reg.sum lat fun e he => ?_
  have w : ∀ {l z : ℝ}, 0 < l * z → Real.sqrt (l * z / Pi) ≠ 0 := fun h => Real.sqrt_ne_zero'.mpr (div_pos h Real.pi_pos)
  cases h e he with
  | homogeneous E B => exact Reg.homogeneous E B
  | planar u t0 o hu => exact Reg.localized (Reg.planar u (hu.imp id fun h => by omega)) t0 o
  | gradient u t0 o hu => exact Reg.localized (Reg.gradient u (hu.imp id fun h => by omega)) t0 o
  | softEdge d t0 o h1 h2 => exact Reg.localized (Reg.softEdge d h1 h2) t0 o
  | wave l A z t0 o h1 => exact Reg.localized (Reg.wave _ h1 (w h1)) t0 o
  | packet l A z tau t0 o h1 h2 => exact Reg.localized (Reg.packet _ tau h1 h2 (w h1)) t0 o

/-- a wave packet in an undulator, followed by a soft-edge dipole, in the magnetic field of the earth -/
noncomputable def exampleLine : Lattice :=
  [LocalizedField (PlanarUndulator.Setup 1 (3 / 100) 20).LocalField 0 ⟨0, 0, 1⟩,
   LocalizedField ((GaussianWave.Setup 1e-4 ⟨1e6, 0⟩ 1).PacketField 1e-12) 0 ⟨0, 0, 1⟩,
   LocalizedField (SoftEdgeDipole.mk ⟨0, 1, 0⟩ ⟨0, 0, 2⟩ ⟨0, 0, -1⟩ (1 / 100) ⟨0, 0, 3⟩ ⟨0, 0, 1⟩ (1 / 100)).LocalField 0 0,
   HomogeneousField 0 ⟨0, 2e-5, 4e-5⟩]

theorem exampleLine_jumpless : ∀ e ∈ exampleLine, Jumpless e := by
  intro e he
  simp only [exampleLine, List.mem_cons, List.not_mem_nil, or_false] at he
  rcases he with rfl | rfl | rfl | rfl
  · exact .planar _ _ _ (.inl (by norm_num [PlanarUndulator.Setup]))
  · exact .packet _ _ _ _ _ _ (by norm_num) (by norm_num)
  · exact .softEdge _ _ _ (by norm_num) (by norm_num)
  · exact .homogeneous _ _

/-- an electron with the momentum 60 in that line has exactly one motion, and the tracker converges to it -/
example : ∃ x p : ℝ → Vec, x 0 = 0 ∧ p 0 = ⟨0, 0, 60⟩ ∧ Motion (-1 / 1 * InvRestMass) exampleLine.field x p 0 1e-8 ∧
    ∃ C h0 : ℝ, 0 < h0 ∧ ∀ h : ℝ, 0 < h → h ≤ h0 → ∀ n : ℕ, n * h ≤ 1e-8 →
      ∃ a1 a2, (Particle.default.initTrajectory 0 0 ⟨0, 0, 60⟩ 0).InitVay h exampleLine.field = .ok a1 ∧
        a1.steps (List.replicate n exampleLine.field) = .ok a2 ∧
        ∀ k : ℕ, k ≤ n → ∃ X, a2.TrajPoint (k : Nat) = .ok X ∧ (X - x (0 + k * h)).norm ≤ C * h := by
  obtain ⟨x, p, hx, hp, hm⟩ := C118_motion_exists (-1 / 1 * InvRestMass) exampleLine.field (C118_lattice _ exampleLine_jumpless) 0 1e-8 0 ⟨0, 0, 60⟩ (by norm_num)
  refine ⟨x, p, hx, hp, hm, ?_⟩
  obtain ⟨C, h0, h1, h2⟩ := C118_first_order _ _ (C118_lattice _ exampleLine_jumpless) x p 0 1e-8 (by norm_num) hm
  refine ⟨C, h0, h1, fun h h3 h4 n h5 => ?_⟩
  obtain ⟨a1, a2, e1, e2, e3⟩ := h2 h h3 h4 n h5 (POp.exec Particle.default (.init 0 0 ⟨0, 0, 60⟩ 0))
    ⟨_, [.init 0 0 ⟨0, 0, 60⟩ 0], Or.inr (Or.inr (Or.inl rfl)), rfl⟩
    (by simp [POp.exec, POp.result, Particle.initTrajectory, Particle.default, Particle.new])
    (by simp [POp.exec, POp.result, Particle.initTrajectory, Particle.default, Particle.new]) rfl (by rw [hx]; rfl) (by rw [hp]; rfl)
  refine ⟨a1, a2, e1, e2, fun k hk => ?_⟩
  obtain ⟨X, P, A, f1, f2, f3, f4, f5, -⟩ := e3 k hk
  refine ⟨X, ?_, f5⟩
  have : (POp.exec Particle.default (.init 0 0 ⟨0, 0, 60⟩ 0)).getNP - 1 + k = k := by
    show 1 - 1 + k = k
    omega
  rw [this] at f2
  exact f2

end Teufel
