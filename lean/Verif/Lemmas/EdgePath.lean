import Verif.Lemmas.EdgeZone
import Verif.Lemmas.EdgeCross
import Mathlib.Analysis.Calculus.MeanValue

/-! # The exact motion through hard edges: every point of the path has a zone -/

namespace Teufel
open Vec

namespace Edge

/-- all components are continuous -/
def Cont (f : ℝ → Vec) (a b : ℝ) : Prop :=
  ContinuousOn (fun t => (f t).x) (Set.Icc a b) ∧ ContinuousOn (fun t => (f t).y) (Set.Icc a b) ∧ ContinuousOn (fun t => (f t).z) (Set.Icc a b)

theorem Cont.mono {f : ℝ → Vec} {a b a' b' : ℝ} (h : Cont f a b) (h1 : a ≤ a') (h2 : b' ≤ b) : Cont f a' b' :=
  ⟨h.1.mono (Set.Icc_subset_Icc h1 h2), h.2.1.mono (Set.Icc_subset_Icc h1 h2), h.2.2.mono (Set.Icc_subset_Icc h1 h2)⟩

theorem cont_of_velocity {f v : ℝ → Vec} {a b : ℝ} (h : ∀ t, a ≤ t → t ≤ b → HasVelocity f (v t) t) : Cont f a b :=
  ⟨fun t ht => (h t ht.1 ht.2).1.continuousAt.continuousWithinAt, fun t ht => (h t ht.1 ht.2).2.1.continuousAt.continuousWithinAt,
    fun t ht => (h t ht.1 ht.2).2.2.continuousAt.continuousWithinAt⟩

/-- mean value inequality for a function which is differentiable between the ends of the interval -/
theorem moved {f v : ℝ → Vec} {a b C : ℝ} (hab : a ≤ b) (hc : Cont f a b) (h : ∀ t, a < t → t < b → HasVelocity f (v t) t)
    (hC : ∀ t, a < t → t < b → (v t).norm ≤ C) : (f b - f a).norm ≤ C * (b - a) := by
  rcases hab.eq_or_lt with rfl | hab
  · simp [Vec.norm_zero]
  set d := f b - f a with hd
  have hder : ∀ r ∈ Set.Ioo a b, HasDerivAt (fun r => dot (f r) d) (dot (v r) d) r := by
    intro r hr
    obtain ⟨p, q, s⟩ := h r hr.1 hr.2
    exact ((p.mul_const d.x).fun_add (q.mul_const d.y)).fun_add (s.mul_const d.z)
  have hcont : ContinuousOn (fun r => dot (f r) d) (Set.Icc a b) :=
    ((hc.1.mul continuousOn_const).add (hc.2.1.mul continuousOn_const)).add (hc.2.2.mul continuousOn_const)
  obtain ⟨r, hr, he⟩ := exists_hasDerivAt_eq_slope (fun r => dot (f r) d) (fun r => dot (v r) d) hab hcont hder
  have hba : 0 < b - a := by linarith
  rw [eq_div_iff hba.ne'] at he
  have e : dot (f b) d - dot (f a) d = d.norm * d.norm := by
    rw [norm_mul_self, hd]
    unfold dot abs2nd
    simp
    ring
  rw [e] at he
  have hb := dot_le (v r) d
  have hCr := hC r hr.1 hr.2
  have hdn := Vec.norm_nonneg d
  rcases hdn.eq_or_lt with h0 | h0
  · rw [← h0]
    exact mul_nonneg ((Vec.norm_nonneg _).trans hCr) hba.le
  · have h1 : dot (v r) d * (b - a) ≤ C * d.norm * (b - a) :=
      mul_le_mul_of_nonneg_right (hb.trans (mul_le_mul_of_nonneg_right hCr hdn)) hba.le
    exact le_of_mul_le_mul_right (by linarith : d.norm * d.norm ≤ C * (b - a) * d.norm) h0

/-- deviation from uniform motion -/
theorem moved_sub {f v : ℝ → Vec} {a b C : ℝ} (w : Vec) (hab : a ≤ b) (hc : Cont f a b) (h : ∀ t, a < t → t < b → HasVelocity f (v t) t)
    (hC : ∀ t, a < t → t < b → (v t - w).norm ≤ C) : (f b - f a - w * (b - a)).norm ≤ C * (b - a) := by
  have k : ∀ q r : ℝ, HasDerivAt (fun r => q * r) q r := fun q r => by simpa using (hasDerivAt_id r).const_mul q
  have kc : ∀ q : ℝ, ContinuousOn (fun r => q * r) (Set.Icc a b) := fun q r _ => (k q r).continuousAt.continuousWithinAt
  have := moved (f := fun r => f r - w * r) (v := fun r => v r - w) hab ⟨hc.1.sub (kc _), hc.2.1.sub (kc _), hc.2.2.sub (kc _)⟩
    (fun t h1 h2 => ⟨(h t h1 h2).1.fun_sub (k _ _), (h t h1 h2).2.1.fun_sub (k _ _), (h t h1 h2).2.2.fun_sub (k _ _)⟩) hC
  have e : f b - w * b - (f a - w * a) = f b - f a - w * (b - a) := by
    ext <;> simp <;> ring
  rwa [e] at this

/-- growth of a component of the position -/
theorem advance {f v : ℝ → Vec} {a b σ : ℝ} (n : Vec) (hab : a ≤ b) (h : ∀ t, a ≤ t → t ≤ b → HasVelocity f (v t) t)
    (hσ : ∀ t, a ≤ t → t ≤ b → σ ≤ dot (v t) n) : σ * (b - a) ≤ dot (f b - f a) n := by
  rcases hab.eq_or_lt with rfl | hab
  · simp
  have hder : ∀ r ∈ Set.Icc a b, HasDerivAt (fun r => dot (f r) n) (dot (v r) n) r := by
    intro r hr
    obtain ⟨p, q, s⟩ := h r hr.1 hr.2
    exact ((p.mul_const n.x).fun_add (q.mul_const n.y)).fun_add (s.mul_const n.z)
  obtain ⟨r, hr, he⟩ := exists_hasDerivAt_eq_slope (fun r => dot (f r) n) (fun r => dot (v r) n) hab
    (fun r hr => (hder r hr).continuousAt.continuousWithinAt) (fun r hr => hder r ⟨hr.1.le, hr.2.le⟩)
  have hba : 0 < b - a := by linarith
  rw [eq_div_iff hba.ne', ← dot_sub_left] at he
  rw [← he]
  exact mul_le_mul_of_nonneg_right (hσ r hr.1.le hr.2.le) hba.le

/-- continuity of the vector -/
theorem Cont.near {f : ℝ → Vec} {a b τ : ℝ} (h : Cont f a b) (h1 : a ≤ τ) (h2 : τ ≤ b) {ε : ℝ} (hε : 0 < ε) :
    ∃ δ > 0, ∀ t, a ≤ t → t ≤ b → |t - τ| ≤ δ → (f t - f τ).norm ≤ ε := by
  have one : ∀ g : ℝ → ℝ, ContinuousOn g (Set.Icc a b) → ∃ δ > 0, ∀ t, a ≤ t → t ≤ b → |t - τ| ≤ δ → |g t - g τ| ≤ ε / 3 := by
    intro g hg
    obtain ⟨δ, hδ, H⟩ := Metric.continuousWithinAt_iff.mp (hg τ ⟨h1, h2⟩) (ε / 3) (by positivity)
    refine ⟨δ / 2, by positivity, fun t a1 a2 a3 => ?_⟩
    have := H (x := t) ⟨a1, a2⟩ (by rw [Real.dist_eq]; linarith)
    rw [Real.dist_eq] at this
    exact this.le
  obtain ⟨d1, p1, q1⟩ := one _ h.1
  obtain ⟨d2, p2, q2⟩ := one _ h.2.1
  obtain ⟨d3, p3, q3⟩ := one _ h.2.2
  refine ⟨min d1 (min d2 d3), lt_min p1 (lt_min p2 p3), fun t a1 a2 a3 => ?_⟩
  have b1 := q1 t a1 a2 (a3.trans (min_le_left _ _))
  have b2 := q2 t a1 a2 (a3.trans ((min_le_right _ _).trans (min_le_left _ _)))
  have b3 := q3 t a1 a2 (a3.trans ((min_le_right _ _).trans (min_le_right _ _)))
  refine (norm_le_comps _).trans ?_
  simp only [sub_x, sub_y, sub_z]
  linarith

theorem forward (v : Vec) (ns : List Vec) (h : ∀ n ∈ ns, 0 < dot v n) : ∃ m R : ℝ, 0 < m ∧ 0 ≤ R ∧ ∀ n ∈ ns, m ≤ dot v n ∧ n.norm ≤ R := by
  induction ns with
  | nil => exact ⟨1, 0, one_pos, le_rfl, by simp⟩
  | cons a l ih =>
    obtain ⟨m, R, h1, h2, h3⟩ := ih fun n hn => h n (by simp [hn])
    have ha := h a (by simp)
    refine ⟨min m (dot v a), max R a.norm, lt_min h1 ha, h2.trans (le_max_left _ _), fun n hn => ?_⟩
    rcases List.mem_cons.mp hn with rfl | hn
    · exact ⟨min_le_right _ _, le_max_right _ _⟩
    · exact ⟨(min_le_left _ _).trans (h3 n hn).1, (h3 n hn).2.trans (le_max_left _ _)⟩

/-- change of the momentum on one side of the jump -/
theorem mom_side {qm : ℝ} {fl : FieldFn} {x p : ℝ → Vec} {y : Vec} {ρ lo hi L M F a b : ℝ} {e m : ℝ → Vec → Vec} (K : Exist.Cut fl y ρ lo hi e m L M)
    (hF : 0 ≤ F) (hab : a ≤ b) (ha : lo ≤ a) (hb : b ≤ hi) (hc : Cont p a b) (hp : ∀ t, a < t → t < b → HasVelocity p (Exist.force qm e m t (x t) (p t)) t)
    (hpos : ∀ t, a ≤ t → t ≤ b → (x b - x t).norm ≤ SpeedOfLight * (b - t)) (hmom : ∀ t, a ≤ t → t ≤ b → (p b - p t).norm ≤ F * (b - t)) :
    (p b - p a - (e b (x b) / SpeedOfLight + cross (velOf (p b)) (m b (x b))) * (qm * (b - a))).norm ≤ Exist.A qm L M * (1 + SpeedOfLight + F) * (b - a) ^ 2 := by
  have hA := K.A_nonneg qm
  have hcl := SpeedOfLight_pos
  have := moved_sub (f := p) (v := fun t => Exist.force qm e m t (x t) (p t)) (C := Exist.A qm L M * ((1 + SpeedOfLight + F) * (b - a)))
    (Exist.force qm e m b (x b) (p b)) hab hc hp (fun t h1 h2 => by
      rw [Vec.norm_sub_comm]
      refine (K.force_lip qm (by linarith) (by linarith) (by linarith) (by linarith) _ _ _ _).trans (mul_le_mul_of_nonneg_left ?_ hA)
      have h3 := hpos t h1.le h2.le
      have h4 := hmom t h1.le h2.le
      rw [abs_of_nonneg (by linarith)]
      have h5 : (1 + SpeedOfLight + F) * (b - t) ≤ (1 + SpeedOfLight + F) * (b - a) := mul_le_mul_of_nonneg_left (by linarith) (by positivity)
      linarith)
  have e1 : Exist.force qm e m b (x b) (p b) * (b - a) = (e b (x b) / SpeedOfLight + cross (velOf (p b)) (m b (x b))) * (qm * (b - a)) := by
    unfold Exist.force
    rw [mul_assoc']
  rw [e1] at this
  calc _ ≤ _ := this
    _ = _ := by ring

theorem force_le {qm M : ℝ} {u E B : Vec} (hE : E.norm ≤ M) (hB : B.norm ≤ M) :
    ((E + cross (velOf u * SpeedOfLight) B) * (qm / SpeedOfLight)).norm ≤ |qm| * (M / SpeedOfLight + M) := by
  have hc := SpeedOfLight_pos
  have e : (E + cross (velOf u * SpeedOfLight) B) * (qm / SpeedOfLight) = (E / SpeedOfLight + cross (velOf u) B) * qm := by
    have := hc.ne'
    ext <;> simp [cross] <;> field_simp
  rw [e, Vec.norm_mul, mul_comm]
  refine mul_le_mul_of_nonneg_left ((Vec.norm_add_le _ _).trans (add_le_add ?_ ?_)) (abs_nonneg qm)
  · rw [norm_div, abs_of_pos hc]
    exact div_le_div_of_nonneg_right hE hc.le
  · have := norm_cross_bound (velOf_le u) hB
    linarith

set_option maxHeartbeats 1000000 in
/-- every point of the path has a zone -/
theorem zone_exists {qm : ℝ} {field : FieldFn} {faces : List (Vec × Vec)} {x p : ℝ → Vec} {t0 T τ : ℝ} (hm : EdgeMotion qm field faces x p t0 T)
    (hb : BoundedField field) (h1 : t0 ≤ τ) (h2 : τ ≤ t0 + T) (hcr : Crossed field faces (x τ) (velOf (p τ))) :
    ∃ δ > 0, ∃ ns σ ρ R F L M A D, Zone qm field x p (max t0 (τ - δ)) τ (min (t0 + T) (τ + δ)) ns σ ρ R F L M A D := by
  have hc := SpeedOfLight_pos
  obtain ⟨fm, fp, ns, ρ0, rm, rp, hρ0, hns, hX⟩ := hcr
  obtain ⟨m, R, hm0, hR, hmR⟩ := forward _ _ hns
  obtain ⟨em, bm, Lm, Mm, Km⟩ := Exist.cut_exists rm (x τ) (D := ρ0) (lo := t0) (hi := t0 + T) hρ0.le (by linarith)
  obtain ⟨ep, bp, Lp, Mp, Kp⟩ := Exist.cut_exists rp (x τ) (D := ρ0) (lo := t0) (hi := t0 + T) hρ0.le (by linarith)
  have hLm := Km.hL
  have hLp := Kp.hL
  have hMm := Km.hM
  have hMp := Kp.hM
  obtain ⟨M0, hM0⟩ := hb (|t0| + |t0 + T| + (x τ).norm + ρ0)
  have hbd : ∀ t X, t0 ≤ t → t ≤ t0 + T → (X - x τ).norm ≤ ρ0 → ∃ EB, field t X = .ok EB ∧ EB.E.norm ≤ M0 ∧ EB.B.norm ≤ M0 := by
    intro t X a1 a2 a3
    have n0 := Vec.norm_nonneg (x τ)
    refine hM0 t X ?_ ?_
    · rw [abs_le]
      constructor
      · linarith [neg_abs_le t0, abs_nonneg (t0 + T)]
      · linarith [le_abs_self (t0 + T), abs_nonneg t0]
    · have := Vec.norm_add_le (X - x τ) (x τ)
      rw [sub_add_cancel] at this
      linarith [abs_nonneg t0, abs_nonneg (t0 + T)]
  have hM00 : 0 ≤ M0 := by
    obtain ⟨EB, -, a, -⟩ := hbd τ (x τ) h1 h2 (by rw [sub_self, Vec.norm_zero]; exact hρ0.le)
    exact (Vec.norm_nonneg _).trans a
  set F := |qm| * (M0 / SpeedOfLight + M0) with hF
  have hF0 : 0 ≤ F := by positivity
  set ρ := min (ρ0 / 2) (m / (8 * (R + 1))) with hρ
  have hρp : 0 < ρ := lt_min (by positivity) (by positivity)
  have hρ1 : ρ ≤ ρ0 / 2 := min_le_left _ _
  have hρ2 : 8 * ρ * (R + 1) ≤ m := by
    have := min_le_right (ρ0 / 2) (m / (8 * (R + 1)))
    rw [← hρ, le_div_iff₀ (by positivity)] at this
    linarith
  obtain ⟨δ1, hδ1, hpn⟩ := Cont.near hm.continuous h1 h2 hρp
  set δ := min δ1 (ρ / (4 * (2 * SpeedOfLight + 2 * F))) with hδ
  have hδp : 0 < δ := lt_min hδ1 (by positivity)
  have hδ2 : δ * (4 * (2 * SpeedOfLight + 2 * F)) ≤ ρ := by
    have := min_le_right δ1 (ρ / (4 * (2 * SpeedOfLight + 2 * F)))
    rwa [← hδ, le_div_iff₀ (by positivity)] at this
  have hδc : SpeedOfLight * δ ≤ ρ := by nlinarith [mul_nonneg hF0 hδp.le, mul_pos hc hδp]
  set lo := max t0 (τ - δ) with hlo
  set hi := min (t0 + T) (τ + δ) with hhi
  have l1 : t0 ≤ lo := le_max_left _ _
  have l2 : τ - δ ≤ lo := le_max_right _ _
  have l3 : lo ≤ τ := max_le h1 (by linarith)
  have i1 : hi ≤ t0 + T := min_le_left _ _
  have i2 : hi ≤ τ + δ := min_le_right _ _
  have i3 : τ ≤ hi := le_min h2 (by linarith)
  clear_value lo hi
  have hdist : ∀ t, lo ≤ t → t ≤ hi → |t - τ| ≤ δ := fun t a b => by
    rw [abs_le]
    constructor <;> linarith
  -- positions
  have xpos : ∀ a b, lo ≤ a → a ≤ b → b ≤ hi → (x b - x a).norm ≤ SpeedOfLight * (b - a) := by
    intro a b ha hab hb'
    exact moved hab (cont_of_velocity fun t u w => hm.position t (by linarith) (by linarith)) (fun t u w => hm.position t (by linarith) (by linarith))
      (fun t _ _ => Exist.speed (p t))
  have xnear : ∀ t, lo ≤ t → t ≤ hi → (x t - x τ).norm ≤ ρ0 / 2 := by
    intro t a b
    have : (x t - x τ).norm ≤ SpeedOfLight * δ := by
      rcases le_total t τ with h | h
      · rw [Vec.norm_sub_comm]
        exact (xpos t τ a h i3).trans (mul_le_mul_of_nonneg_left (by linarith) hc.le)
      · exact (xpos τ t l3 h b).trans (mul_le_mul_of_nonneg_left (by linarith) hc.le)
    linarith
  have Xnear : ∀ t, lo ≤ t → t ≤ hi → ∀ X, (X - x t).norm ≤ ρ → (X - x τ).norm ≤ ρ0 := by
    intro t a b X hX
    have := Vec.norm_sub_le X (x t) (x τ)
    linarith [xnear t a b]
  -- speed
  have hspeed : ∀ t, lo ≤ t → t ≤ hi → ∀ u, (u - p t).norm ≤ ρ → ∀ n ∈ ns, SpeedOfLight * m / 2 ≤ SpeedOfLight * dot (velOf u) n := by
    intro t a b u hu n hn
    have hp' := hpn t (by linarith) (by linarith) ((hdist t a b).trans (min_le_left _ _))
    have h3 := Vec.norm_sub_le u (p t) (p τ)
    have h4 := velOf_lip u (p τ)
    obtain ⟨h5, h6⟩ := hmR n hn
    have h7 := (abs_le.mp (abs_dot_le (velOf u - velOf (p τ)) n)).1
    rw [dot_sub_left] at h7
    have h8 : (velOf u - velOf (p τ)).norm * n.norm ≤ 4 * ρ * R := mul_le_mul (by linarith) h6 (Vec.norm_nonneg _) (by positivity)
    have h9 : m / 2 ≤ dot (velOf u) n := by nlinarith
    have := mul_le_mul_of_nonneg_left h9 hc.le
    linarith
  have hsp : ∀ t, lo ≤ t → t ≤ hi → ∀ n ∈ ns, SpeedOfLight * m / 2 ≤ dot (velOf (p t) * SpeedOfLight) n := by
    intro t a b n hn
    have := hspeed t a b (p t) (by rw [sub_self, Vec.norm_zero]; exact hρp.le) n hn
    rw [dot_mul_left]
    linarith
  have happ : ∀ a b, lo ≤ a → a ≤ b → b ≤ hi → ∀ n ∈ ns, SpeedOfLight * m / 2 * (b - a) ≤ dot (x b - x a) n := by
    intro a b ha hab hb' n hn
    exact advance n hab (fun t u w => hm.position t (by linarith) (by linarith)) (fun t u w => hsp t (by linarith) (by linarith) n hn)
  have hσ : 0 < SpeedOfLight * m / 2 := by positivity
  -- the two sides
  have before : ∀ t, lo ≤ t → t < τ → ∀ n ∈ ns, dot (x t - x τ) n < 0 := by
    intro t a b n hn
    have h3 := happ t τ a b.le i3 n hn
    have h4 : 0 < SpeedOfLight * m / 2 * (τ - t) := mul_pos hσ (by linarith)
    rw [show x t - x τ = -(x τ - x t) by abel, dot_neg_left]
    linarith
  have behind : ∀ t, τ < t → t ≤ hi → ∀ n ∈ ns, 0 < dot (x t - x τ) n := by
    intro t a b n hn
    have h3 := happ τ t l3 a.le b n hn
    have h4 : 0 < SpeedOfLight * m / 2 * (t - τ) := mul_pos hσ (by linarith)
    linarith
  have near0 : ∀ t, lo ≤ t → t ≤ hi → (x t - x τ).norm ≤ ρ0 := fun t a b => (xnear t a b).trans (by linarith)
  have pm : ∀ t, lo ≤ t → t < τ → HasVelocity p (Exist.force qm em bm t (x t) (p t)) t := by
    intro t a b
    obtain ⟨e1, e2⟩ := (hX (x t) (near0 t a (by linarith))).1 (before t a b)
    obtain ⟨EB, f1, f2⟩ := hm.momentum t (by linarith) (by linarith) e2
    rw [e1 t, Km.eq t (x t) (by linarith) (by linarith) (near0 t a (by linarith))] at f1
    cases f1
    rw [← Exist.force_eq]
    exact f2
  have pp : ∀ t, τ < t → t ≤ hi → HasVelocity p (Exist.force qm ep bp t (x t) (p t)) t := by
    intro t a b
    obtain ⟨e1, e2⟩ := (hX (x t) (near0 t (by linarith) b)).2 (behind t a b)
    obtain ⟨EB, f1, f2⟩ := hm.momentum t (by linarith) (by linarith) e2
    rw [e1 t, Kp.eq t (x t) (by linarith) (by linarith) (near0 t (by linarith) b)] at f1
    cases f1
    rw [← Exist.force_eq]
    exact f2
  have fm_le : ∀ t, lo ≤ t → t < τ → (Exist.force qm em bm t (x t) (p t)).norm ≤ F := by
    intro t a b
    obtain ⟨EB, f1, f2, f3⟩ := hbd t (x t) (by linarith) (by linarith) (near0 t a (by linarith))
    rw [((hX (x t) (near0 t a (by linarith))).1 (before t a b)).1 t, Km.eq t (x t) (by linarith) (by linarith) (near0 t a (by linarith))] at f1
    cases f1
    rw [← Exist.force_eq]
    exact force_le f2 f3
  have fp_le : ∀ t, τ < t → t ≤ hi → (Exist.force qm ep bp t (x t) (p t)).norm ≤ F := by
    intro t a b
    obtain ⟨EB, f1, f2, f3⟩ := hbd t (x t) (by linarith) (by linarith) (near0 t (by linarith) b)
    rw [((hX (x t) (near0 t (by linarith) b)).2 (behind t a b)).1 t, Kp.eq t (x t) (by linarith) (by linarith) (near0 t (by linarith) b)] at f1
    cases f1
    rw [← Exist.force_eq]
    exact force_le f2 f3
  have cp : ∀ a b, lo ≤ a → b ≤ hi → Cont p a b := fun a b ha hb' => Cont.mono hm.continuous (by linarith) (by linarith)
  have mm : ∀ a b, lo ≤ a → a ≤ b → b ≤ τ → (p b - p a).norm ≤ F * (b - a) := fun a b ha hab hb' =>
    moved hab (cp a b ha (by linarith)) (fun t u w => pm t (by linarith) (by linarith)) (fun t u w => fm_le t (by linarith) (by linarith))
  have mp : ∀ a b, τ ≤ a → a ≤ b → b ≤ hi → (p b - p a).norm ≤ F * (b - a) := fun a b ha hab hb' =>
    moved hab (cp a b (by linarith) (by linarith)) (fun t u w => pp t (by linarith) (by linarith)) (fun t u w => fp_le t (by linarith) (by linarith))
  have mom : ∀ a b, lo ≤ a → a ≤ b → b ≤ hi → (p b - p a).norm ≤ F * (b - a) := by
    intro a b ha hab hb'
    rcases le_total b τ with h | h
    · exact mm a b ha hab h
    rcases le_total τ a with h' | h'
    · exact mp a b h' hab hb'
    have := Vec.norm_sub_le (p b) (p τ) (p a)
    have g1 := mp τ b le_rfl h hb'
    have g2 := mm a τ ha h' le_rfl
    linarith
  refine ⟨δ, hδp, ns, SpeedOfLight * m / 2, ρ, R, F, Lm + Lp, Mm + Mp, 2 * F * SpeedOfLight, Exist.A qm Lm Mm * (1 + SpeedOfLight + F) + Exist.A qm Lp Mp * (1 + SpeedOfLight + F), ?_⟩
  rw [← hlo, ← hhi]
  have hAm := Km.A_nonneg qm
  have hAp := Kp.A_nonneg qm
  refine ⟨l3, i3, hσ, hρp, hR, hF0, by positivity, by positivity, by positivity, by positivity, fun n hn => (hmR n hn).2, ?_, ?_, mom, xpos, ?_, ?_, hspeed, ?_⟩
  · have : (2 * SpeedOfLight + 2 * F) * (hi - lo) ≤ (2 * SpeedOfLight + 2 * F) * (2 * δ) := mul_le_mul_of_nonneg_left (by linarith) (by positivity)
    linarith
  · intro t a b X hXt
    obtain ⟨EB, f1, f2, f3⟩ := hbd t X (by linarith) (by linarith) (Xnear t a b X hXt)
    refine ⟨EB, f1, mul_le_mul_of_nonneg_left (add_le_add (div_le_div_of_nonneg_right f2 hc.le) f3) (abs_nonneg qm)⟩
  · intro a b ha hab hb'
    have := moved_sub (f := x) (v := fun t => velOf (p t) * SpeedOfLight) (C := 2 * F * SpeedOfLight * (b - a)) (velOf (p a) * SpeedOfLight) hab
      (cont_of_velocity fun t u w => hm.position t (by linarith) (by linarith)) (fun t u w => hm.position t (by linarith) (by linarith))
      (fun t u w => by
        have e : velOf (p t) * SpeedOfLight - velOf (p a) * SpeedOfLight = (velOf (p t) - velOf (p a)) * SpeedOfLight := by
          ext <;> simp <;> ring
        rw [e, Vec.norm_mul, abs_of_pos hc]
        have g1 := velOf_lip (p t) (p a)
        have g2 := mom a t ha u.le (by linarith)
        have g3 : F * (t - a) ≤ F * (b - a) := mul_le_mul_of_nonneg_left (by linarith) hF0
        have g4 := mul_le_mul_of_nonneg_right (show (velOf (p t) - velOf (p a)).norm ≤ 2 * (F * (b - a)) by linarith) hc.le
        linarith)
    rw [mul_assoc'] at this
    calc _ ≤ _ := this
      _ = _ := by ring
  · intro t a b n hn
    have := happ t τ a b i3 n hn
    rw [show x t - x τ = -(x τ - x t) by abel, dot_neg_left]
    linarith
  · intro a b ha hab hb' X hXb hcase
    have hn0 := Vec.norm_nonneg (X - x b)
    have hsq := sq_nonneg (b - a)
    rcases hcase with ⟨hbτ, hs⟩ | ⟨haτ, hs⟩
    · have hf : field b X = .ok ⟨em b X, bm b X⟩ := by
        rw [((hX X (Xnear b (by linarith) hb' X hXb)).1 hs).1 b]
        exact Km.eq b X (by linarith) (by linarith) (Xnear b (by linarith) hb' X hXb)
      refine ⟨em b (x b), bm b (x b), _, hf, ?_, ?_, ?_, ?_⟩
      · refine (mom_side Km hF0 hab (by linarith) (by linarith) (cp a b ha hb') (fun t u w => pm t (by linarith) (by linarith))
          (fun t u w => xpos t b (by linarith) w hb') (fun t u w => mom t b (by linarith) w hb')).trans (mul_le_mul_of_nonneg_right ?_ hsq)
        have : 0 ≤ Exist.A qm Lp Mp * (1 + SpeedOfLight + F) := by positivity
        linarith
      · exact (Km.boundB b (x b) (by linarith) (by linarith)).trans (by linarith)
      · have := Km.lipE b b (x b) X (by linarith) (by linarith) (by linarith) (by linarith)
        rw [sub_self, abs_zero, zero_add] at this
        exact this.trans (mul_le_mul_of_nonneg_right (by linarith) hn0)
      · have := Km.lipB b b (x b) X (by linarith) (by linarith) (by linarith) (by linarith)
        rw [sub_self, abs_zero, zero_add] at this
        exact this.trans (mul_le_mul_of_nonneg_right (by linarith) hn0)
    · have hf : field b X = .ok ⟨ep b X, bp b X⟩ := by
        rw [((hX X (Xnear b (by linarith) hb' X hXb)).2 hs).1 b]
        exact Kp.eq b X (by linarith) (by linarith) (Xnear b (by linarith) hb' X hXb)
      refine ⟨ep b (x b), bp b (x b), _, hf, ?_, ?_, ?_, ?_⟩
      · refine (mom_side Kp hF0 hab (by linarith) (by linarith) (cp a b ha hb') (fun t u w => pp t (by linarith) (by linarith))
          (fun t u w => xpos t b (by linarith) w hb') (fun t u w => mom t b (by linarith) w hb')).trans (mul_le_mul_of_nonneg_right ?_ hsq)
        have : 0 ≤ Exist.A qm Lm Mm * (1 + SpeedOfLight + F) := by positivity
        linarith
      · exact (Kp.boundB b (x b) (by linarith) (by linarith)).trans (by linarith)
      · have := Kp.lipE b b (x b) X (by linarith) (by linarith) (by linarith) (by linarith)
        rw [sub_self, abs_zero, zero_add] at this
        exact this.trans (mul_le_mul_of_nonneg_right (by linarith) hn0)
      · have := Kp.lipB b b (x b) X (by linarith) (by linarith) (by linarith) (by linarith)
        rw [sub_self, abs_zero, zero_add] at this
        exact this.trans (mul_le_mul_of_nonneg_right (by linarith) hn0)

/-- a particle at the start of the motion, ready to be stepped -/
structure Start (qm : ℝ) (x p : ℝ → Vec) (t0 F0 h : ℝ) (q : Particle) : Prop where
  consts : Consts qm h t0 q
  err : err x p q t0 ≤ F0 * h
  mom : (q.PCur - q.VYp).norm ≤ F0 * h

/-- up to the time `s` the deviations are of the order of the time step -/
def Upto (qm : ℝ) (field : FieldFn) (x p : ℝ → Vec) (t0 F0 s : ℝ) : Prop :=
  ∃ C h0 : ℝ, 0 < h0 ∧ ∀ h, 0 < h → h ≤ h0 → ∀ q, Start qm x p t0 F0 h q → ∀ k : ℕ, t0 + k * h ≤ s →
    ∃ q', q.steps (List.replicate k field) = .ok q' ∧ Consts qm h (t0 + k * h) q' ∧ Edge.err x p q' (t0 + k * h) ≤ C * h ∧ (q'.PCur - q'.VYp).norm ≤ C * h

theorem upto_start {qm : ℝ} {field : FieldFn} {x p : ℝ → Vec} {t0 F0 : ℝ} : Upto qm field x p t0 F0 t0 := by
  refine ⟨F0, 1, one_pos, fun h hh _ q hq k hk => ?_⟩
  have : k = 0 := by
    by_contra h0
    have h1 : (1 : ℝ) ≤ k := by exact_mod_cast Nat.one_le_iff_ne_zero.mpr h0
    nlinarith
  subst this
  simp only [Nat.cast_zero, zero_mul, add_zero]
  exact ⟨q, rfl, hq.consts, hq.err, hq.mom⟩

/-- through one zone -/
theorem upto_zone {qm : ℝ} {field : FieldFn} {x p : ℝ → Vec} {t0 F0 T τ δ s : ℝ} {ns : List Vec} {σ ρ R F L M A D : ℝ} (hδ : 0 < δ)
    (Z : Zone qm field x p (max t0 (τ - δ)) τ (min (t0 + T) (τ + δ)) ns σ ρ R F L M A D)
    (h1 : t0 ≤ s) (h2 : τ - δ / 2 ≤ s) (h3 : s ≤ τ) (hs : Upto qm field x p t0 F0 s) : Upto qm field x p t0 F0 (min (t0 + T) (τ + δ)) := by
  obtain ⟨C, h0, hh0, H⟩ := hs
  obtain ⟨C', h0', hh0', H'⟩ := Z.carry (C0 := max C 0) (le_max_right _ _)
  refine ⟨max C (max C' (2 * F)), min (min h0 h0') (δ / 2), lt_min (lt_min hh0 hh0') (by positivity), fun h hh hle q hq k hk => ?_⟩
  have e1 : h ≤ h0 := hle.trans ((min_le_left _ _).trans (min_le_left _ _))
  have e2 : h ≤ h0' := hle.trans ((min_le_left _ _).trans (min_le_right _ _))
  have e3 : h ≤ δ / 2 := hle.trans (min_le_right _ _)
  have m1 : C * h ≤ max C (max C' (2 * F)) * h := mul_le_mul_of_nonneg_right (le_max_left _ _) hh.le
  have m2 : C' * h ≤ max C (max C' (2 * F)) * h := mul_le_mul_of_nonneg_right ((le_max_left _ _).trans (le_max_right _ _)) hh.le
  have m3 : 2 * F * h ≤ max C (max C' (2 * F)) * h := mul_le_mul_of_nonneg_right ((le_max_right _ _).trans (le_max_right _ _)) hh.le
  by_cases hks : t0 + k * h ≤ s
  · obtain ⟨q', a1, a2, a3, a4⟩ := H h hh e1 q hq k hks
    exact ⟨q', a1, a2, a3.trans m1, a4.trans m1⟩
  · set k0 := ⌊(s - t0) / h⌋₊ with hk0
    have hr : 0 ≤ (s - t0) / h := div_nonneg (by linarith) hh.le
    have f1 : (k0 : ℝ) * h ≤ s - t0 := by
      have := Nat.floor_le hr
      rwa [le_div_iff₀ hh] at this
    have f2 : s - t0 < (k0 + 1) * h := by
      have := Nat.lt_floor_add_one ((s - t0) / h)
      rwa [div_lt_iff₀ hh] at this
    have hkk : k0 < k := by
      have : (k0 : ℝ) * h < k * h := by linarith
      exact_mod_cast lt_of_mul_lt_mul_right this hh.le
    obtain ⟨j, rfl⟩ : ∃ j, k = k0 + j := ⟨k - k0, by omega⟩
    obtain ⟨q', a1, a2, a3, a4⟩ := H h hh e1 q hq k0 (by linarith)
    have hn : (0:ℝ) ≤ k0 * h := by positivity
    have esum : t0 + ((k0 + j : ℕ) : ℝ) * h = t0 + k0 * h + j * h := by push_cast; ring
    rw [esum] at hk ⊢
    obtain ⟨q'', b1, b2, b3, b4⟩ := H' h hh e2 (t0 + k0 * h) q' (max_le (by linarith) (by linarith)) (by linarith) a2
      (a3.trans (mul_le_mul_of_nonneg_right (le_max_left _ _) hh.le)) j hk
    refine ⟨q'', ?_, b2, b3.trans m2, (b4 (by omega)).trans m3⟩
    rw [← List.replicate_append_replicate, Particle.steps_append_ok a1]
    exact b1

/-- through all zones -/
theorem upto_end {qm : ℝ} {field : FieldFn} {faces : List (Vec × Vec)} {x p : ℝ → Vec} {t0 T F0 : ℝ} (hT : 0 ≤ T) (hm : EdgeMotion qm field faces x p t0 T)
    (hb : BoundedField field) (hcr : ∀ τ, t0 ≤ τ → τ ≤ t0 + T → Crossed field faces (x τ) (velOf (p τ))) : Upto qm field x p t0 F0 (t0 + T) := by
  set S : Set ℝ := {s | t0 ≤ s ∧ s ≤ t0 + T ∧ Upto qm field x p t0 F0 s} with hS
  have hne : S.Nonempty := ⟨t0, le_rfl, by linarith, upto_start⟩
  have hbd : BddAbove S := ⟨t0 + T, fun s hs => hs.2.1⟩
  set τ := sSup S with hτ
  have h1 : t0 ≤ τ := le_csSup hbd ⟨le_rfl, by linarith, upto_start⟩
  have h2 : τ ≤ t0 + T := csSup_le hne fun s hs => hs.2.1
  obtain ⟨δ, hδ, ns, σ, ρ, R, F, L, M, A, D, Z⟩ := zone_exists hm hb h1 h2 (hcr τ h1 h2)
  obtain ⟨s, hs, hs'⟩ := exists_lt_of_lt_csSup hne (show τ - δ / 2 < sSup S by rw [← hτ]; linarith)
  have := upto_zone hδ Z hs.1 hs'.le (le_csSup hbd hs) hs.2.2
  rcases le_total (t0 + T) (τ + δ) with h | h
  · rwa [min_eq_left h] at this
  · rw [min_eq_right h] at this
    have : τ + δ ≤ τ := le_csSup hbd ⟨by linarith, h, this⟩
    linarith

end Edge
end Teufel
