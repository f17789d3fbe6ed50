import Verif.Lemmas.FunAlg
import Verif.Lemmas.Signal
import Verif.Lemmas.Converge
import Verif.Lemmas.Integrate
import Verif.Spec.Radiation
import Mathlib.Analysis.Calculus.Deriv.MeanValue

/-! # Arrival time and field of the radiation of a smooth motion -/

namespace Teufel
open Vec

/-- first order expansion of a function with a Lipschitz continuous derivative -/
theorem first_order {f f' : ℝ → ℝ} {a b M : ℝ} (hd : ∀ t ∈ Set.Icc a b, HasDerivAt f (f' t) t) (hM0 : 0 ≤ M)
    (hl : ∀ s ∈ Set.Icc a b, ∀ t ∈ Set.Icc a b, |f' t - f' s| ≤ M * |t - s|) {s t : ℝ} (hs : s ∈ Set.Icc a b) (ht : t ∈ Set.Icc a b) :
    |f t - f s - f' s * (t - s)| ≤ M * (t - s) ^ 2 := by
  have sub : ∀ r ∈ Set.Icc (min s t) (max s t), r ∈ Set.Icc a b := fun r hr => ⟨(le_min hs.1 ht.1).trans hr.1, hr.2.trans (max_le hs.2 ht.2)⟩
  have hd' : ∀ r ∈ Set.Icc (min s t) (max s t), HasDerivAt (fun r => f r - f' s * r) (f' r - f' s) r := by
    intro r hr
    have c := (hasDerivAt_id r).const_mul (f' s)
    have := (hd r (sub r hr)).sub c
    rw [mul_one] at this
    exact this
  have hb : ∀ r ∈ Set.Icc (min s t) (max s t), |f' r - f' s| ≤ M * |t - s| := by
    intro r hr
    refine (hl s hs r (sub r hr)).trans (mul_le_mul_of_nonneg_left ?_ hM0)
    rcases le_total s t with h | h
    · rw [min_eq_left h, max_eq_right h] at hr
      rw [abs_of_nonneg (by linarith [hr.1]), abs_of_nonneg (by linarith)]
      linarith [hr.2]
    · rw [min_eq_right h, max_eq_left h] at hr
      rw [abs_of_nonpos (by linarith [hr.2]), abs_of_nonpos (by linarith)]
      linarith [hr.1]
  have := Taylor.mvt hd' hb (s := s) (t := t) ⟨min_le_left _ _, le_max_left _ _⟩ ⟨min_le_right _ _, le_max_right _ _⟩
  calc |f t - f s - f' s * (t - s)| = |f t - f' s * t - (f s - f' s * s)| := by ring_nf
    _ ≤ M * |t - s| * |t - s| := this
    _ = _ := by rw [mul_assoc, abs_mul_abs_self]; ring

theorem quad_of_deriv {f f' : ℝ → ℝ} {a b M : ℝ} (hd : ∀ t ∈ Set.Icc a b, HasDerivAt f (f' t) t) (hM0 : 0 ≤ M) (hb : ∀ t ∈ Set.Icc a b, |f t| ≤ M)
    (hb' : ∀ t ∈ Set.Icc a b, |f' t| ≤ M) (hl : ∀ s ∈ Set.Icc a b, ∀ t ∈ Set.Icc a b, |f' t - f' s| ≤ M * |t - s|) :
    Quad (fun s : Set.Icc a b => f s) :=
  ⟨fun s => f' s, M, hM0, fun s t => ⟨hb s s.2, hb' s s.2, Taylor.mvt hd hb' s.2 t.2, first_order hd hM0 hl s.2 t.2⟩⟩

theorem quad_lipDiff {f : ℝ → ℝ} (hf : LipDiff 1 f) (a b : ℝ) : Quad (fun s : Set.Icc a b => f s) := by
  have d0 : ∀ t, HasDerivAt f (deriv f t) t := fun t => (hf.1 t).hasDerivAt
  obtain ⟨M0, hM0⟩ := (isCompact_Icc (a := a) (b := b)).exists_bound_of_continuousOn hf.1.continuous.continuousOn
  obtain ⟨M1, hM1⟩ := (isCompact_Icc (a := a) (b := b)).exists_bound_of_continuousOn (LipDiff.continuous hf.2).continuousOn
  obtain ⟨M2, n2, hM2⟩ := LipDiff.lip_Icc hf.2 a b
  simp only [Real.norm_eq_abs] at hM0 hM1
  have n0 := abs_nonneg M0
  have n1 := abs_nonneg M1
  refine quad_of_deriv (f' := deriv f) (M := |M0| + |M1| + M2) (fun t _ => d0 t) (by positivity) ?_ ?_ ?_
  · intro t ht; have := (hM0 t ht).trans (le_abs_self _); linarith
  · intro t ht; have := (hM1 t ht).trans (le_abs_self _); linarith
  · intro s hs t ht
    exact (hM2 s hs t ht).trans (mul_le_mul_of_nonneg_right (by linarith) (abs_nonneg _))

theorem quad_vec {f : ℝ → Vec} (hf : Smooth f) (a b : ℝ) : FunAlg.V Quad (fun s : Set.Icc a b => f s) :=
  ⟨quad_lipDiff hf.1.lower a b, quad_lipDiff hf.2.1.lower a b, quad_lipDiff hf.2.2.lower a b⟩

/-- the rate of change of a vector -/
noncomputable def rateOf (p : ℝ → Vec) (t : ℝ) : Vec := ⟨deriv (fun s => (p s).x) t, deriv (fun s => (p s).y) t, deriv (fun s => (p s).z) t⟩

theorem rateOf_spec {p : ℝ → Vec} (hp : Smooth p) (t : ℝ) : HasVelocity p (rateOf p t) t :=
  ⟨(hp.1.1 t).hasDerivAt, (hp.2.1.1 t).hasDerivAt, (hp.2.2.1 t).hasDerivAt⟩

theorem quad_rate {p : ℝ → Vec} (hp : Smooth p) (a b : ℝ) : FunAlg.V Quad (fun s : Set.Icc a b => rateOf p s) :=
  ⟨quad_lipDiff hp.1.2 a b, quad_lipDiff hp.2.1.2 a b, quad_lipDiff hp.2.2.2 a b⟩

/-- a function with a rate of change that has a first order expansion -/
theorem quad_path {f g : ℝ → ℝ} {a b : ℝ} (hd : ∀ t ∈ Set.Icc a b, HasDerivAt f (g t) t) (hg : Quad (fun s : Set.Icc a b => g s)) :
    Quad (fun s : Set.Icc a b => f s) := by
  obtain ⟨g', C, hC, h⟩ := hg
  have hc : ContinuousOn f (Set.Icc a b) := fun t ht => (hd t ht).continuousAt.continuousWithinAt
  obtain ⟨M, hM⟩ := (isCompact_Icc (a := a) (b := b)).exists_bound_of_continuousOn hc
  simp only [Real.norm_eq_abs] at hM
  refine quad_of_deriv (f' := g) (M := C + |M|) hd (by positivity) ?_ ?_ ?_
  · intro t ht; have := (hM t ht).trans (le_abs_self _); linarith
  · intro t ht; have := (h ⟨t, ht⟩ ⟨t, ht⟩).1; linarith [abs_nonneg M]
  · intro s hs t ht
    have := (h ⟨s, hs⟩ ⟨t, ht⟩).2.2.1
    exact this.trans (mul_le_mul_of_nonneg_right (by linarith [abs_nonneg M]) (abs_nonneg _))

theorem betaOf_eq_velOf (p : Vec) : betaOf p = velOf p := by unfold betaOf velOf; rw [norm_sq]

/-- the path of a particle with the momentum `p`, which does not meet the observer -/
structure Way (x p : ℝ → Vec) (t0 T : ℝ) (obs : Vec) : Prop where
  vel : ∀ t ∈ Set.Icc t0 (t0 + T), HasVelocity x (velOf (p t) * SpeedOfLight) t
  off : ∀ t ∈ Set.Icc t0 (t0 + T), obs ≠ x t
  T_nonneg : 0 ≤ T

/-- the momentum is smooth -/
structure Path (x p : ℝ → Vec) (t0 T : ℝ) (obs : Vec) : Prop extends Way x p t0 T obs where
  smooth : Smooth p

namespace Way
variable {x p : ℝ → Vec} {t0 T : ℝ} {obs : Vec}

/-- the observer keeps a distance -/
theorem distance (H : Way x p t0 T obs) : ∃ d, 0 < d ∧ ∀ t ∈ Set.Icc t0 (t0 + T), d ≤ Vec.norm (obs - x t) := by
  have cx : ∀ {f : ℝ → ℝ} {f' : ℝ → ℝ}, (∀ t ∈ Set.Icc t0 (t0 + T), HasDerivAt f (f' t) t) → ContinuousOn f (Set.Icc t0 (t0 + T)) :=
    fun h t ht => (h t ht).continuousAt.continuousWithinAt
  have c1 := cx (fun t ht => (H.vel t ht).1)
  have c2 := cx (fun t ht => (H.vel t ht).2.1)
  have c3 := cx (fun t ht => (H.vel t ht).2.2)
  have hc : ContinuousOn (fun t => Vec.norm (obs - x t)) (Set.Icc t0 (t0 + T)) := by
    have e : (fun t => Vec.norm (obs - x t)) = fun t => Real.sqrt ((obs.x - (x t).x) * (obs.x - (x t).x) + (obs.y - (x t).y) * (obs.y - (x t).y) + (obs.z - (x t).z) * (obs.z - (x t).z)) := rfl
    rw [e]
    exact (((continuousOn_const.sub c1).mul (continuousOn_const.sub c1)).add ((continuousOn_const.sub c2).mul (continuousOn_const.sub c2))).add
      ((continuousOn_const.sub c3).mul (continuousOn_const.sub c3)) |>.sqrt
  obtain ⟨tm, htm, hmin⟩ := isCompact_Icc.exists_isMinOn (Set.nonempty_Icc.mpr (by linarith [H.T_nonneg])) hc
  exact ⟨Vec.norm (obs - x tm), Vec.norm_pos (sub_ne_zero.mpr (H.off tm htm)), fun t ht => hmin ht⟩

theorem bounded (H : Way x p t0 T obs) : ∃ M, ∀ t ∈ Set.Icc t0 (t0 + T), Vec.norm (x t) ≤ M := by
  have cx : ∀ {f : ℝ → ℝ} {f' : ℝ → ℝ}, (∀ t ∈ Set.Icc t0 (t0 + T), HasDerivAt f (f' t) t) → ContinuousOn f (Set.Icc t0 (t0 + T)) :=
    fun h t ht => (h t ht).continuousAt.continuousWithinAt
  have c1 := cx (fun t ht => (H.vel t ht).1)
  have c2 := cx (fun t ht => (H.vel t ht).2.1)
  have c3 := cx (fun t ht => (H.vel t ht).2.2)
  have hc : ContinuousOn (fun t => Vec.norm (x t)) (Set.Icc t0 (t0 + T)) := by
    have e : (fun t => Vec.norm (x t)) = fun t => Real.sqrt ((x t).x * (x t).x + (x t).y * (x t).y + (x t).z * (x t).z) := rfl
    rw [e]
    exact ((c1.mul c1).add (c2.mul c2)).add (c3.mul c3) |>.sqrt
  obtain ⟨M, hM⟩ := isCompact_Icc.exists_bound_of_continuousOn hc
  exact ⟨M, fun t ht => (le_abs_self _).trans (hM t ht)⟩

/-- direction to the observer -/
noncomputable def dir (x : ℝ → Vec) (obs : Vec) (t : ℝ) : Vec := (obs - x t) / Vec.norm (obs - x t)

theorem dir_norm (H : Way x p t0 T obs) {t : ℝ} (ht : t ∈ Set.Icc t0 (t0 + T)) : Vec.norm (dir x obs t) = 1 := by
  have h0 := Vec.norm_pos (sub_ne_zero.mpr (H.off t ht))
  unfold dir
  rw [Vec.norm_div, abs_of_pos h0, div_self h0.ne']

/-- the rate of change of the arrival time -/
theorem arrival_deriv (H : Way x p t0 T obs) {t : ℝ} (ht : t ∈ Set.Icc t0 (t0 + T)) :
    HasDerivAt (arrival x obs) (1 - dot (dir x obs t) (betaOf (p t))) t := by
  have h0 := Vec.norm_pos (sub_ne_zero.mpr (H.off t ht))
  have hc := SpeedOfLight_pos
  obtain ⟨d1, d2, d3⟩ := H.vel t ht
  have e1 := (hasDerivAt_const t obs.x).sub d1
  have e2 := (hasDerivAt_const t obs.y).sub d2
  have e3 := (hasDerivAt_const t obs.z).sub d3
  have s := ((e1.mul e1).add (e2.mul e2)).add (e3.mul e3)
  have hne : (obs - x t).abs2nd ≠ 0 := by
    rw [← norm_sq]
    positivity
  have q := s.sqrt (by exact hne)
  have r := (hasDerivAt_id t).add (q.div_const SpeedOfLight)
  refine HasDerivAt.congr_deriv (f := arrival x obs) r ?_
  have e : Real.sqrt ((obs.x - (x t).x) * (obs.x - (x t).x) + (obs.y - (x t).y) * (obs.y - (x t).y) + (obs.z - (x t).z) * (obs.z - (x t).z)) = Vec.norm (obs - x t) := rfl
  rw [betaOf_eq_velOf]
  simp only [Pi.add_apply, Pi.mul_apply, Pi.sub_apply, e, dir, dot]
  simp only [Vec.div_x, Vec.div_y, Vec.div_z, Vec.sub_x, Vec.sub_y, Vec.sub_z, Vec.mul_x, Vec.mul_y, Vec.mul_z]
  field_simp
  ring

end Way

namespace Path
variable {x p : ℝ → Vec} {t0 T : ℝ} {obs : Vec}
open Way

theorem quad_vel (H : Path x p t0 T obs) : FunAlg.V Quad (fun s : Set.Icc t0 (t0 + T) => velOf (p s)) := quad_vec H.smooth.velOf _ _

theorem quad_pos (H : Path x p t0 T obs) : FunAlg.V Quad (fun s : Set.Icc t0 (t0 + T) => x s) := by
  have h := quad_alg.vmul H.quad_vel (quad_alg.const SpeedOfLight)
  exact ⟨quad_path (g := fun t => (velOf (p t) * SpeedOfLight).x) (fun t ht => (H.vel t ht).1) h.1,
    quad_path (g := fun t => (velOf (p t) * SpeedOfLight).y) (fun t ht => (H.vel t ht).2.1) h.2.1,
    quad_path (g := fun t => (velOf (p t) * SpeedOfLight).z) (fun t ht => (H.vel t ht).2.2) h.2.2⟩

/-- the field formula with `dp/dt / γ` for the acceleration -/
noncomputable def fieldAt (q : ℝ) (x p : ℝ → Vec) (obs : Vec) (t : ℝ) : EMField :=
  LW q (x t) (betaOf (p t)) (rateOf p t / Real.sqrt (1 + Vec.norm (p t) ^ 2)) obs

theorem component_expand {φ : EMField → ℝ} (hφ : Particle.IsComponent φ) (F : EMField) :
    φ F = F.E.x * φ ⟨⟨1, 0, 0⟩, 0⟩ + F.E.y * φ ⟨⟨0, 1, 0⟩, 0⟩ + F.E.z * φ ⟨⟨0, 0, 1⟩, 0⟩ +
      F.B.x * φ ⟨0, ⟨1, 0, 0⟩⟩ + F.B.y * φ ⟨0, ⟨0, 1, 0⟩⟩ + F.B.z * φ ⟨0, ⟨0, 0, 1⟩⟩ := by
  have e : F = (⟨⟨1, 0, 0⟩, 0⟩ : EMField) * F.E.x + (⟨⟨0, 1, 0⟩, 0⟩ : EMField) * F.E.y + (⟨⟨0, 0, 1⟩, 0⟩ : EMField) * F.E.z +
      (⟨0, ⟨1, 0, 0⟩⟩ : EMField) * F.B.x + (⟨0, ⟨0, 1, 0⟩⟩ : EMField) * F.B.y + (⟨0, ⟨0, 0, 1⟩⟩ : EMField) * F.B.z := by
    apply EMField.ext <;> ext <;> simp
  conv_lhs => rw [e]
  simp only [hφ.add, hφ.smul]
  ring

theorem component_alg {J : Type} {P : (J → ℝ) → Prop} (H : FunAlg P) {φ : EMField → ℝ} (hφ : Particle.IsComponent φ) {F : J → EMField}
    (hE : FunAlg.V P (fun j => (F j).E)) (hB : FunAlg.V P (fun j => (F j).B)) : P (fun j => φ (F j)) := by
  have e : (fun j => φ (F j)) = fun j => (F j).E.x * φ ⟨⟨1, 0, 0⟩, 0⟩ + (F j).E.y * φ ⟨⟨0, 1, 0⟩, 0⟩ + (F j).E.z * φ ⟨⟨0, 0, 1⟩, 0⟩ +
      (F j).B.x * φ ⟨0, ⟨1, 0, 0⟩⟩ + (F j).B.y * φ ⟨0, ⟨0, 1, 0⟩⟩ + (F j).B.z * φ ⟨0, ⟨0, 0, 1⟩⟩ := by
    funext j
    exact component_expand hφ (F j)
  rw [e]
  exact H.add (H.add (H.add (H.add (H.add (H.mul hE.1 (H.const _)) (H.mul hE.2.1 (H.const _))) (H.mul hE.2.2 (H.const _))) (H.mul hB.1 (H.const _)))
    (H.mul hB.2.1 (H.const _))) (H.mul hB.2.2 (H.const _))

theorem quad_field (H : Path x p t0 T obs) (q : ℝ) {φ : EMField → ℝ} (hφ : Particle.IsComponent φ) :
    Quad (fun s : Set.Icc t0 (t0 + T) => φ (fieldAt q x p obs s)) := by
  obtain ⟨d, hd, hdist⟩ := H.distance
  have hp := quad_vec H.smooth t0 (t0 + T)
  have hb := quad_alg.vdiv (quad_rate H.smooth t0 (t0 + T)) (quad_alg.gamma hp) one_pos (fun j => FunAlg.gamma_ge (p j))
  obtain ⟨hE, hB⟩ := quad_alg.lw q obs H.quad_pos hp hb hd (fun j => hdist j j.2)
  exact component_alg quad_alg hφ hE hB

/-- arrival time and field of the radiation have first order expansions -/
theorem sent (H : Path x p t0 T obs) (q : ℝ) {φ : EMField → ℝ} (hφ : Particle.IsComponent φ) :
    ∃ δ K, Sent (arrival x obs) (fun t => φ (fieldAt q x p obs t)) t0 T δ K := by
  obtain ⟨d, hd, hdist⟩ := H.distance
  have hp := quad_vec H.smooth t0 (t0 + T)
  obtain ⟨M, hM0, hM⟩ := quad_alg.vbdd hp
  set η := 1 / (2 * (1 + M)) with hη
  have hη0 : 0 < η := by positivity
  have haway : ∀ s ∈ Set.Icc t0 (t0 + T), η ≤ 1 - dot (dir x obs s) (betaOf (p s)) :=
    fun s hs => FunAlg.away (p s) M (hM ⟨s, hs⟩) _ (H.dir_norm hs)
  have hr := quad_alg.vsub (quad_alg.vconst obs) H.quad_pos
  have hR := quad_alg.vnorm hr hd (fun j => hdist j j.2)
  have hn := quad_alg.vdiv hr hR hd (fun j => hdist j j.2)
  obtain ⟨k', K1, hK1, hk⟩ := quad_alg.sub (quad_alg.const 1) (quad_alg.vdot hn (quad_alg.beta hp))
  obtain ⟨F', K2, hK2, hF⟩ := H.quad_field q hφ
  have hder : ∀ s ∈ Set.Icc t0 (t0 + T), HasDerivAt (arrival x obs) (1 - dot (dir x obs s) (betaOf (p s))) s := fun s hs => H.arrival_deriv hs
  have hab : ∀ s ∈ Set.Icc t0 (t0 + T), |1 - dot (dir x obs s) (betaOf (p s))| ≤ K1 := fun s hs => (hk ⟨s, hs⟩ ⟨s, hs⟩).1
  have hal : ∀ s ∈ Set.Icc t0 (t0 + T), ∀ t ∈ Set.Icc t0 (t0 + T),
      |(1 - dot (dir x obs t) (betaOf (p t))) - (1 - dot (dir x obs s) (betaOf (p s)))| ≤ K1 * |t - s| := fun s hs t ht => (hk ⟨s, hs⟩ ⟨t, ht⟩).2.2.1
  have le1 : K1 ≤ K1 + K2 := by linarith
  have le2 : K2 ≤ K1 + K2 := by linarith
  refine ⟨η, K1 + K2, ⟨hη0, by linarith, H.T_nonneg, ⟨fun s => 1 - dot (dir x obs s) (betaOf (p s)), fun s hs => ⟨haway s hs, fun t ht => ?_⟩⟩, ?_, ?_, ?_, ?_, ?_⟩⟩
  · exact (first_order hder hK1 hal hs ht).trans (mul_le_mul_of_nonneg_right le1 (sq_nonneg _))
  · intro s hs t ht hst
    have hmono : MonotoneOn (fun r => arrival x obs r - η * r) (Set.Icc t0 (t0 + T)) := by
      have hd' : ∀ r ∈ Set.Icc t0 (t0 + T), HasDerivAt (fun r => arrival x obs r - η * r) (1 - dot (dir x obs r) (betaOf (p r)) - η) r := by
        intro r hr
        have c := (hasDerivAt_id r).const_mul η
        have := (hder r hr).sub c
        rw [mul_one] at this
        exact this
      refine monotoneOn_of_deriv_nonneg (convex_Icc _ _) (fun r hr => (hd' r hr).continuousAt.continuousWithinAt)
        (fun r hr => (hd' r (interior_subset hr)).differentiableAt.differentiableWithinAt) (fun r hr => ?_)
      rw [(hd' r (interior_subset hr)).deriv]
      linarith [haway r (interior_subset hr)]
    have := hmono hs ht hst
    simp only at this
    linarith
  · intro s hs t ht
    exact (Taylor.mvt hder hab hs ht).trans (mul_le_mul_of_nonneg_right le1 (abs_nonneg _))
  · intro s hs
    exact (hF ⟨s, hs⟩ ⟨s, hs⟩).1.trans le2
  · intro s hs t ht
    exact (hF ⟨s, hs⟩ ⟨t, ht⟩).2.2.1.trans (mul_le_mul_of_nonneg_right le2 (abs_nonneg _))
  · refine ⟨fun s => if hs : s ∈ Set.Icc t0 (t0 + T) then F' ⟨s, hs⟩ else 0, fun s hs => ?_⟩
    simp only [dif_pos hs]
    exact ⟨(hF ⟨s, hs⟩ ⟨s, hs⟩).2.1.trans le2, fun t ht => (hF ⟨s, hs⟩ ⟨t, ht⟩).2.2.2.trans (mul_le_mul_of_nonneg_right le2 (sq_nonneg _))⟩

/-- bounds of momentum and rate of change -/
theorem bounds (H : Path x p t0 T obs) : ∃ Mp Mv, (∀ t ∈ Set.Icc t0 (t0 + T), Vec.norm (p t) ≤ Mp) ∧ ∀ t ∈ Set.Icc t0 (t0 + T), Vec.norm (rateOf p t) ≤ Mv := by
  have bd : ∀ {f : ℝ → Vec}, FunAlg.V Quad (fun s : Set.Icc t0 (t0 + T) => f s) → ∃ M, ∀ t ∈ Set.Icc t0 (t0 + T), Vec.norm (f t) ≤ M := by
    intro f hf
    obtain ⟨M, hM0, hM⟩ := quad_alg.vbdd hf
    exact ⟨Real.sqrt M, fun t ht => Real.sqrt_le_sqrt (hM ⟨t, ht⟩)⟩
  obtain ⟨Mp, hMp⟩ := bd (quad_vec H.smooth t0 (t0 + T))
  obtain ⟨Mv, hMv⟩ := bd (quad_rate H.smooth t0 (t0 + T))
  exact ⟨Mp, Mv, hMp, hMv⟩

end Path

namespace Way
variable {x p : ℝ → Vec} {t0 T : ℝ} {obs : Vec}
open Path

theorem comp_le (v : Vec) : |v.x| ≤ Vec.norm v ∧ |v.y| ≤ Vec.norm v ∧ |v.z| ≤ Vec.norm v := by
  refine ⟨?_, ?_, ?_⟩ <;> rw [norm_def] <;> apply Real.abs_le_sqrt <;> unfold abs2nd <;> nlinarith [sq_nonneg v.x, sq_nonneg v.y, sq_nonneg v.z]

/-- a point near the exact motion: time, size of the errors, position, momentum and its rate of change -/
structure NearPoint (x p : ℝ → Vec) (t0 T C h1 : ℝ) where
  t : ℝ
  ε : ℝ
  X : Vec
  P : Vec
  A : Vec
  ht : t ∈ Set.Icc t0 (t0 + T)
  h0 : 0 ≤ ε
  hh : ε ≤ h1
  hX : Vec.norm (X - x t) ≤ C * ε
  hP : Vec.norm (P - p t) ≤ C * ε
  hA : Vec.norm (A - rateOf p t) ≤ C * ε

theorem near_vec {ι : Type} {e : ι → ℝ} {C M : ℝ} (hC : 0 ≤ C) (f : ι × Bool → Vec) (he : ∀ i, 0 ≤ e i ∧ e i ≤ 1) (hd : ∀ i, Vec.norm (f (i, true) - f (i, false)) ≤ C * e i)
    (hM : ∀ i, Vec.norm (f (i, false)) ≤ M) : FunAlg.V (NearBy e) f := by
  have key : ∀ g : Vec → ℝ, (∀ v, |g v| ≤ Vec.norm v) → (∀ v w, g (v - w) = g v - g w) → NearBy e (fun j => g (f j)) := by
    intro g hg hs
    refine ⟨|M| + C, by positivity, fun i => ⟨fun b => ?_, ?_⟩⟩
    · have hf := (hg (f (i, false))).trans ((hM i).trans (le_abs_self M))
      cases b with
      | false => simp only; linarith
      | true =>
        have h2 := (hg (f (i, true) - f (i, false))).trans (hd i)
        rw [hs] at h2
        have h3 : C * e i ≤ C * 1 := mul_le_mul_of_nonneg_left (he i).2 hC
        have h4 : g (f (i, true)) = (g (f (i, true)) - g (f (i, false))) + g (f (i, false)) := by ring
        simp only
        rw [h4]
        refine (abs_add_le _ _).trans ?_
        linarith
    · have h2 := (hg (f (i, true) - f (i, false))).trans (hd i)
      rw [hs] at h2
      refine h2.trans (mul_le_mul_of_nonneg_right ?_ (he i).1)
      linarith [abs_nonneg M]
  exact ⟨key (fun v => v.x) (fun v => (comp_le v).1) (fun _ _ => rfl), key (fun v => v.y) (fun v => (comp_le v).2.1) (fun _ _ => rfl),
    key (fun v => v.z) (fun v => (comp_le v).2.2) (fun _ _ => rfl)⟩

/-- the field of a point near the exact motion is near the exact field -/
theorem field_near (H : Way x p t0 T obs) (q : ℝ) {φ : EMField → ℝ} (hφ : Particle.IsComponent φ) {C Mp Mv : ℝ} (hC : 0 ≤ C)
    (hMp : ∀ t ∈ Set.Icc t0 (t0 + T), Vec.norm (p t) ≤ Mp) (hMv : ∀ t ∈ Set.Icc t0 (t0 + T), Vec.norm (rateOf p t) ≤ Mv) :
    ∃ K h1, 0 ≤ K ∧ 0 < h1 ∧ h1 ≤ 1 ∧ ∀ i : NearPoint x p t0 T C h1, obs ≠ i.X ∧
      |φ (LW q i.X (betaOf i.P) (i.A / Real.sqrt (1 + Vec.norm i.P ^ 2)) obs) - φ (fieldAt q x p obs i.t)| ≤ K * i.ε := by
  obtain ⟨d, hd, hdist⟩ := H.distance
  set h1 := min 1 (d / (2 * (C + 1))) with hh1
  have hh10 : 0 < h1 := lt_min one_pos (by positivity)
  have hh11 : h1 ≤ 1 := min_le_left _ _
  have small : ∀ i : NearPoint x p t0 T C h1, C * i.ε ≤ d / 2 := by
    intro i
    have h2 : i.ε ≤ d / (2 * (C + 1)) := i.hh.trans (min_le_right _ _)
    rw [le_div_iff₀ (by positivity)] at h2
    have h3 := i.h0
    nlinarith [mul_le_mul_of_nonneg_left h2 hC]
  have he : ∀ i : NearPoint x p t0 T C h1, 0 ≤ i.ε ∧ i.ε ≤ 1 := by
    intro i
    have h3 := i.h0
    have h4 : i.ε ≤ 1 := i.hh.trans hh11
    exact ⟨h3, h4⟩
  obtain ⟨Mx, hMx⟩ := H.bounded
  let N := nearBy_alg (ι := NearPoint x p t0 T C h1) (e := fun i => i.ε) (fun i => (he i).1)
  have vx := near_vec (C := C) (M := Mx) hC (fun j : NearPoint x p t0 T C h1 × Bool => if j.2 then j.1.X else x j.1.t) he (fun i => i.hX) (fun i => hMx _ i.ht)
  have vp := near_vec (C := C) (M := Mp) hC (fun j : NearPoint x p t0 T C h1 × Bool => if j.2 then j.1.P else p j.1.t) he (fun i => i.hP) (fun i => hMp _ i.ht)
  have va := near_vec (C := C) (M := Mv) hC (fun j : NearPoint x p t0 T C h1 × Bool => if j.2 then j.1.A else rateOf p j.1.t) he (fun i => i.hA) (fun i => hMv _ i.ht)
  have hdX : ∀ i : NearPoint x p t0 T C h1, d / 2 ≤ Vec.norm (obs - i.X) := by
    intro i
    have h2 := Vec.norm_sub_le obs i.X (x i.t)
    have h3 := hdist i.t i.ht
    have h4 := i.hX.trans (small i)
    linarith
  have hb := N.vdiv va (N.gamma vp) one_pos (fun j => FunAlg.gamma_ge _)
  obtain ⟨hE, hB⟩ := N.lw q obs vx vp hb (δ := d / 2) (by positivity) (by
    rintro ⟨i, b⟩
    cases b with
    | true => exact hdX i
    | false => exact (by linarith [hdist i.t i.ht] : d / 2 ≤ Vec.norm (obs - x i.t)))
  obtain ⟨K, hK, hn⟩ := component_alg N hφ hE hB
  refine ⟨K, h1, hK, hh10, hh11, fun i => ⟨?_, (hn i).2⟩⟩
  intro e
  have := hdX i
  rw [e, sub_self, Vec.norm_zero] at this
  linarith

end Way
end Teufel
