import Verif.Lemmas.Radiate

/-! # Arrival time and field of the radiation of a motion with a Lipschitz continuous acceleration -/

namespace Teufel
open Vec

namespace Way
variable {x p : ℝ → Vec} {t0 T : ℝ} {obs : Vec}

/-- a Lipschitz continuous bounded vector, seen as the pairs of its values at two times -/
theorem lip_vec {f : ℝ → Vec} {a b C M : ℝ} (hC : 0 ≤ C) (hd : ∀ s ∈ Set.Icc a b, ∀ t ∈ Set.Icc a b, Vec.norm (f t - f s) ≤ C * |t - s|)
    (hM : ∀ t ∈ Set.Icc a b, Vec.norm (f t) ≤ M) :
    FunAlg.V (NearBy (fun i : Set.Icc a b × Set.Icc a b => |(i.2 : ℝ) - i.1|)) (fun j => if j.2 then f j.1.2 else f j.1.1) := by
  have key : ∀ g : Vec → ℝ, (∀ v, |g v| ≤ Vec.norm v) → (∀ v w, g (v - w) = g v - g w) →
      NearBy (fun i : Set.Icc a b × Set.Icc a b => |(i.2 : ℝ) - i.1|) (fun j => g (if j.2 then f j.1.2 else f j.1.1)) := by
    intro g hg hs
    refine ⟨|M| + C, by positivity, fun i => ⟨fun c => ?_, ?_⟩⟩
    · have m1 := (hg _).trans ((hM i.1 i.1.2).trans (le_abs_self M))
      have m2 := (hg _).trans ((hM i.2 i.2.2).trans (le_abs_self M))
      cases c with
      | false => simp only [Bool.false_eq_true, if_false]; linarith
      | true => simp only [if_true]; linarith
    · have h2 := (hg _).trans (hd i.1 i.1.2 i.2 i.2.2)
      rw [hs] at h2
      simp only [if_true, Bool.false_eq_true, if_false]
      refine h2.trans (mul_le_mul_of_nonneg_right ?_ (abs_nonneg _))
      linarith [abs_nonneg M]
  exact ⟨key (fun v => v.x) (fun v => (comp_le v).1) (fun _ _ => rfl), key (fun v => v.y) (fun v => (comp_le v).2.1) (fun _ _ => rfl),
    key (fun v => v.z) (fun v => (comp_le v).2.2) (fun _ _ => rfl)⟩

/-- arrival time and field of the radiation are Lipschitz continuous -/
theorem sent0 (H : Way x p t0 T obs) (q : ℝ) {φ : EMField → ℝ} (hφ : Particle.IsComponent φ) {Mp Mv Lp Lv Lx : ℝ}
    (hMp : ∀ t ∈ Set.Icc t0 (t0 + T), Vec.norm (p t) ≤ Mp) (hMv : ∀ t ∈ Set.Icc t0 (t0 + T), Vec.norm (rateOf p t) ≤ Mv)
    (hLp : 0 ≤ Lp) (hLv : 0 ≤ Lv) (hLx : 0 ≤ Lx)
    (lp : ∀ s ∈ Set.Icc t0 (t0 + T), ∀ t ∈ Set.Icc t0 (t0 + T), Vec.norm (p t - p s) ≤ Lp * |t - s|)
    (lv : ∀ s ∈ Set.Icc t0 (t0 + T), ∀ t ∈ Set.Icc t0 (t0 + T), Vec.norm (rateOf p t - rateOf p s) ≤ Lv * |t - s|)
    (lx : ∀ s ∈ Set.Icc t0 (t0 + T), ∀ t ∈ Set.Icc t0 (t0 + T), Vec.norm (x t - x s) ≤ Lx * |t - s|) :
    ∃ δ K, Sent0 (arrival x obs) (fun t => φ (Path.fieldAt q x p obs t)) t0 T δ K := by
  obtain ⟨d, hd, hdist⟩ := H.distance
  obtain ⟨Mx, hMx⟩ := H.bounded
  have hc := SpeedOfLight_pos
  have hη0 : 0 < 1 / (2 * (1 + Mp ^ 2)) := by positivity
  set η := 1 / (2 * (1 + Mp ^ 2)) with hη
  have haway : ∀ s ∈ Set.Icc t0 (t0 + T), η ≤ 1 - dot (dir x obs s) (betaOf (p s)) := by
    intro s hs
    refine FunAlg.away (p s) (Mp ^ 2) ?_ _ (H.dir_norm hs)
    rw [← norm_sq]
    exact pow_le_pow_left₀ (Vec.norm_nonneg _) (hMp s hs) 2
  let N := nearBy_alg (ι := Set.Icc t0 (t0 + T) × Set.Icc t0 (t0 + T)) (e := fun i => |(i.2 : ℝ) - i.1|) (fun i => abs_nonneg _)
  have vx := lip_vec hLx lx hMx
  have vp := lip_vec hLp lp hMp
  have va := lip_vec hLv lv hMv
  have hb := N.vdiv va (N.gamma vp) one_pos (fun j => FunAlg.gamma_ge _)
  obtain ⟨hE, hB⟩ := N.lw q obs vx vp hb (δ := d) hd (by
    rintro ⟨i, b⟩
    cases b with
    | true => exact hdist i.2 i.2.2
    | false => exact hdist i.1 i.1.2)
  obtain ⟨K2, hK2, hF⟩ := Path.component_alg N hφ hE hB
  have hder : ∀ s ∈ Set.Icc t0 (t0 + T), HasDerivAt (arrival x obs) (1 - dot (dir x obs s) (betaOf (p s))) s := fun s hs => H.arrival_deriv hs
  have hup : ∀ s ∈ Set.Icc t0 (t0 + T), ∀ t ∈ Set.Icc t0 (t0 + T), |arrival x obs t - arrival x obs s| ≤ (1 + Lx / SpeedOfLight) * |t - s| := by
    intro s hs t ht
    have e : arrival x obs t - arrival x obs s = (t - s) + (Vec.norm (obs - x t) - Vec.norm (obs - x s)) / SpeedOfLight := by unfold arrival; ring
    have h1 : |Vec.norm (obs - x t) - Vec.norm (obs - x s)| ≤ Vec.norm (x t - x s) := by
      rw [abs_le]
      have h1 := Vec.norm_sub_le obs (x t) (x s)
      have h2 := Vec.norm_sub_le obs (x s) (x t)
      rw [Vec.norm_sub_comm (x s) (x t)] at h2
      constructor <;> linarith
    rw [e]
    refine (abs_add_le _ _).trans ?_
    rw [abs_div, abs_of_pos hc]
    have h2 := div_le_div_of_nonneg_right (h1.trans (lx s hs t ht)) hc.le
    have e2 : (1 + Lx / SpeedOfLight) * |t - s| = |t - s| + Lx * |t - s| / SpeedOfLight := by ring
    rw [e2]
    linarith
  have hLc : 0 ≤ Lx / SpeedOfLight := by positivity
  have le1 : 1 + Lx / SpeedOfLight ≤ 1 + Lx / SpeedOfLight + K2 := by linarith
  have le2 : K2 ≤ 1 + Lx / SpeedOfLight + K2 := by linarith
  refine ⟨η, 1 + Lx / SpeedOfLight + K2, ⟨hη0, by linarith, H.T_nonneg, ?_, ?_, ?_, ?_⟩⟩
  · intro s hs t ht hst
    have hmono : MonotoneOn (fun r => arrival x obs r - η * r) (Set.Icc t0 (t0 + T)) := by
      have hd' : ∀ r ∈ Set.Icc t0 (t0 + T), HasDerivAt (fun r => arrival x obs r - η * r) (1 - dot (dir x obs r) (betaOf (p r)) - η) r := by
        intro r hr
        have c := (hasDerivAt_id r).const_mul η
        have := (hder r hr).sub c
        rw [mul_one] at this
        exact this
      refine monotoneOn_of_deriv_nonneg (convex_Icc _ _) (fun r hr => (hd' r hr).continuousAt.continuousWithinAt)
        (fun r hr => (hd' r (interior_subset hr)).differentiableAt.differentiableWithinAt) (fun r hr => ?_)
      rw [(hd' r (interior_subset hr)).deriv]
      linarith [haway r (interior_subset hr)]
    have := hmono hs ht hst
    simp only at this
    linarith
  · intro s hs t ht
    exact (hup s hs t ht).trans (mul_le_mul_of_nonneg_right le1 (abs_nonneg _))
  · intro s hs
    have := (hF (⟨s, hs⟩, ⟨s, hs⟩)).1 true
    exact this.trans le2
  · intro s hs t ht
    have := (hF (⟨s, hs⟩, ⟨t, ht⟩)).2
    exact this.trans (mul_le_mul_of_nonneg_right le2 (abs_nonneg _))

end Way
end Teufel
