import Verif.Spec.Helix
import Verif.Lemmas.Vec
import Mathlib.Analysis.SpecialFunctions.Trigonometric.Arctan
import Mathlib.Analysis.SpecialFunctions.Trigonometric.Bounds

/-! Helper lemmas about rotations about an axis -/

namespace Teufel
open Vec

theorem cross_cross_unit {e : Vec} (he : e.abs2nd = 1) (v : Vec) : cross e (cross e v) = e * dot e v - v := by
  simp only [abs2nd] at he
  ext <;> simp [cross, dot]
  · linear_combination -(v.x * he)
  · linear_combination -(v.y * he)
  · linear_combination -(v.z * he)

theorem cross_turn {e : Vec} (he : e.abs2nd = 1) (α : ℝ) (v : Vec) :
    cross e (turn e α v) = cross e v * Real.cos α + (e * dot e v - v) * Real.sin α := by
  rw [← cross_cross_unit he]
  unfold turn
  ext <;> simp [cross, dot] <;> ring

theorem dot_turn {e : Vec} (he : e.abs2nd = 1) (α : ℝ) (v : Vec) : dot e (turn e α v) = dot e v := by
  unfold turn
  rw [dot_add_right, dot_add_right, dot_mul_right, dot_mul_right, dot_mul_right, dot_cross_left, dot_self, he]
  ring

theorem turn_turn {e : Vec} (he : e.abs2nd = 1) (α β : ℝ) (v : Vec) : turn e α (turn e β v) = turn e (α + β) v := by
  rw [show turn e α (turn e β v) = turn e β v * Real.cos α + cross e (turn e β v) * Real.sin α + e * (dot e (turn e β v) * (1 - Real.cos α)) from rfl,
    cross_turn he, dot_turn he]
  unfold turn
  rw [Real.cos_add, Real.sin_add]
  ext <;> simp <;> ring

theorem turn_zero (e v : Vec) : turn e 0 v = v := by
  unfold turn
  ext <;> simp

theorem abs2nd_turn {e : Vec} (he : e.abs2nd = 1) (α : ℝ) (v : Vec) : (turn e α v).abs2nd = v.abs2nd := by
  have h : ∀ w : Vec, w.abs2nd = (dot e w) ^ 2 + (cross e w).abs2nd := by
    intro w; rw [lagrange, he]; ring
  rw [h, h v, dot_turn he, cross_turn he]
  have h2 : (e * dot e v - v).abs2nd = (cross e v).abs2nd := by
    rw [sub_eq_add_neg, abs2nd_add, abs2nd_neg, abs2nd_mul, lagrange, he, dot_neg_right, dot_mul_left]; ring
  have h3 : dot (cross e v) (e * dot e v - v) = 0 := by
    rw [dot_sub_right, dot_mul_right, dot_comm _ e, dot_cross_left, dot_comm (cross e v) v, dot_cross_right]; ring
  rw [abs2nd_add, abs2nd_mul, abs2nd_mul, dot_mul_left, dot_mul_right, h2, h3]
  have := Real.cos_sq_add_sin_sq α
  linear_combination (cross e v).abs2nd * this

/-- the Cayley form of the rotation -/
theorem turn_cayley {e : Vec} (he : e.abs2nd = 1) (z : ℝ) (u : Vec) :
    turn e (-(2 * Real.arctan z)) (u - cross u e * z) = u + cross u e * z := by
  set θ := Real.arctan z with hθ
  have hz : z = Real.tan θ := (Real.tan_arctan z).symm
  have hc : Real.cos θ ≠ 0 := (Real.cos_arctan_pos z).ne'
  have hs : Real.sin θ = z * Real.cos θ := by rw [hz, Real.tan_mul_cos hc]
  have h1 := Real.cos_sq_add_sin_sq θ
  have C : Real.cos (2 * θ) + Real.sin (2 * θ) * z = 1 := by
    rw [Real.cos_two_mul, Real.sin_two_mul]
    rw [hs] at h1 ⊢
    linear_combination 2 * h1
  have S : z * Real.cos (2 * θ) - Real.sin (2 * θ) = -z := by
    rw [Real.cos_two_mul, Real.sin_two_mul, hs]; ring
  have hx : cross e (u - cross u e * z) = cross e u + (e * dot e u - u) * z := by
    rw [← cross_cross_unit he]
    ext <;> simp [cross] <;> ring
  have hd : dot e (u - cross u e * z) = dot e u := by
    rw [dot_sub_right, dot_mul_right, dot_cross_right]; ring
  unfold turn
  rw [hx, hd, Real.cos_neg, Real.sin_neg]
  ext
  · simp only [cross, Vec.add_x, Vec.sub_x, Vec.mul_x]
    linear_combination (u.x - e.x * dot e u) * C + (e.y * u.z - e.z * u.y) * S
  · simp only [cross, Vec.add_y, Vec.sub_y, Vec.mul_y]
    linear_combination (u.y - e.y * dot e u) * C + (e.z * u.x - e.x * u.z) * S
  · simp only [cross, Vec.add_z, Vec.sub_z, Vec.mul_z]
    linear_combination (u.z - e.z * dot e u) * C + (e.x * u.y - e.y * u.x) * S

/-- `arctan z` in comparison to `z` -/
theorem arctan_ratio {z : ℝ} (hz : z ≠ 0) :
    1 - Real.sin (Real.arctan z) ^ 2 ≤ Real.arctan z / z ∧ Real.arctan z / z ≤ 1 := by
  have key : ∀ z : ℝ, 0 < z → 1 - Real.sin (Real.arctan z) ^ 2 ≤ Real.arctan z / z ∧ Real.arctan z / z ≤ 1 := by
    intro z hz
    have hp := Real.arctan_pos.mpr hz
    have hl := Real.arctan_lt_pi_div_two z
    have hc := Real.cos_arctan_pos z
    have ht := Real.tan_arctan z
    have h1 := Real.lt_tan hp hl
    have hs : Real.sin (Real.arctan z) = z * Real.cos (Real.arctan z) := by
      rw [← Real.tan_mul_cos hc.ne', ht]
    have h2 := Real.sin_le (show 0 ≤ 2 * Real.arctan z by linarith)
    rw [Real.sin_two_mul] at h2
    have h3 := Real.cos_sq_add_sin_sq (Real.arctan z)
    rw [ht] at h1
    constructor
    · rw [le_div_iff₀ hz]
      have e : (1 - Real.sin (Real.arctan z) ^ 2) * z = Real.sin (Real.arctan z) * Real.cos (Real.arctan z) := by
        rw [← h3, hs]; ring
      rw [e]; linarith
    · rw [div_le_one hz]; exact h1.le
  rcases lt_or_gt_of_ne hz with h | h
  · have := key (-z) (by linarith)
    rw [Real.arctan_neg, Real.sin_neg, neg_div_neg_eq, neg_sq] at this
    exact this
  · exact key z h

/-- how much the angle advanced by the tracker differs from the true one -/
theorem gyro_clock {γ g z y : ℝ} (hg : 0 < γ) (hgp : 0 < g) (hz0 : z ≠ 0) (hup : γ ^ 2 ≤ g ^ 2 * (1 + z ^ 2)) (hlow : g ^ 2 ≤ γ ^ 2)
    (hyz : z ^ 2 * g ^ 2 = y * γ ^ 2) (hy4 : y ≤ 1 / 4) :
    1 - y ≤ Real.arctan z / z ∧ Real.arctan z / z ≤ 1 ∧ |γ / g * (Real.arctan z / z) - 1| ≤ y := by
  obtain ⟨r1, r2⟩ := arctan_ratio hz0
  have hcos : 0 < Real.cos (Real.arctan z) := Real.cos_arctan_pos z
  have hsin : Real.sin (Real.arctan z) = z * Real.cos (Real.arctan z) := by rw [← Real.tan_mul_cos hcos.ne', Real.tan_arctan]
  generalize Real.arctan z = θ at *
  have hy0 : 0 ≤ y := by
    have : 0 ≤ y * γ ^ 2 := by rw [← hyz]; positivity
    exact nonneg_of_mul_nonneg_left this (by positivity)
  have hcs := Real.cos_sq_add_sin_sq θ
  have hcz : Real.cos θ ^ 2 * (1 + z ^ 2) = 1 := by rw [hsin] at hcs; linear_combination hcs
  have hgγ : g ≤ γ := by nlinarith
  have hsy : Real.sin θ ^ 2 ≤ y := by
    have e1 : Real.sin θ ^ 2 * (g ^ 2 * (1 + z ^ 2)) = y * γ ^ 2 := by
      rw [← hyz, hsin]; linear_combination z ^ 2 * g ^ 2 * hcz
    have e2 : y * γ ^ 2 ≤ y * (g ^ 2 * (1 + z ^ 2)) := mul_le_mul_of_nonneg_left hup hy0
    rw [← e1] at e2
    exact le_of_mul_le_mul_right e2 (by positivity)
  have hcg : γ * Real.cos θ ≤ g := by
    refine le_of_sq_le_sq ?_ hgp.le
    calc (γ * Real.cos θ) ^ 2 = γ ^ 2 * Real.cos θ ^ 2 := by ring
      _ ≤ g ^ 2 * (1 + z ^ 2) * Real.cos θ ^ 2 := mul_le_mul_of_nonneg_right hup (sq_nonneg _)
      _ = g ^ 2 := by linear_combination g ^ 2 * hcz
  have hr0 : 0 ≤ θ / z := le_trans (by nlinarith [sq_nonneg (Real.cos θ)]) r1
  refine ⟨by linarith, r2, ?_⟩
  have h1g : 1 ≤ γ / g := by rw [le_div_iff₀ hgp]; linarith
  have h2g : γ / g ≤ 1 + y := by
    have hcy : 1 ≤ (1 + y) * Real.cos θ := by
      refine le_of_sq_le_sq ?_ (by positivity)
      have : 1 - y ≤ Real.cos θ ^ 2 := by linarith
      have h5 : (1 + y) ^ 2 * (1 - y) ≤ (1 + y) ^ 2 * Real.cos θ ^ 2 := mul_le_mul_of_nonneg_left this (by positivity)
      have h6 : 1 ≤ (1 + y) ^ 2 * (1 - y) := by nlinarith [mul_nonneg hy0 (sub_nonneg.mpr hy4), mul_nonneg hy0 hy0]
      calc (1 : ℝ) ^ 2 = 1 := by norm_num
        _ ≤ (1 + y) ^ 2 * Real.cos θ ^ 2 := h6.trans h5
        _ = ((1 + y) * Real.cos θ) ^ 2 := by ring
    rw [div_le_iff₀ hgp]
    calc γ = γ * 1 := by ring
      _ ≤ γ * ((1 + y) * Real.cos θ) := mul_le_mul_of_nonneg_left hcy hg.le
      _ = (1 + y) * (γ * Real.cos θ) := by ring
      _ ≤ (1 + y) * g := mul_le_mul_of_nonneg_left hcg (by positivity)
  rw [abs_le]
  constructor
  · have : θ / z ≤ γ / g * (θ / z) := le_mul_of_one_le_left hr0 h1g
    linarith
  · have : γ / g * (θ / z) ≤ γ / g * 1 := mul_le_mul_of_nonneg_left r2 (by positivity)
    linarith

end Teufel
