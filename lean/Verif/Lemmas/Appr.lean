import Verif.Model.RoundedVay
import Verif.Lemmas.Gronwall

/-!
# Families of computed numbers which approximate exact ones

`Appr u a b`: for all situations `i` (with unit roundoff `u i`) the number `a i` differs from `b i` by at most a constant times `u i`, as long as `u i` is small
enough, and the numbers `b i` are bounded.
-/

namespace Teufel
open Vec

variable {ι : Type*}

def Appr (u : ι → ℝ) (a b : ι → ℝ) : Prop :=
  ∃ K M u0 : ℝ, 0 ≤ K ∧ 0 ≤ M ∧ 0 < u0 ∧ ∀ i, u i ≤ u0 → |b i| ≤ M ∧ |a i - b i| ≤ K * u i

/-- every operation is rounded with the relative error `u` -/
structure Rounds (u : ι → ℝ) (rnd : ι → ℝ → ℝ) : Prop where
  nonneg : ∀ i, 0 ≤ u i
  err : ∀ i x, |rnd i x - x| ≤ u i * |x|

namespace Appr
variable {u : ι → ℝ} {rnd : ι → ℝ → ℝ} {a b c d : ι → ℝ}

theorem refl (b : ι → ℝ) (M : ℝ) (h : ∀ i, |b i| ≤ M) : Appr u b b := by
  refine ⟨0, |M|, 1, le_rfl, abs_nonneg M, one_pos, fun i _ => ⟨(h i).trans (le_abs_self M), by simp⟩⟩

theorem const (k : ℝ) : Appr u (fun _ => k) (fun _ => k) := refl _ |k| fun _ => le_rfl

theorem of (a b : ι → ℝ) (K M : ℝ) (hu : ∀ i, 0 ≤ u i) (h : ∀ i, |b i| ≤ M) (h' : ∀ i, |a i - b i| ≤ K * u i) : Appr u a b :=
  ⟨|K|, |M|, 1, abs_nonneg K, abs_nonneg M, one_pos, fun i _ =>
    ⟨(h i).trans (le_abs_self M), (h' i).trans (mul_le_mul_of_nonneg_right (le_abs_self K) (hu i))⟩⟩

theorem round (hr : Rounds u rnd) (h : Appr u a b) : Appr u (fun i => rnd i (a i)) b := by
  obtain ⟨K, M, u0, hK, hM, hu0, H⟩ := h
  refine ⟨M + K + K, M, min u0 1, by positivity, hM, lt_min hu0 one_pos, ?_⟩
  intro i hi
  obtain ⟨h1, h2⟩ := H i (hi.trans (min_le_left _ _))
  have hu1 : u i ≤ 1 := hi.trans (min_le_right _ _)
  have hu := hr.nonneg i
  refine ⟨h1, ?_⟩
  have e := hr.err i (a i)
  have ha : |a i| ≤ M + K := by
    have := abs_add_le (a i - b i) (b i)
    rw [sub_add_cancel] at this
    nlinarith
  have := abs_add_le (rnd i (a i) - a i) (a i - b i)
  rw [sub_add_sub_cancel] at this
  have := mul_le_mul_of_nonneg_left ha hu
  linarith

theorem add (h : Appr u a b) (h' : Appr u c d) : Appr u (fun i => a i + c i) (fun i => b i + d i) := by
  obtain ⟨K, M, u0, hK, hM, hu0, H⟩ := h
  obtain ⟨K', M', u0', hK', hM', hu0', H'⟩ := h'
  refine ⟨K + K', M + M', min u0 u0', by positivity, by positivity, lt_min hu0 hu0', ?_⟩
  intro i hi
  obtain ⟨h1, h2⟩ := H i (hi.trans (min_le_left _ _))
  obtain ⟨h1', h2'⟩ := H' i (hi.trans (min_le_right _ _))
  refine ⟨(abs_add_le _ _).trans (by linarith), ?_⟩
  rw [show a i + c i - (b i + d i) = (a i - b i) + (c i - d i) by ring]
  exact (abs_add_le _ _).trans (by linarith)

theorem neg (h : Appr u a b) : Appr u (fun i => -a i) (fun i => -b i) := by
  obtain ⟨K, M, u0, hK, hM, hu0, H⟩ := h
  refine ⟨K, M, u0, hK, hM, hu0, fun i hi => ?_⟩
  obtain ⟨h1, h2⟩ := H i hi
  refine ⟨by rwa [abs_neg], ?_⟩
  rwa [show -a i - -b i = -(a i - b i) by ring, abs_neg]

theorem sub (h : Appr u a b) (h' : Appr u c d) : Appr u (fun i => a i - c i) (fun i => b i - d i) := by
  simpa only [sub_eq_add_neg] using h.add h'.neg

theorem mul (hu : ∀ i, 0 ≤ u i) (h : Appr u a b) (h' : Appr u c d) : Appr u (fun i => a i * c i) (fun i => b i * d i) := by
  obtain ⟨K, M, u0, hK, hM, hu0, H⟩ := h
  obtain ⟨K', M', u0', hK', hM', hu0', H'⟩ := h'
  refine ⟨K * (M' + K') + M * K', M * M', min 1 (min u0 u0'), by positivity, by positivity, lt_min one_pos (lt_min hu0 hu0'), ?_⟩
  intro i hi
  obtain ⟨h1, h2⟩ := H i (hi.trans ((min_le_right _ _).trans (min_le_left _ _)))
  obtain ⟨h1', h2'⟩ := H' i (hi.trans ((min_le_right _ _).trans (min_le_right _ _)))
  have hu1 : u i ≤ 1 := hi.trans (min_le_left _ _)
  have hui := hu i
  refine ⟨by rw [abs_mul]; exact mul_le_mul h1 h1' (abs_nonneg _) hM, ?_⟩
  have hc : |c i| ≤ M' + K' := by
    have := abs_add_le (c i - d i) (d i)
    rw [sub_add_cancel] at this
    nlinarith
  rw [show a i * c i - b i * d i = (a i - b i) * c i + b i * (c i - d i) by ring]
  refine (abs_add_le _ _).trans ?_
  rw [abs_mul, abs_mul]
  have e1 := mul_le_mul h2 hc (abs_nonneg _) (by positivity)
  have e2 := mul_le_mul h1 h2' (abs_nonneg _) hM
  linarith

/-- computed values of numbers away from zero are away from zero -/
theorem lower (hu : ∀ i, 0 ≤ u i) (h : Appr u a b) {m : ℝ} (hm : 0 < m) (hb : ∀ i, m ≤ b i) : ∃ u0 : ℝ, 0 < u0 ∧ ∀ i, u i ≤ u0 → m / 2 ≤ a i := by
  obtain ⟨K, M, u0, hK, hM, hu0, H⟩ := h
  refine ⟨min u0 (m / (2 * (K + 1))), lt_min hu0 (by positivity), ?_⟩
  intro i hi
  obtain ⟨h1, h2⟩ := H i (hi.trans (min_le_left _ _))
  have h3 : u i ≤ m / (2 * (K + 1)) := hi.trans (min_le_right _ _)
  rw [le_div_iff₀ (by positivity)] at h3
  have h4 := (abs_le.mp h2).1
  have h5 := hb i
  have h6 := hu i
  nlinarith

theorem inv (hu : ∀ i, 0 ≤ u i) (h : Appr u a b) {m : ℝ} (hm : 0 < m) (hb : ∀ i, m ≤ b i) : Appr u (fun i => (a i)⁻¹) (fun i => (b i)⁻¹) := by
  obtain ⟨u1, hu1, H1⟩ := h.lower hu hm hb
  obtain ⟨K, M, u0, hK, hM, hu0, H⟩ := h
  refine ⟨2 * K / m ^ 2, 1 / m, min u0 u1, by positivity, by positivity, lt_min hu0 hu1, ?_⟩
  intro i hi
  obtain ⟨h1, h2⟩ := H i (hi.trans (min_le_left _ _))
  have h3 := H1 i (hi.trans (min_le_right _ _))
  have h4 := hb i
  have ha : 0 < a i := by linarith
  have hbp : 0 < b i := by linarith
  have hui := hu i
  constructor
  · show |(b i)⁻¹| ≤ _
    rw [abs_of_pos (by positivity), ← one_div]
    exact one_div_le_one_div_of_le hm h4
  · rw [show (a i)⁻¹ - (b i)⁻¹ = -(a i - b i) / (a i * b i) by field_simp; ring, abs_div, abs_neg, abs_of_pos (a := a i * b i) (by positivity), div_le_iff₀ (by positivity)]
    refine h2.trans ?_
    have : m ^ 2 / 2 ≤ a i * b i := by nlinarith
    have h5 : 0 ≤ 2 * K / m ^ 2 * u i := by positivity
    have h6 := mul_le_mul_of_nonneg_left this h5
    have h7 : 2 * K / m ^ 2 * u i * (m ^ 2 / 2) = K * u i := by field_simp
    linarith

theorem div (hu : ∀ i, 0 ≤ u i) (h : Appr u a b) (h' : Appr u c d) {m : ℝ} (hm : 0 < m) (hb : ∀ i, m ≤ d i) :
    Appr u (fun i => a i / c i) (fun i => b i / d i) := by
  simpa only [div_eq_mul_inv] using h.mul hu (h'.inv hu hm hb)

theorem sqrt (hu : ∀ i, 0 ≤ u i) (h : Appr u a b) {m : ℝ} (hm : 0 < m) (hb : ∀ i, m ≤ b i) : Appr u (fun i => Real.sqrt (a i)) (fun i => Real.sqrt (b i)) := by
  obtain ⟨u1, hu1, H1⟩ := h.lower hu hm hb
  obtain ⟨K, M, u0, hK, hM, hu0, H⟩ := h
  refine ⟨K / Real.sqrt m, Real.sqrt M, min u0 u1, by positivity, by positivity, lt_min hu0 hu1, ?_⟩
  intro i hi
  obtain ⟨h1, h2⟩ := H i (hi.trans (min_le_left _ _))
  have h3 := H1 i (hi.trans (min_le_right _ _))
  have h4 := hb i
  have ha : 0 < a i := by linarith
  have hbp : 0 < b i := by linarith
  constructor
  · rw [abs_of_nonneg (Real.sqrt_nonneg _)]
    exact Real.sqrt_le_sqrt ((le_abs_self _).trans h1)
  · have hsm : Real.sqrt m ≤ Real.sqrt (a i) + Real.sqrt (b i) := by
      have := Real.sqrt_le_sqrt h4
      have := Real.sqrt_nonneg (a i)
      linarith
    have hs0 : 0 < Real.sqrt m := Real.sqrt_pos.mpr hm
    have e : (Real.sqrt (a i) - Real.sqrt (b i)) * (Real.sqrt (a i) + Real.sqrt (b i)) = a i - b i := by
      have := Real.sq_sqrt ha.le
      have := Real.sq_sqrt hbp.le
      nlinarith
    have e2 : |Real.sqrt (a i) - Real.sqrt (b i)| * (Real.sqrt (a i) + Real.sqrt (b i)) ≤ K * u i := by
      rw [← abs_of_nonneg (a := Real.sqrt (a i) + Real.sqrt (b i)) (by positivity), ← abs_mul, e]
      exact h2
    have e3 := mul_le_mul_of_nonneg_left hsm (abs_nonneg (Real.sqrt (a i) - Real.sqrt (b i)))
    rw [div_mul_eq_mul_div, le_div_iff₀ hs0]
    linarith

end Appr

/-- componentwise -/
structure VAppr (u : ι → ℝ) (a b : ι → Vec) : Prop where
  x : Appr u (fun i => (a i).x) (fun i => (b i).x)
  y : Appr u (fun i => (a i).y) (fun i => (b i).y)
  z : Appr u (fun i => (a i).z) (fun i => (b i).z)

namespace VAppr
variable {u : ι → ℝ} {rnd : ι → ℝ → ℝ} {a b c d : ι → Vec} {k l : ι → ℝ}
open Rounded

theorem comp_le (v : Vec) : |v.x| ≤ v.norm ∧ |v.y| ≤ v.norm ∧ |v.z| ≤ v.norm := by
  unfold Vec.norm
  refine ⟨Real.abs_le_sqrt ?_, Real.abs_le_sqrt ?_, Real.abs_le_sqrt ?_⟩ <;>
    nlinarith [mul_self_nonneg v.x, mul_self_nonneg v.y, mul_self_nonneg v.z]

theorem of (a b : ι → Vec) (K M : ℝ) (hu : ∀ i, 0 ≤ u i) (h : ∀ i, (b i).norm ≤ M) (h' : ∀ i, (a i - b i).norm ≤ K * u i) : VAppr u a b :=
  ⟨.of _ _ K M hu (fun i => (comp_le (b i)).1.trans (h i)) fun i => (comp_le (a i - b i)).1.trans (h' i),
   .of _ _ K M hu (fun i => (comp_le (b i)).2.1.trans (h i)) fun i => (comp_le (a i - b i)).2.1.trans (h' i),
   .of _ _ K M hu (fun i => (comp_le (b i)).2.2.trans (h i)) fun i => (comp_le (a i - b i)).2.2.trans (h' i)⟩

theorem refl (b : ι → Vec) (M : ℝ) (h : ∀ i, (b i).norm ≤ M) : VAppr u b b :=
  ⟨.refl _ M fun i => (comp_le (b i)).1.trans (h i), .refl _ M fun i => (comp_le (b i)).2.1.trans (h i), .refl _ M fun i => (comp_le (b i)).2.2.trans (h i)⟩

/-- the error as a vector -/
theorem bound (h : VAppr u a b) : ∃ K M u0 : ℝ, 0 ≤ K ∧ 0 ≤ M ∧ 0 < u0 ∧ ∀ i, u i ≤ u0 → (b i).norm ≤ M ∧ (a i - b i).norm ≤ K * u i := by
  obtain ⟨K1, M1, u1, hK1, hM1, hu1, H1⟩ := h.x
  obtain ⟨K2, M2, u2, hK2, hM2, hu2, H2⟩ := h.y
  obtain ⟨K3, M3, u3, hK3, hM3, hu3, H3⟩ := h.z
  refine ⟨K1 + K2 + K3, M1 + M2 + M3, min u1 (min u2 u3), by positivity, by positivity, lt_min hu1 (lt_min hu2 hu3), ?_⟩
  intro i hi
  obtain ⟨a1, b1⟩ := H1 i (hi.trans (min_le_left _ _))
  obtain ⟨a2, b2⟩ := H2 i (hi.trans ((min_le_right _ _).trans (min_le_left _ _)))
  obtain ⟨a3, b3⟩ := H3 i (hi.trans ((min_le_right _ _).trans (min_le_right _ _)))
  refine ⟨vec_bound a1 a2 a3, ?_⟩
  have := vec_bound (v := a i - b i) b1 b2 b3
  linarith

theorem add (hr : Rounds u rnd) (h : VAppr u a b) (h' : VAppr u c d) : VAppr u (fun i => vadd (rnd i) (a i) (c i)) (fun i => b i + d i) :=
  ⟨(h.x.add h'.x).round hr, (h.y.add h'.y).round hr, (h.z.add h'.z).round hr⟩

theorem mul (hr : Rounds u rnd) (h : VAppr u a b) (h' : Appr u k l) : VAppr u (fun i => vmul (rnd i) (a i) (k i)) (fun i => b i * l i) :=
  ⟨(h.x.mul hr.nonneg h').round hr, (h.y.mul hr.nonneg h').round hr, (h.z.mul hr.nonneg h').round hr⟩

theorem div (hr : Rounds u rnd) (h : VAppr u a b) (h' : Appr u k l) {m : ℝ} (hm : 0 < m) (hb : ∀ i, m ≤ l i) :
    VAppr u (fun i => vdiv (rnd i) (a i) (k i)) (fun i => b i / l i) :=
  ⟨(h.x.div hr.nonneg h' hm hb).round hr, (h.y.div hr.nonneg h' hm hb).round hr, (h.z.div hr.nonneg h' hm hb).round hr⟩

theorem dot (hr : Rounds u rnd) (h : VAppr u a b) (h' : VAppr u c d) : Appr u (fun i => rdot (rnd i) (a i) (c i)) (fun i => Vec.dot (b i) (d i)) :=
  (((((h.x.mul hr.nonneg h'.x).round hr).add ((h.y.mul hr.nonneg h'.y).round hr)).round hr).add ((h.z.mul hr.nonneg h'.z).round hr)).round hr

theorem abs2nd (hr : Rounds u rnd) (h : VAppr u a b) : Appr u (fun i => rabs2nd (rnd i) (a i)) (fun i => (b i).abs2nd) :=
  (((((h.x.mul hr.nonneg h.x).round hr).add ((h.y.mul hr.nonneg h.y).round hr)).round hr).add ((h.z.mul hr.nonneg h.z).round hr)).round hr

theorem cross (hr : Rounds u rnd) (h : VAppr u a b) (h' : VAppr u c d) : VAppr u (fun i => rcross (rnd i) (a i) (c i)) (fun i => Vec.cross (b i) (d i)) :=
  ⟨(((h.y.mul hr.nonneg h'.z).round hr).sub ((h.z.mul hr.nonneg h'.y).round hr)).round hr,
   (((h.z.mul hr.nonneg h'.x).round hr).sub ((h.x.mul hr.nonneg h'.z).round hr)).round hr,
   (((h.x.mul hr.nonneg h'.y).round hr).sub ((h.y.mul hr.nonneg h'.x).round hr)).round hr⟩

end VAppr
end Teufel
