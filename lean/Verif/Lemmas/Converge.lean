import Verif.Lemmas.Taylor
import Verif.Lemmas.LipDiff
import Verif.Lemmas.VayRun
import Verif.Spec.Motion
import Mathlib.Analysis.SpecialFunctions.Sqrt
import Mathlib.Analysis.SpecialFunctions.Exp
import Mathlib.Topology.Order.Compact

/-! # Error of the tracking -/

namespace Teufel
open Vec

namespace Vec

theorem norm_cross_le (a b : Vec) : (cross a b).norm ≤ a.norm * b.norm := by
  apply le_of_sq_le_sq _ (mul_nonneg (norm_nonneg a) (norm_nonneg b))
  rw [norm_sq, lagrange, mul_pow, norm_sq, norm_sq]
  nlinarith [sq_nonneg (dot a b)]

theorem norm_div (a : Vec) (k : ℝ) : (a / k).norm = a.norm / |k| := by
  rw [norm_def, abs2nd_div, Real.sqrt_div (abs2nd_nonneg a), Real.sqrt_sq_eq_abs, ← norm_def]

theorem norm_sub_le' (a b : Vec) : (a - b).norm ≤ a.norm + b.norm := by
  have := norm_add_le a (-b)
  rwa [norm_neg, ← sub_eq_add_neg] at this

theorem norm_le_comps (a : Vec) : a.norm ≤ |a.x| + |a.y| + |a.z| := by
  apply le_of_sq_le_sq _ (by positivity)
  rw [norm_sq]
  unfold abs2nd
  nlinarith [abs_nonneg a.x, abs_nonneg a.y, abs_nonneg a.z, abs_mul_abs_self a.x, abs_mul_abs_self a.y, abs_mul_abs_self a.z,
    mul_nonneg (abs_nonneg a.x) (abs_nonneg a.y), mul_nonneg (abs_nonneg a.x) (abs_nonneg a.z), mul_nonneg (abs_nonneg a.y) (abs_nonneg a.z)]

end Vec

/-- the relativistic factor -/
noncomputable def gammaOf (p : Vec) : ℝ := Real.sqrt (1 + p.abs2nd)

theorem gammaOf_sq (p : Vec) : gammaOf p ^ 2 = 1 + p.abs2nd := Real.sq_sqrt (by have := abs2nd_nonneg p; linarith)

theorem gammaOf_pos (p : Vec) : 0 < gammaOf p := Real.sqrt_pos.mpr (by have := abs2nd_nonneg p; linarith)

theorem gammaOf_ge (p : Vec) : 1 ≤ gammaOf p := by
  rw [show (1 : ℝ) = Real.sqrt 1 by simp]
  exact Real.sqrt_le_sqrt (by have := abs2nd_nonneg p; linarith)

theorem norm_le_gammaOf (p : Vec) : p.norm ≤ gammaOf p := Real.sqrt_le_sqrt (by linarith [show p.x * p.x + p.y * p.y + p.z * p.z = p.abs2nd from rfl])

theorem velOf_eq (p : Vec) : velOf p = p / gammaOf p := rfl

theorem velOf_le (p : Vec) : (velOf p).norm ≤ 1 := by
  rw [velOf_eq, norm_div, abs_of_pos (gammaOf_pos p), div_le_one (gammaOf_pos p)]
  exact norm_le_gammaOf p

theorem gammaOf_lip (u v : Vec) : |gammaOf u - gammaOf v| ≤ (u - v).norm := by
  have key : ∀ u v : Vec, gammaOf u ≤ gammaOf v + (u - v).norm := by
    intro u v
    apply le_of_sq_le_sq _ (add_nonneg (gammaOf_pos v).le (norm_nonneg _))
    rw [gammaOf_sq, add_sq, gammaOf_sq, norm_sq]
    have h1 : u.abs2nd = v.abs2nd + 2 * dot v (u - v) + (u - v).abs2nd := by
      rw [← abs2nd_add]; congr 1; abel
    have h2 := dot_le v (u - v)
    have h3 := norm_le_gammaOf v
    have h4 := norm_nonneg (u - v)
    nlinarith
  rw [abs_le]
  have a := key u v
  have b := key v u
  rw [norm_sub_comm] at b
  constructor <;> linarith

theorem velOf_lip (u v : Vec) : (velOf u - velOf v).norm ≤ 2 * (u - v).norm := by
  have hu := gammaOf_pos u
  have hv := gammaOf_pos v
  have e : velOf u - velOf v = (u - v) / gammaOf u + velOf v * ((gammaOf v - gammaOf u) / gammaOf u) := by
    rw [velOf_eq, velOf_eq]
    ext <;> simp <;> field_simp <;> ring
  rw [e]
  refine (norm_add_le _ _).trans ?_
  rw [norm_div, Vec.norm_mul, abs_of_pos hu, abs_div, abs_of_pos hu]
  have h1 : (u - v).norm / gammaOf u ≤ (u - v).norm := div_le_self (norm_nonneg _) (gammaOf_ge u)
  have h2 : |gammaOf v - gammaOf u| / gammaOf u ≤ (u - v).norm := by
    refine (div_le_self (abs_nonneg _) (gammaOf_ge u)).trans ?_
    rw [norm_sub_comm]
    exact gammaOf_lip v u
  have h3 := velOf_le v
  have h4 : 0 ≤ |gammaOf v - gammaOf u| / gammaOf u := by positivity
  nlinarith [norm_nonneg (velOf v)]

namespace Particle

/-- the half step is implicit in the momentum at its end -/
theorem vay_implicit (q : ℝ) (P E B : Vec) :
    vayMomentum q P E B = P + (E / SpeedOfLight + cross (velOf (vayMomentum q P E B)) B) * q := by
  have hg : gammaOf (vayMomentum q P E B) = vayGamma q P E B := by
    unfold gammaOf
    rw [← vay_shell, Real.sqrt_sq (vayGamma_pos q P E B).le]
  rw [velOf_eq, hg]
  have hpos := vayGamma_pos q P E B
  unfold vayMomentum
  generalize vayGamma q P E B = g at hpos
  have ht : (1 + (B * q / g).abs2nd) ≠ 0 := by have := abs2nd_nonneg (B * q / g); positivity
  simp only
  generalize hp : P + E / SpeedOfLight * q = p'
  have hP : P = p' - E / SpeedOfLight * q := by rw [← hp]; abel
  rw [hP]
  have hg0 := hpos.ne'
  simp only [abs2nd, Vec.div_x, Vec.div_y, Vec.div_z, Vec.mul_x, Vec.mul_y, Vec.mul_z] at ht
  ext <;> simp [abs2nd, dot, cross] <;> field_simp <;> ring

end Particle
/-! ## Finite differences of vector functions -/

theorem scalar_bounds {f : ℝ → ℝ} (hf : LipDiff 2 f) (a b : ℝ) : ∃ M : ℝ, 0 ≤ M ∧
    (∀ t s, a ≤ t - |s| → t + |s| ≤ b → |f (t + s) - f t| ≤ M * |s|) ∧
    (∀ t s, a ≤ t - |s| → t + |s| ≤ b → |f (t + s) - f t - deriv f t * s| ≤ M * s ^ 2) ∧
    (∀ t s, 0 ≤ s → a ≤ t - s → t + s ≤ b → |f (t + s) + f (t - s) - 2 * f t| ≤ M * s ^ 2) ∧
    (∀ t s, 0 ≤ s → a ≤ t - s → t + s ≤ b → |f (t + s) - f (t - s) - deriv f t * (2 * s)| ≤ M * s ^ 3) ∧
    (∀ (g : ℝ → ℝ) (a' b' : ℝ), a ≤ a' → b' ≤ b → (∀ t, a' ≤ t → t ≤ b' → HasDerivAt g (f t) t) → ∀ t s, 0 ≤ s → a' ≤ t - s → t + s ≤ b' → |g (t + s) - g (t - s) - f t * (2 * s)| ≤ M * s ^ 3) := by
  have h2 : Continuous (deriv (deriv f)) := LipDiff.continuous hf.2.2
  have d0 : ∀ t, HasDerivAt f (deriv f t) t := fun t => (hf.1 t).hasDerivAt
  have d1 : ∀ t, HasDerivAt (deriv f) (deriv (deriv f) t) t := fun t => (hf.2.1 t).hasDerivAt
  obtain ⟨M1, hM1⟩ := (isCompact_Icc (a := a) (b := b)).exists_bound_of_continuousOn hf.2.1.continuous.continuousOn
  obtain ⟨M2, hM2⟩ := (isCompact_Icc (a := a) (b := b)).exists_bound_of_continuousOn h2.continuousOn
  obtain ⟨M3, n3, hM3⟩ := LipDiff.lip_Icc hf.2.2 a b
  simp only [Real.norm_eq_abs] at hM1 hM2
  have g1 : ∀ t ∈ Set.Icc a b, |deriv f t| ≤ |M1| := fun t ht => (hM1 t ht).trans (le_abs_self _)
  have g2 : ∀ t ∈ Set.Icc a b, |deriv (deriv f) t| ≤ |M2| := fun t ht => (hM2 t ht).trans (le_abs_self _)
  have l2 : ∀ q ∈ Set.Icc a b, ∀ r ∈ Set.Icc a b, |deriv f r - deriv f q| ≤ |M2| * |r - q| := fun q hq r hr => Taylor.mvt (fun r _ => d1 r) g2 hq hr
  have n1 := abs_nonneg M1
  have n2 := abs_nonneg M2
  refine ⟨|M1| + 2 * |M2| + 2 * M3, by positivity, ?_, ?_, ?_, ?_, ?_⟩
  · intro t s h h'
    have hs := abs_nonneg s
    have := Taylor.mvt (fun r _ => d0 r) g1 (s := t) (t := t + s) ⟨by linarith, by linarith⟩ ⟨by linarith [neg_abs_le s], by linarith [le_abs_self s]⟩
    rw [show t + s - t = s by ring] at this
    nlinarith
  · intro t s h h'
    have sub : ∀ r ∈ Set.Icc (t - |s|) (t + |s|), r ∈ Set.Icc a b := fun r hr => ⟨by linarith [hr.1], by linarith [hr.2]⟩
    have := Taylor.first (f := f) (t := t) (s := s) (fun r _ => d0 r) (fun r _ => d1 r) (fun r hr => g2 r (sub r hr))
    nlinarith [sq_nonneg s]
  · intro t s hs h h'
    have sub : ∀ r ∈ Set.Icc (t - s) (t + s), r ∈ Set.Icc a b := fun r hr => ⟨by linarith [hr.1], by linarith [hr.2]⟩
    have := Taylor.second (g := f) hs n2 (fun r _ => d0 r) (fun q hq r hr => l2 q (sub q hq) r (sub r hr))
    nlinarith [sq_nonneg s]
  · intro t s hs h h'
    have sub : ∀ r ∈ Set.Icc (t - s) (t + s), r ∈ Set.Icc a b := fun r hr => ⟨by linarith [hr.1], by linarith [hr.2]⟩
    have := Taylor.central (f := f) hs n3 (fun r _ => d0 r) (fun r _ => d1 r) (fun q hq r hr => hM3 q (sub q hq) r (sub r hr))
    have h3 : 0 ≤ s ^ 3 := by positivity
    nlinarith
  · intro g a' b' ha hb hg t s hs h h'
    have sub : ∀ r ∈ Set.Icc (t - s) (t + s), r ∈ Set.Icc a b := fun r hr => ⟨by linarith [hr.1], by linarith [hr.2]⟩
    have := Taylor.central (f := g) hs n2 (fun r hr => hg r (by linarith [hr.1]) (by linarith [hr.2])) (fun r _ => d0 r) (fun q hq r hr => l2 q (sub q hq) r (sub r hr))
    have h3 : 0 ≤ s ^ 3 := by positivity
    nlinarith

theorem vec_bound {v : Vec} {a b c : ℝ} (h1 : |v.x| ≤ a) (h2 : |v.y| ≤ b) (h3 : |v.z| ≤ c) : v.norm ≤ a + b + c := by
  have := norm_le_comps v
  linarith

/-- differences of a smooth vector function in a bounded interval -/
structure Bounds (f : ℝ → Vec) (a b M : ℝ) : Prop where
  zeroth : ∀ t s, a ≤ t - |s| → t + |s| ≤ b → (f (t + s) - f t).norm ≤ M * |s|
  first : ∀ t s v, HasVelocity f v t → a ≤ t - |s| → t + |s| ≤ b → (f (t + s) - f t - v * s).norm ≤ M * s ^ 2
  second : ∀ t s, 0 ≤ s → a ≤ t - s → t + s ≤ b → (f (t + s) + f (t - s) - f t * (2 : ℝ)).norm ≤ M * s ^ 2
  central : ∀ t s v, HasVelocity f v t → 0 ≤ s → a ≤ t - s → t + s ≤ b → (f (t + s) - f (t - s) - v * (2 * s)).norm ≤ M * s ^ 3
  path : ∀ (g : ℝ → Vec) (k a' b' : ℝ), a ≤ a' → b' ≤ b → (∀ t, a' ≤ t → t ≤ b' → HasVelocity g (f t * k) t) → ∀ t s, 0 ≤ s → a' ≤ t - s → t + s ≤ b' →
    (g (t + s) - g (t - s) - f t * (k * (2 * s))).norm ≤ M * |k| * s ^ 3

theorem Smooth.bounds {f : ℝ → Vec} (hf : Smooth f) (a b : ℝ) : ∃ M, 0 ≤ M ∧ Bounds f a b M := by
  obtain ⟨Mx, hx, x1, x2, x3, x4, x5⟩ := scalar_bounds hf.1 a b
  obtain ⟨My, hy, y1, y2, y3, y4, y5⟩ := scalar_bounds hf.2.1 a b
  obtain ⟨Mz, hz, z1, z2, z3, z4, z5⟩ := scalar_bounds hf.2.2 a b
  refine ⟨Mx + My + Mz, by positivity, ?_, ?_, ?_, ?_, ?_⟩
  · intro t s h h'
    have := vec_bound (v := f (t + s) - f t) (x1 t s h h') (y1 t s h h') (z1 t s h h')
    linarith
  · intro t s v hv h h'
    have a1 := x2 t s h h'
    have a2 := y2 t s h h'
    have a3 := z2 t s h h'
    rw [hv.1.deriv] at a1
    rw [hv.2.1.deriv] at a2
    rw [hv.2.2.deriv] at a3
    have := vec_bound (v := f (t + s) - f t - v * s) a1 a2 a3
    linarith
  · intro t s hs h h'
    have a1 := x3 t s hs h h'
    have a2 := y3 t s hs h h'
    have a3 := z3 t s hs h h'
    rw [mul_comm 2] at a1 a2 a3
    have := vec_bound (v := f (t + s) + f (t - s) - f t * (2 : ℝ)) a1 a2 a3
    linarith
  · intro t s v hv hs h h'
    have a1 := x4 t s hs h h'
    have a2 := y4 t s hs h h'
    have a3 := z4 t s hs h h'
    rw [hv.1.deriv] at a1
    rw [hv.2.1.deriv] at a2
    rw [hv.2.2.deriv] at a3
    have := vec_bound (v := f (t + s) - f (t - s) - v * (2 * s)) a1 a2 a3
    linarith
  · intro g k a' b' ha hb hg t s hs h h'
    by_cases hk : k = 0
    · subst hk
      have key : ∀ c : Vec → ℝ, (∀ t, a' ≤ t → t ≤ b' → HasDerivAt (fun s => c (g s)) 0 t) → c (g (t + s)) = c (g (t - s)) := by
        intro c hc
        have := Taylor.mvt (f := fun s => c (g s)) (f' := fun _ => 0) (C := 0) (a := a') (b := b') (fun r hr => hc r hr.1 hr.2) (fun _ _ => by simp) (s := t - s) (t := t + s)
          ⟨by linarith, by linarith⟩ ⟨by linarith, by linarith⟩
        simp only [zero_mul, abs_nonpos_iff] at this
        linarith
      have e : g (t + s) - g (t - s) - f t * ((0 : ℝ) * (2 * s)) = 0 := by
        ext
        · simp [key (·.x) (fun t h h' => by simpa using (hg t h h').1)]
        · simp [key (·.y) (fun t h h' => by simpa using (hg t h h').2.1)]
        · simp [key (·.z) (fun t h h' => by simpa using (hg t h h').2.2)]
      rw [e, Vec.norm_zero]
      simp
    · have a1 := x5 (fun s => (g s).x / k) a' b' ha hb (fun t h h' => by have := ((hg t h h').1).div_const k; simpa [hk] using this) t s hs h h'
      have a2 := y5 (fun s => (g s).y / k) a' b' ha hb (fun t h h' => by have := ((hg t h h').2.1).div_const k; simpa [hk] using this) t s hs h h'
      have a3 := z5 (fun s => (g s).z / k) a' b' ha hb (fun t h h' => by have := ((hg t h h').2.2).div_const k; simpa [hk] using this) t s hs h h'
      have := vec_bound (v := g (t + s) / k - g (t - s) / k - f t * (2 * s)) a1 a2 a3
      have e : g (t + s) - g (t - s) - f t * (k * (2 * s)) = (g (t + s) / k - g (t - s) / k - f t * (2 * s)) * k := by
        ext <;> simp <;> field_simp
      rw [e, Vec.norm_mul]
      have hk0 := abs_nonneg k
      nlinarith

theorem Smooth.velOf {p : ℝ → Vec} (hp : Smooth p) : Smooth (fun t => Teufel.velOf (p t)) := by
  have hne : ∀ s, Real.sqrt (1 + (p s).abs2nd) ≠ 0 := fun s => (gammaOf_pos (p s)).ne'
  have h0 : LipDiff 2 (fun s => Real.sqrt (1 + (p s).abs2nd)) := by
    refine LipDiff.sqrt ((LipDiff.const 2 1).add (((hp.1.mul hp.1).add (hp.2.1.mul hp.2.1)).add (hp.2.2.mul hp.2.2))) (fun s => ?_)
    have := abs2nd_nonneg (p s)
    unfold abs2nd at this
    positivity
  exact ⟨hp.1.div h0 hne, hp.2.1.div h0 hne, hp.2.2.div h0 hne⟩

end Teufel
