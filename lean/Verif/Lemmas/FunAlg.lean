import Verif.Spec.LW
import Verif.Lemmas.Vec
import Mathlib.Analysis.SpecialFunctions.Sqrt
import Mathlib.Tactic.LinearCombination

/-! # Classes of real functions closed under the operations of the field formula

Two such classes are used: pairs of functions which differ little, and functions with a first order expansion. -/

namespace Teufel
open Vec

/-- closed under sums, products, and - away from zero - inverses and square roots; all members are bounded -/
structure FunAlg {J : Type} (P : (J → ℝ) → Prop) : Prop where
  const : ∀ c, P (fun _ => c)
  add : ∀ {f g}, P f → P g → P (fun j => f j + g j)
  mul : ∀ {f g}, P f → P g → P (fun j => f j * g j)
  inv : ∀ {f δ}, P f → 0 < δ → (∀ j, δ ≤ f j) → P (fun j => (f j)⁻¹)
  sqrt : ∀ {f δ}, P f → 0 < δ → (∀ j, δ ≤ f j) → P (fun j => Real.sqrt (f j))
  bdd : ∀ {f}, P f → ∃ M, ∀ j, |f j| ≤ M

namespace FunAlg
variable {J : Type} {P : (J → ℝ) → Prop}

theorem neg (H : FunAlg P) {f : J → ℝ} (hf : P f) : P (fun j => -f j) := by
  have := H.mul (H.const (-1)) hf
  simpa using this

theorem sub (H : FunAlg P) {f g : J → ℝ} (hf : P f) (hg : P g) : P (fun j => f j - g j) := by
  have := H.add hf (H.neg hg)
  simpa [sub_eq_add_neg] using this

theorem div (H : FunAlg P) {f g : J → ℝ} {δ : ℝ} (hf : P f) (hg : P g) (h : 0 < δ) (hb : ∀ j, δ ≤ g j) : P (fun j => f j / g j) := by
  have := H.mul hf (H.inv hg h hb)
  simpa [div_eq_mul_inv] using this

theorem pow (H : FunAlg P) {f : J → ℝ} (hf : P f) (n : Nat) : P (fun j => f j ^ n) := by
  induction n with
  | zero => simpa using H.const 1
  | succ n ih => simpa [pow_succ] using H.mul ih hf

/-- all components are in the class -/
def V (P : (J → ℝ) → Prop) (f : J → Vec) : Prop := P (fun j => (f j).x) ∧ P (fun j => (f j).y) ∧ P (fun j => (f j).z)

theorem vconst (H : FunAlg P) (c : Vec) : V P (fun _ => c) := ⟨H.const _, H.const _, H.const _⟩

theorem vadd (H : FunAlg P) {f g : J → Vec} (hf : V P f) (hg : V P g) : V P (fun j => f j + g j) :=
  ⟨H.add hf.1 hg.1, H.add hf.2.1 hg.2.1, H.add hf.2.2 hg.2.2⟩

theorem vsub (H : FunAlg P) {f g : J → Vec} (hf : V P f) (hg : V P g) : V P (fun j => f j - g j) :=
  ⟨H.sub hf.1 hg.1, H.sub hf.2.1 hg.2.1, H.sub hf.2.2 hg.2.2⟩

theorem vmul (H : FunAlg P) {f : J → Vec} {g : J → ℝ} (hf : V P f) (hg : P g) : V P (fun j => f j * g j) :=
  ⟨H.mul hf.1 hg, H.mul hf.2.1 hg, H.mul hf.2.2 hg⟩

theorem vdiv (H : FunAlg P) {f : J → Vec} {g : J → ℝ} {δ : ℝ} (hf : V P f) (hg : P g) (h : 0 < δ) (hb : ∀ j, δ ≤ g j) : V P (fun j => f j / g j) :=
  ⟨H.div hf.1 hg h hb, H.div hf.2.1 hg h hb, H.div hf.2.2 hg h hb⟩

theorem vdot (H : FunAlg P) {f g : J → Vec} (hf : V P f) (hg : V P g) : P (fun j => dot (f j) (g j)) :=
  H.add (H.add (H.mul hf.1 hg.1) (H.mul hf.2.1 hg.2.1)) (H.mul hf.2.2 hg.2.2)

theorem vcross (H : FunAlg P) {f g : J → Vec} (hf : V P f) (hg : V P g) : V P (fun j => cross (f j) (g j)) :=
  ⟨H.sub (H.mul hf.2.1 hg.2.2) (H.mul hf.2.2 hg.2.1), H.sub (H.mul hf.2.2 hg.1) (H.mul hf.1 hg.2.2), H.sub (H.mul hf.1 hg.2.1) (H.mul hf.2.1 hg.1)⟩

theorem vabs2 (H : FunAlg P) {f : J → Vec} (hf : V P f) : P (fun j => (f j).abs2nd) :=
  H.add (H.add (H.mul hf.1 hf.1) (H.mul hf.2.1 hf.2.1)) (H.mul hf.2.2 hf.2.2)

theorem vnorm (H : FunAlg P) {f : J → Vec} {δ : ℝ} (hf : V P f) (h : 0 < δ) (hb : ∀ j, δ ≤ Vec.norm (f j)) : P (fun j => Vec.norm (f j)) := by
  refine H.sqrt (δ := δ ^ 2) (H.vabs2 hf) (by positivity) (fun j => ?_)
  have := pow_le_pow_left₀ h.le (hb j) 2
  rwa [norm_sq] at this

theorem vbdd (H : FunAlg P) {f : J → Vec} (hf : V P f) : ∃ M, 0 ≤ M ∧ ∀ j, (f j).abs2nd ≤ M := by
  obtain ⟨M, hM⟩ := H.bdd (H.vabs2 hf)
  exact ⟨|M|, abs_nonneg M, fun j => (le_abs_self _).trans ((hM j).trans (le_abs_self M))⟩

theorem gamma (H : FunAlg P) {p : J → Vec} (hp : V P p) : P (fun j => Real.sqrt (1 + Vec.norm (p j) ^ 2)) := by
  have h : P (fun j => Real.sqrt (1 + (p j).abs2nd)) :=
    H.sqrt (δ := 1) (H.add (H.const 1) (H.vabs2 hp)) one_pos (fun j => by have := abs2nd_nonneg (p j); linarith)
  simpa only [norm_sq] using h

theorem gamma_ge (p : Vec) : 1 ≤ Real.sqrt (1 + Vec.norm p ^ 2) := by
  rw [Real.one_le_sqrt]
  have := sq_nonneg (Vec.norm p)
  linarith

theorem beta (H : FunAlg P) {p : J → Vec} (hp : V P p) : V P (fun j => betaOf (p j)) :=
  H.vdiv hp (H.gamma hp) one_pos (fun j => gamma_ge (p j))

/-- a bound of the momentum keeps the velocity away from that of light -/
theorem away (m : Vec) (M : ℝ) (hM : m.abs2nd ≤ M) (n : Vec) (hn : Vec.norm n = 1) : 1 / (2 * (1 + M)) ≤ 1 - dot n (betaOf m) := by
  have h0 := abs2nd_nonneg m
  have hg := gamma_ge m
  set g := Real.sqrt (1 + Vec.norm m ^ 2) with hgdef
  have hg2 : g ^ 2 = 1 + m.abs2nd := by rw [hgdef, Real.sq_sqrt (by positivity), norm_sq]
  have hb : Vec.norm (betaOf m) = Vec.norm m / g := by
    have : betaOf m = m * g⁻¹ := by unfold betaOf; rw [← hgdef]; ext <;> simp [div_eq_mul_inv]
    rw [this, Vec.norm_mul, abs_of_pos (by positivity), div_eq_mul_inv]
  have h1 := Vec.dot_le n (betaOf m)
  rw [hn, one_mul, hb] at h1
  have hm2 : Vec.norm m ^ 2 = g ^ 2 - 1 := by rw [norm_sq, hg2]; ring
  have hmn := Vec.norm_nonneg m
  have h2 : Vec.norm m / g ≤ 1 - 1 / (2 * g ^ 2) := by
    rw [div_le_iff₀ (by linarith)]
    have e : (1 - 1 / (2 * g ^ 2)) * g = (2 * g ^ 2 - 1) / (2 * g) := by field_simp
    rw [e, le_div_iff₀ (by linarith)]
    have h3 : (2 * g ^ 2 - 1) ^ 2 - (Vec.norm m * (2 * g)) ^ 2 = 1 := by rw [mul_pow, hm2]; ring
    have h4 : 0 ≤ 2 * g ^ 2 - 1 := by nlinarith
    by_contra hlt
    push Not at hlt
    nlinarith [mul_self_le_mul_self h4 hlt.le]
  have h5 : 1 / (2 * (1 + M)) ≤ 1 / (2 * g ^ 2) := one_div_le_one_div_of_le (by positivity) (by rw [hg2]; linarith)
  linarith

/-- The field formula stays in the class for sources which keep a distance from the observer. -/
theorem lw (H : FunAlg P) {x p b : J → Vec} (q : ℝ) (obs : Vec) (hx : V P x) (hp : V P p) (hb : V P b) {δ : ℝ} (hδ : 0 < δ)
    (hd : ∀ j, δ ≤ Vec.norm (obs - x j)) :
    V P (fun j => (LW q (x j) (betaOf (p j)) (b j) obs).E) ∧ V P (fun j => (LW q (x j) (betaOf (p j)) (b j) obs).B) := by
  obtain ⟨M, hM0, hM⟩ := H.vbdd hp
  have hr := H.vsub (H.vconst obs) hx
  have hR : P (fun j => Vec.norm (obs - x j)) := H.vnorm hr hδ hd
  have hn : V P (fun j => (obs - x j) / Vec.norm (obs - x j)) := H.vdiv hr hR hδ hd
  have hβ := H.beta hp
  have hn1 : ∀ j, Vec.norm ((obs - x j) / Vec.norm (obs - x j)) = 1 := by
    intro j
    have h0 : 0 < Vec.norm (obs - x j) := lt_of_lt_of_le hδ (hd j)
    have : (obs - x j) / Vec.norm (obs - x j) = (obs - x j) * (Vec.norm (obs - x j))⁻¹ := by ext <;> simp [div_eq_mul_inv]
    rw [this, Vec.norm_mul, abs_of_pos (by positivity)]
    field_simp
  have hk : P (fun j => 1 - dot ((obs - x j) / Vec.norm (obs - x j)) (betaOf (p j))) := H.sub (H.const 1) (H.vdot hn hβ)
  set η := 1 / (2 * (1 + M)) with hη
  have hη0 : 0 < η := by positivity
  have hkη : ∀ j, η ≤ 1 - dot ((obs - x j) / Vec.norm (obs - x j)) (betaOf (p j)) := fun j => away (p j) M (hM j) _ (hn1 j)
  have d1 : V P (fun j => ((obs - x j) / Vec.norm (obs - x j) - betaOf (p j)) *
      ((1 - dot (betaOf (p j)) (betaOf (p j))) / ((1 - dot ((obs - x j) / Vec.norm (obs - x j)) (betaOf (p j))) ^ 3 * Vec.norm (obs - x j) ^ 2))) :=
    H.vmul (H.vsub hn hβ) (H.div (δ := η ^ 3 * δ ^ 2) (H.sub (H.const 1) (H.vdot hβ hβ)) (H.mul (H.pow hk 3) (H.pow hR 2)) (by positivity)
      (fun j => mul_le_mul (pow_le_pow_left₀ hη0.le (hkη j) 3) (pow_le_pow_left₀ hδ.le (hd j) 2) (by positivity)
        (pow_nonneg (hη0.le.trans (hkη j)) 3)))
  have d2 : V P (fun j => cross ((obs - x j) / Vec.norm (obs - x j)) (cross ((obs - x j) / Vec.norm (obs - x j) - betaOf (p j)) (b j)) *
      (1 / (SpeedOfLight * (1 - dot ((obs - x j) / Vec.norm (obs - x j)) (betaOf (p j))) ^ 3 * Vec.norm (obs - x j)))) := by
    have hc := SpeedOfLight_pos
    refine H.vmul (H.vcross hn (H.vcross (H.vsub hn hβ) hb)) (H.div (δ := SpeedOfLight * η ^ 3 * δ) (H.const 1) (H.mul (H.mul (H.const _) (H.pow hk 3)) hR) (by positivity) (fun j => ?_))
    refine mul_le_mul (mul_le_mul_of_nonneg_left (pow_le_pow_left₀ hη0.le (hkη j) 3) hc.le) (hd j) hδ.le ?_
    exact mul_nonneg hc.le (pow_nonneg (hη0.le.trans (hkη j)) 3)
  have hE : V P (fun j => LWE q (x j) (betaOf (p j)) (b j) obs) := H.vmul (H.vadd d1 d2) (H.const _)
  exact ⟨hE, H.vdiv (δ := SpeedOfLight) (H.vcross hn hE) (H.const _) SpeedOfLight_pos (fun _ => le_rfl)⟩

end FunAlg

/-! ## Pairs of functions which differ little -/

/-- the values for `true` and `false` differ by at most a multiple of `e` -/
def NearBy {ι : Type} (e : ι → ℝ) (f : ι × Bool → ℝ) : Prop := ∃ C, 0 ≤ C ∧ ∀ i, (∀ b, |f (i, b)| ≤ C) ∧ |f (i, true) - f (i, false)| ≤ C * e i

theorem nearBy_alg {ι : Type} {e : ι → ℝ} (he : ∀ i, 0 ≤ e i) : FunAlg (NearBy e) where
  const c := ⟨|c|, abs_nonneg c, fun i => ⟨fun _ => le_rfl, by simpa using mul_nonneg (abs_nonneg c) (he i)⟩⟩
  add := by
    rintro f g ⟨C, hC, hf⟩ ⟨D, hD, hg⟩
    refine ⟨C + D, by linarith, fun i => ⟨fun b => (abs_add_le _ _).trans (add_le_add ((hf i).1 b) ((hg i).1 b)), ?_⟩⟩
    have : f (i, true) + g (i, true) - (f (i, false) + g (i, false)) = (f (i, true) - f (i, false)) + (g (i, true) - g (i, false)) := by ring
    rw [this]
    have := abs_add_le (f (i, true) - f (i, false)) (g (i, true) - g (i, false))
    linarith [(hf i).2, (hg i).2]
  mul := by
    rintro f g ⟨C, hC, hf⟩ ⟨D, hD, hg⟩
    refine ⟨2 * C * D, by positivity, fun i => ⟨fun b => ?_, ?_⟩⟩
    · rw [abs_mul]
      have := mul_le_mul ((hf i).1 b) ((hg i).1 b) (abs_nonneg _) hC
      nlinarith [mul_nonneg hC hD]
    · have e1 : f (i, true) * g (i, true) - f (i, false) * g (i, false) = f (i, true) * (g (i, true) - g (i, false)) + g (i, false) * (f (i, true) - f (i, false)) := by ring
      rw [e1]
      refine (abs_add_le _ _).trans ?_
      rw [abs_mul, abs_mul]
      have h1 := mul_le_mul ((hf i).1 true) (hg i).2 (abs_nonneg _) hC
      have h2 := mul_le_mul ((hg i).1 false) (hf i).2 (abs_nonneg _) hD
      linarith
  inv := by
    rintro f δ ⟨C, hC, hf⟩ hδ hb
    refine ⟨δ⁻¹ + δ⁻¹ * δ⁻¹ * C, by positivity, fun i => ⟨fun b => ?_, ?_⟩⟩
    · have h0 : 0 < f (i, b) := lt_of_lt_of_le hδ (hb _)
      rw [abs_of_pos (by positivity)]
      have := inv_anti₀ hδ (hb (i, b))
      have : 0 ≤ δ⁻¹ * δ⁻¹ * C := by positivity
      linarith
    · have h0 : 0 < f (i, true) := lt_of_lt_of_le hδ (hb _)
      have h1 : 0 < f (i, false) := lt_of_lt_of_le hδ (hb _)
      have e1 : (f (i, true))⁻¹ - (f (i, false))⁻¹ = -((f (i, true))⁻¹ * (f (i, false))⁻¹ * (f (i, true) - f (i, false))) := by field_simp; ring
      rw [e1, abs_neg, abs_mul, abs_of_pos (by positivity)]
      have h2 := mul_le_mul (inv_anti₀ hδ (hb (i, true))) (inv_anti₀ hδ (hb (i, false))) (by positivity) (by positivity)
      have h3 := mul_le_mul h2 (hf i).2 (abs_nonneg _) (by positivity)
      have : 0 ≤ δ⁻¹ * e i := mul_nonneg (by positivity) (he i)
      nlinarith
  sqrt := by
    rintro f δ ⟨C, hC, hf⟩ hδ hb
    have hs : 0 < Real.sqrt δ := Real.sqrt_pos.mpr hδ
    refine ⟨1 + C + (Real.sqrt δ)⁻¹ * C, by positivity, fun i => ⟨fun b => ?_, ?_⟩⟩
    · rw [abs_of_nonneg (Real.sqrt_nonneg _)]
      have h0 : 0 < f (i, b) := lt_of_lt_of_le hδ (hb _)
      have h1 := (le_abs_self _).trans ((hf i).1 b)
      have h2 : Real.sqrt (f (i, b)) ≤ 1 + f (i, b) := by
        rw [Real.sqrt_le_left (by linarith)]
        nlinarith
      have : 0 ≤ (Real.sqrt δ)⁻¹ * C := by positivity
      linarith
    · have h0 : 0 < f (i, true) := lt_of_lt_of_le hδ (hb _)
      have h1 : 0 < f (i, false) := lt_of_lt_of_le hδ (hb _)
      have g0 := Real.sqrt_le_sqrt (hb (i, true))
      have g1 := Real.sqrt_nonneg (f (i, false))
      have q0 := Real.mul_self_sqrt h0.le
      have q1 := Real.mul_self_sqrt h1.le
      have e1 : (Real.sqrt (f (i, true)) - Real.sqrt (f (i, false))) * (Real.sqrt (f (i, true)) + Real.sqrt (f (i, false))) = f (i, true) - f (i, false) := by
        linear_combination q0 - q1
      have h3 : |Real.sqrt (f (i, true)) - Real.sqrt (f (i, false))| * Real.sqrt δ ≤ C * e i := by
        calc |Real.sqrt (f (i, true)) - Real.sqrt (f (i, false))| * Real.sqrt δ
            ≤ |Real.sqrt (f (i, true)) - Real.sqrt (f (i, false))| * (Real.sqrt (f (i, true)) + Real.sqrt (f (i, false))) :=
              mul_le_mul_of_nonneg_left (by linarith) (abs_nonneg _)
          _ = |f (i, true) - f (i, false)| := by
              rw [← e1, abs_mul, abs_of_nonneg (a := Real.sqrt (f (i, true)) + Real.sqrt (f (i, false))) (by positivity)]
          _ ≤ _ := (hf i).2
      rw [← le_div_iff₀ hs] at h3
      refine h3.trans ?_
      have : C * e i / Real.sqrt δ = (Real.sqrt δ)⁻¹ * C * e i := by field_simp
      rw [this]
      have : 0 ≤ (1 + C) * e i := mul_nonneg (by linarith) (he i)
      linarith
  bdd := by
    rintro f ⟨C, hC, hf⟩
    exact ⟨C, fun j => (hf j.1).1 j.2⟩

/-! ## Functions with a first order expansion -/

/-- `f' s` is the slope at `s`; the remainder is quadratic -/
def Quad {S : Set ℝ} (f : S → ℝ) : Prop :=
  ∃ (f' : S → ℝ) (C : ℝ), 0 ≤ C ∧ ∀ s t : S, |f s| ≤ C ∧ |f' s| ≤ C ∧ |f t - f s| ≤ C * |(t : ℝ) - s| ∧ |f t - f s - f' s * (t - s)| ≤ C * ((t : ℝ) - s) ^ 2

theorem quad_alg {S : Set ℝ} : FunAlg (Quad (S := S)) where
  const c := ⟨fun _ => 0, |c|, abs_nonneg c, fun s t => ⟨le_rfl, by simp, by simpa using mul_nonneg (abs_nonneg c) (abs_nonneg _), by simpa using mul_nonneg (abs_nonneg c) (sq_nonneg _)⟩⟩
  add := by
    rintro f g ⟨f', C, hC, hf⟩ ⟨g', D, hD, hg⟩
    refine ⟨fun s => f' s + g' s, C + D, by linarith, fun s t => ?_⟩
    obtain ⟨a1, a2, a3, a4⟩ := hf s t
    obtain ⟨b1, b2, b3, b4⟩ := hg s t
    refine ⟨(abs_add_le _ _).trans (by linarith), (abs_add_le _ _).trans (by linarith), ?_, ?_⟩
    · have e : f t + g t - (f s + g s) = (f t - f s) + (g t - g s) := by ring
      rw [e]
      exact (abs_add_le _ _).trans (by linarith)
    · have e : f t + g t - (f s + g s) - (f' s + g' s) * (t - s) = (f t - f s - f' s * (t - s)) + (g t - g s - g' s * (t - s)) := by ring
      rw [e]
      exact (abs_add_le _ _).trans (by linarith)
  mul := by
    rintro f g ⟨f', C, hC, hf⟩ ⟨g', D, hD, hg⟩
    refine ⟨fun s => f' s * g s + f s * g' s, 3 * C * D, by positivity, fun s t => ?_⟩
    obtain ⟨a1, a2, a3, a4⟩ := hf s t
    obtain ⟨b1, b2, b3, b4⟩ := hg s t
    obtain ⟨b1', -⟩ := hg t t
    have hCD : 0 ≤ C * D := mul_nonneg hC hD
    have hd := abs_nonneg ((t : ℝ) - s)
    refine ⟨?_, ?_, ?_, ?_⟩
    · rw [abs_mul]
      nlinarith [mul_le_mul a1 b1 (abs_nonneg _) hC]
    · refine (abs_add_le _ _).trans ?_
      rw [abs_mul, abs_mul]
      nlinarith [mul_le_mul a2 b1 (abs_nonneg _) hC, mul_le_mul a1 b2 (abs_nonneg _) hC]
    · have e : f t * g t - f s * g s = g t * (f t - f s) + f s * (g t - g s) := by ring
      rw [e]
      refine (abs_add_le _ _).trans ?_
      rw [abs_mul, abs_mul]
      have h1 := mul_le_mul b1' a3 (abs_nonneg _) hD
      have h2 := mul_le_mul a1 b3 (abs_nonneg _) hC
      nlinarith [mul_nonneg hCD hd]
    · have e : f t * g t - f s * g s - (f' s * g s + f s * g' s) * (t - s) =
          g s * (f t - f s - f' s * (t - s)) + f s * (g t - g s - g' s * (t - s)) + (f t - f s) * (g t - g s) := by ring
      rw [e]
      refine (abs_add_le _ _).trans ((add_le_add_left (abs_add_le _ _) _).trans ?_)
      rw [abs_mul, abs_mul, abs_mul]
      have h1 := mul_le_mul b1 a4 (abs_nonneg _) hD
      have h2 := mul_le_mul a1 b4 (abs_nonneg _) hC
      have h3 := mul_le_mul a3 b3 (abs_nonneg _) (by positivity)
      have h4 : C * |(t : ℝ) - s| * (D * |(t : ℝ) - s|) = C * D * ((t : ℝ) - s) ^ 2 := by rw [← sq_abs ((t : ℝ) - s)]; ring
      linarith
  inv := by
    rintro f δ ⟨f', C, hC, hf⟩ hδ hb
    set k := δ⁻¹ with hk
    have hk0 : 0 < k := by positivity
    have inv_le : ∀ s : S, (f s)⁻¹ ≤ k := fun s => inv_anti₀ hδ (hb s)
    have inv_pos : ∀ s : S, 0 < (f s)⁻¹ := fun s => by have := lt_of_lt_of_le hδ (hb s); positivity
    refine ⟨fun s => -(f' s * (f s)⁻¹ ^ 2), k + C * k ^ 2 + C ^ 2 * k ^ 3, by positivity, fun s t => ?_⟩
    obtain ⟨a1, a2, a3, a4⟩ := hf s t
    have hs0 : f s ≠ 0 := (lt_of_lt_of_le hδ (hb s)).ne'
    have ht0 : f t ≠ 0 := (lt_of_lt_of_le hδ (hb t)).ne'
    have hd := abs_nonneg ((t : ℝ) - s)
    have p1 : (f s)⁻¹ ^ 2 ≤ k ^ 2 := pow_le_pow_left₀ (inv_pos s).le (inv_le s) 2
    have p2 : (f s)⁻¹ * (f t)⁻¹ ≤ k ^ 2 := by rw [sq]; exact mul_le_mul (inv_le s) (inv_le t) (inv_pos t).le hk0.le
    have p3 : (f s)⁻¹ ^ 2 * (f t)⁻¹ ≤ k ^ 3 := by rw [pow_succ k 2]; exact mul_le_mul p1 (inv_le t) (inv_pos t).le (by positivity)
    have c2 : 0 ≤ C * k ^ 2 := by positivity
    have c3 : 0 ≤ C ^ 2 * k ^ 3 := by positivity
    refine ⟨?_, ?_, ?_, ?_⟩
    · rw [abs_of_pos (inv_pos s)]
      linarith [inv_le s]
    · rw [abs_neg, abs_mul, abs_of_nonneg (sq_nonneg ((f s)⁻¹))]
      have := mul_le_mul a2 p1 (by positivity) hC
      linarith
    · have e : (f t)⁻¹ - (f s)⁻¹ = -((f s)⁻¹ * (f t)⁻¹ * (f t - f s)) := by field_simp; ring
      rw [e, abs_neg, abs_mul, abs_of_pos (mul_pos (inv_pos s) (inv_pos t))]
      have := mul_le_mul p2 a3 (abs_nonneg _) (by positivity)
      have : 0 ≤ (k + C ^ 2 * k ^ 3) * |(t : ℝ) - s| := by positivity
      nlinarith
    · have e : (f t)⁻¹ - (f s)⁻¹ - -(f' s * (f s)⁻¹ ^ 2) * (t - s) =
          (f s)⁻¹ ^ 2 * (f t)⁻¹ * (f t - f s) ^ 2 + -((f s)⁻¹ ^ 2 * (f t - f s - f' s * (t - s))) := by field_simp; ring
      rw [e]
      refine (abs_add_le _ _).trans ?_
      rw [abs_neg, abs_mul ((f s)⁻¹ ^ 2 * (f t)⁻¹), abs_mul ((f s)⁻¹ ^ 2) (f t - f s - f' s * (t - s)), abs_of_pos (mul_pos (pow_pos (inv_pos s) 2) (inv_pos t)), abs_of_pos (pow_pos (inv_pos s) 2), abs_of_nonneg (sq_nonneg (f t - f s))]
      have q1 : (f t - f s) ^ 2 ≤ C ^ 2 * ((t : ℝ) - s) ^ 2 := by
        rw [← sq_abs (f t - f s), ← sq_abs ((t : ℝ) - s), ← mul_pow]
        exact pow_le_pow_left₀ (abs_nonneg _) a3 2
      have h1 := mul_le_mul p3 q1 (sq_nonneg _) (by positivity)
      have h2 := mul_le_mul p1 a4 (abs_nonneg _) (by positivity)
      have : 0 ≤ k * ((t : ℝ) - s) ^ 2 := by positivity
      nlinarith
  sqrt := by
    rintro f δ ⟨f', C, hC, hf⟩ hδ hb
    set r := Real.sqrt δ with hr
    have hr0 : 0 < r := Real.sqrt_pos.mpr hδ
    set k := r⁻¹ with hk
    have hk0 : 0 < k := by positivity
    have ge : ∀ s : S, r ≤ Real.sqrt (f s) := fun s => Real.sqrt_le_sqrt (hb s)
    have pos : ∀ s : S, 0 < Real.sqrt (f s) := fun s => lt_of_lt_of_le hr0 (ge s)
    have sq' : ∀ s : S, Real.sqrt (f s) ^ 2 = f s := fun s => Real.sq_sqrt (hδ.le.trans (hb s))
    refine ⟨fun s => f' s * (2 * Real.sqrt (f s))⁻¹, 1 + C + C * k + C ^ 2 * k ^ 3, by positivity, fun s t => ?_⟩
    obtain ⟨a1, a2, a3, a4⟩ := hf s t
    have hs := pos s
    have ht := pos t
    have inv1 : (2 * Real.sqrt (f s))⁻¹ ≤ k := inv_anti₀ hr0 (by linarith [ge s])
    have inv2 : (Real.sqrt (f t) + Real.sqrt (f s))⁻¹ ≤ k := inv_anti₀ hr0 (by linarith [ge s])
    have i1 : 0 < (2 * Real.sqrt (f s))⁻¹ := by positivity
    have i2 : 0 < (Real.sqrt (f t) + Real.sqrt (f s))⁻¹ := by positivity
    have c2 : 0 ≤ C * k := by positivity
    have c3 : 0 ≤ C ^ 2 * k ^ 3 := by positivity
    have hd := abs_nonneg ((t : ℝ) - s)
    have e0 : f t - f s = (Real.sqrt (f t) - Real.sqrt (f s)) * (Real.sqrt (f t) + Real.sqrt (f s)) := by
      linear_combination sq' s - sq' t
    have e1 : Real.sqrt (f t) - Real.sqrt (f s) = (f t - f s) * (Real.sqrt (f t) + Real.sqrt (f s))⁻¹ := by
      rw [e0]; field_simp
    refine ⟨?_, ?_, ?_, ?_⟩
    · rw [abs_of_pos hs]
      have h1 := (le_abs_self _).trans a1
      have h2 : Real.sqrt (f s) ≤ 1 + f s := by nlinarith [sq' s]
      linarith
    · rw [abs_mul, abs_of_pos i1]
      have := mul_le_mul a2 inv1 i1.le hC
      linarith
    · rw [e1, abs_mul, abs_of_pos i2]
      have := mul_le_mul a3 inv2 i2.le (by positivity)
      have : 0 ≤ (1 + C + C ^ 2 * k ^ 3) * |(t : ℝ) - s| := by positivity
      nlinarith
    · have e : Real.sqrt (f t) - Real.sqrt (f s) - f' s * (2 * Real.sqrt (f s))⁻¹ * (t - s) =
          (f t - f s - f' s * (t - s)) * (2 * Real.sqrt (f s))⁻¹ +
          -((f t - f s) ^ 2 * ((2 * Real.sqrt (f s))⁻¹ * (Real.sqrt (f t) + Real.sqrt (f s))⁻¹ * (Real.sqrt (f t) + Real.sqrt (f s))⁻¹)) := by
        rw [e0]
        field_simp
        ring
      rw [e]
      refine (abs_add_le _ _).trans ?_
      rw [abs_neg, abs_mul, abs_mul, abs_of_pos i1, abs_of_pos (mul_pos (mul_pos i1 i2) i2), abs_of_nonneg (sq_nonneg (f t - f s))]
      have q1 : (f t - f s) ^ 2 ≤ C ^ 2 * ((t : ℝ) - s) ^ 2 := by
        rw [← sq_abs (f t - f s), ← sq_abs ((t : ℝ) - s), ← mul_pow]
        exact pow_le_pow_left₀ (abs_nonneg _) a3 2
      have q2 : (2 * Real.sqrt (f s))⁻¹ * (Real.sqrt (f t) + Real.sqrt (f s))⁻¹ * (Real.sqrt (f t) + Real.sqrt (f s))⁻¹ ≤ k ^ 3 := by
        rw [pow_succ, sq]
        exact mul_le_mul (mul_le_mul inv1 inv2 i2.le hk0.le) inv2 i2.le (by positivity)
      have h1 := mul_le_mul a4 inv1 i1.le (by positivity)
      have h2 := mul_le_mul q1 q2 (by positivity) (by positivity)
      have : 0 ≤ (1 + C) * ((t : ℝ) - s) ^ 2 := by positivity
      nlinarith
  bdd := by
    rintro f ⟨f', C, hC, hf⟩
    exact ⟨C, fun s => (hf s s).1⟩

end Teufel
