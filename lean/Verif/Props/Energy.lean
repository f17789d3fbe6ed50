import Verif.Spec.Energy
import Verif.Props.Convergence
import Mathlib.Analysis.Calculus.MeanValue
import Mathlib.Analysis.Real.Pi.Bounds

/-!
# C100: the energy of tracked particles changes by the work of the electric field

`energyJ` and the constants of nature of Spec/Energy are independent of those of the program.
-/

namespace Teufel
open Vec

/-- C100: the constants of nature in the code agree with those of the international system, and they fit to each other -/
theorem C100_constants : SpeedOfLight = SI.c ∧ AgreeWithin 1e-8 ElementaryCharge SI.e ∧ AgreeWithin 1e-8 (mecsquared * SI.e) (SI.me * SI.c ^ 2) ∧
    AgreeWithin 1e-8 InvRestMass (SI.e / SI.me) ∧ AgreeWithin 1e-8 EpsNull SI.eps0 ∧ AgreeWithin 1e-8 MuNull SI.mu0 ∧
    AgreeWithin 1e-9 (EpsNull * MuNull * SpeedOfLight ^ 2) 1 ∧ AgreeWithin 1e-9 (InvRestMass * mecsquared) (SpeedOfLight ^ 2) := by
  have p1 := Real.pi_gt_d20
  have p2 := Real.pi_lt_d20
  unfold AgreeWithin SI.c SI.e SI.me SI.eps0 SI.mu0 SpeedOfLight ElementaryCharge mecsquared InvRestMass EpsNull MuNull Pi
  refine ⟨by norm_num, ?_, ?_, ?_, ?_, ?_, ?_, ?_⟩
  · norm_num [abs_le]
  · norm_num [abs_le]
  · norm_num [abs_le]
  · norm_num [abs_le]
  · rw [abs_of_pos (a := (1.25663706212e-6 : ℝ)) (by norm_num), abs_le]
    constructor <;> linarith
  · rw [abs_of_pos (a := (1 : ℝ)) (by norm_num), abs_le]
    constructor <;> linarith
  · norm_num [abs_le]

/-- the rate of change of the relativistic factor along the exact motion -/
theorem Motion.gamma_deriv {qm : ℝ} {field : FieldFn} {x p : ℝ → Vec} {t0 T : ℝ} (hm : Motion qm field x p t0 T) {t : ℝ} (h1 : t0 ≤ t) (h2 : t ≤ t0 + T)
    {EB : EMField} (hE : field t (x t) = .ok EB) :
    HasDerivAt (fun s => gammaOf (p s)) (qm / SpeedOfLight ^ 2 * dot EB.E (velOf (p t) * SpeedOfLight)) t := by
  obtain ⟨EB', hE', hv⟩ := hm.momentum t h1 h2
  rw [hE] at hE'
  cases hE'
  obtain ⟨dx, dy, dz⟩ := hv
  have hc := SpeedOfLight_ne
  have hg := (gammaOf_pos (p t)).ne'
  have hs : HasDerivAt (fun s => 1 + (p s).abs2nd) _ t := (((dx.mul dx).add (dy.mul dy)).add (dz.mul dz)).const_add 1
  have h0 : 1 + (p t).abs2nd ≠ 0 := by have := abs2nd_nonneg (p t); linarith
  refine (hs.sqrt h0).congr_deriv ?_
  have hq : Real.sqrt (1 + (p t).abs2nd) = gammaOf (p t) := rfl
  rw [hq, velOf_eq]
  simp [dot, cross]
  field_simp
  ring

/-- exact motion: the energy grows by the work -/
theorem Motion.gamma_work {qm : ℝ} {field : FieldFn} {x p : ℝ → Vec} {t0 T : ℝ} (hm : Motion qm field x p t0 T) {w : ℝ → ℝ}
    (hw : Work field x t0 T w) {t : ℝ} (h1 : t0 ≤ t) (h2 : t ≤ t0 + T) :
    gammaOf (p t) - gammaOf (p t0) = qm / SpeedOfLight ^ 2 * w t := by
  have hd : ∀ s, t0 ≤ s → s ≤ t0 + T → HasDerivAt (fun s => gammaOf (p s) - qm / SpeedOfLight ^ 2 * w s) 0 s := by
    intro s a b
    obtain ⟨EB, hE, -⟩ := hm.momentum s a b
    refine ((hm.gamma_deriv a b hE).sub ((hw.2 s a b _ (hm.position s a b) EB hE).const_mul (qm / SpeedOfLight ^ 2))).congr_deriv ?_
    ring
  have := constant_of_has_deriv_right_zero (f := fun s => gammaOf (p s) - qm / SpeedOfLight ^ 2 * w s) (a := t0) (b := t0 + T)
    (fun s hs => (hd s hs.1 hs.2).continuousAt.continuousWithinAt) (fun s hs => (hd s hs.1 hs.2.le).hasDerivWithinAt) t ⟨h1, h2⟩
  simp only [hw.1] at this
  linarith

private theorem si_ratio : |1 - InvRestMass * SI.me / SI.e| ≤ 9e-9 ∧ 0 < SI.me ∧ 0 < SI.e ∧ SI.c = SpeedOfLight := by
  unfold InvRestMass SI.me SI.e SI.c SpeedOfLight
  norm_num [abs_le]

/-- C100: the energy gained by a tracked particle since its start is the work of the electric field along the exact motion, up to a constant times the square of
the time step and to the precision of the natural constants -/
theorem C100_work (qm : ℝ) (field : FieldFn) (x p : ℝ → Vec) (t0 T r L Bm : ℝ) (hm : Motion qm field x p t0 T) (hp : Smooth p)
    (ht : TameNear field x t0 T r L Bm) (hr : 0 < r) (hL : 0 ≤ L) (hT : 0 ≤ T) (w : ℝ → ℝ) (hw : Work field x t0 T w) :
    ∃ C h0 : ℝ, 0 < h0 ∧ ∀ h : ℝ, 0 < h → h ≤ h0 → ∀ n : ℕ, n * h ≤ T →
      ∀ a : Particle, a.Reachable → a.Mass ≠ 0 → a.Charge / a.Mass * InvRestMass = qm →
        a.TrajTime (a.getNP - 1 : Nat) = .ok t0 → a.TrajPoint (a.getNP - 1 : Nat) = .ok (x t0) → a.TrajMomentum (a.getNP - 1 : Nat) = .ok (p t0) →
        ∃ a1 a2, a.InitVay h field = .ok a1 ∧ a1.steps (List.replicate n field) = .ok a2 ∧
          ∀ k : ℕ, k ≤ n → ∃ P, a2.TrajMomentum (a.getNP - 1 + k : Nat) = .ok P ∧
            |energyJ a.Mass P - energyJ a.Mass (p t0) - a.Charge * SI.e * w (t0 + k * h)|
              ≤ |a.Mass| * C * h ^ 2 + 1e-8 * |a.Charge * SI.e * w (t0 + k * h)| := by
  obtain ⟨C, h0, hh0, H⟩ := C92_second_order qm field x p t0 T r L Bm hm hp ht hr hL hT
  refine ⟨SI.me * SI.c ^ 2 * C, h0, hh0, ?_⟩
  intro h hh hle n hn a ha hmass hqm hat hax hap
  obtain ⟨a1, a2, e1, e2, e3⟩ := H h hh hle n hn a ha hmass hqm hat hax hap
  refine ⟨a1, a2, e1, e2, ?_⟩
  intro k hk
  obtain ⟨X, P, A, -, -, hP, -, -, hPe, -⟩ := e3 k hk
  refine ⟨P, hP, ?_⟩
  have hkh : (k : ℝ) * h ≤ T := le_trans (mul_le_mul_of_nonneg_right (by exact_mod_cast hk) hh.le) hn
  have hk0 : 0 ≤ (k : ℝ) * h := by positivity
  have hex := hm.gamma_work hw (t := t0 + k * h) (by linarith) (by linarith)
  have hl := (gammaOf_lip P (p (t0 + k * h))).trans hPe
  obtain ⟨s1, s2, s3, s4⟩ := si_ratio
  have hc := SpeedOfLight_ne
  generalize w (t0 + k * h) = W at hex ⊢
  have key : energyJ a.Mass P - energyJ a.Mass (p t0) - a.Charge * SI.e * W =
      a.Mass * (SI.me * SI.c ^ 2 * (gammaOf P - gammaOf (p (t0 + k * h)))) + (-(1 - InvRestMass * SI.me / SI.e)) * (a.Charge * SI.e * W) := by
    have e4 : gammaOf P - gammaOf (p (t0 + k * h)) = gammaOf P - gammaOf (p t0) - a.Charge / a.Mass * InvRestMass / SpeedOfLight ^ 2 * W := by
      rw [hqm, ← hex]; ring
    rw [e4, s4]
    have : ∀ p, energyJ a.Mass p = a.Mass * SI.me * SpeedOfLight ^ 2 * gammaOf p := fun p => by rw [← s4]; rfl
    rw [this, this]
    have := s3.ne'
    field_simp
    ring
  rw [key]
  refine (abs_add_le _ _).trans (add_le_add ?_ ?_)
  · rw [abs_mul, abs_mul, abs_of_nonneg (a := SI.me * SI.c ^ 2) (by positivity)]
    have := mul_le_mul_of_nonneg_left hl (show 0 ≤ |a.Mass| * (SI.me * SI.c ^ 2) by positivity)
    linarith
  · rw [abs_mul, abs_neg]
    have := mul_le_mul_of_nonneg_right s1 (abs_nonneg (a.Charge * SI.e * W))
    have h9 : (9e-9 : ℝ) * |a.Charge * SI.e * W| ≤ 1e-8 * |a.Charge * SI.e * W| := mul_le_mul_of_nonneg_right (by norm_num) (abs_nonneg _)
    linarith

/-- a potential is the negative work -/
theorem Potential.work {field : FieldFn} {φ : Vec → ℝ} (hφ : Potential field φ) (x : ℝ → Vec) (t0 T : ℝ) :
    Work field x t0 T (fun t => -(φ (x t) - φ (x t0))) := by
  refine ⟨by simp, ?_⟩
  intro t _ _ v hv EB hE
  refine ((hφ x v t hv t EB hE).sub_const (φ (x t0))).neg.congr_deriv (by ring)

/-- a potential changes by at most the field strength times the distance -/
theorem Potential.lip {field : FieldFn} {φ : Vec → ℝ} (hφ : Potential field φ) (t : ℝ) (X Y : Vec) (K : ℝ)
    (hf : ∀ u : ℝ, 0 ≤ u → u ≤ 1 → ∃ EB, field t (X + (Y - X) * u) = .ok EB ∧ EB.E.norm ≤ K) : |φ Y - φ X| ≤ K * (Y - X).norm := by
  have hd : ∀ u ∈ Set.Icc (0 : ℝ) 1, ∃ d, HasDerivAt (fun u => φ (X + (Y - X) * u)) d u ∧ ‖d‖ ≤ K * (Y - X).norm := by
    intro u hu
    obtain ⟨EB, hE, hK⟩ := hf u hu.1 hu.2
    refine ⟨_, hφ (fun u => X + (Y - X) * u) (Y - X) u ⟨?_, ?_, ?_⟩ t EB hE, ?_⟩
    · simpa using ((hasDerivAt_id u).const_mul (Y.x - X.x)).const_add X.x
    · simpa using ((hasDerivAt_id u).const_mul (Y.y - X.y)).const_add X.y
    · simpa using ((hasDerivAt_id u).const_mul (Y.z - X.z)).const_add X.z
    · rw [Real.norm_eq_abs, abs_neg]
      exact (abs_dot_le _ _).trans (mul_le_mul_of_nonneg_right hK (Vec.norm_nonneg _))
  choose! d h1 h2 using hd
  have := (convex_Icc (0 : ℝ) 1).norm_image_sub_le_of_norm_hasDerivWithin_le (fun u hu => (h1 u hu).hasDerivWithinAt) h2
    (Set.left_mem_Icc.mpr zero_le_one) (Set.right_mem_Icc.mpr zero_le_one)
  have a : X + (Y - X) * (1 : ℝ) = Y := by ext <;> simp
  have b : X + (Y - X) * (0 : ℝ) = X := by ext <;> simp
  simpa [a, b] using this

/-- C100: in a static electric field with a potential and any magnetic field the sum of the energy of a tracked particle and its potential energy stays what it was at
the start, up to a constant times the square of the time step and to the precision of the natural constants -/
theorem C100_energy (qm : ℝ) (field : FieldFn) (x p : ℝ → Vec) (t0 T r L Bm : ℝ) (hm : Motion qm field x p t0 T) (hp : Smooth p)
    (ht : TameNear field x t0 T r L Bm) (hr : 0 < r) (hL : 0 ≤ L) (hT : 0 ≤ T) (φ : Vec → ℝ) (hφ : Potential field φ) :
    ∃ C h0 : ℝ, 0 < h0 ∧ ∀ h : ℝ, 0 < h → h ≤ h0 → ∀ n : ℕ, n * h ≤ T →
      ∀ a : Particle, a.Reachable → a.Mass ≠ 0 → a.Charge / a.Mass * InvRestMass = qm →
        a.TrajTime (a.getNP - 1 : Nat) = .ok t0 → a.TrajPoint (a.getNP - 1 : Nat) = .ok (x t0) → a.TrajMomentum (a.getNP - 1 : Nat) = .ok (p t0) →
        ∃ a1 a2, a.InitVay h field = .ok a1 ∧ a1.steps (List.replicate n field) = .ok a2 ∧
          ∀ k : ℕ, k ≤ n → ∃ X P, a2.TrajPoint (a.getNP - 1 + k : Nat) = .ok X ∧ a2.TrajMomentum (a.getNP - 1 + k : Nat) = .ok P ∧
            |(energyJ a.Mass P + a.Charge * SI.e * φ X) - (energyJ a.Mass (p t0) + a.Charge * SI.e * φ (x t0))|
              ≤ |a.Mass| * C * h ^ 2 + 1e-8 * |a.Charge * SI.e * (φ X - φ (x t0))| := by
  obtain ⟨C1, g1, hg1, H1⟩ := C92_second_order qm field x p t0 T r L Bm hm hp ht hr hL hT
  obtain ⟨C2, g2, hg2, H2⟩ := C100_work qm field x p t0 T r L Bm hm hp ht hr hL hT _ (hφ.work x t0 T)
  obtain ⟨M, hM, hb⟩ := hp.bounds (t0 - 1) (t0 + T + 1)
  obtain ⟨s1, s2, s3, s4⟩ := si_ratio
  have hc := SpeedOfLight_pos
  have hI := InvRestMass_pos
  have hB : 0 ≤ Bm := by
    obtain ⟨EB, hE, -⟩ := hm.momentum t0 le_rfl (by linarith)
    exact (Vec.norm_nonneg _).trans (ht.magnetic t0 le_rfl (by linarith) EB hE)
  -- strength of the electric field on the path
  have hE0 : ∀ t, t0 ≤ t → t ≤ t0 + T → ∀ EB, field t (x t) = .ok EB → |qm| * EB.E.norm ≤ SpeedOfLight * (2 * M) + |qm| * (SpeedOfLight * Bm) := by
    intro t h1 h2 EB hE
    obtain ⟨EB', hE', hv⟩ := hm.momentum t h1 h2
    rw [hE] at hE'
    cases hE'
    set v := (EB.E + cross (velOf (p t) * SpeedOfLight) EB.B) * (qm / SpeedOfLight) with hvd
    have hvn : v.norm ≤ 2 * M := by
      have b1 := hb.first t 1 v hv (by rw [abs_one]; linarith) (by rw [abs_one]; linarith)
      have b0 := hb.zeroth t 1 (by rw [abs_one]; linarith) (by rw [abs_one]; linarith)
      have e : v = (p (t + 1) - p t) - (p (t + 1) - p t - v * (1 : ℝ)) := by ext <;> simp
      have := norm_sub_le' (p (t + 1) - p t) (p (t + 1) - p t - v * (1 : ℝ))
      rw [← e] at this
      rw [abs_one] at b0
      linarith
    have e : EB.E * qm = v * SpeedOfLight - cross (velOf (p t) * SpeedOfLight) EB.B * qm := by
      rw [hvd]
      have := hc.ne'
      ext <;> simp <;> field_simp <;> ring
    have h3 := norm_sub_le' (v * SpeedOfLight) (cross (velOf (p t) * SpeedOfLight) EB.B * qm)
    rw [← e, Vec.norm_mul EB.E, Vec.norm_mul v, Vec.norm_mul (cross _ _), abs_of_pos hc] at h3
    have h4 := norm_cross_le (velOf (p t) * SpeedOfLight) EB.B
    rw [Vec.norm_mul, abs_of_pos hc] at h4
    have h5 : (velOf (p t)).norm * SpeedOfLight * EB.B.norm ≤ SpeedOfLight * Bm := by
      have := mul_le_mul_of_nonneg_right (velOf_le (p t)) hc.le
      have := mul_le_mul this (ht.magnetic t h1 h2 EB hE) (Vec.norm_nonneg _) (by linarith)
      linarith
    have h6 := mul_le_mul_of_nonneg_right (h4.trans h5) (abs_nonneg qm)
    have h7 := mul_le_mul_of_nonneg_right hvn hc.le
    linarith
  set K := SpeedOfLight * (2 * M) + |qm| * (SpeedOfLight * Bm) + |qm| * (L * r) with hK
  have hK0 : 0 ≤ K := by positivity
  refine ⟨|C2| + 2 * (SI.e / InvRestMass * K * |C1|), min (min g1 g2) (min 1 (r / (|C1| + 1))), lt_min (lt_min hg1 hg2) (lt_min one_pos (by positivity)), ?_⟩
  intro h hh hle n hn a ha hmass hqm hat hax hap
  have l1 : h ≤ 1 := hle.trans ((min_le_right _ _).trans (min_le_left _ _))
  have l2 : h ≤ r / (|C1| + 1) := hle.trans ((min_le_right _ _).trans (min_le_right _ _))
  rw [le_div_iff₀ (by positivity)] at l2
  obtain ⟨a1, a2, e1, e2, e3⟩ := H1 h hh (hle.trans ((min_le_left _ _).trans (min_le_left _ _))) n hn a ha hmass hqm hat hax hap
  obtain ⟨a1', a2', e1', e2', e3'⟩ := H2 h hh (hle.trans ((min_le_left _ _).trans (min_le_right _ _))) n hn a ha hmass hqm hat hax hap
  rw [e1] at e1'
  cases e1'
  rw [e2] at e2'
  cases e2'
  refine ⟨a1, a2, e1, e2, ?_⟩
  intro k hk
  obtain ⟨X, P, A, -, hX, hP, -, hXe, -, -⟩ := e3 k hk
  obtain ⟨P', hP', hw⟩ := e3' k hk
  rw [hP] at hP'
  cases hP'
  refine ⟨X, P, hX, hP, ?_⟩
  have hkh : (k : ℝ) * h ≤ T := le_trans (mul_le_mul_of_nonneg_right (by exact_mod_cast hk) hh.le) hn
  have hk0 : 0 ≤ (k : ℝ) * h := by positivity
  have b1 : t0 ≤ t0 + k * h := by linarith
  have b2 : t0 + k * h ≤ t0 + T := by linarith
  generalize t0 + k * h = t at *
  have hXC : (X - x t).norm ≤ |C1| * h ^ 2 := hXe.trans (mul_le_mul_of_nonneg_right (le_abs_self C1) (sq_nonneg h))
  have hXr : (X - x t).norm ≤ r := by
    have : |C1| * h ^ 2 ≤ |C1| * h := mul_le_mul_of_nonneg_left (by nlinarith) (abs_nonneg C1)
    nlinarith
  -- the potential at the tracked position
  have hpot : |qm| * |φ X - φ (x t)| ≤ K * (|C1| * h ^ 2) := by
    obtain ⟨EB, hE, -⟩ := hm.momentum t b1 b2
    have := hφ.lip t (x t) X (EB.E.norm + L * r) (by
      intro u hu0 hu1
      have hd : (x t + (X - x t) * u - x t).norm ≤ r := by
        have : x t + (X - x t) * u - x t = (X - x t) * u := by ext <;> simp
        rw [this, Vec.norm_mul, abs_of_nonneg hu0]
        have := mul_le_mul_of_nonneg_left hu1 (Vec.norm_nonneg (X - x t))
        linarith
      obtain ⟨EB', hE', hl, -⟩ := ht.near t b1 b2 EB hE _ hd
      refine ⟨EB', hE', ?_⟩
      have := Vec.norm_add_le EB.E (EB'.E - EB.E)
      have e : EB.E + (EB'.E - EB.E) = EB'.E := by ext <;> simp
      rw [e] at this
      have := mul_le_mul_of_nonneg_left hd hL
      linarith)
    have h1 := mul_le_mul_of_nonneg_left this (abs_nonneg qm)
    have h2 : |qm| * (EB.E.norm + L * r) ≤ K := by
      have := hE0 t b1 b2 EB hE
      rw [hK]
      linarith
    have h3 := mul_le_mul h2 hXC (Vec.norm_nonneg _) hK0
    linarith
  have hqe : |a.Charge * SI.e * (φ X - φ (x t))| ≤ |a.Mass| * (SI.e / InvRestMass * K * |C1|) * h ^ 2 := by
    have e : a.Charge * SI.e * (φ X - φ (x t)) = a.Mass * (SI.e / InvRestMass) * (qm * (φ X - φ (x t))) := by
      rw [← hqm]
      have := hI.ne'
      field_simp
    rw [e, abs_mul, abs_mul, abs_mul qm, abs_of_pos (a := SI.e / InvRestMass) (by positivity)]
    have := mul_le_mul_of_nonneg_left hpot (show 0 ≤ |a.Mass| * (SI.e / InvRestMass) by positivity)
    linarith
  have d1 : (energyJ a.Mass P + a.Charge * SI.e * φ X) - (energyJ a.Mass (p t0) + a.Charge * SI.e * φ (x t0)) =
      (energyJ a.Mass P - energyJ a.Mass (p t0) - a.Charge * SI.e * -(φ (x t) - φ (x t0))) + a.Charge * SI.e * (φ X - φ (x t)) := by ring
  have d2 : |a.Charge * SI.e * -(φ (x t) - φ (x t0))| ≤ |a.Charge * SI.e * (φ X - φ (x t0))| + |a.Charge * SI.e * (φ X - φ (x t))| := by
    have : a.Charge * SI.e * -(φ (x t) - φ (x t0)) = -(a.Charge * SI.e * (φ X - φ (x t0))) + a.Charge * SI.e * (φ X - φ (x t)) := by ring
    rw [this]
    refine (abs_add_le _ _).trans ?_
    rw [abs_neg]
  rw [d1]
  refine (abs_add_le _ _).trans ?_
  have hC2 : |a.Mass| * C2 * h ^ 2 ≤ |a.Mass| * |C2| * h ^ 2 :=
    mul_le_mul_of_nonneg_right (mul_le_mul_of_nonneg_left (le_abs_self C2) (abs_nonneg _)) (sq_nonneg h)
  have h8 := abs_nonneg (a.Charge * SI.e * (φ X - φ (x t)))
  generalize |energyJ a.Mass P - energyJ a.Mass (p t0) - a.Charge * SI.e * -(φ (x t) - φ (x t0))| = q1 at *
  generalize |a.Charge * SI.e * -(φ (x t) - φ (x t0))| = q2 at *
  generalize |a.Charge * SI.e * (φ X - φ (x t))| = q3 at *
  have : |a.Mass| * (|C2| + 2 * (SI.e / InvRestMass * K * |C1|)) * h ^ 2 =
    |a.Mass| * |C2| * h ^ 2 + 2 * (|a.Mass| * (SI.e / InvRestMass * K * |C1|) * h ^ 2) := by ring
  rw [this]
  linarith

/-- homogeneous fields have a potential -/
theorem C100_homogeneous (E B : Vec) : Potential (HomogeneousField E B).field (fun X => -dot E X) := by
  intro y v s hv t EB h
  cases h
  obtain ⟨h1, h2, h3⟩ := hv
  exact (((h1.const_mul E.x).add (h2.const_mul E.y)).add (h3.const_mul E.z)).neg

/-- an electron pulled straight by an electric field of 1 V/m -/
noncomputable def pullK : ℝ := -1 / 1 * InvRestMass / SpeedOfLight
noncomputable def pullP (t : ℝ) : Vec := ⟨pullK * t, 0, 0⟩
noncomputable def pullX (t : ℝ) : Vec := ⟨SpeedOfLight / pullK * Real.sqrt (1 + (pullK * t) ^ 2), 0, 0⟩

/-- non-vacuity: the accelerated electron meets all hypotheses, and it does gain energy -/
example : Motion (-1 / 1 * InvRestMass) (HomogeneousField ⟨1, 0, 0⟩ 0).field pullX pullP 0 1 ∧ Smooth pullP ∧
    TameNear (HomogeneousField ⟨1, 0, 0⟩ 0).field pullX 0 1 1 0 0 ∧ Potential (HomogeneousField ⟨1, 0, 0⟩ 0).field (fun X => -dot ⟨1, 0, 0⟩ X) ∧
    energyJ 1 (pullP 0) < energyJ 1 (pullP 1) ∧
    ∃ a : Particle, a.Reachable ∧ a.Mass ≠ 0 ∧ a.Charge / a.Mass * InvRestMass = -1 / 1 * InvRestMass ∧
      a.TrajTime (a.getNP - 1 : Nat) = .ok 0 ∧ a.TrajPoint (a.getNP - 1 : Nat) = .ok (pullX 0) ∧ a.TrajMomentum (a.getNP - 1 : Nat) = .ok (pullP 0) := by
  have hc := SpeedOfLight_pos.ne'
  have hk : pullK ≠ 0 := by
    unfold pullK
    have := InvRestMass_pos.ne'
    simp [this, hc]
  have hl : ∀ t : ℝ, HasDerivAt (fun s => pullK * s) pullK t := fun t => by simpa using (hasDerivAt_id t).const_mul pullK
  refine ⟨⟨?_, ?_⟩, Smooth.of_contDiff ?_ contDiff_const contDiff_const, ⟨?_, ?_⟩, C100_homogeneous _ _, ?_, ?_⟩
  · intro t _ _
    refine ⟨?_, by simpa [pullX, velOf, pullP] using hasDerivAt_const t (0 : ℝ), by simpa [pullX, velOf, pullP] using hasDerivAt_const t (0 : ℝ)⟩
    have h0 : 1 + (pullK * t) ^ 2 ≠ 0 := by positivity
    have := ((((hl t).pow 2).const_add 1).sqrt h0).const_mul (SpeedOfLight / pullK)
    refine this.congr_deriv ?_
    have e : Real.sqrt (1 + (pullP t).abs2nd) = Real.sqrt (1 + (pullK * t) ^ 2) := by
      congr 1
      simp [pullP, abs2nd]
      ring
    have h1 : Real.sqrt (1 + (pullK * t) ^ 2) ≠ 0 := by positivity
    simp only [velOf, e]
    simp [pullP]
    field_simp
  · intro t _ _
    refine ⟨_, rfl, ?_, by simpa [velOf, pullP, cross] using hasDerivAt_const t (0 : ℝ), by simpa [velOf, pullP, cross] using hasDerivAt_const t (0 : ℝ)⟩
    refine (hl t).congr_deriv ?_
    simp [cross, pullK]
  · exact contDiff_const.mul contDiff_id
  · intro t _ _ EB h
    cases h
    simp [Vec.norm_zero]
  · intro t _ _ EB h X _
    cases h
    exact ⟨_, rfl, by simp [Vec.norm_zero], by simp [Vec.norm_zero]⟩
  · unfold energyJ SI.me SI.c
    refine mul_lt_mul_of_pos_left ?_ (by norm_num)
    refine Real.sqrt_lt_sqrt ?_ ?_
    · simp [pullP, abs2nd]
    · simp [pullP, abs2nd, hk]
  · refine ⟨POp.exec Particle.default (.init 0 (pullX 0) (pullP 0) 0), ⟨_, [.init 0 (pullX 0) (pullP 0) 0], Or.inr (Or.inr (Or.inl rfl)), rfl⟩, ?_, ?_, ?_, ?_, ?_⟩
    · simp [POp.exec, POp.result, Particle.initTrajectory, Particle.default, Particle.new]
    · simp [POp.exec, POp.result, Particle.initTrajectory, Particle.default, Particle.new]
    all_goals rfl

end Teufel
