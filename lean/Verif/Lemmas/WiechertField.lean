import Verif.Lemmas.Wiechert
import Verif.Lemmas.Vec
import Verif.Lemmas.Signal
import Mathlib.Analysis.Calculus.Deriv.Shift
import Mathlib.Analysis.Calculus.ImplicitFunction.ProdDomain
import Mathlib.Analysis.Calculus.Deriv.Prod
import Mathlib.Analysis.Calculus.MeanValue
import Mathlib.Analysis.SpecialFunctions.Sqrt

namespace Teufel
open Vec Filter
open scoped Topology

namespace Wiechert

/-- a continuously differentiable component of a path is strictly differentiable -/
theorem strict_of {f g : ℝ → ℝ} {s : ℝ} (h : ∀ᶠ t in 𝓝 s, HasDerivAt f (g t) t) (hg : ContinuousAt g s) : HasStrictDerivAt f (g s) s :=
  hasStrictDerivAt_of_hasDerivAt_of_continuousAt h hg

/-- The retarded time depends differentiably on time and place of the observation. -/
theorem retarded (x b : ℝ → Vec) (s0 : ℝ) (hx : ∀ᶠ s in 𝓝 s0, HasVelocity x (b s * SpeedOfLight) s)
    (hc : ContinuousAt (fun s => (b s).x) s0 ∧ ContinuousAt (fun s => (b s).y) s0 ∧ ContinuousAt (fun s => (b s).z) s0)
    (P v : Vec) (w : ℝ) (hP : P ≠ x s0) (hs : Vec.norm (P - x s0) - Vec.dot (P - x s0) (b s0) ≠ 0) :
    ∃ τ : ℝ → ℝ, τ 0 = s0 ∧ HasDerivAt τ (rate (P - x s0) (b s0) (Vec.norm (P - x s0)) v (SpeedOfLight * w) / SpeedOfLight) 0 ∧
      ∀ᶠ σ in 𝓝 0, arrival x (P + v * σ) (τ σ) = arrival x P s0 + w * σ := by
  have hc0 := SpeedOfLight_pos.ne'
  -- strict derivatives of the components of the vector to the observer
  have d1 : HasStrictDerivAt (fun s => (x s).x) ((b s0).x * SpeedOfLight) s0 :=
    strict_of (g := fun s => (b s).x * SpeedOfLight) (hx.mono fun s h => h.1) (hc.1.mul continuousAt_const)
  have d2 : HasStrictDerivAt (fun s => (x s).y) ((b s0).y * SpeedOfLight) s0 :=
    strict_of (g := fun s => (b s).y * SpeedOfLight) (hx.mono fun s h => h.2.1) (hc.2.1.mul continuousAt_const)
  have d3 : HasStrictDerivAt (fun s => (x s).z) ((b s0).z * SpeedOfLight) s0 :=
    strict_of (g := fun s => (b s).z * SpeedOfLight) (hx.mono fun s h => h.2.2) (hc.2.2.mul continuousAt_const)
  set u : ℝ × ℝ := (0, s0) with hu
  have fstD : HasStrictFDerivAt (fun y : ℝ × ℝ => y.1) (ContinuousLinearMap.fst ℝ ℝ ℝ) u := hasStrictFDerivAt_fst
  have sndD : HasStrictFDerivAt (fun y : ℝ × ℝ => y.2) (ContinuousLinearMap.snd ℝ ℝ ℝ) u := hasStrictFDerivAt_snd
  have comp : ∀ {f : ℝ → ℝ} {d : ℝ} (p0 v0 : ℝ), HasStrictDerivAt f d s0 →
      HasStrictFDerivAt (fun y : ℝ × ℝ => p0 + v0 * y.1 - f y.2) (v0 • ContinuousLinearMap.fst ℝ ℝ ℝ - d • ContinuousLinearMap.snd ℝ ℝ ℝ) u := by
    intro f d p0 v0 h
    exact ((fstD.const_mul v0).const_add p0).sub (h.comp_hasStrictFDerivAt (f := fun y : ℝ × ℝ => y.2) u sndD)
  have k1 := comp P.x v.x d1
  have k2 := comp P.y v.y d2
  have k3 := comp P.z v.z d3
  have hR := Vec.norm_pos (sub_ne_zero.mpr hP)
  set R := Vec.norm (P - x s0) with hRd
  have hq : (P.x + v.x * u.1 - (x u.2).x) ^ 2 + (P.y + v.y * u.1 - (x u.2).y) ^ 2 + (P.z + v.z * u.1 - (x u.2).z) ^ 2 = R ^ 2 := by
    rw [hRd, Vec.norm_sq]
    simp [hu, Vec.abs2nd]
    ring
  have kS := (((k1.pow 2).add (k2.pow 2)).add (k3.pow 2)).sqrt (by
    show (P.x + v.x * u.1 - (x u.2).x) ^ 2 + (P.y + v.y * u.1 - (x u.2).y) ^ 2 + (P.z + v.z * u.1 - (x u.2).z) ^ 2 ≠ 0
    rw [hq]; positivity)
  set F : ℝ × ℝ → ℝ := fun y => y.2 + SpeedOfLight⁻¹ * Real.sqrt ((P.x + v.x * y.1 - (x y.2).x) ^ 2 + (P.y + v.y * y.1 - (x y.2).y) ^ 2 + (P.z + v.z * y.1 - (x y.2).z) ^ 2) - w * y.1 with hF
  set A : ℝ := Vec.dot (P - x s0) v / R / SpeedOfLight - w with hA
  set D : ℝ := 1 - Vec.dot (P - x s0) (b s0) / R with hD
  have hF' : HasStrictFDerivAt F (A • ContinuousLinearMap.fst ℝ ℝ ℝ + D • ContinuousLinearMap.snd ℝ ℝ ℝ) u := by
    have h := (sndD.add (kS.const_mul SpeedOfLight⁻¹)).sub (fstD.const_mul w)
    refine h.congr_fderiv ?_
    simp only [Pi.add_apply]
    rw [hq, Real.sqrt_sq hR.le]
    ext
    · simp [hA, Vec.dot, hu]
      field_simp
    · simp [hD, Vec.dot, hu]
      field_simp
      ring
  have hD0 : D ≠ 0 := by
    rw [hD]
    intro h
    apply hs
    field_simp at h
    rw [h, mul_zero]
  have hinv : ((A • ContinuousLinearMap.fst ℝ ℝ ℝ + D • ContinuousLinearMap.snd ℝ ℝ ℝ) ∘L .inr ℝ ℝ ℝ).IsInvertible := by
    refine ⟨ContinuousLinearEquiv.unitsEquivAut ℝ (Units.mk0 D hD0), ?_⟩
    ext
    simp
  have ht := hF'.hasStrictFDerivAt_implicitFunctionOfProdDomain hinv
  have h0 := (hF'.eventually_apply_eq_iff_implicitFunctionOfProdDomain hinv).self_of_nhds.mp rfl
  have he := hF'.eventually_apply_implicitFunctionOfProdDomain hinv
  set τ := hF'.implicitFunctionOfProdDomain hinv with hτ
  have h0' : τ 0 = s0 := h0
  have hFu : F u = arrival x P s0 := by
    simp only [hF, arrival, hq, Real.sqrt_sq hR.le]
    simp [hu]
    ring
  have hd := ht.hasFDerivAt.hasDerivAt
  set T := (-((A • ContinuousLinearMap.fst ℝ ℝ ℝ + D • ContinuousLinearMap.snd ℝ ℝ ℝ) ∘L .inr ℝ ℝ ℝ).inverse ∘L
    ((A • ContinuousLinearMap.fst ℝ ℝ ℝ + D • ContinuousLinearMap.snd ℝ ℝ ℝ) ∘L .inl ℝ ℝ ℝ)) 1 with hT
  have hd0 : HasDerivAt τ T 0 := hd
  have hch : HasDerivAt (fun σ => F (σ, τ σ)) (A + D * T) 0 := by
    have hpr : HasDerivAt (fun σ : ℝ => (σ, τ σ)) (1, T) 0 := (hasDerivAt_id 0).prodMk hd0
    have hFa : HasFDerivAt F (A • ContinuousLinearMap.fst ℝ ℝ ℝ + D • ContinuousLinearMap.snd ℝ ℝ ℝ) ((0 : ℝ), τ 0) := by
      rw [h0']; exact hF'.hasFDerivAt
    have := hFa.comp_hasDerivAt (0 : ℝ) hpr
    refine this.congr_deriv ?_
    simp
  have hz : A + D * T = 0 := by
    have h1 : HasDerivAt (fun σ => F (σ, τ σ)) 0 0 :=
      (hasDerivAt_const (0 : ℝ) (F u)).congr_of_eventuallyEq he
    exact hch.unique h1
  have hTv : T = rate (P - x s0) (b s0) R v (SpeedOfLight * w) / SpeedOfLight := by
    have hDR : D = (R - Vec.dot (P - x s0) (b s0)) / R := by rw [hD]; field_simp
    have hT' : T = -A / D := by
      field_simp
      linear_combination hz
    rw [hT', hDR, hA]
    unfold rate
    field_simp
    ring
  refine ⟨τ, h0', hTv ▸ hd0, ?_⟩
  have he' : ∀ᶠ σ in 𝓝 (0 : ℝ), F (σ, τ σ) = F u := he
  filter_upwards [he'] with σ hσ
  rw [hFu] at hσ
  rw [← hσ]
  simp only [hF, arrival, Vec.norm, Vec.abs2nd]
  simp
  rw [div_eq_inv_mul]
  simp only [sq]

theorem comp_velocity {f : ℝ → Vec} {d : Vec} {τ : ℝ → ℝ} {k σ s : ℝ} (hs : τ σ = s) (hf : HasVelocity f d s) (hτ : HasDerivAt τ k σ) : HasVelocity (fun u => f (τ u)) (d * k) σ := by
  subst hs
  exact ⟨hf.1.comp σ hτ, hf.2.1.comp σ hτ, hf.2.2.comp σ hτ⟩

theorem congr_velocity {f g : ℝ → Vec} {d : Vec} {t : ℝ} (hf : HasVelocity f d t) (h : ∀ᶠ s in 𝓝 t, g s = f s) : HasVelocity g d t :=
  ⟨hf.1.congr_of_eventuallyEq (h.mono fun s e => by simp only [e]), hf.2.1.congr_of_eventuallyEq (h.mono fun s e => by simp only [e]),
    hf.2.2.congr_of_eventuallyEq (h.mono fun s e => by simp only [e])⟩

/-- the Liénard-Wiechert field with a common denominator -/
theorem lw_form (q : ℝ) (x b d obs : Vec) (h : obs ≠ x) (hs : Vec.norm (obs - x) - Vec.dot (obs - x) b ≠ 0) :
    LW q x b d obs = ⟨N (obs - x) b (d / SpeedOfLight) (Vec.norm (obs - x)) * (q / (4 * Real.pi * EpsNull) / (Vec.norm (obs - x) - Vec.dot (obs - x) b) ^ 3),
      M (obs - x) b (d / SpeedOfLight) (Vec.norm (obs - x)) * (-(q / (4 * Real.pi * EpsNull) / SpeedOfLight) / (Vec.norm (obs - x) - Vec.dot (obs - x) b) ^ 3)⟩ := by
  have hR := Vec.norm_pos (sub_ne_zero.mpr h)
  have hq := Vec.norm_sq (obs - x)
  have hc0 := SpeedOfLight_pos.ne'
  set r := obs - x with hr
  set R := Vec.norm r with hRd
  have hk : 1 - Vec.dot (r / R) b = (R - Vec.dot r b) / R := by
    simp [Vec.dot]
    field_simp
  set s := R - Vec.dot r b with hsd
  have hE : LWE q x b d obs = N r b (d / SpeedOfLight) R * (q / (4 * Real.pi * EpsNull) / s ^ 3) := by
    unfold LWE
    simp only [← hr, ← hRd, hk]
    generalize q / (4 * Real.pi * EpsNull) = K
    have hq' : R ^ 2 = r.x * r.x + r.y * r.y + r.z * r.z := by rw [hq]; simp [Vec.abs2nd]
    have hs0 : s ≠ 0 := hs
    have e1 : (r / R - b) * ((1 - Vec.dot b b) / ((s / R) ^ 3 * R ^ 2)) = (r - b * R) * ((1 - Vec.dot b b) / s ^ 3) := by
      ext <;> simp <;> field_simp
    have e2 : cross (r / R) (cross (r / R - b) d) * (1 / (SpeedOfLight * (s / R) ^ 3 * R)) = cross r (cross (r - b * R) d) * (1 / (SpeedOfLight * s ^ 3)) := by
      ext <;> simp <;> field_simp
    have e3 : cross r (cross (r - b * R) d) = (r - b * R) * Vec.dot r d - d * (R * s) := by
      rw [hsd]
      ext
      · simp [Vec.dot]
        linear_combination d.x * hq'
      · simp [Vec.dot]
        linear_combination d.y * hq'
      · simp [Vec.dot]
        linear_combination d.z * hq'
    rw [e1, e2, e3]
    unfold N
    rw [← hsd]
    ext <;> simp [Vec.dot] <;> field_simp <;> ring
  unfold LW
  rw [hE]
  simp only [← hr, ← hRd]
  congr 1
  have hs0 : s ≠ 0 := hs
  unfold N M
  rw [← hsd]
  generalize q / (4 * Real.pi * EpsNull) = K
  ext <;> simp <;> field_simp <;> ring

/-- rates of change of the field on a straight line in space and time -/
theorem along (q : ℝ) (x b d : ℝ → Vec) (dd : Vec) (s0 : ℝ) (hx : ∀ᶠ s in 𝓝 s0, HasVelocity x (b s * SpeedOfLight) s) (hb : HasVelocity b (d s0) s0)
    (hd : HasVelocity d dd s0) (P : Vec) (hP : P ≠ x s0) (hs : Vec.norm (P - x s0) - Vec.dot (P - x s0) (b s0) ≠ 0) (E B : ℝ → Vec → Vec)
    (hS : ∀ᶠ s in 𝓝 s0, ∀ X, X ≠ x s → (⟨E (arrival x X s) X, B (arrival x X s) X⟩ : EMField) = LW q (x s) (b s) (d s) X) (v : Vec) (w : ℝ) :
    HasVelocity (fun σ => E (arrival x P s0 + w * σ) (P + v * σ))
      (dE (P - x s0) (b s0) (d s0 / SpeedOfLight) (dd / SpeedOfLight / SpeedOfLight) (Vec.norm (P - x s0)) v (SpeedOfLight * w) * (q / (4 * Real.pi * EpsNull))) 0 ∧
    HasVelocity (fun σ => B (arrival x P s0 + w * σ) (P + v * σ))
      (dB (P - x s0) (b s0) (d s0 / SpeedOfLight) (dd / SpeedOfLight / SpeedOfLight) (Vec.norm (P - x s0)) v (SpeedOfLight * w) * (-(q / (4 * Real.pi * EpsNull) / SpeedOfLight))) 0 := by
  have hc0 := SpeedOfLight_pos.ne'
  obtain ⟨τ, t0, tD, tE⟩ := retarded x b s0 hx ⟨hb.1.continuousAt, hb.2.1.continuousAt, hb.2.2.continuousAt⟩ P v w hP hs
  set T := rate (P - x s0) (b s0) (Vec.norm (P - x s0)) v (SpeedOfLight * w) with hT
  have tT : Tendsto τ (𝓝 0) (𝓝 s0) := by
    have := tD.continuousAt.tendsto
    rwa [t0] at this
  have hR0 := Vec.norm_pos (sub_ne_zero.mpr hP)
  have P0 : P + v * (0 : ℝ) = P := by ext <;> simp
  -- the quantities at the retarded time
  have hr : HasVelocity (fun σ => P + v * σ - x (τ σ)) (v - b s0 * T) 0 := by
    have h1 : HasVelocity (fun σ : ℝ => P + v * σ) v 0 := by
      refine ⟨?_, ?_, ?_⟩
      · simpa using ((hasDerivAt_id (0 : ℝ)).const_mul v.x).const_add P.x
      · simpa using ((hasDerivAt_id (0 : ℝ)).const_mul v.y).const_add P.y
      · simpa using ((hasDerivAt_id (0 : ℝ)).const_mul v.z).const_add P.z
    refine (h1.sub (comp_velocity t0 hx.self_of_nhds tD)).congr ?_
    ext <;> simp <;> field_simp
  have hb' : HasVelocity (fun σ => b (τ σ)) (d s0 / SpeedOfLight * T) 0 := by
    refine (comp_velocity t0 hb tD).congr ?_
    ext <;> simp <;> field_simp
  have ha : HasVelocity (fun σ => d (τ σ) / SpeedOfLight) (dd / SpeedOfLight / SpeedOfLight * T) 0 := by
    have h := comp_velocity t0 hd tD
    refine ⟨(h.1.div_const SpeedOfLight).congr_deriv ?_, (h.2.1.div_const SpeedOfLight).congr_deriv ?_, (h.2.2.div_const SpeedOfLight).congr_deriv ?_⟩
    all_goals simp; field_simp
  have hR : HasDerivAt (fun σ => Vec.norm (P + v * σ - x (τ σ))) (SpeedOfLight * w - T) 0 := by
    have h1 : HasDerivAt (fun σ : ℝ => SpeedOfLight * (arrival x P s0 + w * σ - τ σ)) (SpeedOfLight * w - T) 0 := by
      refine (((((hasDerivAt_id (0 : ℝ)).const_mul w).const_add (arrival x P s0)).sub tD).const_mul SpeedOfLight).congr_deriv ?_
      field_simp
    refine h1.congr_of_eventuallyEq ?_
    filter_upwards [tE] with σ hσ
    rw [← hσ]
    unfold arrival
    field_simp
    ring
  have hsD := deriv_s (r := fun σ => P + v * σ - x (τ σ)) (b := fun σ => b (τ σ)) (a := fun σ => d (τ σ) / SpeedOfLight)
    (R := fun σ => Vec.norm (P + v * σ - x (τ σ))) (v := v) (w := SpeedOfLight * w) (T := T) (t := 0) (by simpa [t0] using hr) (by simpa [t0] using hb') hR
  have hNn : ∀ᶠ σ in 𝓝 (0 : ℝ), Vec.norm (P + v * σ - x (τ σ)) - Vec.dot (P + v * σ - x (τ σ)) (b (τ σ)) ≠ 0 := by
    refine hsD.continuousAt.eventually_ne ?_
    simp only [t0, P0]
    exact hs
  have hRn : ∀ᶠ σ in 𝓝 (0 : ℝ), Vec.norm (P + v * σ - x (τ σ)) ≠ 0 := by
    refine hR.continuousAt.eventually_ne ?_
    simp only [t0, P0]
    exact hR0.ne'
  have hev : ∀ᶠ σ in 𝓝 (0 : ℝ), (⟨E (arrival x P s0 + w * σ) (P + v * σ), B (arrival x P s0 + w * σ) (P + v * σ)⟩ : EMField) =
      ⟨N (P + v * σ - x (τ σ)) (b (τ σ)) (d (τ σ) / SpeedOfLight) (Vec.norm (P + v * σ - x (τ σ))) * (q / (4 * Real.pi * EpsNull) / (Vec.norm (P + v * σ - x (τ σ)) - Vec.dot (P + v * σ - x (τ σ)) (b (τ σ))) ^ 3),
       M (P + v * σ - x (τ σ)) (b (τ σ)) (d (τ σ) / SpeedOfLight) (Vec.norm (P + v * σ - x (τ σ))) * (-(q / (4 * Real.pi * EpsNull) / SpeedOfLight) / (Vec.norm (P + v * σ - x (τ σ)) - Vec.dot (P + v * σ - x (τ σ)) (b (τ σ))) ^ 3)⟩ := by
    filter_upwards [tE, hNn, hRn, tT.eventually hS] with σ h1 h2 h3 h4
    have hne : P + v * σ ≠ x (τ σ) := by
      intro h
      apply h3
      rw [h]
      simp [Vec.norm, Vec.abs2nd]
    rw [← h1, h4 _ hne, lw_form _ _ _ _ _ hne h2]
  have hNd := deriv_N (r := fun σ => P + v * σ - x (τ σ)) (b := fun σ => b (τ σ)) (a := fun σ => d (τ σ) / SpeedOfLight)
    (R := fun σ => Vec.norm (P + v * σ - x (τ σ))) (j := dd / SpeedOfLight / SpeedOfLight) (v := v) (w := SpeedOfLight * w) (T := T) (t := 0) (by simpa [t0] using hr) (by simpa [t0] using hb') ha hR
  have hMd := deriv_M (r := fun σ => P + v * σ - x (τ σ)) (b := fun σ => b (τ σ)) (a := fun σ => d (τ σ) / SpeedOfLight)
    (R := fun σ => Vec.norm (P + v * σ - x (τ σ))) (j := dd / SpeedOfLight / SpeedOfLight) (v := v) (w := SpeedOfLight * w) (T := T) (t := 0) (by simpa [t0] using hr) (by simpa [t0] using hb') ha hR
  have hEd := deriv_quot hNd hsD hNn.self_of_nhds (q / (4 * Real.pi * EpsNull))
  have hBd := deriv_quot hMd hsD hNn.self_of_nhds (-(q / (4 * Real.pi * EpsNull) / SpeedOfLight))
  simp only [t0, P0] at hEd hBd
  exact ⟨congr_velocity hEd (hev.mono fun σ h => congrArg EMField.E h), congr_velocity hBd (hev.mono fun σ h => congrArg EMField.B h)⟩

/-- The Liénard-Wiechert field of a moving charge obeys Maxwell's equations in vacuum. -/
theorem maxwell (q : ℝ) (x b d : ℝ → Vec) (dd : Vec) (s0 : ℝ) (hx : ∀ᶠ s in 𝓝 s0, HasVelocity x (b s * SpeedOfLight) s) (hb : HasVelocity b (d s0) s0)
    (hd : HasVelocity d dd s0) (P : Vec) (hP : P ≠ x s0) (hs : Vec.norm (P - x s0) - Vec.dot (P - x s0) (b s0) ≠ 0) (E B : ℝ → Vec → Vec)
    (hS : ∀ᶠ s in 𝓝 s0, ∀ X, X ≠ x s → (⟨E (arrival x X s) X, B (arrival x X s) X⟩ : EMField) = LW q (x s) (b s) (d s) X) :
    ∃ et bt, VacuumMaxwell E B (arrival x P s0) P et bt := by
  have hc0 := SpeedOfLight_pos.ne'
  have hR : Vec.dot (P - x s0) (P - x s0) = Vec.norm (P - x s0) ^ 2 := by rw [Vec.norm_sq, Vec.dot_self]
  have A := along q x b d dd s0 hx hb hd P hP hs E B hS
  set K := q / (4 * Real.pi * EpsNull)
  set r := P - x s0
  set R := Vec.norm r
  set a := d s0 / SpeedOfLight
  set j := dd / SpeedOfLight / SpeedOfLight
  have lin : ∀ (w : ℝ), dE r (b s0) a j R 0 w = dE r (b s0) a j R 0 1 * w ∧ dB r (b s0) a j R 0 w = dB r (b s0) a j R 0 1 * w := by
    intro w
    constructor
    · ext <;> simp [dE, dN, N, ds, rate, Vec.dot] <;> ring
    · ext <;> simp [dB, dM, M, ds, rate, Vec.dot] <;> ring
  have rateOf : ∀ {F : ℝ → Vec → Vec} {D : Vec}, HasVelocity (fun σ => F (arrival x P s0 + 1 * σ) (P + (0 : Vec) * σ)) D 0 → HasRate (fun s => F s P) (arrival x P s0) D := by
    intro F D h
    have e : ∀ σ : ℝ, P + (0 : Vec) * σ = P := fun σ => by ext <;> simp
    simp only [HasVelocity, one_mul, e] at h
    have key : ∀ {g : ℝ → ℝ} {k : ℝ}, HasDerivAt (fun σ => g (arrival x P s0 + σ)) k 0 → HasDerivAt g k (arrival x P s0) := by
      intro g k hk
      have := HasDerivAt.comp_sub_const (arrival x P s0) (arrival x P s0) (f := fun σ => g (arrival x P s0 + σ)) (f' := k) (by simpa using hk)
      simpa using this
    exact ⟨key h.1, key h.2.1, key h.2.2⟩
  have dirOf : ∀ {F : ℝ → Vec → Vec} {v D : Vec}, HasVelocity (fun σ => F (arrival x P s0 + 0 * σ) (P + v * σ)) D 0 → HasDirDeriv (F (arrival x P s0)) P v D := by
    intro F v D h
    simp only [zero_mul, add_zero] at h
    exact h
  refine ⟨_, _, rateOf (A 0 1).1, rateOf (A 0 1).2, dE r (b s0) a j R ⟨1, 0, 0⟩ 0 * K, dE r (b s0) a j R ⟨0, 1, 0⟩ 0 * K, dE r (b s0) a j R ⟨0, 0, 1⟩ 0 * K,
    dB r (b s0) a j R ⟨1, 0, 0⟩ 0 * (-(K / SpeedOfLight)), dB r (b s0) a j R ⟨0, 1, 0⟩ 0 * (-(K / SpeedOfLight)), dB r (b s0) a j R ⟨0, 0, 1⟩ 0 * (-(K / SpeedOfLight)), ?_, ?_, ?_, ?_, ?_, ?_⟩
  · intro v
    have h := dirOf (A v 0).1
    rw [mul_zero, dE_linear] at h
    have e : dE r (b s0) a j R ⟨1, 0, 0⟩ 0 * K * v.x + dE r (b s0) a j R ⟨0, 1, 0⟩ 0 * K * v.y + dE r (b s0) a j R ⟨0, 0, 1⟩ 0 * K * v.z =
        (dE r (b s0) a j R ⟨1, 0, 0⟩ 0 * v.x + dE r (b s0) a j R ⟨0, 1, 0⟩ 0 * v.y + dE r (b s0) a j R ⟨0, 0, 1⟩ 0 * v.z) * K := by
      ext <;> simp <;> ring
    rw [e]
    exact h
  · intro v
    have h := dirOf (A v 0).2
    rw [mul_zero, dB_linear] at h
    have e : dB r (b s0) a j R ⟨1, 0, 0⟩ 0 * (-(K / SpeedOfLight)) * v.x + dB r (b s0) a j R ⟨0, 1, 0⟩ 0 * (-(K / SpeedOfLight)) * v.y + dB r (b s0) a j R ⟨0, 0, 1⟩ 0 * (-(K / SpeedOfLight)) * v.z =
        (dB r (b s0) a j R ⟨1, 0, 0⟩ 0 * v.x + dB r (b s0) a j R ⟨0, 1, 0⟩ 0 * v.y + dB r (b s0) a j R ⟨0, 0, 1⟩ 0 * v.z) * (-(K / SpeedOfLight)) := by
      ext <;> simp <;> ring
    rw [e]
    exact h
  · have h := div_E r (b s0) a j R hs hR
    simp only [Vec.mul_x, Vec.mul_y, Vec.mul_z]
    linear_combination K * h
  · have h := div_B r (b s0) a j R hs
    simp only [Vec.mul_x, Vec.mul_y, Vec.mul_z]
    linear_combination (-(K / SpeedOfLight)) * h
  · have h := curl_E r (b s0) a j R hs
    rw [mul_one, (lin SpeedOfLight).2, ← h]
    ext <;> simp <;> field_simp
  · have h := curl_B r (b s0) a j R hs hR
    have h' : dE r (b s0) a j R 0 1 = -(-dE r (b s0) a j R 0 1) := by ext <;> simp
    rw [mul_one, (lin SpeedOfLight).1, h', ← h]
    ext <;> simp <;> field_simp <;> ring

end Wiechert
end Teufel
