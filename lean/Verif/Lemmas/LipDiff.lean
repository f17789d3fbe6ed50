import Verif.Spec.Motion
import Mathlib.Analysis.Calculus.ContDiff.RCLike
import Mathlib.Analysis.Calculus.ContDiff.Deriv
import Mathlib.Analysis.Calculus.ContDiff.Operations
import Mathlib.Analysis.Calculus.Deriv.Inv
import Mathlib.Analysis.Calculus.Deriv.Comp
import Mathlib.Analysis.SpecialFunctions.Sqrt
import Mathlib.Topology.Algebra.MetricSpace.Lipschitz

/-! # Functions with a locally Lipschitz continuous derivative of some order -/

namespace Teufel
namespace LipDiff

theorem lip_mul {f g : ℝ → ℝ} (hf : LocallyLipschitz f) (hg : LocallyLipschitz g) : LocallyLipschitz (fun t => f t * g t) := by
  have h : LocallyLipschitz (fun q : ℝ × ℝ => q.1 * q.2) := ContDiff.locallyLipschitz (𝕂 := ℝ) (contDiff_fst.mul contDiff_snd)
  exact h.comp (hf.prodMk hg)

theorem lip_add {f g : ℝ → ℝ} (hf : LocallyLipschitz f) (hg : LocallyLipschitz g) : LocallyLipschitz (fun t => f t + g t) := by
  have h : LocallyLipschitz (fun q : ℝ × ℝ => q.1 + q.2) := ContDiff.locallyLipschitz (𝕂 := ℝ) (contDiff_fst.add contDiff_snd)
  exact h.comp (hf.prodMk hg)

/-- composition with a function that is smooth where it is needed -/
theorem lip_comp_at {f g : ℝ → ℝ} (hf : LocallyLipschitz f) (hg : ∀ t, ContDiffAt ℝ 1 g (f t)) : LocallyLipschitz (fun t => g (f t)) := by
  intro t
  obtain ⟨K, u, hu, hK⟩ := (hg t).exists_lipschitzOnWith
  obtain ⟨K', v, hv, hK'⟩ := hf t
  refine ⟨K * K', v ∩ f ⁻¹' u, Filter.inter_mem hv (hf.continuous.continuousAt.preimage_mem_nhds hu), ?_⟩
  exact (hK.mono (by rintro _ ⟨s, hs, rfl⟩; exact hs.2)).comp (t := f '' (v ∩ f ⁻¹' u)) (hK'.mono Set.inter_subset_left) (Set.mapsTo_image _ _)

theorem lip_of_differentiable {f : ℝ → ℝ} (hf : Differentiable ℝ f) (hc : Continuous (deriv f)) : LocallyLipschitz f := by
  have : ContDiff ℝ 1 f := contDiff_one_iff_deriv.mpr ⟨hf, hc⟩
  exact this.locallyLipschitz

theorem continuous : ∀ {n : ℕ} {f : ℝ → ℝ}, LipDiff n f → Continuous f
  | 0, _, h => LocallyLipschitz.continuous h
  | _ + 1, _, h => h.1.continuous

theorem lower : ∀ {n : ℕ} {f : ℝ → ℝ}, LipDiff (n + 1) f → LipDiff n f
  | 0, _, h => lip_of_differentiable h.1 (continuous h.2)
  | _ + 1, _, h => ⟨h.1, lower h.2⟩

theorem lip {n : ℕ} {f : ℝ → ℝ} (h : LipDiff n f) : LocallyLipschitz f := by
  induction n with
  | zero => exact h
  | succ n ih => exact ih h.lower

theorem le {n m : ℕ} {f : ℝ → ℝ} (hnm : n ≤ m) (h : LipDiff m f) : LipDiff n f := by
  induction hnm with
  | refl => exact h
  | step _ ih => exact ih h.lower

theorem of_hasDerivAt {n : ℕ} {f f' : ℝ → ℝ} (h : ∀ t, HasDerivAt f (f' t) t) (h' : LipDiff n f') : LipDiff (n + 1) f := by
  refine ⟨fun t => (h t).differentiableAt, ?_⟩
  have : deriv f = f' := funext fun t => (h t).deriv
  rw [this]
  exact h'

theorem of_contDiff : ∀ {n : ℕ} {f : ℝ → ℝ}, ContDiff ℝ (n + 1 : ℕ) f → LipDiff n f
  | 0, f, h => by
    have h1 : ContDiff ℝ 1 f := by simpa using h
    exact h1.locallyLipschitz
  | n + 1, f, h => by
    have h1 : ContDiff ℝ ((n + 1 : ℕ) + 1) f := by exact_mod_cast h
    have h2 := contDiff_succ_iff_deriv.mp h1
    exact ⟨h2.1, of_contDiff h2.2.2⟩

theorem const (n : ℕ) (c : ℝ) : LipDiff n (fun _ => c) := of_contDiff contDiff_const

theorem id (n : ℕ) : LipDiff n (fun t => t) := of_contDiff contDiff_id

theorem add : ∀ {n : ℕ} {f g : ℝ → ℝ}, LipDiff n f → LipDiff n g → LipDiff n (fun t => f t + g t)
  | 0, _, _, hf, hg => lip_add hf hg
  | _ + 1, _, _, hf, hg => of_hasDerivAt (fun t => (hf.1 t).hasDerivAt.add (hg.1 t).hasDerivAt) (add hf.2 hg.2)

theorem mul : ∀ {n : ℕ} {f g : ℝ → ℝ}, LipDiff n f → LipDiff n g → LipDiff n (fun t => f t * g t)
  | 0, _, _, hf, hg => lip_mul hf hg
  | _ + 1, _, _, hf, hg => of_hasDerivAt (fun t => (hf.1 t).hasDerivAt.mul (hg.1 t).hasDerivAt) (add (mul hf.2 hg.lower) (mul hf.lower hg.2))

theorem neg {n : ℕ} {f : ℝ → ℝ} (hf : LipDiff n f) : LipDiff n (fun t => -f t) := by
  have := mul (const n (-1)) hf
  simpa using this

theorem sub {n : ℕ} {f g : ℝ → ℝ} (hf : LipDiff n f) (hg : LipDiff n g) : LipDiff n (fun t => f t - g t) := by
  have := add hf hg.neg
  simpa [sub_eq_add_neg] using this

theorem inv : ∀ {n : ℕ} {f : ℝ → ℝ}, LipDiff n f → (∀ t, f t ≠ 0) → LipDiff n (fun t => (f t)⁻¹)
  | 0, _, hf, h0 => lip_comp_at hf fun t => contDiffAt_inv ℝ (h0 t)
  | n + 1, f, hf, h0 => by
    refine of_hasDerivAt (f' := fun t => -deriv f t * ((f t)⁻¹ * (f t)⁻¹)) (fun t => ?_) (mul hf.2.neg (mul (inv hf.lower h0) (inv hf.lower h0)))
    exact ((hf.1 t).hasDerivAt.fun_inv (h0 t)).congr_deriv (by have := h0 t; field_simp)

theorem div {n : ℕ} {f g : ℝ → ℝ} (hf : LipDiff n f) (hg : LipDiff n g) (h0 : ∀ t, g t ≠ 0) : LipDiff n (fun t => f t / g t) := by
  simpa [div_eq_mul_inv] using mul hf (hg.inv h0)

theorem sqrt : ∀ {n : ℕ} {f : ℝ → ℝ}, LipDiff n f → (∀ t, f t ≠ 0) → LipDiff n (fun t => Real.sqrt (f t))
  | 0, _, hf, h0 => lip_comp_at hf fun t => Real.contDiffAt_sqrt (h0 t)
  | n + 1, f, hf, h0 => by
    by_cases hp : ∀ t, 0 < f t
    · refine of_hasDerivAt (f' := fun t => deriv f t / (2 * Real.sqrt (f t))) (fun t => (hf.1 t).hasDerivAt.sqrt (h0 t)) ?_
      exact div hf.2 (mul (const n 2) (sqrt hf.lower h0)) fun t => by have := Real.sqrt_pos.mpr (hp t); positivity
    · have hn : ∀ t, f t ≤ 0 := by
        push Not at hp
        obtain ⟨a, ha⟩ := hp
        intro b
        by_contra hb
        obtain ⟨c, hc⟩ := mem_range_of_exists_le_of_exists_ge hf.continuous ⟨a, ha⟩ ⟨b, (not_le.mp hb).le⟩
        exact h0 c hc
      have e : (fun t => Real.sqrt (f t)) = fun _ => (0 : ℝ) := funext fun t => Real.sqrt_eq_zero_of_nonpos (hn t)
      rw [e]
      exact const _ 0

theorem comp : ∀ {n : ℕ} {f z : ℝ → ℝ}, LipDiff n f → LipDiff n z → LipDiff n (fun t => f (z t))
  | 0, _, _, hf, hz => LocallyLipschitz.comp hf hz
  | _ + 1, _, z, hf, hz => of_hasDerivAt (fun t => (hf.1 (z t)).hasDerivAt.comp t (hz.1 t).hasDerivAt) (mul (comp hf.2 hz.lower) hz.2)

/-- in a bounded interval the function is Lipschitz continuous -/
theorem lip_Icc {f : ℝ → ℝ} (hf : LocallyLipschitz f) (a b : ℝ) : ∃ M : ℝ, 0 ≤ M ∧ ∀ s ∈ Set.Icc a b, ∀ t ∈ Set.Icc a b, |f t - f s| ≤ M * |t - s| := by
  obtain ⟨K, hK⟩ := (hf.locallyLipschitzOn (s := Set.Icc a b)).exists_lipschitzOnWith_of_compact isCompact_Icc
  refine ⟨K, K.2, fun s hs t ht => ?_⟩
  have := hK.dist_le_mul t ht s hs
  simpa [Real.dist_eq] using this

/-- two functions joined at `a` -/
noncomputable def piece (a : ℝ) (f g : ℝ → ℝ) (t : ℝ) : ℝ := if t ≤ a then f t else g t

theorem piece_lip {f g : ℝ → ℝ} (a : ℝ) (hf : LocallyLipschitz f) (hg : LocallyLipschitz g) (h0 : f a = g a) : LocallyLipschitz (piece a f g) := by
  have e : piece a f g = fun t => f (min t a) + (g (max t a) + -f a) := by
    funext t
    unfold piece
    split_ifs with h
    · rw [min_eq_left h, max_eq_right h, h0]; ring
    · rw [min_eq_right (not_le.mp h).le, max_eq_left (not_le.mp h).le]; ring
  rw [e]
  have hi : LocallyLipschitz (fun t : ℝ => t) := LocallyLipschitz.id
  exact lip_add (hf.comp (hi.min_const a)) (lip_add (hg.comp (hi.max_const a)) (LocallyLipschitz.const _))

theorem piece_deriv {f g f' g' : ℝ → ℝ} (a : ℝ) (hf : ∀ t, HasDerivAt f (f' t) t) (hg : ∀ t, HasDerivAt g (g' t) t) (h0 : f a = g a) (h1 : f' a = g' a)
    (t : ℝ) : HasDerivAt (piece a f g) (piece a f' g' t) t := by
  rcases lt_trichotomy t a with h | h | h
  · rw [show piece a f' g' t = f' t by unfold piece; rw [if_pos h.le]]
    refine (hf t).congr_of_eventuallyEq ?_
    filter_upwards [Iio_mem_nhds h] with s hs
    unfold piece
    rw [if_pos (le_of_lt hs)]
  · subst h
    rw [show piece t f' g' t = f' t by unfold piece; rw [if_pos le_rfl]]
    have a1 : HasDerivWithinAt (piece t f g) (f' t) (Set.Iic t) t := by
      refine (hf t).hasDerivWithinAt.congr (fun s hs => ?_) ?_
      · unfold piece; rw [if_pos (Set.mem_Iic.mp hs)]
      · unfold piece; rw [if_pos le_rfl]
    have a2 : HasDerivWithinAt (piece t f g) (f' t) (Set.Ici t) t := by
      rw [h1]
      refine (hg t).hasDerivWithinAt.congr (fun s hs => ?_) ?_
      · unfold piece
        split_ifs with h
        · rw [le_antisymm h hs, h0]
        · rfl
      · unfold piece; rw [if_pos le_rfl, h0]
    have := a1.union a2
    rw [Set.Iic_union_Ici] at this
    exact this.hasDerivAt Filter.univ_mem
  · rw [show piece a f' g' t = g' t by unfold piece; rw [if_neg (not_le.mpr h)]]
    refine (hg t).congr_of_eventuallyEq ?_
    filter_upwards [Ioi_mem_nhds h] with s hs
    unfold piece
    rw [if_neg (not_le.mpr hs)]

end LipDiff

theorem Smooth.of_contDiff {f : ℝ → Vec} (hx : ContDiff ℝ 3 (fun s => (f s).x)) (hy : ContDiff ℝ 3 (fun s => (f s).y)) (hz : ContDiff ℝ 3 (fun s => (f s).z)) :
    Smooth f :=
  ⟨LipDiff.of_contDiff (n := 2) (by exact_mod_cast hx), LipDiff.of_contDiff (n := 2) (by exact_mod_cast hy), LipDiff.of_contDiff (n := 2) (by exact_mod_cast hz)⟩

end Teufel
