import Verif.Spec.Kirchhoff
import Verif.Lemmas.Vec
import Verif.Lemmas.Observers
import Verif.Props.FieldTrace
import Mathlib.Analysis.SpecialFunctions.Sqrt
import Mathlib.Analysis.Calculus.Deriv.Add
import Mathlib.Analysis.Calculus.Deriv.Pow
import Mathlib.Analysis.Calculus.Deriv.Inv

/-! Helper lemmas on source screens. -/

namespace Teufel

open Vec

theorem normalizeE_ok {v u : Vec} (h : normalizeE v = .ok u) : v ≠ 0 ∧ u = v.normalize := by
  unfold normalizeE at h
  split_ifs at h with hv
  exact ⟨hv, by cases h; rfl⟩

theorem normalizeE_of_ne {v : Vec} (h : v ≠ 0) : normalizeE v = .ok v.normalize := by
  unfold normalizeE; rw [if_neg h]

/-- distance along a line -/
theorem hasDerivAt_dist (X P n : Vec) (h : X ≠ P) :
    HasDerivAt (fun s : ℝ => (X - (P + n * s)).norm) (-dot (X - P) n / (X - P).norm) 0 := by
  have hp : X - P ≠ 0 := fun e => h (sub_eq_zero.mp e)
  have hq : (X - P).abs2nd ≠ 0 := fun e => hp (abs2nd_eq_zero.mp e)
  have hn : (X - P).norm ≠ 0 := (norm_pos hp).ne'
  have h1 : ∀ s : ℝ, (X - (P + n * s)).abs2nd = (X - P).abs2nd - 2 * dot (X - P) n * s + n.abs2nd * s ^ 2 := by
    intro s; simp [abs2nd, dot]; ring
  have h2 : HasDerivAt (fun s : ℝ => (X - P).abs2nd - 2 * dot (X - P) n * s + n.abs2nd * s ^ 2) (-(2 * dot (X - P) n)) 0 := by
    have ha : HasDerivAt (fun s : ℝ => 2 * dot (X - P) n * s) (2 * dot (X - P) n * 1) 0 := (hasDerivAt_id' (0 : ℝ)).const_mul _
    have hb : HasDerivAt (fun s : ℝ => n.abs2nd * s ^ 2) (n.abs2nd * ((2 : ℕ) * 0 ^ (2 - 1))) 0 := (hasDerivAt_pow 2 (0 : ℝ)).const_mul _
    have hc : HasDerivAt (fun s : ℝ => (X - P).abs2nd - 2 * dot (X - P) n * s) (-(2 * dot (X - P) n * 1)) 0 := ha.const_sub _
    have hd : HasDerivAt (fun s : ℝ => (X - P).abs2nd - 2 * dot (X - P) n * s + n.abs2nd * s ^ 2)
      (-(2 * dot (X - P) n * 1) + n.abs2nd * ((2 : ℕ) * 0 ^ (2 - 1))) 0 := hc.add hb
    exact hd.congr_deriv (by simp)
  have h3 : (fun s : ℝ => (X - (P + n * s)).norm) = fun s : ℝ => Real.sqrt ((X - P).abs2nd - 2 * dot (X - P) n * s + n.abs2nd * s ^ 2) := by
    funext s; rw [norm_def, h1 s]
  rw [h3]
  have h4 := h2.sqrt (by simpa using hq)
  convert h4 using 1
  have h5 : Real.sqrt ((X - P).abs2nd - 2 * dot (X - P) n * 0 + n.abs2nd * 0 ^ 2) = (X - P).norm := by
    rw [norm_def]; congr 1; ring
  rw [h5]; field_simp

theorem dirDeriv_dist (X P n : Vec) (h : X ≠ P) : dirDeriv (fun Q => (X - Q).norm) P n = -dot (X - P) n / (X - P).norm :=
  (hasDerivAt_dist X P n h).deriv

theorem dirDeriv_inv_dist (X P n : Vec) (h : X ≠ P) : dirDeriv (fun Q => 1 / (X - Q).norm) P n = dot (X - P) n / ((X - P).norm * (X - P).norm * (X - P).norm) := by
  have hp : X - P ≠ 0 := fun e => h (sub_eq_zero.mp e)
  have hn : (X - P).norm ≠ 0 := (norm_pos hp).ne'
  have h0 : P + n * (0 : ℝ) = P := by ext <;> simp
  have h1 := (hasDerivAt_dist X P n h).inv (by rw [h0]; exact hn)
  have h2 : (fun s : ℝ => 1 / (X - (P + n * s)).norm) = (fun s : ℝ => (X - (P + n * s)).norm)⁻¹ := by
    funext s; simp
  unfold dirDeriv
  rw [h2, h1.deriv, h0]
  field_simp

/-- Kirchhoff's integrand in coordinates -/
theorem kirchhoff_eq (X P n : Vec) (F Ft Fn : EMField) (h : X ≠ P) :
    kirchhoff X P n F Ft Fn = Fn * (1 / (X - P).norm) + F * (-dot (X - P) n / ((X - P).norm * (X - P).norm * (X - P).norm))
      + Ft * (-dot (X - P) n / ((X - P).norm * (X - P).norm * SpeedOfLight)) := by
  have hp : X - P ≠ 0 := fun e => h (sub_eq_zero.mp e)
  have hn : (X - P).norm ≠ 0 := (norm_pos hp).ne'
  have hc := SpeedOfLight_ne
  unfold kirchhoff
  rw [dirDeriv_dist X P n h, dirDeriv_inv_dist X P n h]
  ext <;> simp <;> field_simp <;> ring

/-- linear maps of fields -/
structure LinField (L : EMField → EMField) : Prop where
  add : ∀ a b, L (a + b) = L a + L b
  sub : ∀ a b, L (a - b) = L a - L b
  mul : ∀ a (k : ℝ), L (a * k) = L a * k
  div : ∀ a (k : ℝ), L (a / k) = L a / k
  zero : L 0 = 0

namespace FieldTrace

/-- apply a map to all samples -/
def mapF (L : EMField → EMField) (s : FieldTrace) : FieldTrace := { s with trace := s.trace.map L }

theorem sample_map {L : EMField → EMField} (hL : LinField L) (s : FieldTrace) (i : Int) : (s.mapF L).sampleOrZero i = L (s.sampleOrZero i) := by
  unfold sampleOrZero mapF
  dsimp only
  split_ifs
  · rw [List.getElem?_map]
    cases s.trace[i.toNat]? <;> simp [hL.zero]
  · exact hL.zero.symm

theorem fieldAtTime_map {L : EMField → EMField} (hL : LinField L) (s : FieldTrace) (t : ℝ) : (s.mapF L).fieldAtTime t = L (s.fieldAtTime t) := by
  unfold fieldAtTime
  dsimp only
  rw [sample_map hL, sample_map hL, hL.add, hL.mul, hL.mul]
  rfl

theorem derivative_map {L : EMField → EMField} (hL : LinField L) (s d : FieldTrace) (h : s.derivative = .ok d) : (s.mapF L).derivative = .ok (d.mapF L) := by
  unfold derivative at h ⊢
  have hlen : (s.mapF L).trace.length = s.trace.length := by simp [mapF]
  have hN : (s.mapF L).N = s.N := rfl
  rw [hlen, hN]
  split_ifs at h with hc
  rw [if_neg hc]
  have hd := Except.ok.inj h
  subst hd
  have hget : ∀ i : Nat, ((s.mapF L).trace[i]?).getD 0 = L ((s.trace[i]?).getD 0) := by
    intro i
    unfold mapF
    rw [List.getElem?_map]
    cases s.trace[i]? <;> simp [hL.zero]
  congr 1
  unfold mapF at hget ⊢
  simp only [List.map_map, Except.ok.injEq, FieldTrace.mk.injEq, true_and]
  apply List.map_congr_left
  intro i _
  simp only [Function.comp]
  rw [hget, hget, hget, hget, hget, hget]
  split_ifs <;> rw [hL.div, hL.sub]

theorem derivative_err_map {L : EMField → EMField} (s : FieldTrace) (e : Err) (h : s.derivative = .error e) : (s.mapF L).derivative = .error e := by
  unfold derivative at h ⊢
  have hlen : (s.mapF L).trace.length = s.trace.length := by simp [mapF]
  have hN : (s.mapF L).N = s.N := rfl
  rw [hlen, hN]
  split_ifs at h ⊢
  exact h

end FieldTrace

theorem transformField_lin (ex ey ez : Vec) : LinField (FieldTrace.transformField ex ey ez) := by
  constructor <;> intros <;> unfold FieldTrace.transformField <;> ext <;> simp [dot] <;> ring

/-- the grid computed by the constructor -/
theorem coax_ok {n0 dX0 dY0 : Vec} {a : ScreenAxes} (h : ScreenAxes.coax n0 dX0 dY0 = .ok a) :
    n0 ≠ 0 ∧ dX0 - a.normal * dot dX0 a.normal ≠ 0 ∧
    (dY0 - a.normal * dot dY0 a.normal) - a.dX * dot (dY0 - a.normal * dot dY0 a.normal) a.dX ≠ 0 ∧
    a.normal = n0.normalize ∧ a.dx = dX0.norm ∧ a.ex = (dX0 - a.normal * dot dX0 a.normal).normalize ∧ a.dX = a.ex * a.dx ∧
    a.dy = dY0.norm ∧
    a.ey = ((dY0 - a.normal * dot dY0 a.normal) - a.dX * dot (dY0 - a.normal * dot dY0 a.normal) a.dX).normalize ∧
    a.dY = a.ey * a.dy := by
  unfold ScreenAxes.coax at h
  cases h1 : normalizeE n0 with
  | error e => simp [h1, bind, Except.bind] at h
  | ok n =>
    cases h2 : normalizeE (dX0 - n * dot dX0 n) with
    | error e => simp [h1, h2, bind, Except.bind] at h
    | ok ex =>
      cases h3 : normalizeE ((dY0 - n * dot dY0 n) - (ex * dX0.norm) * dot (dY0 - n * dot dY0 n) (ex * dX0.norm)) with
      | error e => simp [h1, h2, h3, bind, Except.bind] at h
      | ok ey =>
        simp only [h1, h2, h3, bind, Except.bind, pure, Except.pure] at h
        have := Except.ok.inj h
        subst this
        obtain ⟨a1, a2⟩ := normalizeE_ok h1
        obtain ⟨b1, b2⟩ := normalizeE_ok h2
        obtain ⟨c1, c2⟩ := normalizeE_ok h3
        exact ⟨a1, b1, c1, a2, rfl, b2, rfl, rfl, c2, rfl⟩

theorem coax_of_ne {n0 dX0 dY0 : Vec} (h1 : n0 ≠ 0) (h2 : dX0 - n0.normalize * dot dX0 n0.normalize ≠ 0)
    (h3 : (dY0 - n0.normalize * dot dY0 n0.normalize) - ((dX0 - n0.normalize * dot dX0 n0.normalize).normalize * dX0.norm) *
      dot (dY0 - n0.normalize * dot dY0 n0.normalize) ((dX0 - n0.normalize * dot dX0 n0.normalize).normalize * dX0.norm) ≠ 0) :
    ∃ a, ScreenAxes.coax n0 dX0 dY0 = .ok a := by
  unfold ScreenAxes.coax
  simp only [normalizeE_of_ne h1, normalizeE_of_ne h2, normalizeE_of_ne h3, bind, Except.bind, pure, Except.pure]
  exact ⟨_, rfl⟩

theorem normalize_dot (v w : Vec) : dot v.normalize w = dot v w / v.norm := by rw [normalize_eq, dot_div_left]

/-- orthogonality relations that hold for every grid -/
theorem coax_perp {n0 dX0 dY0 : Vec} {a : ScreenAxes} (h : ScreenAxes.coax n0 dX0 dY0 = .ok a) :
    a.normal.abs2nd = 1 ∧ a.ex.abs2nd = 1 ∧ a.ey.abs2nd = 1 ∧ dot a.ex a.normal = 0 ∧ dot a.ey a.normal = 0 := by
  obtain ⟨h1, h2, h3, hn, hdx, hex, hdX, hdy, hey, hdY⟩ := coax_ok h
  have hn1 : a.normal.abs2nd = 1 := by rw [hn]; exact normalize_abs2nd h1
  have hex1 : dot a.ex a.normal = 0 := by
    have hz : dot (dX0 - a.normal * dot dX0 a.normal) a.normal = 0 := by rw [dot_sub_left, dot_mul_left, dot_self, hn1]; ring
    rw [hex, normalize_dot, hz, zero_div]
  refine ⟨hn1, ?_, ?_, hex1, ?_⟩
  · rw [hex]; exact normalize_abs2nd h2
  · rw [hey]; exact normalize_abs2nd h3
  · have hz : dot (dY0 - a.normal * dot dY0 a.normal) a.normal = 0 := by rw [dot_sub_left, dot_mul_left, dot_self, hn1]; ring
    have hw : dot a.dX a.normal = 0 := by rw [hdX, dot_mul_left, hex1, zero_mul]
    rw [hey, normalize_dot, dot_sub_left, dot_mul_left, hz, hw]; simp

end Teufel
