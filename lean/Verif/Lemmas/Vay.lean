import Verif.Model.Particle
import Verif.Lemmas.Vec

/-! Helper lemmas about the Vay pusher -/

namespace Teufel
open Vec
namespace Particle

theorem sqrt_quad {s d : ℝ} (hd : 0 ≤ d) (hs : 0 < s ∨ 0 < d) :
    0 < 0.5 * (s + Real.sqrt (s * s + 4.0 * d)) ∧
    (0.5 * (s + Real.sqrt (s * s + 4.0 * d))) ^ 2 = s * (0.5 * (s + Real.sqrt (s * s + 4.0 * d))) + d := by
  have h0 : 0 ≤ s * s + 4.0 * d := by nlinarith [mul_self_nonneg s]
  have hr := Real.sq_sqrt h0
  have hrn := Real.sqrt_nonneg (s * s + 4.0 * d)
  set r := Real.sqrt (s * s + 4.0 * d) with hrdef
  constructor
  · rcases hs with hs | hs
    · nlinarith
    · have : |s| < r := by
        rw [hrdef]
        apply Real.lt_sqrt_of_sq_lt
        rw [sq_abs]; nlinarith
      have := neg_abs_le s
      nlinarith
  · nlinarith

section
variable (q : ℝ) (P E B : Vec)

theorem vayGamma_facts :
    let p' := P + E / SpeedOfLight * q
    let tau := B * q
    0 < vayGamma q P E B ∧
    (vayGamma q P E B) ^ 4 = (p'.abs2nd + 1 - tau.abs2nd) * (vayGamma q P E B) ^ 2
        + (tau.abs2nd + (dot p' tau) ^ 2) := by
  intro p' tau
  have hd : 0 ≤ tau.abs2nd + (dot p' tau) * (dot p' tau) := by
    have := abs2nd_nonneg tau; nlinarith [mul_self_nonneg (dot p' tau)]
  have hs : 0 < p'.abs2nd + 1.0 - tau.abs2nd ∨ 0 < tau.abs2nd + (dot p' tau) * (dot p' tau) := by
    by_cases h : 0 < tau.abs2nd
    · right; nlinarith [mul_self_nonneg (dot p' tau)]
    · left
      have := abs2nd_nonneg tau
      have := abs2nd_nonneg p'
      have h1 : (1.0 : ℝ) = 1 := by norm_num
      rw [h1]; linarith
  obtain ⟨h1, h2⟩ := sqrt_quad hd hs
  have e : vayGamma q P E B = Real.sqrt (0.5 * ((p'.abs2nd + 1.0 - tau.abs2nd) +
     Real.sqrt ((p'.abs2nd + 1.0 - tau.abs2nd) * (p'.abs2nd + 1.0 - tau.abs2nd) + 4.0 * (tau.abs2nd + (dot p' tau) * (dot p' tau))))) := rfl
  have hsq : (vayGamma q P E B) ^ 2 = 0.5 * ((p'.abs2nd + 1.0 - tau.abs2nd) +
     Real.sqrt ((p'.abs2nd + 1.0 - tau.abs2nd) * (p'.abs2nd + 1.0 - tau.abs2nd) + 4.0 * (tau.abs2nd + (dot p' tau) * (dot p' tau)))) := by
    rw [e, Real.sq_sqrt h1.le]
  refine ⟨by rw [e]; exact Real.sqrt_pos.mpr h1, ?_⟩
  rw [← hsq] at h2
  have : (vayGamma q P E B) ^ 4 = ((vayGamma q P E B) ^ 2) ^ 2 := by ring
  rw [this, h2]
  have h1 : (1.0 : ℝ) = 1 := by norm_num
  rw [h1]; ring

theorem vayGamma_pos : 0 < vayGamma q P E B := (vayGamma_facts q P E B).1

theorem rot_abs2nd (p t : Vec) :
    (p + t * dot p t + cross p t).abs2nd = (p.abs2nd + (dot p t) ^ 2) * (1 + t.abs2nd) := by
  simp only [abs2nd, dot, cross, add_x, add_y, add_z, mul_x, mul_y, mul_z]; ring

/-- mass shell at the end of the second half step -/
theorem vay_shell : (vayGamma q P E B) ^ 2 = 1 + (vayMomentum q P E B).abs2nd := by
  obtain ⟨hg, h4⟩ := vayGamma_facts q P E B
  have e : vayMomentum q P E B =
    ((P + E / SpeedOfLight * q) + (B * q / vayGamma q P E B) * dot (P + E / SpeedOfLight * q) (B * q / vayGamma q P E B)
      + cross (P + E / SpeedOfLight * q) (B * q / vayGamma q P E B)) / (1 + (B * q / vayGamma q P E B).abs2nd) := rfl
  set g := vayGamma q P E B with hgdef
  set p' := P + E / SpeedOfLight * q with hp'
  set tau := B * q with htau
  rw [e, abs2nd_div, rot_abs2nd, abs2nd_div, dot_div_right]
  have ht := abs2nd_nonneg tau
  have hp := abs2nd_nonneg p'
  have hg2 : 0 < g ^ 2 := by positivity
  have hden : 0 < 1 + tau.abs2nd / g ^ 2 := by positivity
  rw [eq_comm, ← sub_eq_zero]
  field_simp
  nlinarith [h4]

/-- uniqueness of the positive root of the quartic -/
theorem quartic_unique {g h s d : ℝ} (hg : 0 < g) (hh : 0 < h) (hd : 0 ≤ d)
    (eg : g ^ 4 = s * g ^ 2 + d) (eh : h ^ 4 = s * h ^ 2 + d) : g = h := by
  have hf : (g ^ 2 - h ^ 2) * (g ^ 2 * h ^ 2 + d) = 0 := by
    have : (g ^ 2 - h ^ 2) * (g ^ 2 * h ^ 2 + d) = h ^ 2 * (g ^ 4 - (s * g ^ 2 + d)) - g ^ 2 * (h ^ 4 - (s * h ^ 2 + d)) := by ring
    rw [this, eg, eh]; ring
  have hpos : 0 < g ^ 2 * h ^ 2 + d := by positivity
  rcases mul_eq_zero.mp hf with h1 | h1
  · have : (g - h) * (g + h) = 0 := by nlinarith
    rcases mul_eq_zero.mp this with h2 | h2
    · linarith
    · linarith
  · linarith

/-- algebra behind both magnetic no-work and the drift: the centre momentum `p ± (p/g)×tau` -/
theorem quartic_rot {g : ℝ} {p tau : Vec} (hg : 0 < g) (hs : g ^ 2 = 1 + p.abs2nd) (w : Vec)
    (hw : w.abs2nd = p.abs2nd + (cross p tau).abs2nd / g ^ 2) (hu : dot w tau = dot p tau) :
    g ^ 4 = (w.abs2nd + 1 - tau.abs2nd) * g ^ 2 + (tau.abs2nd + (dot w tau) ^ 2) := by
  rw [hw, hu, lagrange]
  have hg2 : g ^ 2 ≠ 0 := by positivity
  have e : g ^ 4 = (1 + p.abs2nd) * g ^ 2 := by rw [← hs]; ring
  rw [e]
  field_simp
  have : p.abs2nd = g ^ 2 - 1 := by linarith
  rw [this]; ring

theorem magnetic_gamma {g : ℝ} {p : Vec} (hg : 0 < g) (hs : g ^ 2 = 1 + p.abs2nd) :
    vayGamma q (p + ((0 : Vec) / SpeedOfLight + cross (p / g) B) * q) 0 B = g := by
  obtain ⟨h0, h4⟩ := vayGamma_facts q (p + ((0 : Vec) / SpeedOfLight + cross (p / g) B) * q) 0 B
  set w : Vec := p + ((0 : Vec) / SpeedOfLight + cross (p / g) B) * q + (0 : Vec) / SpeedOfLight * q with hwdef
  have hw0 : w = p + cross p (B * q) / g := by
    rw [hwdef]; ext <;> simp [cross] <;> field_simp
  have hwa : w.abs2nd = p.abs2nd + (cross p (B * q)).abs2nd / g ^ 2 := by
    rw [hw0, abs2nd_add, abs2nd_div, dot_div_right, dot_cross_left]; ring
  have hwu : dot w (B * q) = dot p (B * q) := by
    rw [hw0, dot_add_left, dot_div_left, dot_comm (cross _ _), dot_cross_right]; ring
  have hq := quartic_rot hg hs w hwa hwu
  refine quartic_unique h0 hg ?_ h4 hq
  have := abs2nd_nonneg (B * q)
  positivity

/-- a momentum that feels no Lorentz force is not changed by the second half step -/
theorem drift_step {g : ℝ} {p : Vec} (hg : 0 < g) (hs : g ^ 2 = 1 + p.abs2nd)
    (hF : E / SpeedOfLight + cross (p / g) B = 0) :
    vayGamma q p E B = g ∧ vayMomentum q p E B = p := by
  have hE : E / SpeedOfLight = -cross (p / g) B := eq_neg_of_add_eq_zero_left hF
  obtain ⟨h0, h4⟩ := vayGamma_facts q p E B
  have hw0 : p + E / SpeedOfLight * q = p - cross p (B * q) / g := by
    rw [hE]; ext <;> simp [cross] <;> field_simp <;> ring
  have hG : vayGamma q p E B = g := by
    rw [hw0] at h4
    have hwa : (p - cross p (B * q) / g).abs2nd = p.abs2nd + (cross p (B * q)).abs2nd / g ^ 2 := by
      rw [sub_eq_add_neg, abs2nd_add, abs2nd_neg, abs2nd_div, dot_neg_right, dot_div_right, dot_cross_left]; ring
    have hwu : dot (p - cross p (B * q) / g) (B * q) = dot p (B * q) := by
      rw [dot_sub_left, dot_div_left, dot_comm (cross _ _), dot_cross_right]; ring
    have hq := quartic_rot hg hs _ hwa hwu
    refine quartic_unique h0 hg ?_ h4 hq
    have := abs2nd_nonneg (B * q)
    positivity
  refine ⟨hG, ?_⟩
  have e : vayMomentum q p E B =
    ((p + E / SpeedOfLight * q) + (B * q / vayGamma q p E B) * dot (p + E / SpeedOfLight * q) (B * q / vayGamma q p E B)
      + cross (p + E / SpeedOfLight * q) (B * q / vayGamma q p E B)) / (1 + (B * q / vayGamma q p E B).abs2nd) := rfl
  rw [e, hG, hw0]
  set t := B * q / g with ht
  have hct : cross p (B * q) / g = cross p t := by
    rw [ht]; ext <;> simp [cross] <;> ring
  rw [hct]
  have hnum : p - cross p t + t * dot (p - cross p t) t + cross (p - cross p t) t = p * (1 + t.abs2nd) := by
    ext <;> simp [cross, dot, abs2nd] <;> ring
  rw [hnum]
  have hpos : 0 < 1 + t.abs2nd := by have := abs2nd_nonneg t; linarith
  ext <;> simp <;> field_simp

end

/-- shape of a successful step -/
theorem StepVay_ok {p p' : Particle} {f : FieldFn} (h : p.StepVay f = .ok p') :
    ∃ EB, f (p.tCur + p.dt) (p.XCur + p.VYp / p.VYgamma * SpeedOfLight * p.dt) = .ok EB ∧
      p' = (({ p with
        tCur := p.tCur + p.dt
        XCur := p.XCur + p.VYp / p.VYgamma * SpeedOfLight * p.dt
        ECur := EB.E, BCur := EB.B
        PCur := p.VYp + (EB.E / SpeedOfLight + cross (p.VYp / p.VYgamma) EB.B) * p.qmt2
        ACur := vayAccel p.qm (p.VYp + (EB.E / SpeedOfLight + cross (p.VYp / p.VYgamma) EB.B) * p.qmt2) EB.E EB.B
        VYgamma := vayGamma p.qmt2 (p.VYp + (EB.E / SpeedOfLight + cross (p.VYp / p.VYgamma) EB.B) * p.qmt2) EB.E EB.B
        VYp := vayMomentum p.qmt2 (p.VYp + (EB.E / SpeedOfLight + cross (p.VYp / p.VYgamma) EB.B) * p.qmt2) EB.E EB.B }
          : Particle).storeTrajectoryPoint
        (p.tCur + p.dt) (p.XCur + p.VYp / p.VYgamma * SpeedOfLight * p.dt)
        (p.VYp + (EB.E / SpeedOfLight + cross (p.VYp / p.VYgamma) EB.B) * p.qmt2)
        (vayAccel p.qm (p.VYp + (EB.E / SpeedOfLight + cross (p.VYp / p.VYgamma) EB.B) * p.qmt2) EB.E EB.B)) := by
  simp only [StepVay] at h
  cases hf : f (p.tCur + p.dt) (p.XCur + p.VYp / p.VYgamma * SpeedOfLight * p.dt) with
  | error e => rw [hf] at h; simp at h
  | ok EB =>
    rw [hf] at h; simp only at h
    injection h with h
    exact ⟨EB, rfl, h.symm⟩

/-- shape of a successful initialisation -/
theorem InitVay_ok {p p' : Particle} {dt : ℝ} {f : FieldFn} (h : p.InitVay dt f = .ok p') :
    1 ≤ p.NP ∧ p.Mass ≠ 0 ∧ ∃ t x pm EB, p.Time.getLast? = some t ∧ p.X.getLast? = some x ∧ p.P.getLast? = some pm ∧
      p.A ≠ [] ∧ f t x = .ok EB ∧
      p' = { p with
        dt := dt, qm := p.Charge / p.Mass * InvRestMass
        qmt2 := p.Charge / p.Mass * InvRestMass * 0.5 * dt
        tCur := t, XCur := x, PCur := pm
        ECur := EB.E, BCur := EB.B
        VYgamma := vayGamma (p.Charge / p.Mass * InvRestMass * 0.5 * dt) pm EB.E EB.B
        VYp := vayMomentum (p.Charge / p.Mass * InvRestMass * 0.5 * dt) pm EB.E EB.B
        ACur := vayAccel (p.Charge / p.Mass * InvRestMass) pm EB.E EB.B
        A := p.A.dropLast ++ [vayAccel (p.Charge / p.Mass * InvRestMass) pm EB.E EB.B] } := by
  simp only [InitVay] at h
  by_cases hn : p.NP < 1
  · rw [if_pos hn] at h; simp at h
  rw [if_neg hn] at h
  by_cases hm : p.Mass = 0
  · rw [if_pos hm] at h; simp at h
  rw [if_neg hm] at h
  refine ⟨by omega, hm, ?_⟩
  cases hT : p.Time.getLast? with
  | none => simp only [hT] at h; simp at h
  | some t =>
    cases hX : p.X.getLast? with
    | none => simp only [hT, hX] at h; simp at h
    | some x =>
      cases hP : p.P.getLast? with
      | none => simp only [hT, hX, hP] at h; simp at h
      | some pm =>
        simp only [hT, hX, hP] at h
        cases hf : f t x with
        | error e => rw [hf] at h; simp at h
        | ok EB =>
          rw [hf] at h; simp only at h
          by_cases hA : p.A = []
          · rw [if_pos hA] at h; simp at h
          · rw [if_neg hA] at h
            injection h with h
            exact ⟨t, x, pm, EB, rfl, rfl, rfl, hA, hf, h.symm⟩

theorem steps_nil (p : Particle) : p.steps [] = .ok p := rfl

theorem steps_cons_ok {p p' : Particle} {f : FieldFn} {fs : List FieldFn} (h : p.steps (f :: fs) = .ok p') :
    ∃ q, p.StepVay f = .ok q ∧ q.steps fs = .ok p' := by
  simp only [steps, List.foldlM_cons] at h
  cases hq : p.StepVay f with
  | error e => rw [hq] at h; simp [bind, Except.bind] at h
  | ok q => rw [hq] at h; exact ⟨q, rfl, h⟩

/-- the tracker carries a momentum on the mass shell -/
def OnShell (p : Particle) : Prop := 0 < p.VYgamma ∧ p.VYgamma ^ 2 = 1 + p.VYp.abs2nd

theorem onShell_init {p p' : Particle} {dt : ℝ} {f : FieldFn} (h : p.InitVay dt f = .ok p') : p'.OnShell := by
  obtain ⟨_, _, t, x, pm, EB, _, _, _, _, _, rfl⟩ := InitVay_ok h
  exact ⟨vayGamma_pos _ _ _ _, vay_shell _ _ _ _⟩

theorem onShell_step {p p' : Particle} {f : FieldFn} (h : p.StepVay f = .ok p') : p'.OnShell := by
  obtain ⟨EB, _, rfl⟩ := StepVay_ok h
  exact ⟨vayGamma_pos _ _ _ _, vay_shell _ _ _ _⟩

theorem onShell_steps {p p' : Particle} {fs : List FieldFn} (h0 : p.OnShell) (h : p.steps fs = .ok p') : p'.OnShell := by
  induction fs generalizing p with
  | nil => rw [steps_nil] at h; injection h with h; rw [← h]; exact h0
  | cons f fs ih =>
    obtain ⟨q, h1, h2⟩ := steps_cons_ok h
    exact ih (onShell_step h1) h2

end Particle
end Teufel
