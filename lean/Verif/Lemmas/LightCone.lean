import Verif.Lemmas.Retarded
import Verif.Lemmas.Vec
import Mathlib.Tactic.NormNum

/-! Helper lemmas for the search of the retarded source point -/

namespace Teufel
open Vec
namespace Particle

/-! ### the straight line continued to the past -/

theorem extrapolate_cone (X0 P0 obs : Vec) (t : ℝ) (hb : dot (P0 / Real.sqrt (P0.abs2nd + 1)) (P0 / Real.sqrt (P0.abs2nd + 1)) < 1)
    (ht : t - Vec.norm (obs - X0) / SpeedOfLight ≤ 0) :
    (extrapolate X0 P0 t obs).T ≤ 0 ∧
    (extrapolate X0 P0 t obs).T + Vec.norm (obs - (extrapolate X0 P0 t obs).X) / SpeedOfLight = t := by
  have hc := SpeedOfLight_pos
  set beta : Vec := P0 / Real.sqrt (P0.abs2nd + 1) with hbeta
  set Rc : Vec := (obs - X0) / SpeedOfLight with hRc
  set bR := dot beta Rc with hbR
  set bb := dot beta beta with hbb
  set RR := dot Rc Rc with hRR
  set disc := (t - bR) * (t - bR) - (1 - bb) * (t * t - RR) with hdisc
  have hT : (extrapolate X0 P0 t obs).T = (t - bR - Real.sqrt disc) / (1 - bb) := rfl
  have hX : (extrapolate X0 P0 t obs).X = X0 + beta * SpeedOfLight * (extrapolate X0 P0 t obs).T := rfl
  set T := (extrapolate X0 P0 t obs).T with hTdef
  have hk : 0 < 1 - bb := by linarith
  have hbb0 : 0 ≤ bb := abs2nd_nonneg beta
  have hRR0 : 0 ≤ RR := abs2nd_nonneg Rc
  -- w = Rc - beta t
  have hw : (Rc - beta * t).abs2nd = RR - 2 * t * bR + bb * t * t := by
    simp only [hRR, hbR, hbb, abs2nd, dot, sub_x, sub_y, sub_z, mul_x, mul_y, mul_z]; ring
  have hbw : dot beta (Rc - beta * t) = bR - bb * t := by
    simp only [hbR, hbb, dot, sub_x, sub_y, sub_z, mul_x, mul_y, mul_z]; ring
  have hcs := dot_sq_le beta Rc
  have hcs2 : bR ^ 2 ≤ bb * RR := hcs
  have hd2 : disc = (1 - bb) * (Rc - beta * t).abs2nd + (bR - bb * t) ^ 2 := by
    rw [hw, hdisc]; ring
  have hw0 := abs2nd_nonneg (Rc - beta * t)
  have hd0 : 0 ≤ disc := by rw [hd2]; positivity
  have hs0 := Real.sqrt_nonneg disc
  have hss := Real.sq_sqrt hd0
  set S := Real.sqrt disc with hS
  have hTk : T * (1 - bb) = t - bR - S := by rw [hT]; field_simp
  have hSge : |bR - bb * t| ≤ S := by
    rw [← Real.sqrt_sq_eq_abs]; apply Real.sqrt_le_sqrt; rw [hd2]
    have : 0 ≤ (1 - bb) * (Rc - beta * t).abs2nd := by positivity
    linarith
  have h1 : 0 ≤ t - T := by
    have : (t - T) * (1 - bb) = S + (bR - bb * t) := by linear_combination (-1) * hTk
    have h2 := neg_abs_le (bR - bb * t)
    have : 0 ≤ (t - T) * (1 - bb) := by rw [this]; linarith
    exact nonneg_of_mul_nonneg_left this hk
  have hnR : Vec.norm (obs - X0) / SpeedOfLight = Real.sqrt RR := by
    rw [show RR = Rc.abs2nd from rfl, hRc, abs2nd_div, Real.sqrt_div (abs2nd_nonneg _), Real.sqrt_sq hc.le]; rfl
  rw [hnR] at ht
  have h2 : T ≤ 0 := by
    rcases lt_or_ge t 0 with hneg | hpos
    · linarith
    · have : t * t ≤ RR := by
        have := mul_self_le_mul_self hpos (show t ≤ Real.sqrt RR by linarith)
        rwa [Real.mul_self_sqrt hRR0] at this
      have : |t - bR| ≤ S := by
        rw [← Real.sqrt_sq_eq_abs]; apply Real.sqrt_le_sqrt; rw [hdisc]
        have : 0 ≤ (1 - bb) * (RR - t * t) := mul_nonneg hk.le (by linarith)
        linarith [this]
      have h3 := le_abs_self (t - bR)
      have h4 : T * (1 - bb) ≤ 0 := by rw [hTk]; linarith
      by_contra hcon
      exact absurd (mul_pos (not_le.mp hcon) hk) (not_lt.mpr h4)
  refine ⟨h2, ?_⟩
  have hquad : (t - T) ^ 2 = (Rc - beta * T).abs2nd := by
    have e : (Rc - beta * T).abs2nd = RR - 2 * T * bR + bb * T * T := by
      simp only [hRR, hbR, hbb, abs2nd, dot, sub_x, sub_y, sub_z, mul_x, mul_y, mul_z]; ring
    rw [e]
    -- (1-bb) T^2 - 2 (t-bR) T + (t^2-RR) = 0
    have hS2 : (t - bR - T * (1 - bb)) ^ 2 = disc := by rw [hTk]; rw [← hss]; ring
    have : (1 - bb) * ((t - T) ^ 2 - (RR - 2 * T * bR + bb * T * T)) = 0 := by
      rw [hdisc] at hS2; linear_combination hS2
    rcases mul_eq_zero.mp this with h | h
    · linarith
    · linarith
  have hn : Vec.norm (obs - (extrapolate X0 P0 t obs).X) / SpeedOfLight = t - T := by
    rw [hX]
    have e : obs - (X0 + beta * SpeedOfLight * T) = (Rc - beta * T) * SpeedOfLight := by
      rw [hRc]; ext <;> simp <;> field_simp <;> ring
    rw [e, Vec.norm_def, abs2nd_mul, Real.sqrt_mul (abs2nd_nonneg _), Real.sqrt_sq hc.le, ← hquad, Real.sqrt_sq h1]
    field_simp
  rw [hn]; ring

/-! ### the secant iteration -/

/-- while the loop runs: any function with secant slopes in `[m, L]` -/
theorem secant_global (g : ℝ → ℝ) (m L : ℝ) (hm : 0 < m)
    (hg : ∀ a b, a < b → m * (b - a) ≤ g b - g a ∧ g b - g a ≤ L * (b - a)) :
    ∀ (n : Nat) (frac s : ℝ), m ≤ s → s ≤ L →
      ∃ f d left s', secant g n frac (g frac) (g frac / s) = .ok (f, d, left) ∧ m ≤ s' ∧ s' ≤ L ∧ d = g f / s' ∧
        (left ≠ 0 → |d| ≤ 1e-5) := by
  intro n
  induction n with
  | zero => intro frac s h1 h2; exact ⟨_, _, _, s, rfl, h1, h2, rfl, by simp⟩
  | succ n ih =>
    intro frac s h1 h2
    rw [secant]
    by_cases hd : |g frac / s| > 1e-5
    · rw [if_pos hd]
      simp only
      set dfrac := g frac / s with hdf
      have hne : dfrac ≠ 0 := by intro h; rw [h] at hd; norm_num at hd
      have hslope : m ≤ -(g (frac - dfrac) - g frac) / dfrac ∧ -(g (frac - dfrac) - g frac) / dfrac ≤ L := by
        rcases lt_or_gt_of_ne hne with hneg | hpos
        · have := hg frac (frac - dfrac) (by linarith)
          rw [show -(g (frac - dfrac) - g frac) / dfrac = (g (frac - dfrac) - g frac) / (-dfrac) by rw [div_neg, neg_div]]
          rw [le_div_iff₀ (by linarith), div_le_iff₀ (by linarith)]
          constructor <;> nlinarith
        · have := hg (frac - dfrac) frac (by linarith)
          rw [le_div_iff₀ hpos, div_le_iff₀ hpos]
          constructor <;> nlinarith
      rw [if_neg (by linarith [hslope.1])]
      exact ih _ _ hslope.1 hslope.2
    · rw [if_neg hd]
      exact ⟨_, _, _, s, rfl, h1, h2, rfl, fun _ => not_lt.mp hd⟩

/-- the step after the loop: the residual mismatch -/
theorem secant_residual (g : ℝ → ℝ) (m L : ℝ) (hm : 0 < m) (f d s : ℝ)
    (hg : ∀ a b, (a = f ∧ b = f - d ∨ a = f - d ∧ b = f) → a < b → m * (b - a) ≤ g b - g a ∧ g b - g a ≤ L * (b - a))
    (h1 : m ≤ s) (h2 : s ≤ L) (hd : d = g f / s) : |g (f - d)| ≤ (L - m) * |d| := by
  have hgf : g f = s * d := by
    have : s ≠ 0 := by linarith
    rw [hd]; field_simp
  rcases lt_trichotomy d 0 with hneg | h0 | hpos
  · have := hg f (f - d) (Or.inl ⟨rfl, rfl⟩) (by linarith)
    rw [abs_of_neg hneg, abs_le]
    constructor <;> nlinarith
  · rw [h0] at hgf ⊢; simp [hgf]
  · have := hg (f - d) f (Or.inr ⟨rfl, rfl⟩) (by linarith)
    rw [abs_of_pos hpos, abs_le]
    constructor <;> nlinarith

/-- convergence if the slope hardly changes in the neighbourhood of the step -/
theorem secant_contract (g : ℝ → ℝ) (m L : ℝ) (hm : 0 < m) (hL : L - m ≤ 3 / 10 * m)
    (hg : ∀ a b, -1 ≤ a → b ≤ 2 → a < b → m * (b - a) ≤ g b - g a ∧ g b - g a ≤ L * (b - a)) :
    ∀ (n : Nat) (frac s η : ℝ), m ≤ s → s ≤ L → |g frac / s| ≤ η → -1 + 2 * η ≤ frac → frac ≤ 2 - 2 * η →
      ∃ f d left s', secant g n frac (g frac) (g frac / s) = .ok (f, d, left) ∧ m ≤ s' ∧ s' ≤ L ∧ d = g f / s' ∧
        -1 + |d| ≤ f ∧ f ≤ 2 - |d| ∧ (|d| ≤ 1e-5 ∨ |d| ≤ η * (3 / 10) ^ n) := by
  intro n
  induction n with
  | zero =>
    intro frac s η h1 h2 h3 h4 h5
    have := abs_nonneg (g frac / s)
    exact ⟨_, _, _, s, rfl, h1, h2, rfl, by linarith, by linarith, Or.inr (by simpa using h3)⟩
  | succ n ih =>
    intro frac s η h1 h2 h3 h4 h5
    rw [secant]
    have hη : 0 ≤ η := le_trans (abs_nonneg _) h3
    by_cases hd : |g frac / s| > 1e-5
    · rw [if_pos hd]
      simp only
      have hres := secant_residual g m L hm frac (g frac / s) s (fun a b hab hlt => by
        have := neg_abs_le (g frac / s); have := le_abs_self (g frac / s)
        rcases hab with ⟨rfl, rfl⟩ | ⟨rfl, rfl⟩ <;> exact hg _ _ (by linarith) (by linarith) hlt) h1 h2 rfl
      set dfrac := g frac / s with hdf
      have hne : dfrac ≠ 0 := by intro h; rw [h] at hd; norm_num at hd
      have hle := abs_le.mp h3
      have hslope : m ≤ -(g (frac - dfrac) - g frac) / dfrac ∧ -(g (frac - dfrac) - g frac) / dfrac ≤ L := by
        rcases lt_or_gt_of_ne hne with hneg | hpos
        · have := hg frac (frac - dfrac) (by linarith) (by linarith) (by linarith)
          rw [show -(g (frac - dfrac) - g frac) / dfrac = (g (frac - dfrac) - g frac) / (-dfrac) by rw [div_neg, neg_div]]
          rw [le_div_iff₀ (by linarith), div_le_iff₀ (by linarith)]
          constructor <;> nlinarith
        · have := hg (frac - dfrac) frac (by linarith) (by linarith) (by linarith)
          rw [le_div_iff₀ hpos, div_le_iff₀ hpos]
          constructor <;> nlinarith
      rw [if_neg (by linarith [hslope.1])]
      have hspos : 0 < -(g (frac - dfrac) - g frac) / dfrac := by linarith [hslope.1]
      have hnew : |g (frac - dfrac) / (-(g (frac - dfrac) - g frac) / dfrac)| ≤ η * (3 / 10) := by
        rw [abs_div, abs_of_pos hspos, div_le_iff₀ hspos]
        have a1 : |g (frac - dfrac)| ≤ (3 / 10 * m) * η := by
          refine hres.trans ?_
          have := abs_nonneg dfrac
          have hLm : 0 ≤ L - m := by linarith
          calc (L - m) * |dfrac| ≤ (L - m) * η := by nlinarith
            _ ≤ 3 / 10 * m * η := by nlinarith
        nlinarith [hslope.1, mul_nonneg hη (sub_nonneg.mpr hslope.1)]
      obtain ⟨f, d, left, s', e1, e2, e3, e4, e5, e6, e7⟩ := ih _ _ _ hslope.1 hslope.2 hnew (by linarith) (by linarith)
      refine ⟨f, d, left, s', e1, e2, e3, e4, e5, e6, ?_⟩
      rcases e7 with h | h
      · exact Or.inl h
      · right; rw [pow_succ]; linarith [h, show η * (3 / 10) * (3 / 10 : ℝ) ^ n = η * ((3 / 10) ^ n * (3 / 10)) by ring]
    · rw [if_neg hd]
      have hd' := not_lt.mp hd
      have := abs_nonneg (g frac / s)
      exact ⟨_, _, _, s, rfl, h1, h2, rfl, by linarith, by linarith, Or.inl hd'⟩

/-! ### slopes of the light-cone mismatch -/

theorem mismatch_diff (t1 t2 : ℝ) (X1 X2 : Vec) (t : ℝ) (obs : Vec) (a b : ℝ) :
    mismatch t1 t2 X1 X2 t obs b - mismatch t1 t2 X1 X2 t obs a
      = (t2 - t1) * (b - a) + (Vec.norm (obs - (X1 * (1 - b) + X2 * b)) - Vec.norm (obs - (X1 * (1 - a) + X2 * a))) / SpeedOfLight := by
  simp only [mismatch]; ring

theorem line_point (X1 X2 obs : Vec) (a : ℝ) : obs - (X1 * (1 - a) + X2 * a) = (obs - X1) - (X2 - X1) * a := by
  ext <;> simp <;> ring

theorem norm_line_lipschitz (r d : Vec) (a b : ℝ) (h : a < b) :
    |Vec.norm (r - d * b) - Vec.norm (r - d * a)| ≤ Vec.norm d * (b - a) := by
  have e1 : Vec.norm (r - d * b) ≤ Vec.norm (r - d * a) + Vec.norm d * (b - a) := by
    have : r - d * b = (r - d * a) + (d * (-(b - a))) := by ext <;> simp <;> ring
    rw [this]
    refine (Vec.norm_add_le _ _).trans ?_
    rw [Vec.norm_mul, abs_neg, abs_of_pos (by linarith)]
  have e2 : Vec.norm (r - d * a) ≤ Vec.norm (r - d * b) + Vec.norm d * (b - a) := by
    have : r - d * a = (r - d * b) + (d * (b - a)) := by ext <;> simp <;> ring
    rw [this]
    refine (Vec.norm_add_le _ _).trans ?_
    rw [Vec.norm_mul, abs_of_pos (by linarith)]
  rw [abs_le]; constructor <;> linarith

theorem mismatch_slope (t1 t2 : ℝ) (X1 X2 : Vec) (t : ℝ) (obs : Vec) (a b : ℝ) (h : a < b) :
    ((t2 - t1) - Vec.norm (X2 - X1) / SpeedOfLight) * (b - a)
      ≤ mismatch t1 t2 X1 X2 t obs b - mismatch t1 t2 X1 X2 t obs a ∧
    mismatch t1 t2 X1 X2 t obs b - mismatch t1 t2 X1 X2 t obs a
      ≤ ((t2 - t1) + Vec.norm (X2 - X1) / SpeedOfLight) * (b - a) := by
  have hc := SpeedOfLight_pos
  rw [mismatch_diff, line_point, line_point]
  have := abs_le.mp (norm_line_lipschitz (obs - X1) (X2 - X1) a b h)
  have e : Vec.norm (X2 - X1) / SpeedOfLight * (b - a) = Vec.norm (X2 - X1) * (b - a) / SpeedOfLight := by ring
  constructor
  · have : -(Vec.norm (X2 - X1) * (b - a)) / SpeedOfLight ≤ (Vec.norm (obs - X1 - (X2 - X1) * b) - Vec.norm (obs - X1 - (X2 - X1) * a)) / SpeedOfLight := by
      apply div_le_div_of_nonneg_right _ hc.le; linarith
    rw [neg_div, ← e] at this; linarith
  · have : (Vec.norm (obs - X1 - (X2 - X1) * b) - Vec.norm (obs - X1 - (X2 - X1) * a)) / SpeedOfLight ≤ Vec.norm (X2 - X1) * (b - a) / SpeedOfLight := by
      apply div_le_div_of_nonneg_right _ hc.le; linarith
    rw [← e] at this; linarith

/-- far from the observer the distance changes at a nearly constant rate along the step -/
theorem norm_line_far (r d : Vec) (a b : ℝ) (ha : -1 ≤ a) (hb : b ≤ 2) (h : a < b) (hr : 2 * Vec.norm d < Vec.norm r) :
    |(Vec.norm (r - d * b) - Vec.norm (r - d * a)) - (-(dot d r / Vec.norm r)) * (b - a)|
      ≤ 4 * Vec.norm d ^ 2 / (Vec.norm r - 2 * Vec.norm d) * (b - a) := by
  have hd := Vec.norm_nonneg d
  have hrp : 0 < Vec.norm r := by linarith
  set u := r - d * a with hu
  set v := r - d * b with hv
  set S := Vec.norm u + Vec.norm v with hS
  have bnd : ∀ k : ℝ, |k| ≤ 2 → |Vec.norm (r - d * k) - Vec.norm r| ≤ 2 * Vec.norm d := by
    intro k hk
    have e1 : Vec.norm (r - d * k) ≤ Vec.norm r + Vec.norm d * |k| := by
      have : r - d * k = r + d * (-k) := by ext <;> simp <;> ring
      rw [this]; refine (Vec.norm_add_le _ _).trans ?_; rw [Vec.norm_mul, abs_neg]
    have e2 : Vec.norm r ≤ Vec.norm (r - d * k) + Vec.norm d * |k| := by
      have : r = (r - d * k) + d * k := by ext <;> simp
      calc Vec.norm r = Vec.norm ((r - d * k) + d * k) := by rw [← this]
        _ ≤ _ := by refine (Vec.norm_add_le _ _).trans ?_; rw [Vec.norm_mul]
    have : Vec.norm d * |k| ≤ 2 * Vec.norm d := by nlinarith
    rw [abs_le]; constructor <;> linarith
  have hak : |a| ≤ 2 := abs_le.mpr ⟨by linarith, by linarith⟩
  have hbk : |b| ≤ 2 := abs_le.mpr ⟨by linarith, by linarith⟩
  have bu := abs_le.mp (bnd a hak)
  have bv := abs_le.mp (bnd b hbk)
  have hSpos : 0 < S := by linarith [bu.1, bv.1]
  have hSlow : 2 * (Vec.norm r - 2 * Vec.norm d) ≤ S := by linarith [bu.1, bv.1]
  -- difference of squares
  have hsq : (Vec.norm v - Vec.norm u) * S = -(dot d (u + v)) * (b - a) := by
    have h1 := Vec.norm_mul_self u
    have h2 := Vec.norm_mul_self v
    have : Vec.norm v * Vec.norm v - Vec.norm u * Vec.norm u = -(dot d (u + v)) * (b - a) := by
      rw [h1, h2, hu, hv]
      simp only [abs2nd, dot, sub_x, sub_y, sub_z, add_x, add_y, add_z, mul_x, mul_y, mul_z]; ring
    rw [← this, hS]; ring
  have hS2 : |S - 2 * Vec.norm r| ≤ 4 * Vec.norm d := by
    rw [abs_le]; constructor <;> linarith [bu.1, bu.2, bv.1, bv.2]
  have hw : Vec.norm ((u + v) - r * (2 : ℝ)) ≤ 4 * Vec.norm d := by
    have : (u + v) - r * (2 : ℝ) = d * (-(a + b)) := by rw [hu, hv]; ext <;> simp <;> ring
    rw [this, Vec.norm_mul, abs_neg]
    have : |a + b| ≤ 4 := abs_le.mpr ⟨by linarith, by linarith⟩
    nlinarith
  -- the deviation times S
  have key : |(-(dot d (u + v)) + dot d r / Vec.norm r * S)| ≤ 8 * Vec.norm d ^ 2 := by
    have e : -(dot d (u + v)) + dot d r / Vec.norm r * S
        = -(dot d ((u + v) - r * (2 : ℝ))) + dot d r / Vec.norm r * (S - 2 * Vec.norm r) := by
      have : dot d ((u + v) - r * (2 : ℝ)) = dot d (u + v) - 2 * dot d r := by
        simp only [dot, sub_x, sub_y, sub_z, add_x, add_y, add_z, mul_x, mul_y, mul_z]; ring
      rw [this]; field_simp; ring
    rw [e]
    refine (abs_add_le _ _).trans ?_
    rw [abs_neg]
    have h1 := abs_dot_le d ((u + v) - r * (2 : ℝ))
    have h2 := abs_dot_le d r
    have h3 : |dot d r / Vec.norm r| ≤ Vec.norm d := by
      rw [abs_div, abs_of_pos hrp, div_le_iff₀ hrp]; exact h2
    rw [abs_mul]
    have h4 : Vec.norm d * Vec.norm ((u + v) - r * (2 : ℝ)) ≤ Vec.norm d * (4 * Vec.norm d) :=
      mul_le_mul_of_nonneg_left hw hd
    have h5 : |dot d r / Vec.norm r| * |S - 2 * Vec.norm r| ≤ Vec.norm d * (4 * Vec.norm d) :=
      mul_le_mul h3 hS2 (abs_nonneg _) hd
    nlinarith
  have hfin : ((Vec.norm v - Vec.norm u) - (-(dot d r / Vec.norm r)) * (b - a)) * S
      = (-(dot d (u + v)) + dot d r / Vec.norm r * S) * (b - a) := by
    have : ((Vec.norm v - Vec.norm u) - (-(dot d r / Vec.norm r)) * (b - a)) * S
      = (Vec.norm v - Vec.norm u) * S + dot d r / Vec.norm r * (b - a) * S := by ring
    rw [this, hsq]; ring
  have habs : |(Vec.norm v - Vec.norm u) - (-(dot d r / Vec.norm r)) * (b - a)| * S ≤ 8 * Vec.norm d ^ 2 * (b - a) := by
    have := congrArg abs hfin
    rw [abs_mul, abs_mul, abs_of_pos hSpos, abs_of_pos (by linarith : 0 < b - a)] at this
    rw [this]; exact mul_le_mul_of_nonneg_right key (by linarith)
  have hden : 0 < Vec.norm r - 2 * Vec.norm d := by linarith
  rw [div_mul_eq_mul_div, le_div_iff₀ hden]
  have hA := abs_nonneg ((Vec.norm v - Vec.norm u) - (-(dot d r / Vec.norm r)) * (b - a))
  nlinarith

/-- the complete search: chord, secant loop and final step, for slopes that hardly change -/
theorem secant_main (g : ℝ → ℝ) (m L s f0 : ℝ) (hm : 0 < m) (hmL : m ≤ L) (hL : L - m ≤ 3 / 10 * m)
    (hsl : ∀ a b, -1 ≤ a → b ≤ 2 → a < b → m * (b - a) ≤ g b - g a ∧ g b - g a ≤ L * (b - a))
    (hs : s = g 1 - g 0) (hf : f0 * s = -g 0) (h0 : 0 < f0) (h1 : f0 ≤ 1) (f dd : ℝ) (left : Nat)
    (e1 : secant g 9 f0 (g f0) (g f0 / s) = .ok (f, dd, left)) : |g (f - dd)| ≤ (L - m) * 1e-5 := by
  have hsm := hsl 0 1 (by norm_num) (by norm_num) (by norm_num)
  rw [← hs, sub_zero, mul_one, mul_one] at hsm
  have hspos : 0 < s := by linarith [hsm.1]
  have hini : |g f0 / s| ≤ 3 / 10 := by
    rw [abs_div, abs_of_pos hspos, div_le_iff₀ hspos]
    have h := hsl 0 f0 (by norm_num) (by linarith) h0
    rw [sub_zero] at h
    have hg0 : g 0 = -(f0 * s) := by linarith
    rw [hg0] at h
    have k1 : 0 ≤ f0 * (s - m) := mul_nonneg h0.le (by linarith [hsm.1])
    have k2 : 0 ≤ f0 * (L - s) := mul_nonneg h0.le (by linarith [hsm.2])
    have hb : |g f0| ≤ (L - m) * f0 := by
      rw [abs_le]
      constructor
      · linarith [h.1]
      · linarith [h.2]
    have k3 : 0 ≤ (L - m) * (1 - f0) := mul_nonneg (by linarith) (by linarith)
    linarith [hsm.1]
  obtain ⟨f', dd', left', s'', k1, k2, k3, k4, k5, k6, k7⟩ :=
    secant_contract g m L hm hL hsl 9 f0 s (3 / 10) hsm.1 hsm.2 hini (by linarith) (by linarith)
  rw [e1] at k1
  injection k1 with k1
  injection k1 with k1 k1'
  injection k1' with k1' _
  subst k1; subst k1'
  have hdd : |dd| ≤ 1e-5 := by
    rcases k7 with h | h
    · exact h
    · refine h.trans ?_; norm_num
  refine (secant_residual g m L hm f dd s'' (fun a b hab hlt => by
    have := neg_abs_le dd; have := le_abs_self dd; have := abs_nonneg dd
    rcases hab with ⟨rfl, rfl⟩ | ⟨rfl, rfl⟩ <;> exact hsl _ _ (by linarith) (by linarith) hlt) k2 k3 k4).trans ?_
  exact mul_le_mul_of_nonneg_left hdd (by linarith)

/-- slopes of the mismatch for an observer far away -/
theorem mismatch_slope_far (t1 t2 : ℝ) (X1 X2 : Vec) (t : ℝ) (obs : Vec) (a b : ℝ) (ha : -1 ≤ a) (hb : b ≤ 2) (hab : a < b)
    (hr : 2 * Vec.norm (X2 - X1) < Vec.norm (obs - X1)) (s0 e : ℝ)
    (hs0 : s0 = (t2 - t1) - dot (X2 - X1) (obs - X1) / Vec.norm (obs - X1) / SpeedOfLight)
    (he : e = 4 * Vec.norm (X2 - X1) ^ 2 / (Vec.norm (obs - X1) - 2 * Vec.norm (X2 - X1)) / SpeedOfLight) :
    (s0 - e) * (b - a) ≤ mismatch t1 t2 X1 X2 t obs b - mismatch t1 t2 X1 X2 t obs a ∧
    mismatch t1 t2 X1 X2 t obs b - mismatch t1 t2 X1 X2 t obs a ≤ (s0 + e) * (b - a) := by
  have hc := SpeedOfLight_pos
  have hk := abs_le.mp (norm_line_far (obs - X1) (X2 - X1) a b ha hb hab hr)
  rw [mismatch_diff, line_point, line_point]
  set E := 4 * Vec.norm (X2 - X1) ^ 2 / (Vec.norm (obs - X1) - 2 * Vec.norm (X2 - X1)) with hE
  set N := Vec.norm (obs - X1 - (X2 - X1) * b) - Vec.norm (obs - X1 - (X2 - X1) * a) with hN
  set q := dot (X2 - X1) (obs - X1) / Vec.norm (obs - X1) with hq
  have e1 : (s0 - e) * (b - a) = (t2 - t1) * (b - a) + (-q * (b - a) - E * (b - a)) / SpeedOfLight := by
    rw [hs0, he]; ring
  have e2 : (s0 + e) * (b - a) = (t2 - t1) * (b - a) + (-q * (b - a) + E * (b - a)) / SpeedOfLight := by
    rw [hs0, he]; ring
  rw [e1, e2]
  constructor
  · have : (-q * (b - a) - E * (b - a)) / SpeedOfLight ≤ N / SpeedOfLight := by
      apply div_le_div_of_nonneg_right _ hc.le; linarith [hk.1]
    linarith
  · have : N / SpeedOfLight ≤ (-q * (b - a) + E * (b - a)) / SpeedOfLight := by
      apply div_le_div_of_nonneg_right _ hc.le; linarith [hk.2]
    linarith

theorem secant_step (g : ℝ → ℝ) (n : Nat) (f dt df f' dt' s df' : ℝ) (h1 : |df| > 1e-5) (hf : f - df = f')
    (hg : g f' = dt') (hs : -(dt' - dt) / df = s) (hs0 : s ≠ 0) (hd : dt' / s = df') :
    secant g (n + 1) f dt df = secant g n f' dt' df' := by
  rw [secant, if_pos h1]
  simp only
  rw [hf, hg, hs, if_neg hs0, hd]

end Particle
end Teufel
