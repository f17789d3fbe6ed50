import Verif.Model.Rounded
import Verif.Lemmas.Rounding

/-!
# C89: rounding errors do not separate the clocks of particles and interactions

The clocks are sums of time steps, and every addition is rounded.  The interaction compares its clock with the
product of step number and time step.
-/

namespace Teufel
namespace Rounded
variable {rnd : ℝ → ℝ} {u : ℝ}

/-- the clock after `n` additions of the time step, starting at `t` -/
noncomputable def clock (rnd : ℝ → ℝ) (dt t : ℝ) : Nat → ℝ
  | 0 => t
  | n + 1 => tick rnd dt (clock rnd dt t n)

/-- **C89 (clock error).** After `n` steps a clock started at `t` differs from `t + n dt` by no more than `2 n u (|t| + n dt)`,
`u` being the unit roundoff of the arithmetic (2^-53 for `double`). -/
theorem C89_clock_error (h : IsRounding rnd u) {dt : ℝ} (hdt : 0 ≤ dt) (t : ℝ) (n : Nat) (hn : 2 * (n : ℝ) * u ≤ 1) :
    |clock rnd dt t n - (t + (n : ℝ) * dt)| ≤ 2 * (n : ℝ) * u * (|t| + (n : ℝ) * dt) := by
  have hu := h.u_nonneg
  induction n with
  | zero => simp [clock]
  | succ n ih =>
    have ih := ih (by push_cast at hn; nlinarith)
    have e := h.err (clock rnd dt t n + dt)
    have hS : (0 : ℝ) ≤ |t| + (n : ℝ) * dt := by positivity
    have hb : |clock rnd dt t n + dt| ≤ (|t| + ((n : ℝ) + 1) * dt) + 2 * (n : ℝ) * u * (|t| + (n : ℝ) * dt) := by
      have : clock rnd dt t n + dt = (clock rnd dt t n - (t + (n : ℝ) * dt)) + (t + ((n : ℝ) + 1) * dt) := by ring
      rw [this]
      have a1 := abs_add_le (clock rnd dt t n - (t + (n : ℝ) * dt)) (t + ((n : ℝ) + 1) * dt)
      have a2 := abs_add_le t (((n : ℝ) + 1) * dt)
      have a3 : |((n : ℝ) + 1) * dt| = ((n : ℝ) + 1) * dt := abs_of_nonneg (by positivity)
      linarith
    have e2 : |clock rnd dt t (n + 1) - (t + (((n + 1 : Nat)) : ℝ) * dt)| ≤
        u * |clock rnd dt t n + dt| + |clock rnd dt t n - (t + (n : ℝ) * dt)| := by
      have : clock rnd dt t (n + 1) - (t + (((n + 1 : Nat)) : ℝ) * dt) =
          (rnd (clock rnd dt t n + dt) - (clock rnd dt t n + dt)) + (clock rnd dt t n - (t + (n : ℝ) * dt)) := by
        simp only [clock, tick]; push_cast; ring
      rw [this]
      exact le_trans (abs_add_le _ _) (by linarith)
    refine le_trans e2 ?_
    push_cast at hn ⊢
    have h1 : u * |clock rnd dt t n + dt| ≤ u * ((|t| + ((n : ℝ) + 1) * dt) + 2 * (n : ℝ) * u * (|t| + (n : ℝ) * dt)) := by gcongr
    have h2 : 2 * (n : ℝ) * u * (|t| + (n : ℝ) * dt) ≤ 2 * (n : ℝ) * u * (|t| + ((n : ℝ) + 1) * dt) := by
      gcongr; linarith
    have h3 : 2 * (n : ℝ) * u * (|t| + (n : ℝ) * dt) ≤ 1 * (|t| + ((n : ℝ) + 1) * dt) := by
      apply mul_le_mul _ _ hS (by norm_num)
      · nlinarith
      · linarith
    have h4 := mul_le_mul_of_nonneg_left h3 hu
    nlinarith

/-- a clock started at zero: the sharper bound used below -/
theorem clock_zero_error (h : IsRounding rnd u) {dt : ℝ} (hdt : 0 ≤ dt) (n : Nat) (hn : (n : ℝ) * u ≤ 1) :
    |clock rnd dt 0 n - (n : ℝ) * dt| ≤ u * (n : ℝ) ^ 2 * dt := by
  have hu := h.u_nonneg
  induction n with
  | zero => simp [clock]
  | succ n ih =>
    have ih := ih (by push_cast at hn; nlinarith)
    have e := h.err (clock rnd dt 0 n + dt)
    have hb : |clock rnd dt 0 n + dt| ≤ ((n : ℝ) + 1) * dt + u * (n : ℝ) ^ 2 * dt := by
      have : clock rnd dt 0 n + dt = (clock rnd dt 0 n - (n : ℝ) * dt) + ((n : ℝ) + 1) * dt := by ring
      rw [this]
      have a1 := abs_add_le (clock rnd dt 0 n - (n : ℝ) * dt) (((n : ℝ) + 1) * dt)
      have a3 : |((n : ℝ) + 1) * dt| = ((n : ℝ) + 1) * dt := abs_of_nonneg (by positivity)
      linarith
    have e2 : |clock rnd dt 0 (n + 1) - (((n + 1 : Nat)) : ℝ) * dt| ≤
        u * |clock rnd dt 0 n + dt| + |clock rnd dt 0 n - (n : ℝ) * dt| := by
      have : clock rnd dt 0 (n + 1) - (((n + 1 : Nat)) : ℝ) * dt =
          (rnd (clock rnd dt 0 n + dt) - (clock rnd dt 0 n + dt)) + (clock rnd dt 0 n - (n : ℝ) * dt) := by
        simp only [clock, tick]; push_cast; ring
      rw [this]
      exact le_trans (abs_add_le _ _) (by linarith)
    refine le_trans e2 ?_
    push_cast at hn ⊢
    have h1 : u * |clock rnd dt 0 n + dt| ≤ u * (((n : ℝ) + 1) * dt + u * (n : ℝ) ^ 2 * dt) := by gcongr
    have hn0 : (0 : ℝ) ≤ n := Nat.cast_nonneg n
    have h5 : u * (n : ℝ) ^ 2 ≤ n := by nlinarith
    have h6 : u * (u * (n : ℝ) ^ 2 * dt) ≤ u * (n * dt) := by gcongr
    nlinarith

/-- the two clocks of a run -/
theorem clocks_eq (h : IsRounding rnd u) {dt : ℝ} (n : Nat) {s : ℝ × ℝ} (hs : clocks rnd dt n = .ok s) :
    s = (clock rnd dt 0 n, clock rnd dt 0 (n + 1)) := by
  induction n generalizing s with
  | zero => simp only [clocks, List.range_zero, List.foldlM_nil, pure, Except.pure, Except.ok.injEq] at hs; rw [← hs]; rfl
  | succ n ih =>
    unfold clocks at hs ih
    rw [List.range_succ, List.foldlM_append] at hs
    cases hc : (List.range n).foldlM (clockStep rnd dt) (0, tick rnd dt 0) with
    | error e => rw [hc] at hs; cases hs
    | ok s' =>
      rw [hc] at hs
      have := ih hc
      subst this
      simp only [bind, Except.bind, List.foldlM_cons, List.foldlM_nil, clockStep, pure, Except.pure] at hs
      split at hs
      · cases hs
      · rename_i hx
        cases hs
        split at hx
        · cases hx
        · split at hx
          · cases hx
          · split at hx
            · cases hx
            · cases hx; rfl

/-- the tests of one step, given equal clocks -/
theorem sameTime_self (h : IsRounding rnd u) {dt : ℝ} (hdt : 0 ≤ dt) (t : ℝ) : sameTime rnd dt t t = .ok () := by
  unfold sameTime
  rw [if_neg]
  rw [sub_self, h.zero, abs_zero]
  exact not_lt.mpr (h.nonneg (by positivity))

theorem sameStep_clock (h : IsRounding rnd u) {dt : ℝ} (hdt : 0 ≤ dt) (n : Nat) (hn : (n : ℝ) ^ 2 * u ≤ 1 / 8) :
    sameStep rnd dt n (clock rnd dt 0 n) = .ok () := by
  have hu := h.u_nonneg
  have hn1 : (n : ℝ) * u ≤ 1 / 8 := by
    rcases Nat.eq_zero_or_pos n with h0 | h0
    · rw [h0]; norm_num
    · have : (1 : ℝ) ≤ n := by exact_mod_cast h0
      nlinarith
  unfold sameStep
  rw [if_neg]
  have e1 := clock_zero_error h hdt n (by linarith)
  have e2 := h.err ((n : ℝ) * dt)
  have e3 : |(n : ℝ) * dt| = n * dt := abs_of_nonneg (by positivity)
  rw [e3] at e2
  have e4 : |rnd ((n : ℝ) * dt) - clock rnd dt 0 n| ≤ 0.25 * dt := by
    have : rnd ((n : ℝ) * dt) - clock rnd dt 0 n = (rnd ((n : ℝ) * dt) - (n : ℝ) * dt) - (clock rnd dt 0 n - (n : ℝ) * dt) := by ring
    have := abs_sub (rnd ((n : ℝ) * dt) - (n : ℝ) * dt) (clock rnd dt 0 n - (n : ℝ) * dt)
    have a : u * ((n : ℝ) * dt) ≤ 1 / 8 * dt := by nlinarith
    have b : u * (n : ℝ) ^ 2 * dt ≤ 1 / 8 * dt := by nlinarith
    rw [‹rnd ((n : ℝ) * dt) - clock rnd dt 0 n = _›]
    norm_num at *
    linarith
  rw [h.abs_rnd]
  exact not_lt.mpr (h.mono e4)

/-- **C89 (partial).** In arithmetic with unit roundoff `u`, a run of `n` steps with `n² u ≤ 1/8` is never ended by a time
mismatch between the beam and an interaction, for any time step: the clocks of particles and field remain identical, and
differ from the step number times the time step by less than the tolerance of a quarter step. -/
theorem C89_no_mismatch_partial (h : IsRounding rnd u) {dt : ℝ} (hdt : 0 ≤ dt) (n : Nat) (hn : (n : ℝ) ^ 2 * u ≤ 1 / 8) :
    ∃ t time, clocks rnd dt n = .ok (t, time) ∧ time = tick rnd dt t ∧ |t - (n : ℝ) * dt| ≤ dt / 8 := by
  have hu := h.u_nonneg
  have main : ∀ m : Nat, m ≤ n → clocks rnd dt m = .ok (clock rnd dt 0 m, clock rnd dt 0 (m + 1)) := by
    intro m
    induction m with
    | zero => intro _; rfl
    | succ m ih =>
      intro hm
      have ih := ih (by omega)
      unfold clocks at ih ⊢
      rw [List.range_succ, List.foldlM_append, ih]
      simp only [bind, Except.bind, List.foldlM_cons, List.foldlM_nil, clockStep, pure, Except.pure]
      have e : tick rnd dt (clock rnd dt 0 m) = clock rnd dt 0 (m + 1) := rfl
      rw [e, sameTime_self h hdt, sameStep_clock h hdt (m + 1)]
      · rfl
      · have : ((m + 1 : Nat) : ℝ) ≤ n := by exact_mod_cast hm
        have h0 : (0 : ℝ) ≤ ((m + 1 : Nat) : ℝ) := Nat.cast_nonneg _
        have : ((m + 1 : Nat) : ℝ) ^ 2 ≤ (n : ℝ) ^ 2 := by gcongr
        nlinarith
  refine ⟨_, _, main n le_rfl, rfl, ?_⟩
  have hn1 : (n : ℝ) * u ≤ 1 / 8 := by
    rcases Nat.eq_zero_or_pos n with h0 | h0
    · rw [h0]; norm_num
    · have : (1 : ℝ) ≤ n := by exact_mod_cast h0
      nlinarith
  have := clock_zero_error h hdt n (by linarith)
  nlinarith

/-- **C89 (double precision).** Runs of up to 2^25 steps are never ended by a time mismatch. -/
theorem C89_double {dt : ℝ} (hdt : 0 ≤ dt) (n : Nat) (hn : n ≤ 2 ^ 25) : ∃ t time, clocks binary64 dt n = .ok (t, time) := by
  have h0 : (n : ℝ) ≤ 2 ^ 25 := by exact_mod_cast hn
  obtain ⟨t, time, h, _⟩ := C89_no_mismatch_partial binary64_isRounding hdt n (by
    have : (n : ℝ) ^ 2 ≤ (2 ^ 25) ^ 2 := by gcongr
    unfold u64
    calc (n : ℝ) ^ 2 * (2 : ℝ) ^ (-53 : Int) ≤ (2 ^ 25) ^ 2 * (2 : ℝ) ^ (-53 : Int) := by gcongr
      _ = 1 / 8 := by norm_num [zpow_neg])
  exact ⟨t, time, h⟩

/-- with exact arithmetic there is no limit -/
example {dt : ℝ} (hdt : 0 ≤ dt) (n : Nat) : ∃ t time, clocks id dt n = .ok (t, time) := by
  obtain ⟨t, time, h, _⟩ := C89_no_mismatch_partial id_isRounding hdt n (by norm_num)
  exact ⟨t, time, h⟩

/-- the hypotheses hold for a run of a million steps of 1e-13 s -/
example : ∃ t time, clocks binary64 1e-13 1000000 = .ok (t, time) := C89_double (by norm_num) _ (by norm_num)

/-- **C89 (agreement is accepted).** Clocks that differ by at most a quarter of the time step pass the test, whatever the
rounding. -/
theorem C89_accepts (h : IsRounding rnd u) (dt t time : ℝ) (hd : |t - time| ≤ dt / 4) : sameTime rnd dt t time = .ok () := by
  unfold sameTime
  rw [if_neg]
  rw [h.abs_rnd]
  exact not_lt.mpr (h.mono (by norm_num; linarith))

/-- **C89 (disagreement is detected).** A step of the program that is accepted has found the clocks of particle and field
in agreement, and both in agreement with the number of the step: the differences are less than a third of the time step (plus the
rounding error of the number of the step times the time step).  A run whose clocks are further apart is
ended with a message. -/
theorem C89_detects (h : IsRounding rnd u) (hu : u ≤ 1 / 8) {dt : ℝ} (hdt : 0 < dt) {s s' : ℝ × ℝ} {step : Nat}
    (hs : clockStep rnd dt s step = .ok s') :
    |tick rnd dt s.1 - s.2| < dt / 3 ∧ |((step + 1 : Nat) : ℝ) * dt - s.2| < dt / 3 + u * (((step + 1 : Nat) : ℝ) * dt) ∧
      s' = (tick rnd dt s.1, tick rnd dt s.2) := by
  have h0 := h.u_nonneg
  have lim : rnd (0.25 * dt) ≤ 9 / 32 * dt := by
    have := h.le_one_add (x := 0.25 * dt) (by positivity)
    norm_num at this ⊢
    nlinarith
  have small : ∀ y : ℝ, |rnd y| ≤ rnd (0.25 * dt) → |y| < dt / 3 := by
    intro y hy
    have b := h.one_sub_le (abs_nonneg y)
    rw [← h.abs_rnd] at b
    have : 7 / 8 * |y| ≤ (1 - u) * |y| := mul_le_mul_of_nonneg_right (by linarith) (abs_nonneg y)
    linarith
  unfold clockStep at hs
  simp only [bind, Except.bind, pure, Except.pure] at hs
  by_cases h1 : rnd (0.25 * dt) < |rnd (tick rnd dt s.1 - s.2)|
  · simp only [sameTime, if_pos h1] at hs
    cases hs
  · by_cases h2 : |rnd (rnd (((step + 1 : Nat) : ℝ) * dt) - s.2)| > rnd (0.25 * dt)
    · simp only [sameTime, sameStep, if_neg h1, if_pos h2] at hs
      cases hs
    · simp only [sameTime, sameStep, if_neg h1, if_neg h2, Except.ok.injEq] at hs
      refine ⟨small _ (not_lt.mp h1), ?_, hs.symm⟩
      have a := small _ (not_lt.mp h2)
      have e := h.err (((step + 1 : Nat) : ℝ) * dt)
      rw [abs_of_nonneg (show (0 : ℝ) ≤ ((step + 1 : Nat) : ℝ) * dt by positivity)] at e
      have := abs_sub_le (((step + 1 : Nat) : ℝ) * dt) (rnd (((step + 1 : Nat) : ℝ) * dt)) s.2
      rw [abs_sub_comm _ (rnd _)] at this
      linarith

/-- clocks one step apart are not accepted -/
example (dt t : ℝ) (hdt : 0 < dt) (step : Nat) : ¬ ∃ s, clockStep id dt (t, t) step = .ok s := by
  rintro ⟨s, hs⟩
  have := (C89_detects id_isRounding (by norm_num) hdt hs).1
  simp only [tick, id_eq, add_sub_cancel_left, abs_of_pos hdt] at this
  linarith

/-! ## Longer runs

The time step `1 + 2^-27` seconds.  The first 2^26 additions are exact.  Then the last digit of the time step is lost in every
addition, because the sum lies half-way between two numbers of 53 digits and the one with the even last digit is the smaller
one. -/

/-- the time step of the counterexample -/
noncomputable def oddStep : ℝ := 1 + 2 ^ (-27 : Int)

theorem clock_exact (n : Nat) (hn : n ≤ 2 ^ 26) : clock binary64 oddStep 0 n = n * oddStep := by
  induction n with
  | zero => simp [clock]
  | succ n ih =>
    simp only [clock, tick, ih (by omega)]
    have e : (n : ℝ) * oddStep + oddStep = ((((n + 1 : Nat) : Int) * (2 ^ 27 + 1) : Int) : ℝ) * 2 ^ (-27 : Int) := by
      unfold oddStep; push_cast; norm_num [zpow_neg]; ring
    have e' : (((n + 1 : Nat)) : ℝ) * oddStep = ((((n + 1 : Nat) : Int) * (2 ^ 27 + 1) : Int) : ℝ) * 2 ^ (-27 : Int) := by
      unfold oddStep; push_cast; norm_num [zpow_neg]; ring
    rw [e, e']
    by_cases hlast : n + 1 = 2 ^ 26
    · -- the last one: an even number of units
      have : ((((n + 1 : Nat) : Int) * (2 ^ 27 + 1) : Int) : ℝ) * 2 ^ (-27 : Int) = (((2 ^ 25 * (2 ^ 27 + 1) : Int)) : ℝ) * 2 ^ (-26 : Int) := by
        rw [hlast]; push_cast; norm_num [zpow_neg]
      rw [this]
      exact binary_exact (by norm_num) _ _ (by norm_num)
    · apply binary_exact (by norm_num)
      have h2 : ((n + 1 : Nat) : Int) ≤ 2 ^ 26 - 1 := by omega
      rw [abs_of_nonneg (by positivity)]
      calc ((n + 1 : Nat) : Int) * (2 ^ 27 + 1) ≤ (2 ^ 26 - 1) * (2 ^ 27 + 1) := by gcongr
        _ ≤ 2 ^ 53 := by norm_num

theorem clock_lossy (j : Nat) (hj : j < 2 ^ 26) : clock binary64 oddStep 0 (2 ^ 26 + j) = 2 ^ 26 + 1 / 2 + j := by
  induction j with
  | zero =>
    rw [Nat.add_zero, clock_exact _ le_rfl]
    unfold oddStep; push_cast; norm_num [zpow_neg]
  | succ j ih =>
    have e : 2 ^ 26 + (j + 1) = (2 ^ 26 + j) + 1 := by ring
    rw [e]
    simp only [clock, tick, ih (by omega)]
    have hj0 : (0 : ℝ) ≤ j := Nat.cast_nonneg j
    have hj1 : (j : ℝ) ≤ 2 ^ 26 - 2 := by
      have : j + 2 ≤ 2 ^ 26 := by omega
      have : ((j + 2 : Nat) : ℝ) ≤ ((2 ^ 26 : Nat) : ℝ) := by exact_mod_cast this
      push_cast at this; linarith
    set x : ℝ := 2 ^ 26 + 1 / 2 + (j : ℝ) + oddStep with hx
    have hxv : x = 2 ^ 26 + 1 / 2 + (j : ℝ) + 1 + 1 / 2 ^ 27 := by
      rw [hx]; unfold oddStep; norm_num [zpow_neg]; ring
    have hpos : 0 < x := by rw [hxv]; positivity
    have hulp : ulp 53 x = 2 ^ (-26 : Int) := by
      apply ulp_of_between
      · rw [abs_of_pos hpos, hxv]; norm_num; linarith
      · rw [abs_of_pos hpos, hxv]; norm_num; linarith
    show binary 53 x = _
    rw [binary_eq hpos.ne', hulp]
    have hq : x / 2 ^ (-26 : Int) = (((2 ^ 52 + 2 ^ 25 + j * 2 ^ 26 + 2 ^ 26 : Int)) : ℝ) + 1 / 2 := by
      rw [hxv]; push_cast; norm_num [zpow_neg]; ring
    rw [hq, nearestEven_tie _ (by omega)]
    push_cast; norm_num [zpow_neg]; ring

/-- **C89 (refutation).** In double precision a long run can end with a time mismatch although nothing is wrong: with a
time step of `1 + 2^-27` s the interaction stops the program after fewer than 2^27 steps. -/
theorem C89_full_statement_false : ¬ ∀ (dt : ℝ) (n : Nat), 0 < dt → binary64 dt = dt → n < 2 ^ 31 → ∃ s, clocks binary64 dt n = .ok s := by
  intro hall
  have hdt : binary64 oddStep = oddStep := by
    have : oddStep = (((2 ^ 27 + 1 : Int)) : ℝ) * 2 ^ (-27 : Int) := by unfold oddStep; push_cast; norm_num [zpow_neg]
    rw [this]; exact binary_exact (by norm_num) _ _ (by norm_num)
  obtain ⟨s, hs⟩ := hall oddStep (2 ^ 26 + (2 ^ 26 - 1)) (by unfold oddStep; positivity) hdt (by norm_num)
  have hn : 2 ^ 26 + (2 ^ 26 - 1) = (2 ^ 26 + (2 ^ 26 - 2)) + 1 := by norm_num
  rw [hn] at hs
  unfold clocks at hs
  rw [List.range_succ, List.foldlM_append] at hs
  cases hc : (List.range (2 ^ 26 + (2 ^ 26 - 2))).foldlM (clockStep binary64 oddStep) (0, tick binary64 oddStep 0) with
  | error e => rw [hc] at hs; cases hs
  | ok s' =>
    rw [hc] at hs
    have hs' := clocks_eq binary64_isRounding _ hc
    subst hs'
    have hT : clock binary64 oddStep 0 (2 ^ 26 + (2 ^ 26 - 2) + 1) = 2 ^ 27 - 1 / 2 := by
      have := clock_lossy (2 ^ 26 - 1) (by norm_num)
      rw [← hn, this]; norm_num
    have hbad : sameStep binary64 oddStep (2 ^ 26 + (2 ^ 26 - 2) + 1) (2 ^ 27 - 1 / 2) = .error .io := by
      unfold sameStep
      rw [if_pos]
      have a : (2 : ℝ) ^ 27 - 1 / 8 ≤ binary64 (((2 ^ 26 + (2 ^ 26 - 2) + 1 : Nat) : ℝ) * oddStep) := by
        have e : binary64 ((2 : ℝ) ^ 27 - 1 / 8) = 2 ^ 27 - 1 / 8 := by
          have : (2 : ℝ) ^ 27 - 1 / 8 = (((2 ^ 30 - 1 : Int)) : ℝ) * 2 ^ (-3 : Int) := by norm_num [zpow_neg]
          rw [this]; exact binary_exact (by norm_num) _ _ (by norm_num)
        rw [← e]
        apply binary64_isRounding.mono
        unfold oddStep; norm_num [zpow_neg]
      have b : (3 / 8 : ℝ) ≤ |binary64 (binary64 (((2 ^ 26 + (2 ^ 26 - 2) + 1 : Nat) : ℝ) * oddStep) - (2 ^ 27 - 1 / 2))| := by
        refine le_trans ?_ (le_abs_self _)
        have e : binary64 (3 / 8 : ℝ) = 3 / 8 := by
          have : (3 / 8 : ℝ) = ((3 : Int) : ℝ) * 2 ^ (-3 : Int) := by norm_num [zpow_neg]
          rw [this]; exact binary_exact (by norm_num) _ _ (by norm_num)
        rw [← e]
        apply binary64_isRounding.mono
        linarith
      have c : binary64 (0.25 * oddStep) ≤ 5 / 16 := by
        have e : binary64 (5 / 16 : ℝ) = 5 / 16 := by
          have : (5 / 16 : ℝ) = ((5 : Int) : ℝ) * 2 ^ (-4 : Int) := by norm_num [zpow_neg]
          rw [this]; exact binary_exact (by norm_num) _ _ (by norm_num)
        rw [← e]
        apply binary64_isRounding.mono
        unfold oddStep; norm_num [zpow_neg]
      linarith
    simp only [bind, Except.bind, List.foldlM_cons, List.foldlM_nil, clockStep, pure, Except.pure] at hs
    rw [hT, hbad] at hs
    split at hs
    · cases hs
    · rename_i hx
      split at hx <;> cases hx

end Rounded
end Teufel
