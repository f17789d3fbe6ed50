import Verif.Model.Rounded
import Verif.Lemmas.Rounding
import Verif.Lemmas.Integrate

/-!
# C90: recording of fields in double precision

`C14_no_index_error` says that the recording of a field never addresses a sample outside of the trace.  It is a statement about
exact arithmetic.  Here the same decisions are made with rounded numbers.
-/

namespace Teufel
open Vec
namespace Rounded
variable {rnd : ℝ → ℝ} {u : ℝ}

/-- With exact arithmetic the indices are those of the model of `integrateFieldTrace` used for C14 and C15, unless a number is too
large for an `int`. -/
theorem stepIndices_exact (t0 dt : ℝ) (nots : Nat) (ts1 ts2 : ℝ) (f1 f2 : EMField) (adds : List (Int × EMField))
    (hw : ts2 > t0 - dt * 0.5 ∧ ts1 < t0 + dt * ((nots : ℝ) - 0.5)) (h : Particle.stepAdds t0 dt nots ts1 ts2 f1 f2 = .ok adds) :
    stepIndices id t0 dt nots ts1 ts2 = .ok (adds.map (·.1)) ∨ stepIndices id t0 dt nots ts1 ts2 = .error .ub := by
  unfold stepIndices
  rw [if_pos (show ts2 > tmin id t0 dt ∧ ts1 < tmax id t0 dt nots from hw)]
  unfold Particle.stepAdds at h
  have hmin : tmin id t0 dt = t0 - dt * 0.5 := rfl
  rw [hmin]
  simp only [bucket, id_eq, toInt32]
  by_cases h1 : ts1 ≤ t0 - dt * 0.5
  · rw [if_pos h1] at h ⊢
    simp only at h
    by_cases hr : -2 ^ 31 ≤ Particle.cround ((ts2 - t0) / dt) ∧ Particle.cround ((ts2 - t0) / dt) < 2 ^ 31
    · left
      rw [if_pos hr]
      simp only [bind, Except.bind]
      by_cases hd : ts2 - ts1 = 0
      · rw [if_pos hd] at h; cases h
      · rw [if_neg hd] at h ⊢
        cases h
        simp only [pure, Except.pure, List.map_append, List.map_map]
        congr 2
        · exact (List.map_id'' (fun _ => rfl) _).symm
        · split_ifs <;> rfl
    · right
      rw [if_neg hr]; rfl
  · rw [if_neg h1] at h ⊢
    simp only at h
    by_cases hr : -2 ^ 31 ≤ Particle.cround ((ts2 - t0) / dt) ∧ Particle.cround ((ts2 - t0) / dt) < 2 ^ 31
    · by_cases hr1 : -2 ^ 31 ≤ Particle.cround ((ts1 - t0) / dt) ∧ Particle.cround ((ts1 - t0) / dt) < 2 ^ 31
      · left
        rw [if_pos hr, if_pos hr1]
        simp only [bind, Except.bind]
        by_cases he : Particle.cround ((ts1 - t0) / dt) = if Particle.cround ((ts2 - t0) / dt) > (nots : Int) then (nots : Int) else Particle.cround ((ts2 - t0) / dt)
        · rw [if_pos he] at h ⊢
          cases h; rfl
        · rw [if_neg he] at h ⊢
          by_cases hd : ts2 - ts1 = 0
          · rw [if_pos hd] at h; cases h
          · rw [if_neg hd] at h ⊢
            cases h
            simp only [pure, Except.pure, List.map_append, List.map_map]
            congr 2
            · congr 1
              exact (List.map_id'' (fun _ => rfl) _).symm
            · split_ifs <;> rfl
      · right
        rw [if_neg hr1]; rfl
    · right
      rw [if_neg hr]
      by_cases hr1 : -2 ^ 31 ≤ Particle.cround ((ts1 - t0) / dt) ∧ Particle.cround ((ts1 - t0) / dt) < 2 ^ 31
      · rw [if_pos hr1]; rfl
      · rw [if_neg hr1]; rfl

/-! ## Specification -/

/-- a time which is not too close to the limits of the time covered by a trace, and not too far away in the future -/
structure ClearOfLimits (u t0 dt : ℝ) (nots : Nat) (t : ℝ) : Prop where
  /-- the first sample covers the times from `t0 - dt/2` -/
  start : 8 * u * (|t0| + nots * dt) < |t - (t0 - dt / 2)|
  /-- the last sample covers the times to `t0 + (nots - 1/2) dt` -/
  stop : 8 * u * (|t0| + nots * dt) < |t - (t0 + (nots - 1 / 2) * dt)|
  /-- the number of samples to this time fits in an `int` -/
  future : t - t0 ≤ 2 ^ 30 * dt

theorem rnd_between (h : IsRounding rnd u) {x a b : ℝ} (h1 : a ≤ x) (h2 : x ≤ b) (hb : 0 ≤ b) (ha : a ≤ 0) :
    (1 + u) * a ≤ rnd x ∧ rnd x ≤ (1 + u) * b := by
  constructor
  · have := h.mono h1
    have h3 := h.le_one_add (neg_nonneg.mpr ha)
    rw [h.neg] at h3
    linarith
  · exact le_trans (h.mono h2) (h.le_one_add hb)

theorem tmin_err (h : IsRounding rnd u) (hu : u ≤ 1 / 8) (t0 : ℝ) {dt : ℝ} (hdt : 0 < dt) : |tmin rnd t0 dt - (t0 - dt / 2)| ≤ 2 * u * (|t0| + dt) := by
  have h0 := h.u_nonneg
  unfold tmin
  have e1 := h.err (dt * 0.5)
  have p1 : |dt * 0.5| = dt / 2 := by rw [abs_of_pos (by positivity)]; norm_num; ring
  rw [p1] at e1
  have e2 := h.err (t0 - rnd (dt * 0.5))
  have q1 := abs_sub t0 (rnd (dt * 0.5))
  have q2 := h.abs_le (dt * 0.5)
  rw [p1] at q2
  have e3 : rnd (t0 - rnd (dt * 0.5)) - (t0 - dt / 2) = (rnd (t0 - rnd (dt * 0.5)) - (t0 - rnd (dt * 0.5))) - (rnd (dt * 0.5) - dt * 0.5) := by
    norm_num; ring
  rw [e3]
  have e4 := abs_sub (rnd (t0 - rnd (dt * 0.5)) - (t0 - rnd (dt * 0.5))) (rnd (dt * 0.5) - dt * 0.5)
  have e5 : u * |t0 - rnd (dt * 0.5)| ≤ u * (|t0| + (1 + u) * (dt / 2)) := by gcongr; linarith
  have e6 : u * ((1 + u) * (dt / 2)) ≤ u * (9 / 8 * (dt / 2)) := by gcongr; linarith
  have e7 : 0 ≤ u * |t0| := by positivity
  have e8 : 0 ≤ u * dt := by positivity
  nlinarith

theorem tmax_err (h : IsRounding rnd u) (hu : u ≤ 1 / 8) (t0 : ℝ) {dt : ℝ} (hdt : 0 < dt) (n : Nat) (hn : 1 ≤ n) :
    |tmax rnd t0 dt n - (t0 + (n - 1 / 2) * dt)| ≤ 4 * u * (|t0| + n * dt) := by
  have h0 := h.u_nonneg
  have hn1 : (1 : ℝ) ≤ n := by exact_mod_cast hn
  unfold tmax
  set k : ℝ := (n : ℝ) - 0.5 with hk
  have hk' : k = n - 1 / 2 := by rw [hk]; norm_num
  have kpos : 0 < k := by rw [hk']; linarith
  set a := rnd k with ha
  have a1 := h.err k
  rw [abs_of_pos kpos, ← ha] at a1
  have a2 : a ≤ (1 + u) * k := h.le_one_add kpos.le
  have a0 : 0 ≤ a := h.nonneg kpos.le
  set b := rnd (dt * a) with hb
  have b1 := h.err (dt * a)
  rw [abs_of_nonneg (mul_nonneg hdt.le a0), ← hb] at b1
  have b0 : 0 ≤ b := h.nonneg (by positivity)
  have b2 : b ≤ (1 + u) * (dt * a) := h.le_one_add (by positivity)
  have c1 := h.err (t0 + b)
  have c2 := abs_add_le t0 b
  rw [abs_of_nonneg b0] at c2
  have kdt : 0 < k * dt := by positivity
  have b3 : b ≤ 3 / 2 * (k * dt) := by
    have : (1 + u) * (dt * a) ≤ 9 / 8 * (dt * (9 / 8 * k)) := by
      have : a ≤ 9 / 8 * k := le_trans a2 (by gcongr; linarith)
      gcongr; linarith
    nlinarith
  have e : rnd (t0 + b) - (t0 + (n - 1 / 2) * dt) = (rnd (t0 + b) - (t0 + b)) + ((b - dt * a) + dt * (a - k)) := by
    rw [hk']; ring
  rw [e]
  have d1 := abs_add_le (rnd (t0 + b) - (t0 + b)) ((b - dt * a) + dt * (a - k))
  have d2 := abs_add_le (b - dt * a) (dt * (a - k))
  have d3 : |dt * (a - k)| = dt * |a - k| := by rw [abs_mul, abs_of_pos hdt]
  have d4 : dt * |a - k| ≤ dt * (u * k) := by gcongr
  have d5 : u * |t0 + b| ≤ u * (|t0| + 3 / 2 * (k * dt)) := by gcongr; linarith
  have d6 : u * (dt * a) ≤ u * (dt * (9 / 8 * k)) := by
    have : a ≤ 9 / 8 * k := le_trans a2 (by gcongr; linarith)
    gcongr
  have d7 : 0 ≤ u * |t0| := by positivity
  have d8 : u * (k * dt) ≤ u * (n * dt) := by gcongr; rw [hk']; linarith
  nlinarith

/-- the quotient whose rounded value is the index of the sample -/
theorem quotient_bounds (h : IsRounding rnd u) {dt a b d : ℝ} (hdt : 0 < dt) (h1 : a * dt ≤ d) (h2 : d ≤ b * dt) (ha : a ≤ 0) (hb : 0 ≤ b) :
    (1 + u) ^ 2 * a ≤ rnd (rnd d / dt) ∧ rnd (rnd d / dt) ≤ (1 + u) ^ 2 * b := by
  have h0 := h.u_nonneg
  obtain ⟨p, q⟩ := rnd_between h h1 h2 (by positivity) (by nlinarith)
  have p' : (1 + u) * a ≤ rnd d / dt := by rw [le_div_iff₀ hdt]; linarith
  have q' : rnd d / dt ≤ (1 + u) * b := by rw [div_le_iff₀ hdt]; linarith
  obtain ⟨r, s⟩ := rnd_between h p' q' (by positivity) (by nlinarith)
  constructor <;> nlinarith

theorem bucket_after_start (h : IsRounding rnd u) (hu : u ≤ 1 / 8) {t0 dt t : ℝ} (hdt : 0 < dt) {n : Nat} (hn : 2 ≤ n)
    (hc : ClearOfLimits u t0 dt n t) (ht : t > tmin rnd t0 dt) :
    ∃ i, bucket rnd t0 dt t = .ok i ∧ 0 ≤ i := by
  have h0 := h.u_nonneg
  have hn2 : (2 : ℝ) ≤ n := by exact_mod_cast hn
  have e := tmin_err h hu t0 hdt
  obtain ⟨e1, e2⟩ := abs_le.mp e
  have hT : 0 ≤ u * |t0| := by positivity
  have hD : 0 ≤ u * dt := by positivity
  have hND : u * (2 * dt) ≤ u * (n * dt) := by gcongr
  have hs := hc.start
  have hge : t0 - dt / 2 + 16 * (u * dt) < t := by
    rcases lt_abs.mp hs with h' | h'
    · nlinarith
    · exfalso; nlinarith
  have hf := hc.future
  obtain ⟨q1, q2⟩ := quotient_bounds h (d := t - t0) (a := min 0 ((t - t0) / dt)) (b := 2 ^ 30) hdt
    (by have := min_le_right (0 : ℝ) ((t - t0) / dt); rwa [le_div_iff₀ hdt] at this)
    (by linarith) (min_le_left _ _) (by norm_num)
  set q := rnd (rnd (t - t0) / dt) with hq
  have ha : -(1 / 2) + 16 * u < min 0 ((t - t0) / dt) ∨ min 0 ((t - t0) / dt) = 0 := by
    rcases min_choice (0 : ℝ) ((t - t0) / dt) with hm | hm
    · exact Or.inr hm
    · left; rw [hm, lt_div_iff₀ hdt]; nlinarith
  have hq1 : -(1 / 2) < q := by
    refine lt_of_lt_of_le ?_ q1
    rcases ha with ha | ha
    · have h3 : (1 + u) ^ 2 ≤ 1 + 3 * u := by nlinarith
      have h4 := min_le_left (0 : ℝ) ((t - t0) / dt)
      nlinarith
    · rw [ha]; norm_num
  have hq2 : q < 2 ^ 31 - 1 := by
    refine lt_of_le_of_lt q2 ?_
    have : (1 + u) ^ 2 ≤ (9 / 8) ^ 2 := by gcongr; linarith
    calc (1 + u) ^ 2 * 2 ^ 30 ≤ (9 / 8) ^ 2 * 2 ^ 30 := by gcongr
      _ < _ := by norm_num
  obtain ⟨c1, c2, c3⟩ := Particle.cround_spec hq1
  refine ⟨Particle.cround q, ?_, c3⟩
  unfold bucket toInt32
  rw [← hq, if_pos]
  refine ⟨by omega, ?_⟩
  have : ((Particle.cround q : Int) : ℝ) < ((2 ^ 31 : Int) : ℝ) := by push_cast; linarith
  exact_mod_cast this

theorem bucket_before_stop (h : IsRounding rnd u) (hu : u ≤ 1 / 8) {t0 dt t : ℝ} (hdt : 0 < dt) {n : Nat} (hn : 2 ≤ n)
    (hc : ClearOfLimits u t0 dt n t) (ht : t < tmax rnd t0 dt n) {i : Int} (hi : bucket rnd t0 dt t = .ok i) (h0i : 0 ≤ i) : i < n := by
  have h0 := h.u_nonneg
  have hn2 : (2 : ℝ) ≤ n := by exact_mod_cast hn
  have e := tmax_err h hu t0 hdt n (by omega)
  obtain ⟨e1, e2⟩ := abs_le.mp e
  have hT : 0 ≤ u * |t0| := by positivity
  have hD : 0 ≤ u * (n * dt) := by positivity
  have hs := hc.stop
  have hlt : t - t0 < (n - 1 / 2) * dt - 8 * (u * (n * dt)) := by
    rcases lt_abs.mp hs with h' | h'
    · exfalso; nlinarith
    · nlinarith
  have hb : max 0 ((t - t0) / dt) < n - 1 / 2 - 8 * u * n ∨ max 0 ((t - t0) / dt) = 0 := by
    rcases max_choice (0 : ℝ) ((t - t0) / dt) with hm | hm
    · exact Or.inr hm
    · left; rw [hm, div_lt_iff₀ hdt]; nlinarith
  obtain ⟨q1, q2⟩ := quotient_bounds h (d := t - t0) (a := min 0 ((t - t0) / dt)) (b := max 0 ((t - t0) / dt)) hdt
    (by have := min_le_right (0 : ℝ) ((t - t0) / dt); rwa [le_div_iff₀ hdt] at this)
    (by have := le_max_right (0 : ℝ) ((t - t0) / dt); rwa [div_le_iff₀ hdt] at this) (min_le_left _ _) (le_max_left _ _)
  have hq : rnd (rnd (t - t0) / dt) < n - 1 / 2 := by
    refine lt_of_le_of_lt q2 ?_
    rcases hb with hb | hb
    · have h3 : (1 + u) ^ 2 ≤ 1 + 3 * u := by nlinarith
      have h4 := le_max_left (0 : ℝ) ((t - t0) / dt)
      have h5 : 0 ≤ u * n := by positivity
      have h6 : u * max 0 ((t - t0) / dt) ≤ u * n := by
        apply mul_le_mul_of_nonneg_left _ h0
        nlinarith
      nlinarith
    · rw [hb]; linarith
  have hi' : i = Particle.cround (rnd (rnd (t - t0) / dt)) := by
    unfold bucket toInt32 at hi
    split_ifs at hi
    injection hi with hi
    exact hi.symm
  by_contra hge
  have : (n : ℝ) ≤ (i : ℝ) := by exact_mod_cast not_lt.mp hge
  have hp : 0 ≤ rnd (rnd (t - t0) / dt) := by
    by_contra hneg
    have : Particle.cround (rnd (rnd (t - t0) / dt)) ≤ 0 := by
      unfold Particle.cround
      rw [if_neg hneg]
      apply Int.ceil_le.mpr
      push_cast; linarith
    omega
  obtain ⟨c1, _, _⟩ := Particle.cround_spec (x := rnd (rnd (t - t0) / dt)) (by linarith)
  rw [← hi'] at c1
  linarith

/-- one trajectory step -/
theorem stepIndices_ok (h : IsRounding rnd u) (hu : u ≤ 1 / 8) {t0 dt ts1 ts2 : ℝ} (hdt : 0 < dt) {n : Nat} (hn : 2 ≤ n)
    (h1 : ClearOfLimits u t0 dt n ts1) (h2 : ClearOfLimits u t0 dt n ts2) :
    ∃ l, stepIndices rnd t0 dt n ts1 ts2 = .ok l ∧ ∀ i ∈ l, 0 ≤ i ∧ i < n := by
  have hu1 : u < 1 := by linarith
  unfold stepIndices
  by_cases hw : ts2 > tmin rnd t0 dt ∧ ts1 < tmax rnd t0 dt n
  · rw [if_pos hw]
    obtain ⟨i2, b2, p2⟩ := bucket_after_start h hu hdt hn h2 hw.1
    by_cases hs : ts1 ≤ tmin rnd t0 dt
    · rw [if_pos hs, b2]
      have hne : rnd (ts2 - ts1) ≠ 0 := h.ne_zero hu1 (by have := hw.1; intro h'; linarith)
      simp only [bind, Except.bind]
      rw [if_neg hne]
      refine ⟨_, rfl, ?_⟩
      intro i hi
      rcases List.mem_append.mp hi with hi | hi
      · rw [Particle.mem_irange] at hi
        obtain ⟨a, b⟩ := hi
        refine ⟨a, lt_of_lt_of_le b ?_⟩
        split_ifs <;> omega
      · split_ifs at hi <;> simp only [List.mem_singleton, List.not_mem_nil] at hi <;> omega
    · rw [if_neg hs, b2]
      obtain ⟨i1, b1, p1⟩ := bucket_after_start h hu hdt hn h1 (not_le.mp hs)
      have q1 := bucket_before_stop h hu hdt hn h1 hw.2 b1 p1
      rw [b1]
      simp only [bind, Except.bind]
      by_cases he : i1 = if i2 > (n : Int) then (n : Int) else i2
      · rw [if_pos he]
        exact ⟨_, rfl, by intro i hi; rw [List.mem_singleton] at hi; omega⟩
      · rw [if_neg he]
        have hne : rnd (ts2 - ts1) ≠ 0 := by
          apply h.ne_zero hu1
          intro h'
          have : ts2 = ts1 := by linarith
          rw [this, b1] at b2
          injection b2 with b2
          apply he
          rw [if_neg (by omega)]; exact b2
        rw [if_neg hne]
        refine ⟨_, rfl, ?_⟩
        intro i hi
        rcases List.mem_append.mp hi with hi | hi
        · rcases List.mem_append.mp hi with hi | hi
          · rw [List.mem_singleton] at hi; omega
          · rw [Particle.mem_irange] at hi
            obtain ⟨a, b⟩ := hi
            refine ⟨by omega, lt_of_lt_of_le b ?_⟩
            split_ifs <;> omega
        · split_ifs at hi <;> simp only [List.mem_singleton, List.not_mem_nil] at hi <;> omega
  · rw [if_neg hw]
    exact ⟨[], rfl, by simp⟩

theorem forM_ok {n : Nat} (l : List Int) (h : ∀ i ∈ l, 0 ≤ i ∧ i < (n : Int)) : l.forM (checkIndex n) = .ok () := by
  induction l with
  | nil => rfl
  | cons a l ih =>
    have ha := h a (List.mem_cons_self)
    show (checkIndex n a >>= fun _ => l.forM (checkIndex n)) = _
    unfold checkIndex at ih ⊢
    rw [if_pos ha]
    exact ih (fun i hi => h i (List.mem_cons_of_mem _ hi))

/-- **C90 (partial).** In arithmetic with unit roundoff `u ≤ 1/8`, the recording of the field of any trajectory with any number of
points succeeds if all its retarded times keep a small distance from both ends of the time covered by the trace. The signals
may arrive in any order. -/
theorem C90_record_partial (h : IsRounding rnd u) (hu : u ≤ 1 / 8) {t0 dt : ℝ} (hdt : 0 < dt) (n : Nat) (obs : Vec) (pts : List (ℝ × Vec))
    (hc : ∀ q ∈ pts, ClearOfLimits u t0 dt n (retardedTime rnd obs q.1 q.2)) : record rnd t0 dt n obs pts = .ok () := by
  induction pts with
  | nil => rfl
  | cons a rest ih =>
    cases rest with
    | nil => rfl
    | cons b rest =>
      unfold record
      by_cases hn : n < 2
      · rw [if_pos hn]; rfl
      · rw [if_neg hn]
        obtain ⟨l, hl, hr⟩ := stepIndices_ok h hu hdt (n := n) (by omega) (hc a (by simp)) (hc b (by simp))
        simp only [bind, Except.bind, pure, Except.pure]
        rw [hl]
        simp only
        rw [forM_ok l hr]
        exact ih (fun q hq => hc q (List.mem_cons_of_mem _ hq))

/-- **C90 (int overflow).** The number of samples is converted to an `int` before it is compared with the length of the trace: a
trajectory step that starts before the trace and ends 2^31 samples after its start is undefined behaviour, even without
rounding errors. -/
theorem C90_overflow {t0 dt ts1 ts2 : ℝ} (hdt : 0 < dt) (n : Nat) (hn : 1 ≤ n) (h1 : ts1 ≤ t0 - dt / 2) (h2 : t0 + 2 ^ 31 * dt ≤ ts2) :
    stepIndices id t0 dt n ts1 ts2 = .error .ub := by
  have hmin : tmin id t0 dt = t0 - dt / 2 := by show t0 - dt * 0.5 = _; norm_num; ring
  have hmax : tmax id t0 dt n = t0 + (n - 1 / 2) * dt := by show t0 + dt * ((n : ℝ) - 0.5) = _; norm_num; ring
  · have hn1 : (1 : ℝ) ≤ n := by exact_mod_cast hn
    unfold stepIndices
    rw [hmin, hmax, if_pos ⟨by nlinarith, by nlinarith⟩, if_pos h1]
    have : bucket id t0 dt ts2 = .error .ub := by
      unfold bucket toInt32
      rw [if_neg]
      rintro ⟨_, h⟩
      have hq : (2 : ℝ) ^ 31 ≤ (ts2 - t0) / dt := by rw [le_div_iff₀ hdt]; linarith
      have hc : ((2 ^ 31 : Int)) ≤ Particle.cround ((ts2 - t0) / dt) := by
        unfold Particle.cround
        rw [if_pos (le_trans (by norm_num) hq), Int.le_floor]
        push_cast; linarith
      exact absurd hc (not_le.mpr h)
    rw [this]; rfl

/-- with exact arithmetic (no rounding error) only times exactly at the limits are excluded -/
example (t0 dt : ℝ) (hdt : 0 < dt) (n : Nat) (t : ℝ) (h1 : t ≠ t0 - dt / 2) (h2 : t ≠ t0 + (n - 1 / 2) * dt) (h3 : t - t0 ≤ 2 ^ 30 * dt) :
    ClearOfLimits 0 t0 dt n t :=
  ⟨by rw [mul_zero, zero_mul]; exact abs_pos.mpr (sub_ne_zero.mpr h1), by rw [mul_zero, zero_mul]; exact abs_pos.mpr (sub_ne_zero.mpr h2), h3⟩

/-- a signal in the middle of a trace of 1300 samples -/
example : ClearOfLimits u64 1e-10 1e-13 1300 1.5e-10 := by
  constructor
  · rw [lt_abs]; left; rw [abs_of_pos (by norm_num)]; norm_num [u64, zpow_neg]
  · rw [lt_abs]; right; rw [abs_of_pos (by norm_num)]; norm_num [u64, zpow_neg]
  · norm_num

/-! ## Arrival times

The rounded retarded time against the exact one. -/

/-- `a` is `b` up to `k` relative errors of size `u` -/
private def Rel (u : ℝ) (k : Nat) (a b : ℝ) : Prop := (1 - u) ^ k * b ≤ a ∧ a ≤ (1 + u) ^ k * b

private theorem rel_rnd (h : IsRounding rnd u) (hu : u ≤ 1 / 8) {k : Nat} {a b : ℝ} (hb : 0 ≤ b) (r : Rel u k a b) : Rel u (k + 1) (rnd a) b := by
  have h0 := h.u_nonneg
  have hk : 0 ≤ (1 - u) ^ k := by apply pow_nonneg; linarith
  have ha : 0 ≤ a := le_trans (mul_nonneg hk hb) r.1
  refine ⟨?_, ?_⟩
  · calc (1 - u) ^ (k + 1) * b = (1 - u) * ((1 - u) ^ k * b) := by ring
      _ ≤ (1 - u) * a := mul_le_mul_of_nonneg_left r.1 (by linarith)
      _ ≤ _ := h.one_sub_le ha
  · calc _ ≤ (1 + u) * a := h.le_one_add ha
      _ ≤ (1 + u) * ((1 + u) ^ k * b) := mul_le_mul_of_nonneg_left r.2 (by linarith)
      _ = _ := by ring

private theorem rel_add {k : Nat} {a b a' b' : ℝ} (r : Rel u k a b) (r' : Rel u k a' b') : Rel u k (a + a') (b + b') :=
  ⟨by rw [mul_add]; exact add_le_add r.1 r'.1, by rw [mul_add]; exact add_le_add r.2 r'.2⟩

private theorem rel_mono (h : 0 ≤ u) (hu : u ≤ 1 / 8) {k m : Nat} (hkm : k ≤ m) {a b : ℝ} (hb : 0 ≤ b) (r : Rel u k a b) : Rel u m a b :=
  ⟨le_trans (mul_le_mul_of_nonneg_right (pow_le_pow_of_le_one (by linarith) (by linarith) hkm) hb) r.1,
   le_trans r.2 (mul_le_mul_of_nonneg_right (pow_le_pow_right₀ (by linarith) hkm) hb)⟩

private theorem rel_square (h : IsRounding rnd u) (hu : u ≤ 1 / 8) (d : ℝ) : Rel u 3 (rnd (rnd d * rnd d)) (d * d) := by
  have h0 := h.u_nonneg
  refine rel_rnd h hu (mul_self_nonneg d) ?_
  have e : rnd d * rnd d = rnd |d| * rnd |d| := by rw [← h.abs_rnd, abs_mul_abs_self]
  have e' : d * d = |d| * |d| := (abs_mul_abs_self d).symm
  have a := h.le_one_add (abs_nonneg d)
  have b := h.one_sub_le (abs_nonneg d)
  have n : 0 ≤ rnd |d| := h.nonneg (abs_nonneg d)
  have m : 0 ≤ (1 - u) * |d| := mul_nonneg (by linarith) (abs_nonneg d)
  rw [e, e']
  refine ⟨?_, ?_⟩
  · calc (1 - u) ^ 2 * (|d| * |d|) = ((1 - u) * |d|) * ((1 - u) * |d|) := by ring
      _ ≤ _ := mul_self_le_mul_self m b
  · calc rnd |d| * rnd |d| ≤ ((1 + u) * |d|) * ((1 + u) * |d|) := mul_self_le_mul_self n a
      _ = _ := by ring

private theorem rel_sqrt (h0 : 0 ≤ u) (hu : u ≤ 1 / 8) {k : Nat} {a b : ℝ} (r : Rel u (2 * k) a b) : Rel u k (Real.sqrt a) (Real.sqrt b) := by
  have p : 0 ≤ (1 - u) ^ k := by apply pow_nonneg; linarith
  have q : 0 ≤ (1 + u) ^ k := by positivity
  refine ⟨?_, ?_⟩
  · calc (1 - u) ^ k * Real.sqrt b = Real.sqrt (((1 - u) ^ k) ^ 2 * b) := by rw [Real.sqrt_mul (sq_nonneg _), Real.sqrt_sq p]
      _ ≤ _ := Real.sqrt_le_sqrt (by rw [← pow_mul, mul_comm k 2]; exact r.1)
  · calc Real.sqrt a ≤ Real.sqrt (((1 + u) ^ k) ^ 2 * b) := Real.sqrt_le_sqrt (by rw [← pow_mul, mul_comm k 2]; exact r.2)
      _ = _ := by rw [Real.sqrt_mul (sq_nonneg _), Real.sqrt_sq q]

private theorem rel_vnorm (h : IsRounding rnd u) (hu : u ≤ 1 / 8) (a b : Vec) : Rel u 4 (vnorm rnd (vsub rnd a b)) (Vec.norm (a - b)) := by
  have h0 := h.u_nonneg
  have hx := rel_square h hu (a.x - b.x)
  have hy := rel_square h hu (a.y - b.y)
  have hz := rel_mono h0 hu (by norm_num : 3 ≤ 4) (mul_self_nonneg _) (rel_square h hu (a.z - b.z))
  have nx := mul_self_nonneg (a.x - b.x)
  have ny := mul_self_nonneg (a.y - b.y)
  have nz := mul_self_nonneg (a.z - b.z)
  have hxy := rel_rnd h hu (add_nonneg nx ny) (rel_add hx hy)
  have hs := rel_rnd h hu (add_nonneg (add_nonneg nx ny) nz) (rel_add hxy hz)
  have hq := rel_sqrt h0 hu (k := 3) (rel_mono h0 hu (by norm_num) (add_nonneg (add_nonneg nx ny) nz) hs)
  exact rel_rnd h hu (Real.sqrt_nonneg _) hq

private theorem five_errors {u : ℝ} (h0 : 0 ≤ u) (hu : u ≤ 1 / 8) : (1 + u) ^ 5 ≤ 1 + 7 * u ∧ 1 - 7 * u ≤ (1 - u) ^ 5 := by
  have a2 : u ^ 2 ≤ u / 8 := by nlinarith
  have a3 : u ^ 3 ≤ u / 64 := by nlinarith
  have a4 : u ^ 4 ≤ u / 512 := by nlinarith
  have a5 : u ^ 5 ≤ u / 4096 := by nlinarith
  have p3 : 0 ≤ u ^ 3 := by positivity
  have p2 : 0 ≤ u ^ 2 := by positivity
  have p4 : 0 ≤ u ^ 4 := by positivity
  constructor
  · have : (1 + u) ^ 5 = 1 + 5 * u + 10 * u ^ 2 + 10 * u ^ 3 + 5 * u ^ 4 + u ^ 5 := by ring
    linarith
  · have : (1 - u) ^ 5 = 1 - 5 * u + 10 * u ^ 2 - 10 * u ^ 3 + 5 * u ^ 4 - u ^ 5 := by ring
    linarith

/-- **C90 (arrival time).** In arithmetic with unit roundoff `u ≤ 1/8` the time at which a signal arrives at the observer is
the time of emission plus the distance divided by the speed of light, up to `9 u` times the sum of both. -/
theorem C90_arrival (h : IsRounding rnd u) (hu : u ≤ 1 / 8) (obs : Vec) (t : ℝ) (x : Vec) :
    |retardedTime rnd obs t x - (t + Vec.norm (obs - x) / SpeedOfLight)| ≤ 9 * u * (|t| + Vec.norm (obs - x) / SpeedOfLight) := by
  have h0 := h.u_nonneg
  have hc : 0 < SpeedOfLight := by norm_num [SpeedOfLight]
  have hn : 0 ≤ Vec.norm (obs - x) := Real.sqrt_nonneg _
  have hd : 0 ≤ Vec.norm (obs - x) / SpeedOfLight := by positivity
  have hv := rel_vnorm h hu obs x
  have hq : Rel u 4 (vnorm rnd (vsub rnd obs x) / SpeedOfLight) (Vec.norm (obs - x) / SpeedOfLight) :=
    ⟨by rw [← mul_div_assoc]; exact div_le_div_of_nonneg_right hv.1 hc.le, by rw [← mul_div_assoc]; exact div_le_div_of_nonneg_right hv.2 hc.le⟩
  obtain ⟨l1, l2⟩ := rel_rnd h hu hd hq
  obtain ⟨f1, f2⟩ := five_errors h0 hu
  unfold retardedTime
  generalize Vec.norm (obs - x) / SpeedOfLight = D at *
  generalize rnd (vnorm rnd (vsub rnd obs x) / SpeedOfLight) = f at *
  have g1 : (1 - 7 * u) * D ≤ f := le_trans (mul_le_mul_of_nonneg_right f2 hd) l1
  have g2 : f ≤ (1 + 7 * u) * D := le_trans l2 (mul_le_mul_of_nonneg_right f1 hd)
  have e := h.err (t + f)
  have ha := abs_add_le t f
  have f0 : 0 ≤ f := le_trans (mul_nonneg (by linarith) hd) g1
  rw [abs_of_nonneg f0] at ha
  have e' : u * |t + f| ≤ u * (|t| + (1 + 7 * u) * D) := mul_le_mul_of_nonneg_left (by linarith) h0
  have e2 : u * (u * D) ≤ u * (1 / 8 * D) := mul_le_mul_of_nonneg_left (mul_le_mul_of_nonneg_right hu hd) h0
  have p : 0 ≤ u * |t| := by positivity
  have q : 0 ≤ u * D := by positivity
  rw [abs_le] at e ⊢
  constructor <;> nlinarith

/-- **C90 (partial, exact arrival times).** The recording succeeds if the exact arrival times of all signals (time of emission plus
distance divided by the speed of light) keep a distance from both ends of the time covered by the trace which is small of
the order of the unit roundoff, and lie less than `2^30` samples after its start. -/
theorem C90_record_exact_partial (h : IsRounding rnd u) (hu : u ≤ 1 / 8) {t0 dt : ℝ} (hdt : 0 < dt) (n : Nat) (obs : Vec) (pts : List (ℝ × Vec))
    (hc : ∀ q ∈ pts, let D := Vec.norm (obs - q.2) / SpeedOfLight
      8 * u * (|t0| + n * dt) + 9 * u * (|q.1| + D) < |q.1 + D - (t0 - dt / 2)| ∧
      8 * u * (|t0| + n * dt) + 9 * u * (|q.1| + D) < |q.1 + D - (t0 + (n - 1 / 2) * dt)| ∧
      q.1 + D - t0 + 9 * u * (|q.1| + D) ≤ 2 ^ 30 * dt) : record rnd t0 dt n obs pts = .ok () := by
  refine C90_record_partial h hu hdt n obs pts (fun q hq => ?_)
  have e := C90_arrival h hu obs q.1 q.2
  obtain ⟨a, b, c⟩ := hc q hq
  have tri : ∀ y : ℝ, |q.1 + Vec.norm (obs - q.2) / SpeedOfLight - y| ≤
      |retardedTime rnd obs q.1 q.2 - y| + |retardedTime rnd obs q.1 q.2 - (q.1 + Vec.norm (obs - q.2) / SpeedOfLight)| := by
    intro y
    have := abs_sub_le (q.1 + Vec.norm (obs - q.2) / SpeedOfLight) (retardedTime rnd obs q.1 q.2) y
    rw [abs_sub_comm (q.1 + _) (retardedTime rnd obs q.1 q.2)] at this
    linarith
  have e' := (abs_le.mp e).2
  exact ⟨by have := tri (t0 - dt / 2); linarith, by have := tri (t0 + (n - 1 / 2) * dt); linarith, by linarith⟩

/-- two signals from a particle at rest, 60 mm from the observer, into a trace of 1300 samples in double precision -/
example : record binary64 1e-10 1e-13 1300 ⟨0, 0, 0.06⟩ [(0, 0), (1e-13, 0)] = .ok () := by
  have hD : Vec.norm ((⟨0, 0, 0.06⟩ : Vec) - 0) = 0.06 := by
    have : Vec.norm ((⟨0, 0, 0.06⟩ : Vec) - 0) = Real.sqrt ((0.06 : ℝ) * 0.06) := by
      show Real.sqrt (((0 : ℝ) - 0) * (0 - 0) + ((0 : ℝ) - 0) * (0 - 0) + ((0.06 : ℝ) - 0) * (0.06 - 0)) = _
      norm_num
    rw [this, Real.sqrt_mul_self (by norm_num)]
  refine C90_record_exact_partial binary64_isRounding (by norm_num [u64, zpow_neg]) (by norm_num) 1300 _ _ ?_
  intro q hq
  simp only [List.mem_cons, List.not_mem_nil, or_false] at hq
  rcases hq with rfl | rfl
  all_goals
    simp only [hD]
    refine ⟨?_, ?_, ?_⟩
    · rw [lt_abs]; left; norm_num [u64, zpow_neg, SpeedOfLight, abs_of_pos]
    · rw [lt_abs]; right; norm_num [u64, zpow_neg, SpeedOfLight, abs_of_pos]
    · norm_num [u64, zpow_neg, SpeedOfLight, abs_of_pos]

/-! ## Refutation

A trace of 1300 samples every 1e-13 s, starting at 1e-10 s. A particle rests at a distance of 0.0689372757171 m from
the observer. All these numbers are the double precision numbers nearest to the decimal fractions. The signal emitted at time zero
arrives just before the end of the trace according to the first comparison, but belongs to sample 1300 according to the second one;
the last sample is number 1299. -/

theorem binary_between {p : Nat} (x : ℝ) (e : Int) (h1 : (2 : ℝ) ^ (e + (p - 1 : Int)) ≤ |x|) (h2 : |x| < (2 : ℝ) ^ (e + p)) :
    binary p x = nearestEven (x / 2 ^ e) * 2 ^ e := by
  have hx : x ≠ 0 := by
    intro h0
    rw [h0, abs_zero] at h1
    exact absurd h1 (not_le.mpr (by positivity))
  rw [binary_eq hx, ulp_of_between h1 h2]

theorem nearestEven_tie_odd (n : Int) (h : n % 2 = 1) : nearestEven ((n : ℝ) + 1 / 2) = n + 1 := by
  have hf : ⌊(n : ℝ) + 1 / 2⌋ = n := by
    rw [Int.floor_eq_iff]; constructor <;> linarith
  unfold nearestEven
  rw [hf]
  norm_num
  omega

/-- start of the trace -/
theorem w_t0 : binary64 (1e-10 : ℝ) = ((7737125245533627 : Int) : ℝ) * 2 ^ (-86 : Int) := by
  apply binary_digits
  · rw [abs_of_pos (by norm_num)]; norm_num
  · rw [abs_of_pos (by norm_num)]; norm_num
  · rw [abs_lt]; constructor <;> norm_num

/-- time step of the trace and of the trajectory -/
theorem w_dt : binary64 (1e-13 : ℝ) = ((7922816251426434 : Int) : ℝ) * 2 ^ (-96 : Int) := by
  apply binary_digits
  · rw [abs_of_pos (by norm_num)]; norm_num
  · rw [abs_of_pos (by norm_num)]; norm_num
  · rw [abs_lt]; constructor <;> norm_num

/-- distance of the observer -/
theorem w_R : binary64 (0.0689372757171 : ℝ) = ((4967454227703499 : Int) : ℝ) * 2 ^ (-56 : Int) := by
  apply binary_digits
  · rw [abs_of_pos (by norm_num)]; norm_num
  · rw [abs_of_pos (by norm_num)]; norm_num
  · rw [abs_lt]; constructor <;> norm_num

theorem w_R2 : binary64 ((((4967454227703499 : Int) : ℝ) * 2 ^ (-56 : Int)) * (((4967454227703499 : Int) : ℝ) * 2 ^ (-56 : Int))) =
    ((5479084187316322 : Int) : ℝ) * 2 ^ (-60 : Int) := by
  apply binary_digits
  · rw [abs_of_pos (by norm_num)]; norm_num
  · rw [abs_of_pos (by norm_num)]; norm_num
  · rw [abs_lt]; constructor <;> norm_num

theorem w_sqrt : binary64 (Real.sqrt (((5479084187316322 : Int) : ℝ) * 2 ^ (-60 : Int))) = ((4967454227703499 : Int) : ℝ) * 2 ^ (-56 : Int) := by
  set x := Real.sqrt (((5479084187316322 : Int) : ℝ) * 2 ^ (-60 : Int)) with hx
  have l : (4967454227703499 - 1 / 4) / 2 ^ 56 < x := by
    rw [hx]; apply Real.lt_sqrt_of_sq_lt; norm_num
  have r : x < (4967454227703499 + 1 / 4) / 2 ^ 56 := by
    rw [hx, Real.sqrt_lt' (by norm_num)]; norm_num
  have hp : 0 < x := lt_trans (by norm_num) l
  apply binary_digits
  · rw [abs_of_pos hp]; refine le_trans ?_ l.le; norm_num
  · rw [abs_of_pos hp]; refine lt_trans r ?_; norm_num
  · have e : x / 2 ^ (-56 : Int) = x * 2 ^ 56 := by rw [zpow_neg, div_inv_eq_mul]; norm_num
    rw [e, abs_lt]
    rw [div_lt_iff₀ (by norm_num)] at l
    rw [lt_div_iff₀ (by norm_num)] at r
    constructor
    · push_cast; linarith
    · push_cast; linarith

theorem w_ts : binary64 ((((4967454227703499 : Int) : ℝ) * 2 ^ (-56 : Int)) / SpeedOfLight) = ((8895759751052287 : Int) : ℝ) * 2 ^ (-85 : Int) := by
  unfold SpeedOfLight
  apply binary_digits
  · rw [abs_of_pos (by norm_num)]; norm_num
  · rw [abs_of_pos (by norm_num)]; norm_num
  · rw [abs_lt]; constructor <;> norm_num

/-- the second signal -/
theorem w_ts2 : binary64 (((7922816251426434 : Int) : ℝ) * 2 ^ (-96 : Int) + ((8895759751052287 : Int) : ℝ) * 2 ^ (-85 : Int)) =
    ((8899628313675054 : Int) : ℝ) * 2 ^ (-85 : Int) := by
  apply binary_digits
  · rw [abs_of_pos (by norm_num)]; norm_num
  · rw [abs_of_pos (by norm_num)]; norm_num
  · rw [abs_lt]; constructor <;> norm_num

theorem w_half : binary64 ((((7922816251426434 : Int) : ℝ) * 2 ^ (-96 : Int)) * (((2599 : Int) : ℝ) * 2 ^ (-1 : Int))) =
    ((5027197128285474 : Int) : ℝ) * 2 ^ (-85 : Int) := by
  apply binary_digits
  · rw [abs_of_pos (by norm_num)]; norm_num
  · rw [abs_of_pos (by norm_num)]; norm_num
  · rw [abs_lt]; constructor <;> norm_num

/-- end of the trace: half-way between two numbers -/
theorem w_tmax : binary64 (((7737125245533627 : Int) : ℝ) * 2 ^ (-86 : Int) + ((5027197128285474 : Int) : ℝ) * 2 ^ (-85 : Int)) =
    ((8895759751052288 : Int) : ℝ) * 2 ^ (-85 : Int) := by
  show binary 53 _ = _
  rw [binary_between _ (-85)]
  · have : (((7737125245533627 : Int) : ℝ) * 2 ^ (-86 : Int) + ((5027197128285474 : Int) : ℝ) * 2 ^ (-85 : Int)) / 2 ^ (-85 : Int) =
        ((8895759751052287 : Int) : ℝ) + 1 / 2 := by norm_num
    rw [this, nearestEven_tie_odd _ (by norm_num)]
    norm_num
  · rw [abs_of_pos (by norm_num)]; norm_num
  · rw [abs_of_pos (by norm_num)]; norm_num

/-- time of the first signal after the start: half-way between two numbers -/
theorem w_d1 : binary64 (((8895759751052287 : Int) : ℝ) * 2 ^ (-85 : Int) - ((7737125245533627 : Int) : ℝ) * 2 ^ (-86 : Int)) =
    ((5027197128285474 : Int) : ℝ) * 2 ^ (-85 : Int) := by
  show binary 53 _ = _
  rw [binary_between _ (-85)]
  · have : (((8895759751052287 : Int) : ℝ) * 2 ^ (-85 : Int) - ((7737125245533627 : Int) : ℝ) * 2 ^ (-86 : Int)) / 2 ^ (-85 : Int) =
        ((5027197128285473 : Int) : ℝ) + 1 / 2 := by norm_num
    rw [this, nearestEven_tie_odd _ (by norm_num)]
    norm_num
  · rw [abs_of_pos (by norm_num)]; norm_num
  · rw [abs_of_pos (by norm_num)]; norm_num

theorem w_q1 : binary64 ((((5027197128285474 : Int) : ℝ) * 2 ^ (-85 : Int)) / (((7922816251426434 : Int) : ℝ) * 2 ^ (-96 : Int))) =
    ((5715261441179648 : Int) : ℝ) * 2 ^ (-42 : Int) := by
  apply binary_digits
  · rw [abs_of_pos (by norm_num)]; norm_num
  · rw [abs_of_pos (by norm_num)]; norm_num
  · rw [abs_lt]; constructor <;> norm_num

theorem w_d2 : binary64 (((8899628313675054 : Int) : ℝ) * 2 ^ (-85 : Int) - ((7737125245533627 : Int) : ℝ) * 2 ^ (-86 : Int)) =
    ((5031065690908240 : Int) : ℝ) * 2 ^ (-85 : Int) := by
  show binary 53 _ = _
  rw [binary_between _ (-85)]
  · have : (((8899628313675054 : Int) : ℝ) * 2 ^ (-85 : Int) - ((7737125245533627 : Int) : ℝ) * 2 ^ (-86 : Int)) / 2 ^ (-85 : Int) =
        ((5031065690908240 : Int) : ℝ) + 1 / 2 := by norm_num
    rw [this, nearestEven_tie _ (by norm_num)]
  · rw [abs_of_pos (by norm_num)]; norm_num
  · rw [abs_of_pos (by norm_num)]; norm_num

theorem w_q2 : binary64 ((((5031065690908240 : Int) : ℝ) * 2 ^ (-85 : Int)) / (((7922816251426434 : Int) : ℝ) * 2 ^ (-96 : Int))) =
    ((5719659487690751 : Int) : ℝ) * 2 ^ (-42 : Int) := by
  apply binary_digits
  · rw [abs_of_pos (by norm_num)]; norm_num
  · rw [abs_of_pos (by norm_num)]; norm_num
  · rw [abs_lt]; constructor <;> norm_num

theorem b64_exact (m e : Int) (h : |m| ≤ 2 ^ 53) : binary64 ((m : ℝ) * 2 ^ e) = m * 2 ^ e := binary_exact (by norm_num) m e h

theorem b64_zero : binary64 0 = 0 := binary_zero 53

/-- the retarded time of a particle resting at the origin -/
theorem w_retarded (t : ℝ) : retardedTime binary64 ⟨0, 0, binary64 0.0689372757171⟩ t 0 = binary64 (t + ((8895759751052287 : Int) : ℝ) * 2 ^ (-85 : Int)) := by
  unfold retardedTime
  congr 2
  have : vnorm binary64 (vsub binary64 ⟨0, 0, binary64 0.0689372757171⟩ 0) = ((4967454227703499 : Int) : ℝ) * 2 ^ (-56 : Int) := by
    unfold vnorm vsub
    simp only [Vec.zero_x, Vec.zero_y, Vec.zero_z, sub_zero, b64_zero, mul_zero, add_zero, zero_add]
    rw [w_R, b64_exact _ _ (by norm_num), w_R2, b64_exact _ _ (by norm_num), w_sqrt]
  rw [this, w_ts]

/-- **C90 (refutation).** In double precision the recording of a field can fail with an index error although in exact arithmetic it never
does: the signal of a particle resting 0.0689372757171 m from the observer, in a trace of 1300 samples of 1e-13 s starting at
1e-10 s. -/
theorem C90_full_statement_false :
    ¬ ∀ (t0 dt : ℝ) (n : Nat) (obs : Vec) (pts : List (ℝ × Vec)), 0 < dt → binary64 t0 = t0 → binary64 dt = dt →
      (∀ v ∈ obs :: pts.map (·.2), binary64 v.x = v.x ∧ binary64 v.y = v.y ∧ binary64 v.z = v.z) → (∀ q ∈ pts, binary64 q.1 = q.1) →
      record binary64 t0 dt n obs pts = .ok () := by
  intro hall
  have hdt : 0 < binary64 1e-13 := by rw [w_dt]; norm_num
  have := hall (binary64 1e-10) (binary64 1e-13) 1300 ⟨0, 0, binary64 0.0689372757171⟩ [(0, 0), (binary64 1e-13, 0)] hdt
    (binary64_isRounding.idem _) (binary64_isRounding.idem _)
    (by intro v hv
        simp only [List.map_cons, List.map_nil, List.mem_cons, List.not_mem_nil, or_false] at hv
        rcases hv with rfl | rfl | rfl
        · exact ⟨b64_zero, b64_zero, binary64_isRounding.idem _⟩
        · exact ⟨b64_zero, b64_zero, b64_zero⟩
        · exact ⟨b64_zero, b64_zero, b64_zero⟩)
    (by intro q hq
        simp only [List.mem_cons, List.not_mem_nil, or_false] at hq
        rcases hq with rfl | rfl
        · exact b64_zero
        · exact binary64_isRounding.idem _)
  unfold record at this
  rw [if_neg (by norm_num)] at this
  simp only [w_retarded] at this
  have hts1 : binary64 (0 + ((8895759751052287 : Int) : ℝ) * 2 ^ (-85 : Int)) = ((8895759751052287 : Int) : ℝ) * 2 ^ (-85 : Int) := by
    rw [zero_add]; exact b64_exact _ _ (by norm_num)
  have hk : binary64 (((1300 : Nat) : ℝ) - 0.5) = ((2599 : Int) : ℝ) * 2 ^ (-1 : Int) := by
    have : ((1300 : Nat) : ℝ) - 0.5 = ((2599 : Int) : ℝ) * 2 ^ (-1 : Int) := by norm_num
    rw [this]; exact b64_exact _ _ (by norm_num)
  rw [hts1, w_dt, w_ts2, w_t0] at this
  have hmax : tmax binary64 (((7737125245533627 : Int) : ℝ) * 2 ^ (-86 : Int)) (((7922816251426434 : Int) : ℝ) * 2 ^ (-96 : Int)) 1300 =
      ((8895759751052288 : Int) : ℝ) * 2 ^ (-85 : Int) := by
    unfold tmax
    rw [hk, w_half, w_tmax]
  have hmin : tmin binary64 (((7737125245533627 : Int) : ℝ) * 2 ^ (-86 : Int)) (((7922816251426434 : Int) : ℝ) * 2 ^ (-96 : Int)) ≤
      ((7737125245533627 : Int) : ℝ) * 2 ^ (-86 : Int) := by
    unfold tmin
    conv_rhs => rw [← b64_exact (7737125245533627) (-86) (by norm_num)]
    apply binary64_isRounding.mono
    have := binary64_isRounding.nonneg (x := ((7922816251426434 : Int) : ℝ) * 2 ^ (-96 : Int) * 0.5) (by norm_num)
    linarith
  have hb1 : bucket binary64 (((7737125245533627 : Int) : ℝ) * 2 ^ (-86 : Int)) (((7922816251426434 : Int) : ℝ) * 2 ^ (-96 : Int))
      (((8895759751052287 : Int) : ℝ) * 2 ^ (-85 : Int)) = .ok 1300 := by
    unfold bucket
    rw [w_d1, w_q1]
    have : Particle.cround (((5715261441179648 : Int) : ℝ) * 2 ^ (-42 : Int)) = 1300 := by
      unfold Particle.cround
      rw [if_pos (by norm_num), Int.floor_eq_iff]
      constructor <;> norm_num
    rw [this]; rfl
  have hb2 : bucket binary64 (((7737125245533627 : Int) : ℝ) * 2 ^ (-86 : Int)) (((7922816251426434 : Int) : ℝ) * 2 ^ (-96 : Int))
      (((8899628313675054 : Int) : ℝ) * 2 ^ (-85 : Int)) = .ok 1300 := by
    unfold bucket
    rw [w_d2, w_q2]
    have : Particle.cround (((5719659487690751 : Int) : ℝ) * 2 ^ (-42 : Int)) = 1300 := by
      unfold Particle.cround
      rw [if_pos (by norm_num), Int.floor_eq_iff]
      constructor <;> norm_num
    rw [this]; rfl
  have hidx : stepIndices binary64 (((7737125245533627 : Int) : ℝ) * 2 ^ (-86 : Int)) (((7922816251426434 : Int) : ℝ) * 2 ^ (-96 : Int)) 1300
      (((8895759751052287 : Int) : ℝ) * 2 ^ (-85 : Int)) (((8899628313675054 : Int) : ℝ) * 2 ^ (-85 : Int)) = .ok [1300] := by
    unfold stepIndices
    rw [hmax, if_pos ⟨lt_of_le_of_lt hmin (by norm_num), by norm_num⟩, if_neg (not_le.mpr (lt_of_le_of_lt hmin (by norm_num))), hb1, hb2]
    rfl
  rw [hidx] at this
  cases this

end Rounded
end Teufel
