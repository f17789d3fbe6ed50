import Verif.Model.FieldTrace
import Verif.Lemmas.Vec

/-! # C16 – C21: field traces -/

namespace Teufel
open Vec

namespace FieldTrace

/-- two traces with the same sampling -/
def SameTiming (s o : FieldTrace) : Prop := s.N = o.N ∧ s.t0 = o.t0 ∧ s.dt = o.dt

theorem guard_ok {s o : FieldTrace} (h : s.SameTiming o) : guardMatch s o = .ok () := by
  obtain ⟨h1, h2, h3⟩ := h
  simp [guardMatch, h1, h2, h3]

theorem guard_err {s o : FieldTrace} (h : ¬ s.SameTiming o) : guardMatch s o = .error .io := by
  unfold guardMatch
  by_cases h1 : s.N ≠ o.N
  · rw [if_pos h1]
  · rw [if_neg h1]
    by_cases h2 : s.t0 ≠ o.t0
    · rw [if_pos h2]
    · rw [if_neg h2]
      by_cases h3 : s.dt ≠ o.dt
      · rw [if_pos h3]
      · exact absurd ⟨not_not.mp h1, not_not.mp h2, not_not.mp h3⟩ h

theorem getField_of_get {s : FieldTrace} {i : Nat} {f : EMField} (h : i < s.N) (hg : s.trace[i]? = some f) : s.getField i = .ok f := by
  simp only [getField]; rw [if_neg (by omega), hg]

theorem get_of_getField {s : FieldTrace} {i : Nat} {f : EMField} (h : s.getField i = .ok f) : i < s.N ∧ s.trace[i]? = some f := by
  simp only [getField] at h
  split at h
  · simp at h
  · refine ⟨by omega, ?_⟩
    split at h
    · rename_i x hx; rw [hx]; injection h with h; rw [h]
    · simp at h

theorem addLoop (l o : List EMField) (n : Nat) : ∀ i, (((List.range n).foldl
      (fun (tr : List EMField) i => tr.set i ((tr[i]?).getD 0 + (o[i]?).getD 0)) l)[i]?) =
      if i < n then (l[i]?).map (fun a => a + (o[i]?).getD 0) else l[i]? := by
  induction n with
  | zero => intro i; simp
  | succ n ih =>
    intro i
    rw [List.range_succ, List.foldl_append]
    simp only [List.foldl_cons, List.foldl_nil]
    have hl : ((List.range n).foldl (fun (tr : List EMField) i => tr.set i ((tr[i]?).getD 0 + (o[i]?).getD 0)) l).length = l.length := by
      generalize List.range n = r
      clear ih
      induction r generalizing l with
      | nil => rfl
      | cons a r ih => rw [List.foldl_cons, ih]; simp
    rw [List.getElem?_set]
    by_cases hin : n = i
    · rw [if_pos hin, hl]
      subst hin
      have h1 := ih n
      rw [if_neg (by omega)] at h1
      rw [if_pos (show n < n + 1 by omega), h1]
      by_cases hlt : n < l.length
      · rw [if_pos hlt, List.getElem?_eq_getElem hlt]; simp
      · rw [if_neg hlt, List.getElem?_eq_none (Nat.le_of_not_lt hlt)]; simp
    · rw [if_neg hin, ih i]
      by_cases h : i < n
      · rw [if_pos h, if_pos (by omega)]
      · rw [if_neg h, if_neg (by omega)]

end FieldTrace

open FieldTrace

/-- C16: the sum of two traces with equal sampling is taken sample by sample; it is rejected otherwise. -/
theorem C16_add (s o : FieldTrace) (hs : s.WF) (ho : o.WF) :
    (s.SameTiming o → ∃ r, s.add o = .ok r ∧ r.WF ∧ r.SameTiming s ∧
      ∀ i a b, s.getField i = .ok a → o.getField i = .ok b → r.getField i = .ok (a + b)) ∧
    (¬ s.SameTiming o → s.add o = .error .io) := by
  simp only [FieldTrace.add, bind, Except.bind, pure, Except.pure]
  constructor
  · intro h
    rw [guard_ok h]
    have h1 := h.1
    simp only [WF] at hs ho
    refine ⟨_, rfl, ?_, ⟨rfl, rfl, rfl⟩, ?_⟩
    · simp [WF, hs, ho, h1]
    · intro i a b ha hb
      obtain ⟨hi, ga⟩ := get_of_getField ha
      obtain ⟨_, gb⟩ := get_of_getField hb
      apply getField_of_get (by exact hi)
      simp [List.getElem?_zipWith, ga, gb]
  · intro h; rw [guard_err h]

/-- C16: the in-place sum gives the same samples, and leaves the trace unchanged if it raises. -/
theorem C16_add_assign (s o : FieldTrace) (hs : s.WF) (ho : o.WF) :
    (s.SameTiming o → (s.addAssign o).2 = none ∧ (s.addAssign o).1.WF ∧ (s.addAssign o).1.SameTiming s ∧
      ∀ i a b, s.getField i = .ok a → o.getField i = .ok b → (s.addAssign o).1.getField i = .ok (a + b)) ∧
    (¬ s.SameTiming o → s.addAssign o = (s, some .io)) := by
  simp only [FieldTrace.addAssign]
  constructor
  · intro h
    rw [guard_ok h]
    simp only
    refine ⟨trivial, ?_, ⟨rfl, rfl, rfl⟩, ?_⟩
    · simp only [WF]
      rw [← hs]
      generalize List.range s.trace.length = r
      generalize s.trace = l
      induction r generalizing l with
      | nil => rfl
      | cons a r ih => rw [List.foldl_cons, ih]; simp
    · intro i a b ha hb
      obtain ⟨hi, ga⟩ := get_of_getField ha
      obtain ⟨_, gb⟩ := get_of_getField hb
      apply getField_of_get (by exact hi)
      simp only [addLoop]
      rw [if_pos hi, ga, gb]; rfl
  · intro h; rw [guard_err h]

/-- C16: difference. -/
theorem C16_sub (s o : FieldTrace) (hs : s.WF) (ho : o.WF) :
    (s.SameTiming o → ∃ r, s.sub o = .ok r ∧ r.WF ∧ r.SameTiming s ∧
      ∀ i a b, s.getField i = .ok a → o.getField i = .ok b → r.getField i = .ok (a - b)) ∧
    (¬ s.SameTiming o → s.sub o = .error .io) := by
  simp only [FieldTrace.sub, bind, Except.bind, pure, Except.pure]
  constructor
  · intro h
    rw [guard_ok h]
    have h1 := h.1
    simp only [WF] at hs ho
    refine ⟨_, rfl, ?_, ⟨rfl, rfl, rfl⟩, ?_⟩
    · simp [WF, hs, ho, h1]
    · intro i a b ha hb
      obtain ⟨hi, ga⟩ := get_of_getField ha
      obtain ⟨_, gb⟩ := get_of_getField hb
      apply getField_of_get (by exact hi)
      simp [List.getElem?_zipWith, ga, gb]
  · intro h; rw [guard_err h]

/-- C16: assignment needs equal length only and then makes both traces equal. -/
theorem C16_assign (s t : FieldTrace) :
    (s.N = t.N → s.assign t = .ok t) ∧ (s.N ≠ t.N → s.assign t = .error .io) := by
  simp only [FieldTrace.assign]
  constructor
  · intro h
    rw [if_neg (by simpa using h)]
    congr 1
    ext1 <;> simp [h]
  · intro h; rw [if_pos h]

/-- C16: scaling by and division through a number act sample by sample. -/
theorem C16_scale (s : FieldTrace) (k : ℝ) : (s.smul k).SameTiming s ∧ (s.sdiv k).SameTiming s ∧
    ∀ i a, s.getField i = .ok a → (s.smul k).getField i = .ok (a * k) ∧ (s.sdiv k).getField i = .ok (a / k) := by
  refine ⟨⟨rfl, rfl, rfl⟩, ⟨rfl, rfl, rfl⟩, ?_⟩
  intro i a ha
  obtain ⟨hi, ga⟩ := get_of_getField ha
  constructor
  · apply getField_of_get (by exact hi); simp [FieldTrace.smul, ga]
  · apply getField_of_get (by exact hi); simp [FieldTrace.sdiv, ga]

/-- C16, non-vacuity: a matching and a mismatching pair -/
example : (FieldTrace.new 0 1 3).WF ∧ (FieldTrace.new 0 1 3).SameTiming (FieldTrace.new 0 1 3) ∧
    ¬ (FieldTrace.new 0 1 3).SameTiming (FieldTrace.new 0 1 4) := by
  refine ⟨by simp [FieldTrace.new, WF], ⟨rfl, rfl, rfl⟩, ?_⟩
  intro h; have := h.1; simp [FieldTrace.new] at this

/-- C17: times of the samples.  They are equidistant, the last one is that of the last sample.  `get_center_time` is the middle of the
`N` time steps that start at the samples, which is half a step after the middle of the first and the last sample. -/
theorem C17_times (s : FieldTrace) (hN : 0 < s.N) : ∃ first last, s.getTime 0 = .ok first ∧ s.getLastTime = .ok last ∧ s.getTime (s.N - 1) = .ok last ∧
    first = s.t0 ∧ last = first + ((s.N - 1 : Nat) : ℝ) * s.dt ∧ s.getCenterTime = (first + (last + s.dt)) / 2 := by
  refine ⟨s.t0, s.t0 + ((s.N - 1 : Nat) : ℝ) * s.dt, ?_, ?_, ?_, rfl, rfl, ?_⟩
  · simp only [getTime]; rw [if_neg (by omega)]; simp
  · simp only [getLastTime, getTime]; rw [if_pos hN, if_neg (by omega)]
  · simp only [getTime]; rw [if_neg (by omega)]
  · obtain ⟨n, hn⟩ := Nat.exists_eq_succ_of_ne_zero hN.ne'
    simp only [getCenterTime, hn, Nat.succ_eq_add_one, Nat.add_sub_cancel]
    push_cast
    ring

example : ∃ s : FieldTrace, 0 < s.N ∧ s.getCenterTime = 1 := ⟨FieldTrace.new 0 1 2, by decide, by simp [getCenterTime, FieldTrace.new]; norm_num⟩

/-- C17: at the sampling time of sample `i` the stored sample is returned. -/
theorem C17_sampling_times (s : FieldTrace) (hdt : 0 < s.dt) (i : Nat) (f : EMField) (t : ℝ)
    (hf : s.getField i = .ok f) (ht : s.getTime i = .ok t) : s.fieldAtTime t = f := by
  obtain ⟨hi, gf⟩ := get_of_getField hf
  simp only [getTime] at ht
  rw [if_neg (by omega)] at ht
  injection ht with ht
  have hr : (t - s.t0) / s.dt = (i : ℝ) := by rw [← ht]; field_simp; ring
  simp only [fieldAtTime, hr, Int.floor_natCast]
  simp only [Int.cast_natCast, sub_self, sampleOrZero]
  rw [if_pos ⟨by omega, by omega⟩]
  simp only [Int.toNat_natCast, gf, Option.getD_some]
  ext <;> simp <;> norm_num

/-- C17: between two neighbouring samples the result is their linear interpolation. -/
theorem C17_interpolation (s : FieldTrace) (hdt : 0 < s.dt) (i : Nat) (f g : EMField) (t u time : ℝ)
    (hf : s.getField i = .ok f) (hg : s.getField (i + 1) = .ok g) (ht : s.getTime i = .ok t) (hu : s.getTime (i + 1) = .ok u)
    (h1 : t ≤ time) (h2 : time ≤ u) : s.fieldAtTime time = f + (g - f) * ((time - t) / (u - t)) := by
  obtain ⟨hi, gf⟩ := get_of_getField hf
  obtain ⟨hi1, gg⟩ := get_of_getField hg
  rcases lt_or_eq_of_le h2 with h2 | h2
  · simp only [getTime] at ht hu
    rw [if_neg (by omega)] at ht hu
    injection ht with ht
    injection hu with hu
    have hut : u - t = s.dt := by rw [← ht, ← hu]; push_cast; ring
    have hfl : ⌊(time - s.t0) / s.dt⌋ = (i : Int) := by
      rw [Int.floor_eq_iff]
      constructor
      · rw [le_div_iff₀ hdt]; push_cast; linarith
      · rw [div_lt_iff₀ hdt]; rw [← hu] at h2; push_cast at h2 ⊢; linarith
    simp only [fieldAtTime, hfl, sampleOrZero]
    rw [if_pos ⟨by omega, by omega⟩, if_pos ⟨by omega, by omega⟩]
    have : ((i : Int) + 1).toNat = i + 1 := by omega
    simp only [this, Int.toNat_natCast, gf, gg, Option.getD_some]
    have hfr : (time - s.t0) / s.dt - ((i : Int) : ℝ) = (time - t) / (u - t) := by
      rw [hut, ← ht]; push_cast; field_simp; ring
    rw [hfr]
    ext <;> simp <;> norm_num <;> ring
  · rw [h2, C17_sampling_times s hdt (i + 1) g u hg hu]
    have hne : u - t ≠ 0 := by
      simp only [getTime] at ht hu
      rw [if_neg (by omega)] at ht hu
      injection ht with ht
      injection hu with hu
      rw [← ht, ← hu]; push_cast; intro h; nlinarith
    rw [div_self hne]
    ext <;> simp

/-- C17 (partial): zero is returned for all times at least one time step away from the covered trace.
Missing: times less than one step before the first or after the last sample, see the theorem below. -/
theorem C17_outside_partial (s : FieldTrace) (hdt : 0 < s.dt) (time last : ℝ) (hl : s.getLastTime = .ok last) (hN : 0 < s.N)
    (h : time ≤ s.t0 - s.dt ∨ last + s.dt ≤ time) : s.fieldAtTime time = 0 := by
  simp only [getLastTime, getTime] at hl
  rw [if_pos (by omega), if_neg (by omega)] at hl
  injection hl with hl
  have hN1 : ((s.N - 1 : Nat) : ℝ) = (s.N : ℝ) - 1 := by rw [Nat.cast_sub (by omega)]; push_cast; ring
  rcases h with h | h
  · rcases lt_or_eq_of_le h with h | h
    · have hfl : ⌊(time - s.t0) / s.dt⌋ < -1 := by
        rw [Int.floor_lt, div_lt_iff₀ hdt]; push_cast; linarith
      simp only [fieldAtTime, sampleOrZero]
      rw [if_neg (by omega), if_neg (by omega)]
      ext <;> simp
    · have hr : (time - s.t0) / s.dt = ((-1 : Int) : ℝ) := by rw [h]; push_cast; field_simp; ring
      simp only [fieldAtTime, hr, Int.floor_intCast, sampleOrZero]
      rw [if_neg (by omega)]
      ext <;> simp
  · have hfl : (s.N : Int) ≤ ⌊(time - s.t0) / s.dt⌋ := by
      rw [Int.le_floor, le_div_iff₀ hdt]; push_cast; rw [← hl, hN1] at h; linarith
    simp only [fieldAtTime, sampleOrZero]
    rw [if_neg (by omega), if_neg (by omega)]
    ext <;> simp

/-- C17, what happens instead directly outside the trace: the field ramps linearly to the first sample and from
the last sample down to zero. -/
theorem C17_ramps (s : FieldTrace) (hw : s.WF) (hdt : 0 < s.dt) (hN : 0 < s.N) (time last : ℝ) (hl : s.getLastTime = .ok last)
    (f g : EMField) (hf : s.getField 0 = .ok f) (hg : s.getField (s.N - 1) = .ok g) :
    (s.t0 - s.dt ≤ time → time < s.t0 → s.fieldAtTime time = f * ((time - (s.t0 - s.dt)) / s.dt)) ∧
    (last ≤ time → time < last + s.dt → s.fieldAtTime time = g * (1 - (time - last) / s.dt)) := by
  simp only [getLastTime, getTime] at hl
  rw [if_pos (by omega), if_neg (by omega)] at hl
  injection hl with hl
  have hN1 : ((s.N - 1 : Nat) : ℝ) = (s.N : ℝ) - 1 := by rw [Nat.cast_sub (by omega)]; push_cast; ring
  obtain ⟨-, gf⟩ := get_of_getField hf
  obtain ⟨-, gg⟩ := get_of_getField hg
  constructor
  · intro h1 h2
    have hfl : ⌊(time - s.t0) / s.dt⌋ = -1 := by
      rw [Int.floor_eq_iff, le_div_iff₀ hdt, div_lt_iff₀ hdt]; push_cast; constructor <;> linarith
    simp only [fieldAtTime, hfl, sampleOrZero]
    rw [if_neg (by omega), if_pos (by omega)]
    simp only [neg_add_cancel, Int.toNat_zero, gf, Option.getD_some]
    have e : (time - s.t0) / s.dt - ((-1 : Int) : ℝ) = (time - (s.t0 - s.dt)) / s.dt := by push_cast; field_simp; ring
    rw [e]
    ext <;> simp
  · intro h1 h2
    rw [← hl, hN1] at h1 h2
    have hfl : ⌊(time - s.t0) / s.dt⌋ = ((s.N - 1 : Nat) : Int) := by
      rw [Int.floor_eq_iff, le_div_iff₀ hdt, div_lt_iff₀ hdt]
      rw [show (((s.N - 1 : Nat) : Int) : ℝ) = (s.N : ℝ) - 1 by rw [← hN1]; push_cast; rfl]
      constructor <;> linarith
    simp only [fieldAtTime, hfl, sampleOrZero]
    rw [if_pos (by omega), if_neg (by omega)]
    simp only [Int.toNat_natCast, gg, Option.getD_some]
    have e : (time - s.t0) / s.dt - (((s.N - 1 : Nat) : Int) : ℝ) = (time - last) / s.dt := by
      rw [show (((s.N - 1 : Nat) : Int) : ℝ) = ((s.N - 1 : Nat) : ℝ) by push_cast; rfl, ← hl]; field_simp; ring
    rw [e]
    ext <;> simp <;> norm_num

/-- C17: the documented "zero outside the covered trace" does not hold. -/
theorem C17_outside_full_statement_false :
    ¬ ∀ (s : FieldTrace) (time last : ℝ), s.WF → 0 < s.dt → 0 < s.N → s.getLastTime = .ok last →
      (time < s.t0 ∨ last < time) → s.fieldAtTime time = 0 := by
  intro h
  let F : EMField := ⟨⟨1, 0, 0⟩, 0⟩
  let s : FieldTrace := ⟨0, 1, 1, [F]⟩
  have h0 := h s (-(1 / 2)) 0 rfl (by simp [s]) (by simp [s]) (by simp [s, getLastTime, getTime]) (by left; norm_num [s])
  have hr := (C17_ramps s rfl (by simp [s]) (by simp [s]) (-(1 / 2)) 0 (by simp [s, getLastTime, getTime]) F F rfl rfl).1
    (by norm_num [s]) (by norm_num [s])
  rw [h0] at hr
  have := congrArg (fun f : EMField => f.E.x) hr
  norm_num [s, F] at this

theorem sampleInt_eq {s : FieldTrace} (hw : s.WF) (hN : s.N < 2 ^ 31) (i : Int) : s.sampleInt i = .ok (s.sampleOrZero i) := by
  have hb : Int.bmod s.N (2 ^ 32) = s.N := by
    have : ((2 ^ 32 : Nat) : Int) = 4294967296 := by norm_num
    rw [Int.bmod_eq_of_le] <;> (rw [this]; omega)
  unfold sampleInt sampleOrZero
  rw [hb]
  by_cases c : 0 ≤ i ∧ i < (s.N : Int)
  · rw [if_pos c, if_pos c]
    have hl : i.toNat < s.trace.length := by rw [show s.trace.length = s.N from hw]; omega
    rw [List.getElem?_eq_getElem hl]
    rfl
  · rw [if_neg c, if_neg c]

/-- C17 (partial): the lookup is defined for all times less than 2^31 - 1 steps away from the start of the trace, if the trace has
less than 2^31 samples; then it gives the value described by the theorems above.
Missing: times further away, see `C17_lookup_full_statement_false`. -/
theorem C17_lookup_defined_partial (s : FieldTrace) (hw : s.WF) (hN : s.N < 2 ^ 31) (hdt : 0 < s.dt) (time : ℝ)
    (h : |time - s.t0| < (2 ^ 31 - 1) * s.dt) : s.getFieldAt time = .ok (s.fieldAtTime time) := by
  have h' := abs_lt.mp h
  have a1 : -(2 ^ 31 - 1 : ℝ) < (time - s.t0) / s.dt := by rw [lt_div_iff₀ hdt]; linarith [h'.1]
  have a2 : (time - s.t0) / s.dt < (2 ^ 31 - 1 : ℝ) := by rw [div_lt_iff₀ hdt]; exact h'.2
  have b1 : (-(2 ^ 31 - 1) : Int) ≤ ⌊(time - s.t0) / s.dt⌋ := by rw [Int.le_floor]; push_cast; linarith
  have b2 : ⌊(time - s.t0) / s.dt⌋ < (2 ^ 31 - 1 : Int) := by rw [Int.floor_lt]; push_cast; linarith
  unfold getFieldAt fieldAtTime
  simp only [sampleInt_eq hw hN]
  rw [if_neg (by push Not; refine ⟨hdt.ne', by omega, by omega⟩)]
  simp only [bind, Except.bind]
  rw [if_neg (by omega)]
  rfl

/-- C17: a time 2^31 - 1 steps or more after the start, or more than 2^31 steps before it, makes the code convert a number that does
not fit into an `int` (or add one to the largest `int`). -/
theorem C17_lookup_undefined (s : FieldTrace) (hw : s.WF) (hN : s.N < 2 ^ 31) (hdt : 0 < s.dt) (time : ℝ)
    (h : s.t0 + (2 ^ 31 - 1) * s.dt ≤ time ∨ time < s.t0 - 2 ^ 31 * s.dt) : s.getFieldAt time = .error .ub := by
  unfold getFieldAt
  simp only [sampleInt_eq hw hN]
  by_cases c : s.dt = 0 ∨ ⌊(time - s.t0) / s.dt⌋ < -2 ^ 31 ∨ 2 ^ 31 ≤ ⌊(time - s.t0) / s.dt⌋
  · rw [if_pos c]
  · rw [if_neg c]
    push Not at c
    obtain ⟨-, c1, c2⟩ := c
    rcases h with h | h
    · have b : (2 ^ 31 - 1 : Int) ≤ ⌊(time - s.t0) / s.dt⌋ := by
        rw [Int.le_floor, le_div_iff₀ hdt]; push_cast; linarith
      simp only [bind, Except.bind]
      rw [if_pos (by omega)]
      rfl
    · have b : ⌊(time - s.t0) / s.dt⌋ < (-2 ^ 31 : Int) := by
        rw [Int.floor_lt, div_lt_iff₀ hdt]; push_cast; linarith
      omega

/-- C17: the lookup is not defined for all times. -/
theorem C17_lookup_full_statement_false :
    ¬ ∀ (s : FieldTrace) (time : ℝ), s.WF → 0 < s.dt → 0 < s.N → ∃ f, s.getFieldAt time = .ok f := by
  intro h
  obtain ⟨f, hf⟩ := h ⟨0, 1, 1, [0]⟩ (2 ^ 31) rfl (by simp) (by simp)
  rw [C17_lookup_undefined ⟨0, 1, 1, [0]⟩ rfl (by norm_num) (by simp) _ (by left; norm_num)] at hf
  cases hf

/-- C17: a trace with 2^31 samples or more (less than 2^32) reads as zero at all times at which the lookup is defined. -/
theorem C17_long_trace (s : FieldTrace) (hN : 2 ^ 31 ≤ s.N) (hN' : s.N < 2 ^ 32) (time : ℝ) (f : EMField)
    (h : s.getFieldAt time = .ok f) : f = 0 := by
  have hb : Int.bmod s.N (2 ^ 32) < 0 := by
    have : ((2 ^ 32 : Nat) : Int) = 4294967296 := by norm_num
    have e : (2 ^ 32 : Nat) = 4294967296 := by norm_num
    rw [Int.bmod_def, Int.emod_eq_of_lt (by omega) (by rw [this]; omega), if_neg (by rw [this]; omega), this]
    omega
  have hs : ∀ i, s.sampleInt i = .ok 0 := by
    intro i
    unfold sampleInt
    rw [if_neg (by omega)]
  unfold getFieldAt at h
  simp only [hs] at h
  by_cases c : s.dt = 0 ∨ ⌊(time - s.t0) / s.dt⌋ < -2 ^ 31 ∨ 2 ^ 31 ≤ ⌊(time - s.t0) / s.dt⌋
  · rw [if_pos c] at h; cases h
  · rw [if_neg c] at h
    simp only [bind, Except.bind] at h
    by_cases d : ⌊(time - s.t0) / s.dt⌋ + 1 = 2 ^ 31
    · rw [if_pos d] at h; cases h
    · rw [if_neg d] at h
      injection h with h
      rw [← h]
      ext <;> simp

/-- C17, non-vacuity -/
example : ∃ s : FieldTrace, s.WF ∧ 0 < s.dt ∧ (∃ f, s.getField 1 = .ok f) ∧ ∃ t, s.getTime 2 = .ok t :=
  ⟨⟨0, 1, 3, [0, 0, 0]⟩, rfl, by simp, ⟨0, rfl⟩, by simp [getTime]⟩

/-- C18: for two samples or more the derivative exists, keeps the timing and is the difference quotient:
one-sided at both ends, central in between. -/
theorem C18_derivative (s : FieldTrace) (hw : s.WF) (hN : 2 ≤ s.N) : ∃ d, s.derivative = .ok d ∧ d.WF ∧ d.SameTiming s ∧
    (∀ a b, s.getField 0 = .ok a → s.getField 1 = .ok b → d.getField 0 = .ok ((b - a) / s.dt)) ∧
    (∀ a b, s.getField (s.N - 2) = .ok a → s.getField (s.N - 1) = .ok b → d.getField (s.N - 1) = .ok ((b - a) / s.dt)) ∧
    (∀ i a b, s.getField i = .ok a → s.getField (i + 2) = .ok b → d.getField (i + 1) = .ok ((b - a) / (2 * s.dt))) := by
  have hlen : s.trace.length = s.N := hw
  simp only [derivative]
  rw [if_neg (by omega)]
  have two : (2.0 : ℝ) = 2 := by norm_num
  refine ⟨_, rfl, by simp [WF], ⟨rfl, rfl, rfl⟩, ?_, ?_, ?_⟩
  · intro a b ha hb
    have ga := (get_of_getField ha).2
    have gb := (get_of_getField hb).2
    refine getField_of_get (by show 0 < s.N; omega) ?_
    simp only [List.getElem?_map]
    rw [List.getElem?_range (by omega)]
    simp [ga, gb]
  · intro a b ha hb
    have ga := (get_of_getField ha).2
    have gb := (get_of_getField hb).2
    refine getField_of_get (by show s.N - 1 < s.N; omega) ?_
    simp only [List.getElem?_map]
    rw [List.getElem?_range (by omega)]
    simp only [Option.map_some]
    rw [if_neg (by omega), if_pos trivial, ga, gb]
    rfl
  · intro i a b ha hb
    obtain ⟨-, ga⟩ := get_of_getField ha
    obtain ⟨hi, gb⟩ := get_of_getField hb
    refine getField_of_get (by show i + 1 < s.N; omega) ?_
    simp only [List.getElem?_map]
    rw [List.getElem?_range (by omega)]
    simp only [Option.map_some]
    rw [if_neg (by omega), if_neg (by omega)]
    simp only [Nat.add_sub_cancel, ga, gb, Option.getD_some, two]

/-- C18: the derivative is exact for every trace that is linear in time. -/
theorem C18_linear_exact (s : FieldTrace) (hw : s.WF) (hN : 2 ≤ s.N) (hdt : s.dt ≠ 0) (a b : EMField)
    (hlin : ∀ i, i < s.N → s.getField i = .ok (a + b * ((i : ℝ) * s.dt))) :
    ∃ d, s.derivative = .ok d ∧ d.SameTiming s ∧ ∀ i, i < s.N → d.getField i = .ok b := by
  obtain ⟨d, hd, -, ht, h0, h1, h2⟩ := C18_derivative s hw hN
  refine ⟨d, hd, ht, ?_⟩
  have e1 : ∀ (x y k : ℝ), x ≠ y → k ≠ 0 → ∀ q : ℝ, q = y * k - x * k → (a + b * (y * k) - (a + b * (x * k))) / q = b := by
    intro x y k hxy hk q hq
    have : y * k - x * k ≠ 0 := by rw [← sub_mul]; exact mul_ne_zero (sub_ne_zero.mpr (Ne.symm hxy)) hk
    subst hq
    ext <;> simp <;> field_simp <;> ring
  intro i hi
  rcases Nat.eq_zero_or_pos i with h | h
  · rw [h, h0 _ _ (hlin 0 (by omega)) (hlin 1 (by omega))]
    rw [e1 _ _ _ (by push_cast; norm_num) hdt _ (by push_cast; ring)]
  · by_cases hl : i = s.N - 1
    · obtain ⟨m, hm⟩ : ∃ m, s.N = m + 2 := ⟨s.N - 2, by omega⟩
      rw [hl, h1 _ _ (hlin _ (by omega)) (hlin _ (by omega))]
      have hm1 : s.N - 1 = m + 1 := by omega
      have hm2 : s.N - 2 = m := by omega
      rw [hm1, hm2]
      rw [e1 _ _ _ (by push_cast; norm_num) hdt _ (by push_cast; ring)]
    · obtain ⟨m, rfl⟩ : ∃ m, i = m + 1 := ⟨i - 1, by omega⟩
      rw [h2 m _ _ (hlin _ (by omega)) (hlin _ (by omega))]
      rw [e1 _ _ _ (by push_cast; intro h; linarith) hdt _ (by push_cast; ring)]

/-- C18: in the interior of the trace the derivative is exact for quadratic time dependence, too. -/
theorem C18_quadratic_exact (s : FieldTrace) (hw : s.WF) (hN : 2 ≤ s.N) (hdt : s.dt ≠ 0) (a b c : EMField)
    (hq : ∀ i, i < s.N → s.getField i = .ok (a + b * ((i : ℝ) * s.dt) + c * ((i : ℝ) * s.dt) ^ 2)) :
    ∃ d, s.derivative = .ok d ∧ ∀ i, 0 < i → i + 1 < s.N → d.getField i = .ok (b + c * (2 * ((i : ℝ) * s.dt))) := by
  obtain ⟨d, hd, -, ht, h0, h1, h2⟩ := C18_derivative s hw hN
  refine ⟨d, hd, ?_⟩
  intro i hi hi1
  obtain ⟨m, rfl⟩ : ∃ m, i = m + 1 := ⟨i - 1, by omega⟩
  rw [h2 m _ _ (hq _ (by omega)) (hq _ (by omega))]
  congr 1
  ext <;> simp <;> field_simp <;> ring

/-- C18: a trace of less than two samples makes the method read outside the trace. -/
theorem C18_short_trace_full_statement_false (s : FieldTrace) (h : s.N < 2) : s.derivative = .error .ub := by
  simp [derivative, h]

/-- C18, non-vacuity: a linear three-sample trace -/
example : ∃ (s : FieldTrace) (a b : EMField), s.WF ∧ 2 ≤ s.N ∧ s.dt ≠ 0 ∧
    ∀ i, i < s.N → s.getField i = .ok (a + b * ((i : ℝ) * s.dt)) := by
  let b : EMField := ⟨⟨1, 0, 0⟩, ⟨0, 1, 0⟩⟩
  refine ⟨⟨0, 1, 3, [0 + b * ((0:ℝ) * 1), 0 + b * ((1:ℝ) * 1), 0 + b * ((2:ℝ) * 1)]⟩, 0, b, rfl, by simp, by simp, ?_⟩
  intro i hi
  match i with
  | 0 => simp [getField]
  | 1 => simp [getField]
  | 2 => simp [getField]
  | i + 3 => simp at hi

/-- C19: reads, writes, additions and time queries succeed exactly below the length, and raise IOexception otherwise. -/
theorem C19_index_guards (s : FieldTrace) (hw : s.WF) (i : Nat) (f : EMField) :
    (i < s.N → (∃ g, s.getField i = .ok g) ∧ (∃ t, s.getTime i = .ok t) ∧ (∃ r, s.setField i f = .ok r) ∧ ∃ r, s.addAt i f = .ok r) ∧
    (s.N ≤ i → s.getField i = .error .io ∧ s.getTime i = .error .io ∧ s.setField i f = .error .io ∧ s.addAt i f = .error .io) := by
  have hlen : s.trace.length = s.N := hw
  constructor
  · intro h
    have g : s.trace[i]? = some (s.trace[i]'(by omega)) := List.getElem?_eq_getElem (by omega)
    refine ⟨⟨_, getField_of_get h g⟩, ⟨_, by simp only [getTime]; rw [if_neg (by omega)]⟩, ?_, ?_⟩
    · simp only [setField]; rw [if_neg (by omega), if_pos (by omega)]; exact ⟨_, rfl⟩
    · simp only [addAt]; rw [if_neg (by omega), g]; exact ⟨_, rfl⟩
  · intro h
    simp only [getField, getTime, setField, addAt]
    rw [if_pos (by omega)]
    simp [h]

/-- C19: a write changes exactly the addressed sample, to the written value; an addition adds to it. -/
theorem C19_write_effect (s r : FieldTrace) (hw : s.WF) (i : Nat) (f : EMField) :
    (s.setField i f = .ok r → r.WF ∧ r.SameTiming s ∧ r.getField i = .ok f ∧ ∀ j, j ≠ i → r.getField j = s.getField j) ∧
    (s.addAt i f = .ok r → r.WF ∧ r.SameTiming s ∧ (∀ g, s.getField i = .ok g → r.getField i = .ok (g + f)) ∧
      ∀ j, j ≠ i → r.getField j = s.getField j) := by
  have hlen : s.trace.length = s.N := hw
  constructor
  · intro h
    simp only [setField] at h
    split at h
    · simp at h
    · rename_i hi
      rw [if_pos (by omega)] at h
      injection h with h
      subst h
      refine ⟨by simp [WF, hlen], ⟨rfl, rfl, rfl⟩, ?_, ?_⟩
      · refine getField_of_get (by show i < s.N; omega) ?_
        simp only; rw [List.getElem?_set_self (by omega)]
      · intro j hj
        simp only [getField]
        rw [List.getElem?_set_ne (Ne.symm hj)]
  · intro h
    simp only [addAt] at h
    split at h
    · simp at h
    · rename_i hi
      split at h
      · rename_i g hg
        injection h with h
        subst h
        refine ⟨by simp [WF, hlen], ⟨rfl, rfl, rfl⟩, ?_, ?_⟩
        · intro g' hg'
          have := (get_of_getField hg').2
          rw [hg] at this
          injection this with this
          subst this
          refine getField_of_get (by show i < s.N; omega) ?_
          simp only; rw [List.getElem?_set_self (by omega)]
        · intro j hj
          simp only [getField]
          rw [List.getElem?_set_ne (Ne.symm hj)]
      · simp at h

theorem FieldTrace.getBuffer_eq (s : FieldTrace) (hw : s.WF) : s.getBuffer s.N = .ok s.trace := by
  have hlen : s.trace.length = s.N := hw
  simp only [getBuffer]
  rw [if_neg (by simp)]
  have key : ∀ n, n ≤ s.N → (List.range n).mapM s.getField = .ok (s.trace.take n) := by
    intro n
    induction n with
    | zero => intro _; simp; rfl
    | succ n ih =>
      intro hn
      rw [List.range_succ, List.mapM_append, ih (by omega)]
      simp only [List.mapM_cons, List.mapM_nil, bind, Except.bind, pure, Except.pure]
      rw [getField_of_get (show n < s.N by omega) (List.getElem?_eq_getElem (show n < s.trace.length by omega))]
      simp only
      rw [List.take_add_one, List.getElem?_eq_getElem (show n < s.trace.length by omega)]
      rfl
  rw [key s.N (le_refl _), ← hlen, List.take_length]

theorem FieldTrace.setBuffer_eq (s : FieldTrace) (hw : s.WF) (buf : List EMField) (hb : buf.length = s.N) :
    s.setBuffer buf s.N = .ok { s with trace := buf } := by
  have hlen : s.trace.length = s.N := hw
  simp only [setBuffer]
  rw [if_neg (by simp)]
  have key : ∀ n, n ≤ s.N → (List.range n).foldlM (setFrom buf) s = .ok { s with trace := buf.take n ++ s.trace.drop n } := by
    intro n
    induction n with
    | zero => intro _; rfl
    | succ n ih =>
      intro hn
      rw [List.range_succ, List.foldlM_append, ih (by omega)]
      simp only [List.foldlM_cons, List.foldlM_nil, bind, Except.bind, pure, Except.pure]
      simp only [setFrom]
      rw [List.getElem?_eq_getElem (show n < buf.length by omega)]
      simp only [setField]
      rw [if_neg (by omega), if_pos (by simp; omega)]
      simp only
      congr 2
      apply List.ext_getElem?
      intro j
      rw [List.getElem?_set, List.length_append, List.length_take, List.length_drop]
      rcases Nat.lt_trichotomy j n with h | h | h
      · rw [if_neg (by omega), List.getElem?_append_left (by simp; omega), List.getElem?_append_left (by simp; omega)]
        simp [List.getElem?_take, h, show j < n + 1 by omega]
      · subst h
        rw [if_pos rfl, if_pos (by omega), List.getElem?_append_left (by simp; omega)]
        simp [List.getElem?_take, List.getElem?_eq_getElem (show j < buf.length by omega)]
      · rw [if_neg (by omega), List.getElem?_append_right (by simp; omega), List.getElem?_append_right (by simp; omega)]
        simp only [List.length_take, List.getElem?_drop]
        congr 1
        omega
  rw [key s.N (le_refl _)]
  congr 2
  rw [← hb, List.take_length, hb, ← hlen, List.drop_length, List.append_nil]

/-- C19: importing a buffer of the trace's length and exporting again yields the buffer; exporting and importing into
a trace of equal sampling yields the same trace; other lengths are rejected. -/
theorem C19_bulk_round_trip (s t : FieldTrace) (hw : s.WF) (ht : t.WF) :
    (∀ buf : List EMField, buf.length = s.N → ∃ r, s.setBuffer buf s.N = .ok r ∧ r.SameTiming s ∧ r.getBuffer s.N = .ok buf) ∧
    (t.SameTiming s → ∃ buf, s.getBuffer s.N = .ok buf ∧ buf.length = s.N ∧ t.setBuffer buf t.N = .ok s) ∧
    (∀ n, n ≠ s.N → s.getBuffer n = .error .io ∧ ∀ buf, s.setBuffer buf n = .error .io) := by
  refine ⟨?_, ?_, ?_⟩
  · intro buf hb
    refine ⟨_, s.setBuffer_eq hw buf hb, ⟨rfl, rfl, rfl⟩, ?_⟩
    exact FieldTrace.getBuffer_eq { s with trace := buf } hb
  · intro h
    have hlen : s.trace.length = s.N := hw
    refine ⟨s.trace, s.getBuffer_eq hw, hlen, ?_⟩
    rw [t.setBuffer_eq ht s.trace (by rw [hlen, h.1])]
    congr 1
    obtain ⟨h1, h2, h3⟩ := h
    ext1 <;> simp [h1, h2, h3]
  · intro n hn
    simp only [getBuffer, setBuffer]
    simp [hn]

/-- C20: every sample of the result is perpendicular to the direction. -/
theorem C20_perpendicular (s : FieldTrace) (n : Vec) (hn : n ≠ 0) (i : Nat) (f : EMField)
    (h : (s.cancelLongFields n).getField i = .ok f) : dot f.E n = 0 ∧ dot f.B n = 0 := by
  obtain ⟨hi, g⟩ := get_of_getField h
  simp only [cancelLongFields, List.getElem?_map, Option.map_eq_some_iff] at g
  obtain ⟨a, -, rfl⟩ := g
  have h1 : dot n.normalize n = n.norm := by
    rw [normalize_eq, dot_div_left, dot_self, ← norm_mul_self]
    have := norm_pos hn; field_simp
  have h2 : ∀ v : Vec, dot (v - n.normalize * dot v n.normalize) n = 0 := by
    intro v
    rw [dot_sub_left, dot_mul_left, h1, normalize_eq, dot_div_right]
    have := norm_pos hn; field_simp; ring
  exact ⟨h2 a.E, h2 a.B⟩

/-- C20: the operation removes nothing but the component along the direction: the perpendicular part survives, in
particular transversal samples are unchanged. -/
theorem C20_transversal_part (s : FieldTrace) (n : Vec) (i : Nat) (f g : EMField)
    (hf : s.getField i = .ok f) (hg : (s.cancelLongFields n).getField i = .ok g) :
    (∃ a b : ℝ, f.E - g.E = n * a ∧ f.B - g.B = n * b) ∧ (dot f.E n = 0 → g.E = f.E) ∧ (dot f.B n = 0 → g.B = f.B) := by
  obtain ⟨hi, ga⟩ := get_of_getField hf
  obtain ⟨-, gb⟩ := get_of_getField hg
  simp only [cancelLongFields, List.getElem?_map, ga, Option.map_some] at gb
  injection gb with gb
  subst gb
  have e : ∀ v : Vec, v - (v - n.normalize * dot v n.normalize) = n * (dot v n.normalize / n.norm) := by
    intro v; rw [normalize_eq]; ext <;> simp <;> ring
  have z : ∀ v : Vec, dot v n = 0 → v - n.normalize * dot v n.normalize = v := by
    intro v hv
    have : dot v n.normalize = 0 := by rw [normalize_eq, dot_div_right, hv, zero_div]
    rw [this]; ext <;> simp
  exact ⟨⟨_, _, e _, e _⟩, z _, z _⟩

/-- C20: repeating the operation changes nothing. -/
theorem C20_idempotent (s : FieldTrace) (n : Vec) (hn : n ≠ 0) :
    (s.cancelLongFields n).cancelLongFields n = s.cancelLongFields n := by
  have h1 := normalize_abs2nd hn
  have z : ∀ v : Vec, dot (v - n.normalize * dot v n.normalize) n.normalize = 0 := by
    intro v; rw [dot_sub_left, dot_mul_left, dot_self, h1]; ring
  simp only [cancelLongFields, List.map_map]
  congr 1
  apply List.map_congr_left
  intro f _
  simp only [Function.comp, cancelLong, z]
  ext <;> simp

/-- C20, non-vacuity -/
example : (⟨0, 0, 2⟩ : Vec) ≠ 0 := by intro h; have := congrArg Vec.z h; simp at this

/-- time-integrated energy flow: dt times the sum of E × B / μ0 over all samples -/
theorem FieldTrace.poynting_eq (s : FieldTrace) : s.poynting = (s.trace.map fun f => cross f.E f.B / MuNull).sum * s.dt := by
  simp only [poynting]
  congr 1
  have : ∀ (l : List EMField) (v : Vec), l.foldl (fun sum f => sum + f.Poynting) v = v + (l.map fun f => cross f.E f.B / MuNull).sum := by
    intro l
    induction l with
    | nil => intro v; simp
    | cons a l ih => intro v; rw [List.foldl_cons, ih]; simp only [List.map_cons, List.sum_cons, ← add_assoc]; rfl
  rw [this, zero_add]

/-- C21: the target keeps its timing, sample `i` becomes the source field at the sampling time minus the delay, and an
error is raised exactly if the transferred trace has no net energy flow. -/
theorem C21_retard (s target : FieldTrace) (delay : ℝ) :
    (s.retard delay target).1.WF ∧ (s.retard delay target).1.SameTiming target ∧
    (∀ i t, target.getTime i = .ok t → (s.retard delay target).1.getField i = .ok (s.fieldAtTime (t - delay))) ∧
    ((s.retard delay target).2 = some .io ↔
      ((s.retard delay target).1.trace.map fun f => cross f.E f.B / MuNull).sum * target.dt = 0) ∧
    ((s.retard delay target).2 ≠ some .io → (s.retard delay target).2 = none) := by
  simp only [retard]
  refine ⟨by simp [WF], ⟨rfl, rfl, rfl⟩, ?_, ?_, ?_⟩
  · intro i t ht
    simp only [getTime] at ht
    split at ht
    · simp at ht
    · rename_i hi
      injection ht with ht
      refine getField_of_get (by show i < target.N; omega) ?_
      simp only [List.getElem?_map]
      rw [List.getElem?_range (by omega), ← ht]; rfl
  · rw [ite_eq_left_iff]
    simp only [reduceCtorEq, imp_false, not_not]
    rw [Vec.norm_eq_zero, FieldTrace.poynting_eq]
  · split <;> simp

/-- C21: with the interpolation result of C17 this is an exact copy when the delay is a whole number `k` of samples
between traces of equal time step and start: sample `i+k` of the target is sample `i` of the source. -/
theorem C21_whole_steps (s target : FieldTrace) (hdt : 0 < s.dt) (h1 : target.dt = s.dt) (h2 : target.t0 = s.t0)
    (k i : Nat) (f : EMField) (hf : s.getField i = .ok f) (hk : i + k < target.N) :
    (s.retard (k * s.dt) target).1.getField (i + k) = .ok f := by
  obtain ⟨-, -, h, -, -⟩ := C21_retard s target (k * s.dt)
  have ht : target.getTime (i + k) = .ok (target.t0 + ((i + k : Nat) : ℝ) * target.dt) := by
    simp only [getTime]; rw [if_neg (by omega)]
  rw [h _ _ ht]
  obtain ⟨hi, -⟩ := get_of_getField hf
  have ht' : s.getTime i = .ok (target.t0 + ((i + k : Nat) : ℝ) * target.dt - k * s.dt) := by
    simp only [getTime]; rw [if_neg (by omega), h1, h2]; congr 1; push_cast; ring
  rw [C17_sampling_times s hdt i f _ hf ht']

end Teufel
