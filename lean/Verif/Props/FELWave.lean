import Verif.Spec.Wave
import Verif.Props.FELFile
import Verif.Props.FELCurrent

/-!
# C107: the field radiated by the beam into the FEL interaction
-/

namespace Teufel
open Vec

namespace FEL

theorem share_deposited {f : FEL} (hs : f.Sane) (p : Particle) (i : Nat) : f.share p i =
    if i < f.N ∧ |(i : Int) - crint (f.cellsBehindHead p)| ≤ 10 then
      f.Contribution p * (Real.exp (-(i - f.cellsBehindHead p) ^ 2 / 8) / (2 * Real.sqrt (2 * Real.pi))) else 0 := by
  have hds := hs.ds_pos
  have hd : f.depth p.XCur = f.cellsBehindHead p * f.ds := by
    unfold depth cellsBehindHead; field_simp
  have hq : f.depth p.XCur / f.ds = f.cellsBehindHead p := rfl
  unfold share
  simp only
  rw [hq, contribution_eq]
  have e : -(f.depth p.XCur - i * f.ds) ^ 2 / (2 * (2 * f.ds) ^ 2) = -(i - f.cellsBehindHead p) ^ 2 / 8 := by
    rw [hd]; field_simp; ring
  rw [e]
  have hc : (i < f.N ∧ crint (f.cellsBehindHead p) - 10 ≤ i ∧ (i : Int) ≤ crint (f.cellsBehindHead p) + 10) ↔
      (i < f.N ∧ |(i : Int) - crint (f.cellsBehindHead p)| ≤ 10) := by
    rw [abs_le]; omega
  by_cases c : i < f.N ∧ |(i : Int) - crint (f.cellsBehindHead p)| ≤ 10
  · rw [if_pos c, if_pos (hc.mpr c), Pi, mul_div_assoc]
  · rw [if_neg c, if_neg (fun h => c (hc.mp h))]

theorem step_deposited {f f' : FEL} (hf : f.Reachable) (hs : f.Sane) {b : Beam} (hstep : f.step b = .ok f') :
    f.Advanced f' (f.deposited b) := by
  obtain ⟨_, _, ps, J, due, t1, t2, _, _, t5, _, _⟩ := step_inv hf.inv.sized hstep
  have hacc : ∀ p ∈ ps, f.Accepts p := by
    by_contra hno
    rw [deposit_all_rejects hs ps _ (by simp) hno] at t2
    cases t2
  obtain ⟨J2, j1, _, j3⟩ := deposit_all hs ps (List.replicate f.N 0) (by simp) hacc
  rw [j1] at t2
  injection t2 with t2
  subst t2
  have : fval J2 = f.deposited b := by
    funext i
    rw [j3, fval_replicate, zero_add]
    unfold deposited
    rw [t1]
    simp only
    congr 1
    exact List.map_congr_left (fun p _ => share_deposited hs p i)
  rwa [this] at t5

theorem Course.sane {h : Nat → FEL} {b : Nat → Beam} {n : Nat} (hc : Course h b n) (hs : (h 0).Sane) {k : Nat} (hk : k ≤ n) : (h k).Sane := by
  obtain ⟨a1, a2, a3, a4, a5, _⟩ := course_const hc k hk
  exact ⟨by rw [a1]; exact hs.two, by rw [a1]; exact hs.int, by rw [a2]; exact hs.dt, by rw [a3, a2]; exact hs.ds, by rw [a5]; exact hs.zR, by rw [a4]; exact hs.w0⟩

/-- what the beam adds to the field of cell `i` in call number `k+1` -/
noncomputable def added (h : Nat → FEL) (b : Nat → Beam) (k i : Nat) : ℝ := if k = 0 then 0 else (h k).deposited (b k) i

theorem Course.advanced {h : Nat → FEL} {b : Nat → Beam} {n : Nat} (hc : Course h b n) (hs : (h 0).Sane) {k : Nat} (hk : k < n) :
    (h k).Advanced (h (k + 1)) (added h b k) := by
  have hr := hc.reachable k (by omega)
  cases k with
  | zero =>
    obtain ⟨_, _, _, ha, _⟩ := init_inv hr.inv.sized (hc.first hk)
    have : added h b 0 = fun _ => 0 := by funext i; simp [added]
    rw [this]; exact ha
  | succ k =>
    have := step_deposited hr (hc.sane hs (by omega)) (hc.next (k + 1) (by omega) hk)
    have e : added h b (k + 1) = (h (k + 1)).deposited (b (k + 1)) := by funext i; simp [added]
    rw [e]; exact this

theorem Course.prev {h : Nat → FEL} {b : Nat → Beam} {n : Nat} (hc : Course h b n) (hs : (h 0).Sane) {k : Nat} (hk : k < n) (j : Nat) :
    fval (h (k + 1)).prev j = fval (h k).E j + if 1 ≤ j ∧ j + 1 < (h 0).N then (h 0).dt ^ 2 * added h b k j else 0 := by
  rw [(hc.advanced hs hk).prev, (course_const hc k hk.le).1, (course_const hc k hk.le).2.1, sq]

/-- the recurrence of the cells -/
theorem Course.cells {h : Nat → FEL} {b : Nat → Beam} {n : Nat} (hc : Course h b n) (hs : (h 0).Sane) {k : Nat} (hk : k < n) :
    fval (h (k + 1)).E 0 = 0 ∧ fval (h (k + 1)).E 1 = fval (h k).E 0 ∧ ∀ j, j + 2 < (h 0).N →
      fval (h (k + 1)).E (j + 2) = fval (h k).E j + fval (h k).E (j + 2) - fval (h k).prev j + (h 0).dt ^ 2 * added h b k (j + 1) := by
  have ha := hc.advanced hs hk
  have e := course_const hc k hk.le
  refine ⟨by rw [ha.E]; simp [nextVal], by rw [ha.E]; simp [nextVal], ?_⟩
  intro j hj
  rw [ha.E]
  unfold nextVal
  rw [if_neg (by omega), if_neg (by omega), if_pos (by rw [e.1]; exact hj), e.2.1]
  simp only [Nat.add_sub_cancel]
  rw [show j + 2 - 1 = j + 1 by omega, sq]

theorem fieldAtPlace_cell (h : Nat → FEL) (k i : Nat) : fieldAtPlace h k ((k : Int) - i) = fval (h k).E i := by
  unfold fieldAtPlace fval
  rw [if_pos (by omega), show ((k : Int) - ((k : Int) - i)).toNat = i by omega]

/-- **C107 (what is computed).** Inside the grid the field obeys a wave equation, the source of which is not the current deposited by
the beam in this call, but the difference between this call and the previous one at the same place. -/
theorem C107_computed {h : Nat → FEL} {b : Nat → Beam} {n : Nat} (hc : Course h b n) (hs : (h 0).Sane) {k i : Nat} (hk : 1 ≤ k) (hkn : k < n)
    (hi : 1 ≤ i) (hiN : i + 2 ≤ (h 0).N) :
    waveOperator (h 0).dt (fieldAtPlace h) k ((k : Int) - i) =
      (h k).deposited (b k) i - if 2 ≤ k ∧ 2 ≤ i then (h (k - 1)).deposited (b (k - 1)) (i - 1) else 0 := by
  obtain ⟨m, rfl⟩ : ∃ m, k = m + 1 := ⟨k - 1, by omega⟩
  obtain ⟨j, rfl⟩ : ∃ j, i = j + 1 := ⟨i - 1, by omega⟩
  have hdt := hs.dt
  have c1 := (hc.cells hs hkn).2.2 j (by omega)
  rw [hc.prev hs (show m < n by omega) j] at c1
  have f1 : fieldAtPlace h (m + 1 + 1) (((m + 1 : Nat) : Int) - (j + 1 : Nat)) = fval (h (m + 1 + 1)).E (j + 2) := by
    rw [← fieldAtPlace_cell]; congr 1; push_cast; ring
  have f2 : fieldAtPlace h (m + 1) (((m + 1 : Nat) : Int) - (j + 1 : Nat) + 1) = fval (h (m + 1)).E j := by
    rw [← fieldAtPlace_cell]; congr 1; push_cast; ring
  have f3 : fieldAtPlace h (m + 1) (((m + 1 : Nat) : Int) - (j + 1 : Nat) - 1) = fval (h (m + 1)).E (j + 2) := by
    rw [← fieldAtPlace_cell]; congr 1; push_cast; ring
  have f4 : fieldAtPlace h (m + 1 - 1) (((m + 1 : Nat) : Int) - (j + 1 : Nat)) = fval (h m).E j := by
    rw [← fieldAtPlace_cell, show m + 1 - 1 = m by omega]; congr 1; push_cast; ring
  unfold waveOperator
  rw [f1, f2, f3, f4, c1]
  have a1 : added h b (m + 1) (j + 1) = (h (m + 1)).deposited (b (m + 1)) (j + 1) := by simp [added]
  rw [a1, show m + 1 - 1 = m by omega, show j + 1 - 1 = j by omega]
  by_cases c : 2 ≤ m + 1 ∧ 2 ≤ j + 1
  · rw [if_pos c, if_pos (by omega)]
    have a2 : added h b m j = (h m).deposited (b m) j := by unfold added; rw [if_neg (by omega)]
    rw [a2]
    field_simp
    ring
  · rw [if_neg c]
    have a2 : (if 1 ≤ j ∧ j + 1 < (h 0).N then (h 0).dt ^ 2 * added h b m j else 0) = 0 := by
      by_cases d : 1 ≤ j ∧ j + 1 < (h 0).N
      · rw [if_pos d]
        have : m = 0 := by omega
        simp [added, this]
      · rw [if_neg d]
    rw [a2]
    field_simp
    ring

/-- alternating sums -/
noncomputable def alt (a : Nat → ℝ) : Nat → ℝ
  | 0 => 0
  | j + 1 => a j - alt a j

theorem alt_eq (a : Nat → ℝ) (j : Nat) : alt a j = ∑ i ∈ Finset.range j, (-1) ^ (j - 1 - i) * a i := by
  induction j with
  | zero => simp [alt]
  | succ j ih =>
    rw [alt, ih, Finset.sum_range_succ, show j + 1 - 1 - j = 0 by omega, pow_zero, one_mul, add_comm, sub_eq_add_neg, ← Finset.sum_neg_distrib]
    congr 1
    refine Finset.sum_congr rfl (fun i hi => ?_)
    have := Finset.mem_range.mp hi
    rw [show j + 1 - 1 - i = (j - 1 - i) + 1 by omega, pow_succ]
    ring

theorem alt_le (a : Nat → ℝ) (h0 : a 0 = 0) (j : Nat) : |alt a j| ≤ ∑ i ∈ Finset.range (j - 1), |a (i + 1) - a i| ∧
    |alt a (j + 1)| ≤ ∑ i ∈ Finset.range j, |a (i + 1) - a i| := by
  induction j with
  | zero => simp [alt, h0]
  | succ j ih =>
    refine ⟨by simpa using ih.2, ?_⟩
    rw [alt, alt, Finset.sum_range_succ]
    have : |a (j + 1) - (a j - alt a j)| ≤ |a (j + 1) - a j| + |alt a j| := by
      rw [show a (j + 1) - (a j - alt a j) = (a (j + 1) - a j) + alt a j by ring]; exact abs_add_le _ _
    have mono : ∑ i ∈ Finset.range (j - 1), |a (i + 1) - a i| ≤ ∑ i ∈ Finset.range j, |a (i + 1) - a i| :=
      Finset.sum_le_sum_of_subset_of_nonneg (Finset.range_mono (by omega)) (fun _ _ _ => abs_nonneg _)
    linarith [ih.1]

/-- the response to the currents of the calls before -/
noncomputable def response (a : Nat → Nat → ℝ) (n j : Nat) : ℝ :=
  ∑ k ∈ Finset.range n, (alt (a k) j + alt (a k) (j + 1 - 2 * (n - k)))

theorem response_rec (a : Nat → Nat → ℝ) (n j : Nat) :
    response a (n + 2) (j + 2) = response a (n + 1) j + response a (n + 1) (j + 2) - (response a n j + a n j) + a (n + 1) (j + 1) := by
  unfold response
  rw [Finset.sum_range_succ _ (n + 1), Finset.sum_range_succ _ n, Finset.sum_range_succ _ n, Finset.sum_range_succ _ n]
  have e : ∑ k ∈ Finset.range n, (alt (a k) (j + 2) + alt (a k) (j + 2 + 1 - 2 * (n + 2 - k))) +
      ∑ k ∈ Finset.range n, (alt (a k) j + alt (a k) (j + 1 - 2 * (n - k))) =
      ∑ k ∈ Finset.range n, (alt (a k) j + alt (a k) (j + 1 - 2 * (n + 1 - k))) +
      ∑ k ∈ Finset.range n, (alt (a k) (j + 2) + alt (a k) (j + 2 + 1 - 2 * (n + 1 - k))) := by
    rw [← Finset.sum_add_distrib, ← Finset.sum_add_distrib]
    refine Finset.sum_congr rfl (fun k hk => ?_)
    have := Finset.mem_range.mp hk
    rw [show j + 2 + 1 - 2 * (n + 2 - k) = j + 1 - 2 * (n + 1 - k) by omega, show j + 2 + 1 - 2 * (n + 1 - k) = j + 1 - 2 * (n - k) by omega]
    ring
  have e1 : j + 2 + 1 - 2 * (n + 2 - n) = j + 1 - 2 * (n + 1 - n) := by omega
  have e2 : j + 2 + 1 - 2 * (n + 2 - (n + 1)) = j + 1 := by omega
  have e3 : j + 2 + 1 - 2 * (n + 1 - n) = j + 1 := by omega
  rw [e1, e2, e3]
  have b1 : alt (a n) (j + 1) = a n j - alt (a n) j := rfl
  have b2 : alt (a (n + 1)) (j + 2) = a (n + 1) (j + 1) - alt (a (n + 1)) (j + 1) := rfl
  rw [b1, b2]
  linarith

theorem response_zero (a : Nat → Nat → ℝ) (n : Nat) : response a n 0 = 0 := by
  unfold response
  refine Finset.sum_eq_zero (fun k hk => ?_)
  have := Finset.mem_range.mp hk
  rw [show 0 + 1 - 2 * (n - k) = 0 by omega]
  simp [alt]

theorem response_one (a : Nat → Nat → ℝ) (h0 : ∀ k, a k 0 = 0) (n : Nat) : response a n 1 = 0 := by
  unfold response
  refine Finset.sum_eq_zero (fun k hk => ?_)
  have := Finset.mem_range.mp hk
  rw [show 1 + 1 - 2 * (n - k) = 0 by omega]
  simp [alt, h0]

/-- the currents which act on the field: the first cell is left out -/
noncomputable def acting (h : Nat → FEL) (b : Nat → Beam) (k i : Nat) : ℝ := if i = 0 then 0 else (h 0).dt ^ 2 * added h b k i

theorem Course.solution {h : Nat → FEL} {b : Nat → Beam} {n : Nat} (hc : Course h b n) (hs : (h 0).Sane) :
    ∀ k ≤ n, (∀ j < (h 0).N, fval (h k).E j = vacuumVal (fval (h 0).E) k j + response (acting h b) k j) ∧
      (∀ j, j + 2 < (h 0).N → fval (h k).prev j = vacuumVal (fval (h 0).E) (k - 1) j + (if k = 0 then 0 else response (acting h b) (k - 1) j + acting h b (k - 1) j)) := by
  have hz : ∀ (f : Nat → ℝ) j, vacuumVal f 0 j = f j := by
    intro f j; unfold vacuumVal; rw [if_neg (by omega), if_neg (by omega)]; ring
  have ha0 : ∀ i, acting h b 0 i = 0 := by intro i; simp [acting, added]
  have halt : ∀ j, alt (acting h b 0) j = 0 := by
    intro j
    induction j with
    | zero => rfl
    | succ j ih => rw [alt, ih, ha0]; ring
  have hr1 : ∀ j, response (acting h b) 1 j = 0 := by intro j; simp [response, halt]
  intro k
  induction k with
  | zero =>
    intro _
    refine ⟨fun j _ => by rw [hz]; simp [response], fun j _ => ?_⟩
    rw [hc.start.fresh.still, if_pos rfl]
    simp [hz]
  | succ k ih =>
    intro hk
    obtain ⟨h1, h2⟩ := ih (by omega)
    obtain ⟨c0, c1, c2⟩ := hc.cells hs (show k < n by omega)
    constructor
    · intro j hj
      match j with
      | 0 => rw [c0, response_zero]; simp [vacuumVal]
      | 1 =>
        rw [c1, h1 0 (by omega), response_zero, response_one _ (by intro k; simp [acting])]
        cases k with
        | zero => simp [vacuumVal]
        | succ k => simp [vacuumVal]
      | j + 2 =>
        rw [c2 j hj, h1 j (by omega), h1 (j + 2) hj, h2 j hj]
        cases k with
        | zero =>
          rw [hr1, if_pos rfl]
          have : added h b 0 (j + 1) = 0 := by simp [added]
          rw [this, hz, hz]
          have e0 : ∀ j, response (acting h b) 0 j = 0 := by intro j; simp [response]
          rw [e0, e0]
          unfold vacuumVal
          rw [if_neg (by omega), if_neg (by omega)]
          ring
        | succ k =>
          rw [show k + 1 + 1 = k + 2 by rfl, vacuumVal_rec, response_rec, if_neg (by omega), show k + 1 - 1 = k by omega]
          have : acting h b (k + 1) (j + 1) = (h 0).dt ^ 2 * added h b (k + 1) (j + 1) := by simp [acting]
          rw [this]
          ring
    · intro j hj
      rw [hc.prev hs (show k < n by omega) j, h1 j (by omega), if_neg (show ¬ k + 1 = 0 by omega), show k + 1 - 1 = k by omega]
      have : (if 1 ≤ j ∧ j + 1 < (h 0).N then (h 0).dt ^ 2 * added h b k j else 0) = acting h b k j := by
        unfold acting
        by_cases c : j = 0
        · rw [if_pos c, if_neg (by omega)]
        · rw [if_neg c, if_pos (by omega)]
      rw [this]
      ring

theorem alt_acting (h : Nat → FEL) (b : Nat → Beam) (k j : Nat) : alt (acting h b k) j =
    (h 0).dt ^ 2 * if k = 0 then 0 else ∑ i ∈ Finset.Ico 1 j, (-1) ^ (j - 1 - i) * (h k).deposited (b k) i := by
  rw [alt_eq]
  by_cases hk : k = 0
  · rw [if_pos hk, mul_zero]
    refine Finset.sum_eq_zero (fun i _ => ?_)
    simp [acting, added, hk]
  · rw [if_neg hk, Finset.mul_sum]
    cases j with
    | zero => simp
    | succ j =>
      rw [Finset.range_eq_Ico, Finset.sum_eq_sum_Ico_succ_bot (by omega)]
      have e0 : acting h b k 0 = 0 := by simp [acting]
      rw [e0, mul_zero, zero_add]
      refine Finset.sum_congr rfl (fun i hi => ?_)
      have := Finset.mem_Ico.mp hi
      unfold acting added
      rw [if_neg (by omega), if_neg hk]
      ring

theorem vacuumVal_zero {f : Nat → ℝ} (h : ∀ j, f j = 0) (n j : Nat) : vacuumVal f n j = 0 := by
  unfold vacuumVal
  simp [h]

/-- **C107 (solution).** The field after `k` calls of an interaction which starts without field.  A current deposited in cell `i` adds
to all cells behind it which signals in the opposite direction have reached, with alternating signs; the sign is positive in the
cell next to the source. -/
theorem C107_solution {h : Nat → FEL} {b : Nat → Beam} {n : Nat} (hc : Course h b n) (hs : (h 0).Sane) (h0 : ∀ e ∈ (h 0).E, e = 0)
    {k j : Nat} (hk : k ≤ n) (hj : j < (h 0).N) :
    (h k).E[j]? = some ((h 0).dt ^ 2 * ∑ m ∈ Finset.Ico 1 k,
      (∑ i ∈ Finset.Ico 1 j, (-1) ^ (j - 1 - i) * (h m).deposited (b m) i +
       ∑ i ∈ Finset.Ico 1 (j + 1 - 2 * (k - m)), (-1) ^ (j + 1 - 2 * (k - m) - 1 - i) * (h m).deposited (b m) i)) := by
  have hl : j < (h k).E.length := by rw [(hc.reachable k hk).inv.sized.E, (course_const hc k hk).1]; exact hj
  have hz : ∀ j, fval (h 0).E j = 0 := by
    intro j
    by_cases c : j < (h 0).E.length
    · rw [fval_lt c]; exact h0 _ (List.getElem_mem c)
    · exact fval_ge (by omega)
  rw [List.getElem?_eq_getElem hl, ← fval_lt hl, (hc.solution hs k hk).1 j hj, vacuumVal_zero hz, zero_add]
  congr 1
  unfold response
  cases k with
  | zero => simp
  | succ k =>
    rw [Finset.range_eq_Ico, Finset.sum_eq_sum_Ico_succ_bot (by omega), Finset.mul_sum]
    rw [alt_acting, alt_acting, if_pos rfl, if_pos rfl, mul_zero, zero_add, zero_add]
    refine Finset.sum_congr rfl (fun m hm => ?_)
    have := Finset.mem_Ico.mp hm
    rw [alt_acting, alt_acting, if_neg (by omega), if_neg (by omega)]
    ring

/-- **C107 (dependence on the time step).** The field created by a beam is proportional to the time step: after the time `T = n dt` it
is at most `2 T dt` times the variation of the deposited current over the grid.  (The deposited current is `∂J/∂t` times a constant,
independent of the time step for a beam of given density, and so is the solution of the wave equation.) -/
theorem C107_vanishes {h : Nat → FEL} {b : Nat → Beam} {n : Nat} (hc : Course h b n) (hs : (h 0).Sane) (h0 : ∀ e ∈ (h 0).E, e = 0) {V : ℝ} (hV : 0 ≤ V)
    (hvar : ∀ m, 1 ≤ m → m < n → |(h m).deposited (b m) 1| + ∑ i ∈ Finset.Ico 1 (h 0).N, |(h m).deposited (b m) (i + 1) - (h m).deposited (b m) i| ≤ V)
    {k : Nat} (hk : k ≤ n) (e : ℝ) (he : e ∈ (h k).E) : |e| ≤ 2 * (n * (h 0).dt) * (h 0).dt * V := by
  obtain ⟨j, hj, rfl⟩ := List.mem_iff_getElem.mp he
  have hN : j < (h 0).N := by rw [(hc.reachable k hk).inv.sized.E, (course_const hc k hk).1] at hj; exact hj
  have hz : ∀ j, fval (h 0).E j = 0 := by
    intro j
    by_cases c : j < (h 0).E.length
    · rw [fval_lt c]; exact h0 _ (List.getElem_mem c)
    · exact fval_ge (by omega)
  rw [← fval_lt hj, (hc.solution hs k hk).1 j hN, vacuumVal_zero hz, zero_add]
  have hb : ∀ m, m < n → ∀ i, i ≤ (h 0).N → |alt (acting h b m) i| ≤ (h 0).dt ^ 2 * V := by
    intro m hm i hi
    have hd := sq_nonneg (h 0).dt
    by_cases c : m = 0
    · rw [alt_acting, if_pos c, mul_zero, abs_zero]; positivity
    · refine (alt_le _ (by simp [acting]) i).1.trans ?_
      refine le_trans ?_ (mul_le_mul_of_nonneg_left (hvar m (by omega) hm) hd)
      cases i with
      | zero => simp; positivity
      | succ i =>
        rw [Nat.add_sub_cancel]
        cases i with
        | zero => simp; positivity
        | succ i =>
          rw [Finset.range_eq_Ico, Finset.sum_eq_sum_Ico_succ_bot (by omega), mul_add]
          have e1 : |acting h b m (0 + 1) - acting h b m 0| = (h 0).dt ^ 2 * |(h m).deposited (b m) 1| := by
            simp [acting, added, c, abs_mul]
          rw [e1, Finset.mul_sum]
          gcongr
          refine (Finset.sum_le_sum_of_subset_of_nonneg (Finset.Ico_subset_Ico le_rfl (show i + 1 ≤ (h 0).N by omega)) (fun _ _ _ => abs_nonneg _)).trans ?_
          refine Finset.sum_le_sum (fun x hx => ?_)
          have := Finset.mem_Ico.mp hx
          unfold acting added
          rw [if_neg c, if_neg c, if_neg (by omega), if_neg (by omega), ← mul_sub, abs_mul, abs_of_nonneg hd]
  unfold response
  refine (Finset.abs_sum_le_sum_abs _ _).trans ?_
  refine (Finset.sum_le_card_nsmul _ _ (2 * ((h 0).dt ^ 2 * V)) ?_).trans ?_
  · intro m hm
    have := Finset.mem_range.mp hm
    refine (abs_add_le _ _).trans ?_
    have := hb m (by omega) j (by omega)
    have := hb m (by omega) (j + 1 - 2 * (k - m)) (by omega)
    linarith
  · rw [Finset.card_range, nsmul_eq_mul]
    have : (k : ℝ) ≤ n := by exact_mod_cast hk
    have : 0 ≤ (h 0).dt ^ 2 * V := by positivity
    nlinarith

/-! ## the sign -/

/-- the axes of the interaction are orthonormal -/
structure Axes (f : FEL) : Prop where
  prop : dot f.prop f.prop = 1
  ex : dot f.ex f.ex = 1
  perp : dot f.ex f.prop = 0

theorem normalizeE_inv {v u : Vec} (h : normalizeE v = .ok u) : dot u u = 1 ∧ v ≠ 0 ∧ u = v.normalize := by
  unfold normalizeE at h
  split at h
  · cases h
  · rename_i hp
    injection h with h
    refine ⟨by rw [← h, dot_self, normalize_abs2nd hp], ?_, h.symm⟩
    rintro rfl
    apply hp
    simp

theorem Constructed.axes {f : FEL} (h : Constructed f) : f.Axes := by
  cases h with
  | default hn h =>
    unfold FEL.default at h
    split at h
    · cases h
    · injection h with h
      subst h
      refine ⟨?_, ?_, ?_⟩ <;> simp [setup, dot]
  | ofInput hn h =>
    obtain ⟨n, pos, p, prop, pol, ex, o, zR, w0, zw, h1, h2, h3, h4, h5, h6, h7, h8, hf⟩ := ofInput_inv h
    obtain ⟨u1, -, -⟩ := normalizeE_inv h5
    obtain ⟨u2, -, u3⟩ := normalizeE_inv h7
    have e : f.prop = prop ∧ f.ex = ex := by
      rcases hf with hf | ⟨s, _, hf⟩
      · rw [← hf]; exact ⟨rfl, rfl⟩
      · unfold seed at hf
        split at hf
        · cases hf
        · injection hf with hf; rw [← hf]; exact ⟨rfl, rfl⟩
    refine ⟨by rw [e.1, u1], by rw [e.2, u2], ?_⟩
    rw [e.1, e.2, u3, Vec.normalize_eq, dot_div_left, dot_sub_left, dot_mul_left, u1]
    ring

theorem Axes.advance {f f' : FEL} {J : Nat → ℝ} (h : f.Axes) (ha : f.Advanced f' J) : f'.Axes :=
  ⟨by rw [ha.prop]; exact h.prop, by rw [ha.ex]; exact h.ex, by rw [ha.ex, ha.prop]; exact h.perp⟩

theorem Reachable.axes {f : FEL} (h : Reachable f) : f.Axes := by
  induction h with
  | start h => exact h.axes
  | init b hr hi ih =>
    obtain ⟨_, _, _, ha, _⟩ := init_inv hr.inv.sized hi
    exact ih.advance ha
  | step b hr hs ih =>
    obtain ⟨_, _, _, _, _, _, _, _, _, ha, _⟩ := step_inv hr.inv.sized hs
    exact ih.advance ha

/-- the field of a charge accelerated across its direction of motion, ahead of it -/
theorem ahead {n e : Vec} (hn : dot n n = 1) (he : dot e e = 1) (hp : dot e n = 0) (q : ℝ) (x : Vec) (v g : ℝ) {d : ℝ} (hd : 0 < d) :
    dot (LWE q x (n * v) (e * g) (x + n * d)) e = -(g * (1 - v)) * (1 / (SpeedOfLight * (1 - v) ^ 3 * d)) * (q / (4 * Real.pi * EpsNull)) := by
  have hR : Vec.norm (x + n * d - x) = d := by
    have : x + n * d - x = n * d := by ext <;> simp
    rw [this, Vec.norm_mul, abs_of_pos hd]
    have : Vec.norm n = 1 := by
      have e : n.x * n.x + n.y * n.y + n.z * n.z = 1 := hn
      unfold Vec.norm; rw [e, Real.sqrt_one]
    rw [this, one_mul]
  have hN : (x + n * d - x) / d = n := by ext <;> simp [hd.ne']
  unfold LWE
  simp only
  rw [hR, hN]
  have h1 : dot n (n * v) = v := by rw [dot_mul_right, hn, one_mul]
  have h2 : dot (n - n * v) e = 0 := by
    rw [dot_sub_left, dot_mul_left, dot_comm n e, hp]; ring
  have h3 : dot (cross n (cross (n - n * v) (e * g))) e = -(g * (1 - v)) := by
    have hn' := hn
    have he' := he
    have hp' := hp
    simp only [dot] at hn' he' hp' ⊢
    simp only [cross, Vec.sub_x, Vec.sub_y, Vec.sub_z, Vec.mul_x, Vec.mul_y, Vec.mul_z]
    linear_combination (-(g * (1 - v))) * (n.x * n.x + n.y * n.y + n.z * n.z) * he' - g * (1 - v) * hn' + g * (1 - v) * (e.x * n.x + e.y * n.y + e.z * n.z) * hp'
  rw [h1, dot_mul_left, dot_add_left, dot_mul_left (n - n * v), dot_mul_left (cross n (cross (n - n * v) (e * g))), h2, h3]
  ring

/-- **C107 (sign).** A charge moving in the direction of propagation and accelerated across it creates a field of the interaction which
points in the direction opposite to the Liénard-Wiechert field of the charge. -/
theorem C107_opposite {f f' : FEL} (hf : f.Reachable) (hs : f.Sane) (h0 : ∀ e ∈ f.E, e = 0) (h1 : ∀ e ∈ f.prev, e = 0) {b : Beam} {p : Particle}
    (hb : b.traverse = .ok [p]) (hstep : f.step b = .ok f') {u a : ℝ} (hP : p.PCur = f.prop * u) (hA : p.ACur = f.ex * a) (ha : a ≠ 0) (hq : p.getCharge ≠ 0)
    {j : Nat} (hj : 2 ≤ j) (hnear : |(j : Int) - 1 - crint (f.cellsBehindHead p)| ≤ 10) {e : ℝ} (he : f'.E[j]? = some e) {d : ℝ} (hd : 0 < d) :
    e * dot (LWE p.getCharge p.XCur (betaOf p.PCur) (betaDotOf p.PCur p.ACur) (p.XCur + f.prop * d)) f.ex < 0 := by
  obtain ⟨x1, x2, x3⟩ := hf.axes
  have hadv := step_deposited hf hs hstep
  have hjN : j < f.N := by
    have := (List.getElem?_eq_some_iff.mp he).1
    rw [hadv.sized.E, hadv.N] at this
    exact this
  have hz : ∀ l : List ℝ, (∀ e ∈ l, e = 0) → ∀ j, fval l j = 0 := by
    intro l hl j
    by_cases c : j < l.length
    · rw [fval_lt c]; exact hl _ (List.getElem_mem c)
    · exact fval_ge (by omega)
  have hE : e = f.dt ^ 2 * f.deposited b (j - 1) := by
    have := hadv.E j
    unfold fval at this
    rw [he] at this
    rw [show e = (some e).getD 0 from rfl, this]
    unfold nextVal
    rw [if_neg (by omega), if_neg (by omega), if_pos hjN, hz _ h0, hz _ h0, hz _ h1]
    ring
  have hD : f.deposited b (j - 1) = f.Contribution p * (Real.exp (-(((j - 1 : Nat) : ℝ) - f.cellsBehindHead p) ^ 2 / 8) / (2 * Real.sqrt (2 * Real.pi))) := by
    unfold deposited
    rw [hb]
    simp only [List.map_cons, List.map_nil, List.sum_cons, List.sum_nil, add_zero]
    rw [if_pos ⟨by omega, by rw [show ((j - 1 : Nat) : Int) = (j : Int) - 1 by omega]; exact hnear⟩]
  have hab : p.PCur.abs2nd = u ^ 2 := by rw [hP, ← dot_self, dot_mul_left, dot_mul_right, x1]; ring
  have hnorm : Vec.norm p.PCur ^ 2 = u ^ 2 := by
    have hab' : p.PCur.x * p.PCur.x + p.PCur.y * p.PCur.y + p.PCur.z * p.PCur.z = u ^ 2 := by
      rw [← hab]; unfold Vec.abs2nd; ring
    unfold Vec.norm
    rw [hab', Real.sq_sqrt (by positivity)]
  set γ := Real.sqrt (1 + u ^ 2) with hγ
  have hγ0 : 0 < γ := Real.sqrt_pos.mpr (by positivity)
  have hγ2 : γ ^ 2 = 1 + u ^ 2 := Real.sq_sqrt (by positivity)
  have hbeta : betaOf p.PCur = f.prop * (u / γ) := by
    unfold betaOf
    rw [hnorm, ← hγ, hP]
    ext <;> simp <;> ring
  have hdot : betaDotOf p.PCur p.ACur = f.ex * (a / γ) := by
    unfold betaDotOf
    rw [hnorm, ← hγ, hbeta, hA]
    have : dot (f.prop * (u / γ)) (f.ex * a) = 0 := by rw [dot_mul_left, dot_mul_right, dot_comm, x3]; ring
    rw [this]
    ext <;> simp <;> ring
  have hv : u / γ < 1 := by
    rw [div_lt_one hγ0]
    nlinarith [abs_lt_of_sq_lt_sq (show u ^ 2 < γ ^ 2 by rw [hγ2]; linarith) hγ0.le, le_abs_self u]
  rw [hbeta, hdot, ahead x1 x2 x3 _ _ _ _ hd, hE, hD]
  have hC : f.Contribution p = a / γ * p.getCharge * (1 / (Pi * (f.w0 * Real.sqrt (1 + ((f.steps * f.ds - f.zw) / f.zR) ^ 2)) ^ 2 / 2) / f.dt * (MuNull * SpeedOfLight ^ 2)) := by
    unfold Contribution
    simp only
    rw [hab, ← hγ, hA, dot_mul_left, x2]
    ring
  rw [hC]
  have hw : f.w0 * Real.sqrt (1 + ((f.steps * f.ds - f.zw) / f.zR) ^ 2) ≠ 0 := mul_ne_zero hs.w0 (Real.sqrt_ne_zero'.mpr (by positivity))
  have hw2 : 0 < (f.w0 * Real.sqrt (1 + ((f.steps * f.ds - f.zw) / f.zR) ^ 2)) ^ 2 := by positivity
  have k1 : 0 < 1 / (Pi * (f.w0 * Real.sqrt (1 + ((f.steps * f.ds - f.zw) / f.zR) ^ 2)) ^ 2 / 2) / f.dt * (MuNull * SpeedOfLight ^ 2) := by
    have := Pi_pos
    have := MuNull_pos
    have := SpeedOfLight_pos
    have := hs.dt
    positivity
  have k2 : 0 < Real.exp (-(((j - 1 : Nat) : ℝ) - f.cellsBehindHead p) ^ 2 / 8) / (2 * Real.sqrt (2 * Real.pi)) := by
    have := Real.pi_pos
    positivity
  have hv' : 0 < 1 - u / γ := by linarith
  have k3 : 0 < (1 - u / γ) * (1 / (SpeedOfLight * (1 - u / γ) ^ 3 * d)) * (1 / (4 * Real.pi * EpsNull)) := by
    have := SpeedOfLight_pos
    have := EpsNull_pos
    have := Real.pi_pos
    positivity
  have k4 : 0 < f.dt ^ 2 := by have := hs.dt; positivity
  have k5 : 0 < (a / γ * p.getCharge) ^ 2 := by
    have : a / γ * p.getCharge ≠ 0 := mul_ne_zero (div_ne_zero ha hγ0.ne') hq
    positivity
  generalize 1 / (Pi * (f.w0 * Real.sqrt (1 + ((f.steps * f.ds - f.zw) / f.zR) ^ 2)) ^ 2 / 2) / f.dt * (MuNull * SpeedOfLight ^ 2) = A at k1 ⊢
  generalize Real.exp (-(((j - 1 : Nat) : ℝ) - f.cellsBehindHead p) ^ 2 / 8) / (2 * Real.sqrt (2 * Real.pi)) = B at k2 ⊢
  have : f.dt ^ 2 * (a / γ * p.getCharge * A * B) * (-(a / γ * (1 - u / γ)) * (1 / (SpeedOfLight * (1 - u / γ) ^ 3 * d)) * (p.getCharge / (4 * Real.pi * EpsNull))) =
      -(f.dt ^ 2 * (a / γ * p.getCharge) ^ 2 * A * B * ((1 - u / γ) * (1 / (SpeedOfLight * (1 - u / γ) ^ 3 * d)) * (1 / (4 * Real.pi * EpsNull)))) := by ring
  rw [this, neg_lt_zero]
  positivity

/-- **C107, full statement refuted.** The field of the interaction does not obey the wave equation driven by the beam. -/
theorem C107_full_statement_false : ¬ WaveEquation := by
  intro H
  obtain ⟨f, hf, hc, hs, ho, hdt, hh, hp, hN, hex, hey⟩ := default_constructed
  have hE : f.E = List.replicate 4 0 := by
    unfold FEL.default at hf
    rw [if_neg (by omega)] at hf
    injection hf with hf
    rw [← hf]; rfl
  obtain ⟨h, b, e, h0, hb, hco, he, hF⟩ := wiggling_run hc hs ho (by decide) hdt hh hp hN (by rw [hex]; norm_num) hE
  have hs0 : (h 0).Sane := by rw [h0]; exact hs
  have htr : (b 1).traverse = .ok [wiggling] := by rw [hb]; exact wigglingBeam_traverse
  have h1 := H h b 2 hco hs0 1 0 [wiggling] le_rfl (by omega) htr (by norm_num) (by rw [h0, hN]; norm_num)
  have h2 := C107_computed hco hs0 (k := 1) (i := 1) le_rfl (by omega) le_rfl (by rw [h0, hN]; omega)
  rw [show (((1 : Nat) : Int) - (1 : Nat)) = 0 by norm_num, if_neg (by omega), sub_zero] at h2
  rw [h2] at h1
  obtain ⟨c1, c2, c3, c4, c5, c6, c7, c8, c9, c10, c11, c12⟩ := course_const hco 1 (by omega)
  have hcells : (h 1).cellsBehindHead wiggling = 1 := by
    have e1 : (h 1).head = ⟨0, 0, SpeedOfLight⟩ := by
      rw [(hco.advanced hs0 (k := 0) (by omega)).head, h0, hh, hp, hs.ds, hdt]
      ext <;> simp
    unfold cellsBehindHead
    rw [e1, c8, c3, h0, hp, hs.ds, hdt]
    simp [wiggling, Particle.initTrajectory, dot, SpeedOfLight_pos.ne']
  have hcr : crint (1 : ℝ) = 1 := by simpa using crint_intCast 1
  have hr : (h 1).deposited (b 1) 1 = MuNull * SpeedOfLight ^ 2 * currentRate (h 1) 1 wiggling := by
    unfold deposited currentRate
    rw [htr]
    simp only [List.map_cons, List.map_nil, List.sum_cons, List.sum_nil, add_zero]
    rw [hcells, hcr, if_pos ⟨by rw [c1, h0, hN]; omega, by norm_num⟩]
    unfold Contribution
    simp only
    have e2 : dot wiggling.ACur (h 1).ex = 1 := by rw [c9, h0, hex]; simp [wiggling, Particle.initTrajectory, dot]
    have e3 : betaDotOf wiggling.PCur wiggling.ACur = wiggling.ACur := by
      have : wiggling.PCur = 0 := rfl
      have hn : Vec.norm (0 : Vec) = 0 := by simp [Vec.norm]
      unfold betaDotOf betaOf
      rw [this, hn]
      ext <;> simp [dot]
    have e4 : wiggling.PCur.abs2nd = 0 := by simp [wiggling, Particle.initTrajectory, Vec.abs2nd]
    have e5 : (h 1).ds = SpeedOfLight := by rw [c3, h0, hs.ds, hdt, one_mul]
    have e6 : (h 1).dt = 1 := by rw [c2, h0, hdt]
    rw [e3, e2, e4, e5, e6, Pi]
    have := SpeedOfLight_pos
    have hw : (h 1).w0 * Real.sqrt (1 + (((h 1).steps * SpeedOfLight - (h 1).zw) / (h 1).zR) ^ 2) ≠ 0 :=
      mul_ne_zero (hco.sane hs0 (by omega)).w0 (Real.sqrt_ne_zero'.mpr (by positivity))
    generalize (h 1).w0 * Real.sqrt (1 + (((h 1).steps * SpeedOfLight - (h 1).zw) / (h 1).zR) ^ 2) = w at hw ⊢
    have hpi := Real.pi_pos
    have hsq : 0 < Real.sqrt (2 * Real.pi) := Real.sqrt_pos.mpr (by positivity)
    simp
    field_simp
  have hpos : MuNull * SpeedOfLight ^ 2 * currentRate (h 1) 1 wiggling ≠ 0 := by
    rw [← hr]
    unfold deposited
    rw [htr]
    simp only [List.map_cons, List.map_nil, List.sum_cons, List.sum_nil, add_zero]
    rw [hcells, hcr, if_pos ⟨by rw [c1, h0, hN]; omega, by norm_num⟩]
    unfold Contribution
    simp only
    have e2 : dot wiggling.ACur (h 1).ex = 1 := by rw [c9, h0, hex]; simp [wiggling, Particle.initTrajectory, dot]
    have hq : 0 < wiggling.getCharge := by
      simp [wiggling, Particle.getCharge, Particle.initTrajectory, Particle.new, ElementaryCharge_pos]
    have hw : (h 1).w0 * Real.sqrt (1 + (((h 1).steps * (h 1).ds - (h 1).zw) / (h 1).zR) ^ 2) ≠ 0 :=
      mul_ne_zero (hco.sane hs0 (by omega)).w0 (Real.sqrt_ne_zero'.mpr (by positivity))
    generalize (h 1).w0 * Real.sqrt (1 + (((h 1).steps * (h 1).ds - (h 1).zw) / (h 1).zR) ^ 2) = w at hw ⊢
    have e4 : wiggling.PCur.abs2nd = 0 := by simp [wiggling, Particle.initTrajectory, Vec.abs2nd]
    have e6 : (h 1).dt = 1 := by rw [c2, h0, hdt]
    have hw2 : 0 < w ^ 2 := by positivity
    have := Pi_pos
    have := Real.pi_pos
    have := MuNull_pos
    have := SpeedOfLight_pos
    rw [e2, e4, e6, add_zero, Real.sqrt_one]
    apply ne_of_gt
    positivity
  rw [hr] at h1
  simp only [List.map_cons, List.map_nil, List.sum_cons, List.sum_nil, add_zero] at h1
  rw [show (((((1 : Nat) : Int) - 0 : Int)) : ℝ) = 1 by norm_num] at h1
  have hm : 0 ≤ MuNull * SpeedOfLight ^ 2 := by have := MuNull_pos; positivity
  rw [← abs_of_nonneg hm, ← abs_mul, abs_of_nonneg hm] at h1
  generalize MuNull * SpeedOfLight ^ 2 * currentRate (h 1) 1 wiggling = X at h1 hpos
  rw [← two_mul, abs_mul] at h1
  have := abs_pos.mpr hpos
  norm_num at h1
  linarith

/-- non-vacuity of C107: a run with one particle, the current of which is not zero; the hypotheses on its motion are those of
`C107_opposite` -/
example : ∃ (h : Nat → FEL) (b : Nat → Beam) (p : Particle), Course h b 2 ∧ (h 0).Sane ∧ (∀ e ∈ (h 0).E, e = 0) ∧ (∀ e ∈ (h 1).E, e = 0) ∧ (∀ e ∈ (h 1).prev, e = 0) ∧
    (b 1).traverse = .ok [p] ∧ p.PCur = (h 1).prop * (0 : ℝ) ∧ p.ACur = (h 1).ex * (1 : ℝ) ∧ p.getCharge ≠ 0 ∧ (h 0).N = 4 ∧
    ∃ F, (h 2).Field 2 0 = .ok F ∧ F.E ≠ 0 := by
  obtain ⟨f, hf, hc, hs, ho, hdt, hh, hp, hN, hex, hey⟩ := default_constructed
  have hE : f.E = List.replicate 4 0 := by
    unfold FEL.default at hf
    rw [if_neg (by omega)] at hf
    injection hf with hf
    rw [← hf]; rfl
  obtain ⟨h, b, e, h0, hb, hco, he, hF⟩ := wiggling_run hc hs ho (by decide) hdt hh hp hN (by rw [hex]; norm_num) hE
  have hs0 : (h 0).Sane := by rw [h0]; exact hs
  have hz0 : ∀ e ∈ (h 0).E, e = 0 := by
    rw [h0, hE]; intro e he; exact List.eq_of_mem_replicate he
  obtain ⟨c1, c2, c3, c4, c5, c6, c7, c8, c9, c10, c11, c12⟩ := course_const hco 1 (by omega)
  have hz1 : ∀ e ∈ (h 1).E, e = 0 := by
    intro e he
    obtain ⟨j, hj, rfl⟩ := List.mem_iff_getElem.mp he
    have hjN : j < (h 0).N := by rw [(hco.reachable 1 (by omega)).inv.sized.E, c1] at hj; exact hj
    have := C107_solution hco hs0 hz0 (k := 1) (by omega) hjN
    rw [List.getElem?_eq_getElem hj] at this
    injection this with this
    rw [this]; simp
  have hz2 : ∀ e ∈ (h 1).prev, e = 0 := by
    intro e he
    obtain ⟨j, hj, rfl⟩ := List.mem_iff_getElem.mp he
    rw [← fval_lt hj, hco.prev hs0 (k := 0) (by omega)]
    have : fval (h 0).E j = 0 := by rw [h0, hE, fval_replicate]
    rw [this]
    simp [added]
  refine ⟨h, b, wiggling, hco, hs0, hz0, hz1, hz2, by rw [hb]; exact wigglingBeam_traverse, ?_, ?_, ?_, by rw [h0, hN], _, hF, ?_⟩
  · ext <;> simp [wiggling, Particle.initTrajectory]
  · rw [c9, h0, hex]; ext <;> simp [wiggling, Particle.initTrajectory]
  · simp [wiggling, Particle.getCharge, Particle.initTrajectory, Particle.new, ElementaryCharge_pos.ne']
  · intro hz
    have := congrArg Vec.y hz
    rw [hex] at this
    simp [he] at this

end FEL
end Teufel
