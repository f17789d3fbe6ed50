import Verif.Props.FELField
import Verif.Lemmas.Gauss

/-!
# C71: the current deposited on the FEL grid
-/

namespace Teufel
open Vec

namespace FEL

theorem contribution_eq (f : FEL) (p : Particle) : f.Contribution p = f.strength p := by
  unfold Contribution strength modeArea
  simp only [dot_div_left]
  rw [add_comm (1 : ℝ) p.PCur.abs2nd]
  ring

theorem sum_eq_fval (l : List ℝ) : l.sum = ∑ i ∈ Finset.range l.length, fval l i := by
  induction l with
  | nil => simp
  | cons x l ih =>
    rw [List.sum_cons, List.length_cons, Finset.sum_range_succ', ih, add_comm]
    rfl

/-- the cells in which one particle is deposited, counted from the first cell of its window -/
theorem share_sum {f : FEL} (hds : 0 < f.ds) (p : Particle) :
    ∑ i ∈ Finset.range f.N, f.share p i = f.strength p * (∑ k ∈ Finset.range 21,
      if 0 ≤ crint (f.cellsBehindHead p) + k - 10 ∧ crint (f.cellsBehindHead p) + k - 10 < f.N
      then Real.exp (-(((k : ℝ) - 10) - (f.cellsBehindHead p - crint (f.cellsBehindHead p))) ^ 2 / 8) else 0) / (2 * Real.sqrt (2 * Pi)) := by
  have hd : f.depth p.XCur = f.cellsBehindHead p * f.ds := by
    unfold depth cellsBehindHead; field_simp
  have hq : f.depth p.XCur / f.ds = f.cellsBehindHead p := rfl
  have hsh : ∀ i, f.share p i = if i < f.N ∧ crint (f.cellsBehindHead p) - 10 ≤ i ∧ (i : Int) ≤ crint (f.cellsBehindHead p) + 10 then
      f.strength p * Real.exp (-(f.cellsBehindHead p - i) ^ 2 / 8) / (2 * Real.sqrt (2 * Pi)) else 0 := by
    intro i
    unfold share
    simp only
    rw [hq]
    have e : -(f.depth p.XCur - i * f.ds) ^ 2 / (2 * (2 * f.ds) ^ 2) = -(f.cellsBehindHead p - i) ^ 2 / 8 := by
      rw [hd]; field_simp; ring
    rw [e]
  simp only [hsh]
  generalize f.cellsBehindHead p = x
  generalize hc : crint x = c
  rw [mul_div_assoc, Finset.sum_div, Finset.mul_sum, ← Finset.sum_filter]
  have hr : ∀ k ∈ Finset.range 21, f.strength p * ((if 0 ≤ c + k - 10 ∧ c + k - 10 < f.N then Real.exp (-(((k : ℝ) - 10) - (x - c)) ^ 2 / 8) else 0) / (2 * Real.sqrt (2 * Pi))) =
      if 0 ≤ c + (k : Int) - 10 ∧ c + (k : Int) - 10 < f.N then f.strength p * Real.exp (-(((k : ℝ) - 10) - (x - c)) ^ 2 / 8) / (2 * Real.sqrt (2 * Pi)) else 0 := by
    intro k _
    by_cases h : 0 ≤ c + (k : Int) - 10 ∧ c + (k : Int) - 10 < f.N
    · rw [if_pos h, if_pos h]; ring
    · rw [if_neg h, if_neg h]; ring
  rw [Finset.sum_congr rfl hr, ← Finset.sum_filter]
  refine Finset.sum_bij' (fun i _ => ((i : Int) + 10 - c).toNat) (fun k _ => (c + (k : Int) - 10).toNat) ?_ ?_ ?_ ?_ ?_
  · intro i hi
    simp only [Finset.mem_filter, Finset.mem_range] at hi ⊢
    omega
  · intro k hk
    simp only [Finset.mem_filter, Finset.mem_range] at hk ⊢
    omega
  · intro i hi
    simp only [Finset.mem_filter, Finset.mem_range] at hi
    omega
  · intro k hk
    simp only [Finset.mem_filter, Finset.mem_range] at hk
    omega
  · intro i hi
    simp only [Finset.mem_filter, Finset.mem_range] at hi
    have e : ((((i : Int) + 10 - c).toNat : ℕ) : ℝ) = (i : ℝ) + 10 - c := by
      have h0 : ((((i : Int) + 10 - c).toNat : ℕ) : Int) = (i : Int) + 10 - c := Int.toNat_of_nonneg (by omega)
      have : (((((i : Int) + 10 - c).toNat : ℕ) : Int) : ℝ) = (((i : Int) + 10 - c : Int) : ℝ) := by rw [h0]
      push_cast at this
      exact this
    rw [e]
    congr 3
    ring

/-- a particle ten cells away from both ends of the grid is deposited completely -/
theorem share_inside {f : FEL} (hds : 0 < f.ds) {p : Particle} (h1 : 10 ≤ f.cellsBehindHead p) (h2 : f.cellsBehindHead p ≤ f.N - 11) :
    |∑ i ∈ Finset.range f.N, f.share p i - f.Contribution p| ≤ 1 / 10 ^ 6 * |f.Contribution p| := by
  rw [share_sum hds, contribution_eq]
  obtain ⟨c1, c2⟩ := crint_mono_bounds (x := f.cellsBehindHead p) (a := 10) (b := (f.N : Int) - 11) (by push_cast; exact h1) (by push_cast; exact h2)
  have hd : |f.cellsBehindHead p - crint (f.cellsBehindHead p)| ≤ 1 / 2 := by
    rw [abs_sub_comm]; exact crint_near _
  have hw := gauss_window hd
  generalize crint (f.cellsBehindHead p) = c at *
  have e : ∀ k ∈ Finset.range 21, (if 0 ≤ c + (k : Int) - 10 ∧ c + (k : Int) - 10 < f.N
      then Real.exp (-(((k : ℝ) - 10) - (f.cellsBehindHead p - c)) ^ 2 / 8) else 0) = Real.exp (-(((k : ℝ) - 10) - (f.cellsBehindHead p - c)) ^ 2 / 8) := by
    intro k hk
    have := Finset.mem_range.1 hk
    rw [if_pos (by omega)]
  rw [Finset.sum_congr rfl e, mul_div_assoc]
  have e2 : ∀ s w : ℝ, s * w - s = s * (w - 1) := fun s w => by ring
  rw [e2, abs_mul, mul_comm]
  exact mul_le_mul_of_nonneg_right hw (abs_nonneg _)

/-- a particle at the head of the grid: the cells in front of it are missing -/
theorem share_head {f : FEL} (hds : 0 < f.ds) {p : Particle} (h : f.cellsBehindHead p = 0) :
    |∑ i ∈ Finset.range f.N, f.share p i| ≤ 17 / 20 * |f.Contribution p| := by
  have hc : crint (0 : ℝ) = 0 := by simpa using crint_intCast 0
  rw [share_sum hds, contribution_eq, h, hc, mul_div_assoc, abs_mul, mul_comm]
  refine mul_le_mul_of_nonneg_right ?_ (abs_nonneg _)
  have hpi := Real.pi_pos
  have hD : 0 < 2 * Real.sqrt (2 * Pi) := by unfold Pi; positivity
  have hD6 : 2 * Real.sqrt (2 * Pi) ≤ 27 / 5 := by
    have : Real.sqrt (2 * Real.pi) ≤ 27 / 10 := by
      rw [Real.sqrt_le_left (by norm_num)]
      nlinarith [Real.pi_lt_d2]
    unfold Pi; linarith
  have hw := (abs_le.1 (gauss_window (δ := 0) (by norm_num))).2
  have hpos : ∀ k : ℕ, 0 ≤ Real.exp (-(((k : ℝ) - 10) - 0) ^ 2 / 8) := fun k => (Real.exp_pos _).le
  have hle : (∑ k ∈ Finset.range 21, if 0 ≤ (0 : Int) + k - 10 ∧ (0 : Int) + k - 10 < f.N then Real.exp (-(((k : ℝ) - 10) - (0 - ((0 : Int) : ℝ))) ^ 2 / 8) else 0) ≤
      ∑ k ∈ Finset.range 21, Real.exp (-(((k : ℝ) - 10) - 0) ^ 2 / 8) - Real.exp (-1 / 8) := by
    have h9 : Real.exp (-1 / 8) = ∑ k ∈ Finset.range 21, if k = 9 then Real.exp (-(((k : ℝ) - 10) - 0) ^ 2 / 8) else 0 := by
      rw [Finset.sum_ite_eq' (Finset.range 21) 9, if_pos (by simp)]
      congr 1; norm_num
    rw [h9, ← Finset.sum_sub_distrib]
    refine Finset.sum_le_sum (fun k hk => ?_)
    by_cases k9 : k = 9
    · subst k9
      rw [if_neg (by norm_num), if_pos rfl, sub_self]
    · rw [if_neg k9, sub_zero]
      split_ifs
      · simp
      · exact hpos k
  have h78 : (7 / 8 : ℝ) ≤ Real.exp (-1 / 8) := by
    have := Real.add_one_le_exp (-1 / 8 : ℝ)
    linarith
  rw [abs_of_nonneg (div_nonneg (Finset.sum_nonneg (fun k _ => by split_ifs <;> [exact (Real.exp_pos _).le; exact le_rfl])) hD.le), div_le_iff₀ hD]
  have hw' : (∑ k ∈ Finset.range 21, Real.exp (-(((k : ℝ) - 10) - 0) ^ 2 / 8)) / (2 * Real.sqrt (2 * Pi)) ≤ 1 + 1 / 10 ^ 6 := by
    unfold Pi; linarith
  rw [div_le_iff₀ hD] at hw'
  nlinarith

theorem abs_sum_sub_le {α : Type} (ps : List α) (a b : α → ℝ) (ε : ℝ) (h : ∀ p ∈ ps, |a p - b p| ≤ ε * |b p|) :
    |(ps.map a).sum - (ps.map b).sum| ≤ ε * (ps.map (fun p => |b p|)).sum := by
  induction ps with
  | nil => simp
  | cons p ps ih =>
    simp only [List.map_cons, List.sum_cons]
    have h1 := h p (by simp)
    have h2 := ih (fun q hq => h q (by simp [hq]))
    have : a p + (ps.map a).sum - (b p + (ps.map b).sum) = (a p - b p) + ((ps.map a).sum - (ps.map b).sum) := by ring
    rw [this]
    refine (abs_add_le _ _).trans ?_
    linarith

theorem sum_swap {α : Type} (ps : List α) (g : α → ℕ → ℝ) (n : ℕ) :
    ∑ i ∈ Finset.range n, (ps.map (fun p => g p i)).sum = (ps.map (fun p => ∑ i ∈ Finset.range n, g p i)).sum := by
  induction ps with
  | nil => simp
  | cons p ps ih => simp only [List.map_cons, List.sum_cons, Finset.sum_add_distrib, ih]

/-- what a step of a sane interaction records -/
theorem recorded_current {f f' : FEL} (hf : f.Reachable) (hs : f.Sane) {b : Beam} {ps : List Particle} (hb : b.traverse = .ok ps)
    (hstep : f.step b = .ok f') {J : List ℝ} (hJ : f'.currents = f.currents ++ [J]) :
    J.length = f.N ∧ J.sum = (ps.map (fun p => ∑ i ∈ Finset.range f.N, f.share p i)).sum := by
  obtain ⟨h1, _, ps', J', due, t1, t2, t3, t4, t5, t6, t7⟩ := step_inv hf.inv.sized hstep
  rw [hb] at t1
  injection t1 with t1
  subst t1
  have hacc : ∀ p ∈ ps, f.Accepts p := by
    by_contra hno
    rw [deposit_all_rejects hs ps _ (by simp) hno] at t2
    cases t2
  obtain ⟨J2, j1, j2, j3⟩ := deposit_all hs ps (List.replicate f.N 0) (by simp) hacc
  rw [j1] at t2
  injection t2 with t2
  subst t2
  rw [hJ] at t7
  have hJ2 : J = J2 := by
    have := List.append_cancel_left t7
    cases due with
    | true => simpa using this
    | false => simp at this
  subst hJ2
  refine ⟨j2, ?_⟩
  rw [sum_eq_fval, j2, ← sum_swap]
  refine Finset.sum_congr rfl (fun i _ => ?_)
  rw [j3, fval_replicate, zero_add]

/-- **C71 (partial).** The current recorded by a step is, summed over the grid, that of the particles, up to a part in a
million, irrespective of their positions relative to the cells, provided that all are at least ten cells away from the
head and from the tail of the grid.  Missing: particles closer to the ends of the grid, see below. -/
theorem C71_conserved_partial {f f' : FEL} (hf : f.Reachable) (hs : f.Sane) {b : Beam} {ps : List Particle} (hb : b.traverse = .ok ps)
    (hin : ∀ p ∈ ps, 10 ≤ f.cellsBehindHead p ∧ f.cellsBehindHead p ≤ f.N - 11) (hstep : f.step b = .ok f') {J : List ℝ} (hJ : f'.currents = f.currents ++ [J]) :
    |J.sum - (ps.map f.Contribution).sum| ≤ 1 / 10 ^ 6 * (ps.map (fun p => |f.Contribution p|)).sum := by
  rw [(recorded_current hf hs hb hstep hJ).2]
  exact abs_sum_sub_le ps _ _ _ (fun p hp => share_inside hs.ds_pos (hin p hp).1 (hin p hp).2)

/-- **C71 (head of the grid).** Of the current of a single particle at the head of the grid at least 15 percent are lost,
whatever the size of the grid. -/
theorem C71_lost_at_head {f f' : FEL} (hf : f.Reachable) (hs : f.Sane) {b : Beam} {p : Particle} (hb : b.traverse = .ok [p])
    (hhead : f.cellsBehindHead p = 0) (hstep : f.step b = .ok f') {J : List ℝ} (hJ : f'.currents = f.currents ++ [J]) :
    |J.sum| ≤ 17 / 20 * |f.Contribution p| := by
  rw [(recorded_current hf hs hb hstep hJ).2]
  simpa using share_head hs.ds_pos hhead

/-- **C71 (outside).** A particle in front of the head or behind the tail of the grid contributes nothing: the step ends
with an exception. -/
theorem C71_outside {f : FEL} (hs : f.Sane) {b : Beam} {ps : List Particle} (hb : b.traverse = .ok ps) {p : Particle} (hp : p ∈ ps)
    (hout : f.cellsBehindHead p < 0 ∨ f.cellsBehindHead p > f.N) : f.step b = .error .io := by
  refine step_rejects hs hb (fun h => ?_)
  obtain ⟨_, h2, h3⟩ := h.2 p hp
  have hds := hs.ds_pos
  rcases hout with h | h
  · exact absurd (div_nonneg h2 hds.le) (not_le.2 h)
  · have : f.depth p.XCur / f.ds ≤ f.N := by rw [div_le_iff₀ hds]; exact h3
    exact absurd this (not_le.2 h)

/-! ## a run with one particle -/

/-- the interaction of the constructor without input file -/
noncomputable def plain (n : Nat) : FEL := setup n 1 (1 * SpeedOfLight) 0 ⟨0, 0, 1⟩ ⟨0, 1, 0⟩ 0 (some 1) 1 1e-3 1

theorem plain_constructed {n : Nat} (h : (n : Int) < 2 ^ 31) : Constructed (plain n) :=
  .default (dt := 1) (n := n) h (by unfold FEL.default; rw [if_neg (by omega)]; rfl)

theorem plain_sane {n : Nat} (h : (n : Int) < 2 ^ 31) (h2 : 2 ≤ n) : (plain n).Sane :=
  ⟨h2, h, by norm_num [plain, setup], rfl, by norm_num [plain, setup], by norm_num [plain, setup]⟩

/-- a particle at a given distance behind the head of the grid when the first step is done -/
noncomputable def placed (x : ℝ) : Particle := (Particle.new 1 1).initTrajectory 1 ⟨0, 0, (1 - x) * SpeedOfLight⟩ 0 ⟨0, 1, 0⟩

noncomputable def placedBeam (x : ℝ) : Beam := { (Beam.empty.Add (Bunch.empty.Add (placed x))) with dt := 1, NOTS := 1 }

theorem placedBeam_traverse (x : ℝ) : (placedBeam x).traverse = .ok [placed x] := rfl

theorem placed_run {n : Nat} (h : (n : Int) < 2 ^ 31) (h2 : 2 ≤ n) {x : ℝ} (x0 : 0 ≤ x) (x1 : x ≤ n) :
    ∃ (f f' : FEL) (J : List ℝ), f.Reachable ∧ f.Sane ∧ f.N = n ∧ f.cellsBehindHead (placed x) = x ∧ f.step (placedBeam x) = .ok f' ∧ f'.currents = f.currents ++ [J] ∧
      0 < f.Contribution (placed x) := by
  have hc0 := SpeedOfLight_pos
  have hf := plain_constructed h
  have hs := plain_sane h h2
  obtain ⟨f1, i1, a1, _⟩ := init_ok hf.fresh.sized hs.two (placedBeam x) hs.dt.ne' (by simp [placedBeam, plain, setup]; norm_num)
  have s1 : f1.Sane := ⟨by rw [a1.N]; exact hs.two, by rw [a1.N]; exact hs.int, by rw [a1.dt]; exact hs.dt, by rw [a1.ds, a1.dt]; exact hs.ds, by rw [a1.zR]; exact hs.zR, by rw [a1.w0]; exact hs.w0⟩
  have hdt : f1.dt = 1 := a1.dt
  have hds : f1.ds = SpeedOfLight := by rw [s1.ds, hdt, one_mul]
  have t1 : f1.time = 1 := by rw [a1.time, hf.fresh.time]; show (0 : ℝ) + 1 = 1; norm_num
  have hN : f1.N = n := a1.N
  have hcell : f1.cellsBehindHead (placed x) = x := by
    unfold cellsBehindHead
    rw [a1.head, a1.prop, hds]
    simp only [plain, setup, placed, Particle.initTrajectory, dot, Vec.sub_x, Vec.sub_y, Vec.sub_z, Vec.add_x, Vec.add_y, Vec.add_z, Vec.mul_x, Vec.mul_y, Vec.mul_z, Vec.zero_x, Vec.zero_y, Vec.zero_z]
    field_simp
    ring
  have hdep : f1.depth (placed x).XCur = x * SpeedOfLight := by
    have e : f1.depth (placed x).XCur / f1.ds = x := hcell
    rw [hds] at e
    field_simp at e
    linarith
  have hacc : f1.Accepts (placed x) := by
    refine ⟨?_, by rw [hdep]; positivity, ?_⟩
    · rw [t1, hdt]; simp [placed, Particle.initTrajectory]
    · rw [hdep, hN, hds]; exact mul_le_mul_of_nonneg_right x1 hc0.le
  obtain ⟨J, j1, j2, _, j4⟩ := step_ok a1.sized s1 (placedBeam_traverse x) (by rw [hdt, t1]; simp [placedBeam]) (by simpa using hacc)
  have hr : f1.recordDue (f1.steps + 1) = .ok true := by
    unfold recordDue
    rw [a1.out]
    simp [plain, setup]
  obtain ⟨f2, e1, _, _, e3⟩ := j4 _ hr
  refine ⟨f1, f2, J, .init _ (.start hf) i1, s1, hN, hcell, e1, by simpa using e3, ?_⟩
  unfold Contribution
  have hA : dot (placed x).ACur f1.ex = 1 := by rw [a1.ex]; simp [placed, Particle.initTrajectory, dot, plain, setup]
  have hq : 0 < (placed x).getCharge := by
    simp [placed, Particle.getCharge, Particle.initTrajectory, Particle.new, ElementaryCharge_pos]
  have hw : f1.w0 * Real.sqrt (1 + ((f1.steps * f1.ds - f1.zw) / f1.zR) ^ 2) ≠ 0 :=
    mul_ne_zero s1.w0 (Real.sqrt_ne_zero'.mpr (by positivity))
  have hP : (placed x).PCur.abs2nd = 0 := by simp [placed, Particle.initTrajectory, Vec.abs2nd]
  have hpi := Pi_pos
  have hmu := MuNull_pos
  simp only
  rw [hA, hdt, hP]
  have hw2 : 0 < (f1.w0 * Real.sqrt (1 + ((f1.steps * f1.ds - f1.zw) / f1.zR) ^ 2)) ^ 2 := by positivity
  rw [add_zero, Real.sqrt_one]
  positivity

/-- The full statement: whatever is accepted is deposited completely. -/
def DepositsAll : Prop :=
  ∀ (f f' : FEL) (b : Beam) (ps : List Particle) (J : List ℝ), f.Reachable → f.Sane → b.traverse = .ok ps → f.step b = .ok f' → f'.currents = f.currents ++ [J] →
    |J.sum - (ps.map f.Contribution).sum| ≤ 1 / 10 ^ 6 * (ps.map (fun p => |f.Contribution p|)).sum

/-- **C71, full statement refuted.** Near the ends of the grid the part of the Gaussian outside the grid is lost without
notice. -/
theorem C71_full_statement_false : ¬ DepositsAll := by
  intro H
  obtain ⟨f, f', J, hf, hs, hN, hcell, hstep, hJ, hpos⟩ := placed_run (n := 1000) (by norm_num) (by norm_num) (x := 0) le_rfl (by norm_num)
  have h1 := H f f' _ _ J hf hs (placedBeam_traverse 0) hstep hJ
  have h2 := C71_lost_at_head hf hs (placedBeam_traverse 0) hcell hstep hJ
  simp only [List.map_cons, List.map_nil, List.sum_cons, List.sum_nil, add_zero] at h1
  rw [abs_of_pos hpos] at h1 h2
  have h3 := (abs_le.1 h1).1
  have h4 := (abs_le.1 h2).2
  linarith

/-- a particle between two cells in the middle of a grid meets the hypotheses of `C71_conserved_partial` -/
example : ∃ (f f' : FEL) (J : List ℝ), f.Reachable ∧ f.Sane ∧ (placedBeam (25 / 2)).traverse = .ok [placed (25 / 2)] ∧
    (∀ p ∈ [placed (25 / 2)], 10 ≤ f.cellsBehindHead p ∧ f.cellsBehindHead p ≤ f.N - 11) ∧ f.step (placedBeam (25 / 2)) = .ok f' ∧
    f'.currents = f.currents ++ [J] ∧ 0 < ([placed (25 / 2)].map f.Contribution).sum := by
  obtain ⟨f, f', J, hf, hs, hN, hcell, hstep, hJ, hpos⟩ := placed_run (n := 100) (by norm_num) (by norm_num) (x := 25 / 2) (by norm_num) (by norm_num)
  refine ⟨f, f', J, hf, hs, rfl, ?_, hstep, hJ, by simpa using hpos⟩
  intro p hp
  obtain rfl : p = placed (25 / 2) := by simpa using hp
  rw [hcell, hN]
  norm_num

/-- and one at the head of a grid those of `C71_lost_at_head` -/
example : ∃ (f f' : FEL) (J : List ℝ), f.Reachable ∧ f.Sane ∧ f.cellsBehindHead (placed 0) = 0 ∧ f.step (placedBeam 0) = .ok f' ∧ f'.currents = f.currents ++ [J] := by
  obtain ⟨f, f', J, hf, hs, _, hcell, hstep, hJ, _⟩ := placed_run (n := 100) (by norm_num) (by norm_num) (x := 0) le_rfl (by norm_num)
  exact ⟨f, f', J, hf, hs, hcell, hstep, hJ⟩

/-- and one behind a grid of four cells those of `C71_outside` -/
example : (plain 4).Sane ∧ (placedBeam 6).traverse = .ok [placed 6] ∧ (plain 4).cellsBehindHead (placed 6) > (plain 4).N := by
  refine ⟨plain_sane (by norm_num) (by norm_num), rfl, ?_⟩
  have hc0 := SpeedOfLight_pos
  have : (plain 4).cellsBehindHead (placed 6) = 5 := by
    unfold cellsBehindHead
    simp only [plain, setup, placed, Particle.initTrajectory, dot, Vec.sub_x, Vec.sub_y, Vec.sub_z, Vec.zero_x, Vec.zero_y, Vec.zero_z]
    field_simp
    ring
  rw [this]
  norm_num [plain, setup]

end FEL
end Teufel
