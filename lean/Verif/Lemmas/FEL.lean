import Verif.Spec.FEL
import Verif.Lemmas.HybridSim

/-! # The grid operations of the FEL interaction -/

namespace Teufel
open Vec

/-- value of a cell, zero outside -/
noncomputable def fval (l : List ℝ) (i : Nat) : ℝ := (l[i]?).getD 0

theorem fval_lt {l : List ℝ} {i : Nat} (h : i < l.length) : fval l i = l[i] := by
  unfold fval; rw [List.getElem?_eq_getElem h]; rfl

theorem fval_ge {l : List ℝ} {i : Nat} (h : l.length ≤ i) : fval l i = 0 := by
  unfold fval; rw [List.getElem?_eq_none h]; rfl

theorem fval_replicate (n i : Nat) : fval (List.replicate n 0) i = 0 := by
  by_cases h : i < n
  · rw [fval_lt (by simpa using h)]; simp
  · exact fval_ge (by simpa using h)

theorem fval_ext {l l' : List ℝ} (h : l.length = l'.length) (hv : ∀ i < l.length, fval l i = fval l' i) : l = l' := by
  apply List.ext_getElem h
  intro i h1 h2
  rw [← fval_lt h1, ← fval_lt h2]
  exact hv i h1

theorem cellAt_ok {l : List ℝ} {i : Nat} (h : i < l.length) : cellAt l (i : Int) = .ok (fval l i) := by
  unfold cellAt
  rw [if_neg (by omega), Int.toNat_natCast, List.getElem?_eq_getElem h, fval_lt h]

theorem cellPut_ok {l : List ℝ} {i : Nat} (h : i < l.length) (x : ℝ) : cellPut l (i : Int) x = .ok (l.set i x) := by
  unfold cellPut
  rw [if_pos ⟨by omega, by simpa using h⟩, Int.toNat_natCast]

theorem fval_set {l : List ℝ} {i : Nat} (h : i < l.length) (x : ℝ) (j : Nat) : fval (l.set i x) j = if j = i then x else fval l j := by
  unfold fval
  rw [List.getElem?_set]
  by_cases hij : i = j
  · subst hij; simp [h]
  · rw [if_neg hij, if_neg (Ne.symm hij)]

/-- invariant of a counting loop -/
theorem loop_inv {α : Type} (P : Nat → α → Prop) (start stop : Int) (f : α → Int → Except Err α) :
    ∀ (s0 : α), P 0 s0 → (∀ i : Nat, i < (stop - start).toNat → ∀ s, P i s → ∃ s', f s (start + i) = .ok s' ∧ P (i + 1) s') →
      ∃ s', (intLoop start stop).foldlM f s0 = .ok s' ∧ P (stop - start).toNat s' := by
  unfold intLoop
  generalize (stop - start).toNat = n
  induction n with
  | zero => intro s0 h0 _; exact ⟨s0, rfl, h0⟩
  | succ n ih =>
    intro s0 h0 hs
    obtain ⟨s1, h1, h2⟩ := ih s0 h0 (fun i hi => hs i (by omega))
    obtain ⟨s2, h3, h4⟩ := hs n (by omega) s1 h2
    refine ⟨s2, ?_, h4⟩
    rw [List.range_succ, List.map_append, List.foldlM_append, h1]
    show ([start + (n : Int)]).foldlM f s1 = _
    rw [List.foldlM_cons, h3]
    rfl

namespace FEL

/-- the grid arrays have the size of the grid -/
structure Sized (f : FEL) : Prop where
  E : f.E.length = f.N
  prev : f.prev.length = f.N

/-- the field one time step later -/
noncomputable def nextVal (f : FEL) (J : Nat → ℝ) (j : Nat) : ℝ :=
  if j = 0 then 0 else if j = 1 then fval f.E 0
  else if j < f.N then fval f.E (j - 2) + fval f.E j - fval f.prev (j - 2) + f.dt * f.dt * J (j - 1) else 0

theorem propagate_ok {f : FEL} (h : f.Sized) (hN : 2 ≤ f.N) (J : List ℝ) (hJ : J.length = f.N) :
    ∃ next, f.propagate J = .ok next ∧ next.length = f.N ∧ ∀ j, fval next j = f.nextVal (fval J) j := by
  have hE := h.E
  have hP := h.prev
  unfold propagate
  have e0 : cellAt f.E 0 = .ok (fval f.E 0) := cellAt_ok (i := 0) (by omega)
  have e1 : cellPut (List.replicate f.N 0) 1 (fval f.E 0) = .ok ((List.replicate f.N 0).set 1 (fval f.E 0)) :=
    cellPut_ok (i := 1) (by simp; omega) _
  rw [e0]
  show ∃ next, ((cellPut (List.replicate f.N 0) 1 (fval f.E 0)) >>= fun next => (intLoop 1 (f.N - 1)).foldlM (propagateCell f.dt f.E f.prev J) next) = .ok next ∧ _
  rw [e1]
  show ∃ next, (intLoop 1 (f.N - 1)).foldlM (propagateCell f.dt f.E f.prev J) _ = .ok next ∧ _
  obtain ⟨next, h1, h2, h3⟩ := loop_inv (fun (k : Nat) (l : List ℝ) => l.length = f.N ∧ ∀ j, fval l j = if j < k + 2 then f.nextVal (fval J) j else 0)
    1 ((f.N : Int) - 1) (propagateCell f.dt f.E f.prev J) ((List.replicate f.N 0).set 1 (fval f.E 0)) (by
      refine ⟨by simp, ?_⟩
      intro j
      rw [fval_set (by simp; omega)]
      unfold nextVal
      by_cases h1 : j = 1
      · subst h1; simp
      · rw [if_neg h1, fval_replicate]
        by_cases h0 : j = 0
        · simp [h0]
        · rw [if_neg (by omega)]) (by
      intro i hi l hl
      obtain ⟨l1, l2⟩ := hl
      have hi' : i + 2 < f.N := by omega
      unfold propagateCell
      have a1 : (1 : Int) + i - 1 = (i : Nat) := by omega
      have a2 : (1 : Int) + i + 1 = ((i + 2 : Nat) : Int) := by omega
      have a3 : (1 : Int) + i = ((i + 1 : Nat) : Int) := by omega
      rw [a1, a2, a3, cellAt_ok (by omega), cellAt_ok (by omega), cellAt_ok (by omega), cellAt_ok (by omega)]
      simp only [bind, Except.bind]
      rw [cellPut_ok (by omega)]
      refine ⟨_, rfl, by simpa using l1, ?_⟩
      intro j
      rw [fval_set (by omega), l2 j]
      by_cases hj : j = i + 2
      · subst hj
        rw [if_pos rfl, if_pos (by omega)]
        unfold nextVal
        rw [if_neg (by omega), if_neg (by omega), if_pos (by omega)]
        rfl
      · rw [if_neg hj]
        by_cases hlt : j < i + 2
        · rw [if_pos hlt, if_pos (by omega)]
        · rw [if_neg hlt, if_neg (by omega)])
  refine ⟨next, h1, h2, ?_⟩
  intro j
  rw [h3 j]
  by_cases hj : j < f.N
  · rw [if_pos (by omega)]
  · rw [if_neg (by omega)]
    unfold nextVal
    rw [if_neg (by omega), if_neg (by omega), if_neg hj]

/-- the corrected field -/
theorem correct_ok {f : FEL} (h : f.Sized) (hN : 2 ≤ f.N) (J : List ℝ) (hJ : J.length = f.N) :
    ∃ E, (intLoop 1 (f.N - 1)).foldlM (correct f.dt J) f.E = .ok E ∧ E.length = f.N ∧
      ∀ j, fval E j = fval f.E j + if 1 ≤ j ∧ j + 1 < f.N then f.dt * f.dt * fval J j else 0 := by
  have hE := h.E
  obtain ⟨E, h1, h2, h3⟩ := loop_inv (fun (k : Nat) (l : List ℝ) => l.length = f.N ∧
      ∀ j, fval l j = fval f.E j + if 1 ≤ j ∧ j < k + 1 then f.dt * f.dt * fval J j else 0)
    1 ((f.N : Int) - 1) (correct f.dt J) f.E (by
      refine ⟨hE, ?_⟩
      intro j
      rw [if_neg (by omega), add_zero]) (by
      intro i hi l hl
      obtain ⟨l1, l2⟩ := hl
      have hi' : i + 2 < f.N := by omega
      unfold correct
      have a3 : (1 : Int) + i = ((i + 1 : Nat) : Int) := by omega
      rw [a3, cellAt_ok (by omega), cellAt_ok (by omega)]
      simp only [bind, Except.bind]
      rw [cellPut_ok (by omega)]
      refine ⟨_, rfl, by simpa using l1, ?_⟩
      intro j
      rw [fval_set (by omega), l2, l2]
      by_cases hj : j = i + 1
      · subst hj
        rw [if_pos rfl, if_neg (by omega), if_pos (by omega), add_zero]
      · rw [if_neg hj]
        by_cases hlt : 1 ≤ j ∧ j < i + 1
        · rw [if_pos hlt, if_pos (by omega)]
        · rw [if_neg hlt, if_neg (by omega)])
  refine ⟨E, h1, h2, ?_⟩
  intro j
  rw [h3 j]
  congr 1
  by_cases hj : 1 ≤ j ∧ j + 1 < f.N
  · rw [if_pos hj, if_pos (by omega)]
  · rw [if_neg hj, if_neg (by omega)]

/-! ## deposition -/

theorem _root_.Teufel.crint_near (x : ℝ) : |(crint x : ℝ) - x| ≤ 1 / 2 := by
  have h1 := Int.floor_le x
  have h2 := Int.lt_floor_add_one x
  unfold crint
  rw [abs_le]
  split_ifs with a b c
  · constructor <;> linarith
  · push_cast; constructor <;> linarith
  · constructor <;> linarith
  · push_cast; constructor <;> linarith

theorem _root_.Teufel.crint_mono_bounds {x : ℝ} {a b : Int} (h1 : (a : ℝ) ≤ x) (h2 : x ≤ b) : a ≤ crint x ∧ crint x ≤ b := by
  have h := abs_le.mp (crint_near x)
  constructor
  · have : (a : ℝ) - 1 < crint x := by linarith [h.1]
    have : ((a - 1 : Int) : ℝ) < ((crint x : Int) : ℝ) := by push_cast; linarith
    have := Int.cast_lt.mp this
    omega
  · have : ((crint x : Int) : ℝ) < ((b + 1 : Int) : ℝ) := by push_cast; linarith [h.2]
    have := Int.cast_lt.mp this
    omega

/-- distance of a point behind the head of the grid -/
noncomputable def depth (f : FEL) (X : Vec) : ℝ := dot (f.head - X) f.prop

/-- the current density of one particle -/
noncomputable def strength (f : FEL) (p : Particle) : ℝ :=
  dot (p.ACur / Real.sqrt (p.PCur.abs2nd + 1)) f.ex * p.getCharge / f.modeArea / f.dt * MuNull * SpeedOfLight * SpeedOfLight

/-- the current density one particle deposits in one cell -/
noncomputable def share (f : FEL) (p : Particle) (i : Nat) : ℝ :=
  let dz := f.depth p.XCur
  let center := crint (dz / f.ds)
  if i < f.N ∧ center - 10 ≤ i ∧ (i : Int) ≤ center + 10 then
    f.strength p * Real.exp (-(dz - i * f.ds) ^ 2 / (2 * (2 * f.ds) ^ 2)) / (2 * Real.sqrt (2 * Pi))
  else 0

theorem Sane.ds_pos {f : FEL} (h : f.Sane) : 0 < f.ds := by
  rw [h.ds]; exact mul_pos h.dt SpeedOfLight_pos

/-- the particle is in step with the field and on the grid -/
def Accepts (f : FEL) (p : Particle) : Prop :=
  |p.tCur - f.time| ≤ 1 / 4 * f.dt ∧ 0 ≤ f.depth p.XCur ∧ f.depth p.XCur ≤ f.N * f.ds

theorem deposit_ok {f : FEL} (hs : f.Sane) {J : List ℝ} (hJ : J.length = f.N) {p : Particle} (hp : f.Accepts p) :
    ∃ J', f.deposit J p = .ok J' ∧ J'.length = f.N ∧ ∀ i, fval J' i = fval J i + f.share p i := by
  obtain ⟨h1, h2, h3⟩ := hp
  have hds := hs.ds_pos
  have hN := hs.int
  have hc : (0 : Int) ≤ crint (f.depth p.XCur / f.ds) ∧ crint (f.depth p.XCur / f.ds) ≤ f.N := by
    apply crint_mono_bounds
    · push_cast; exact div_nonneg h2 hds.le
    · push_cast; rw [div_le_iff₀ hds]; exact h3
  unfold deposit
  have hz : dot (f.head - p.XCur) f.prop = f.depth p.XCur := rfl
  rw [if_neg (not_lt.mpr h1), hz, if_neg (by rw [not_or]; exact ⟨not_lt.mpr h2, not_lt.mpr h3⟩),
    if_neg (by rw [not_or, not_or]; exact ⟨hs.zR, hs.w0, hds.ne'⟩)]
  have ht : toInt32 (crint (f.depth p.XCur / f.ds)) = .ok (crint (f.depth p.XCur / f.ds)) := by
    unfold toInt32; rw [if_pos (by omega)]
  rw [ht]
  have hst : dot (p.ACur / Real.sqrt (p.PCur.abs2nd + 1)) f.ex * p.getCharge / f.modeArea / f.dt * MuNull * SpeedOfLight * SpeedOfLight = f.strength p := rfl
  simp only [pure, Except.pure, bind, Except.bind]
  rw [hst]
  have hsh : ∀ i, f.share p i = if i < f.N ∧ crint (f.depth p.XCur / f.ds) - 10 ≤ i ∧ (i : Int) ≤ crint (f.depth p.XCur / f.ds) + 10 then
    f.strength p * Real.exp (-(f.depth p.XCur - i * f.ds) ^ 2 / (2 * (2 * f.ds) ^ 2)) / (2 * Real.sqrt (2 * Pi)) else 0 := fun i => rfl
  generalize crint (f.depth p.XCur / f.ds) = c at *
  generalize hstart : (if c - 10 < 0 then (0 : Int) else c - 10) = start
  generalize hstop : (if c + 11 > f.N then (f.N : Int) else c + 11) = stop
  have b1 : 0 ≤ start ∧ start ≤ stop ∧ stop ≤ f.N := by split_ifs at hstart hstop <;> omega
  obtain ⟨J', j1, j2, j3⟩ := loop_inv (fun (k : Nat) (l : List ℝ) => l.length = f.N ∧ ∀ i, fval l i = fval J i +
      if start ≤ i ∧ (i : Int) < start + k then f.strength p * Real.exp (-(f.depth p.XCur - i * f.ds) ^ 2 / (2 * (2 * f.ds) ^ 2)) / (2 * Real.sqrt (2 * Pi)) else 0)
    start stop (depositCell f.ds (f.depth p.XCur) (f.strength p)) J (by
      refine ⟨hJ, ?_⟩
      intro i
      rw [if_neg (by omega), add_zero]) (by
      intro k hk l hl
      obtain ⟨l1, l2⟩ := hl
      obtain ⟨i, hi⟩ : ∃ i : Nat, start + k = (i : Int) := ⟨(start + k).toNat, by omega⟩
      unfold depositCell
      rw [hi, cellAt_ok (by omega)]
      simp only [bind, Except.bind]
      rw [cellPut_ok (by omega)]
      refine ⟨_, rfl, by simpa using l1, ?_⟩
      intro j
      rw [fval_set (by omega), l2, l2]
      by_cases hj : j = i
      · subst hj
        rw [if_pos rfl, if_neg (by omega), if_pos (by omega), add_zero]
        rfl
      · rw [if_neg hj]
        by_cases hlt : start ≤ j ∧ (j : Int) < start + k
        · rw [if_pos hlt, if_pos (by omega)]
        · rw [if_neg hlt, if_neg (by omega)])
  refine ⟨J', j1, j2, ?_⟩
  intro i
  rw [j3 i, hsh i]
  congr 1
  by_cases hi : start ≤ i ∧ (i : Int) < start + (stop - start).toNat
  · rw [if_pos hi, if_pos]
    split_ifs at hstart hstop <;> omega
  · rw [if_neg hi, if_neg]
    split_ifs at hstart hstop <;> omega

/-- for sane parameters the deposition fails only with an exception, and only for a particle that is not accepted -/
theorem deposit_rejects {f : FEL} (hs : f.Sane) (J : List ℝ) {p : Particle} (hp : ¬ f.Accepts p) : f.deposit J p = .error .io := by
  unfold deposit
  by_cases h1 : 1 / 4 * f.dt < |p.tCur - f.time|
  · rw [if_pos h1]; rfl
  · rw [if_neg h1]
    by_cases h2 : dot (f.head - p.XCur) f.prop < 0 ∨ dot (f.head - p.XCur) f.prop > f.N * f.ds
    · simp only [pure, Except.pure, bind, Except.bind]
      rw [if_pos h2]
    · rw [not_or, not_lt, not_lt] at h2
      exact absurd ⟨not_lt.mp h1, h2.1, h2.2⟩ hp

/-- the current density of a number of particles -/
theorem deposit_all {f : FEL} (hs : f.Sane) (ps : List Particle) : ∀ (J : List ℝ), J.length = f.N → (∀ p ∈ ps, f.Accepts p) →
    ∃ J', ps.foldlM f.deposit J = .ok J' ∧ J'.length = f.N ∧ ∀ i, fval J' i = fval J i + (ps.map (fun p => f.share p i)).sum := by
  induction ps with
  | nil => intro J hJ _; exact ⟨J, rfl, hJ, by simp⟩
  | cons p ps ih =>
    intro J hJ hp
    obtain ⟨J1, a1, a2, a3⟩ := deposit_ok hs hJ (hp p (by simp))
    obtain ⟨J2, b1, b2, b3⟩ := ih J1 a2 (fun q hq => hp q (by simp [hq]))
    refine ⟨J2, ?_, b2, ?_⟩
    · rw [List.foldlM_cons, a1]; exact b1
    · intro i
      rw [b3, a3, List.map_cons, List.sum_cons, add_assoc]

theorem deposit_all_rejects {f : FEL} (hs : f.Sane) (ps : List Particle) : ∀ (J : List ℝ), J.length = f.N → ¬ (∀ p ∈ ps, f.Accepts p) →
    ps.foldlM f.deposit J = .error .io := by
  induction ps with
  | nil => intro J _ h; exact absurd (by simp) h
  | cons p ps ih =>
    intro J hJ h
    rw [List.foldlM_cons]
    by_cases hp : f.Accepts p
    · obtain ⟨J1, a1, a2, _⟩ := deposit_ok hs hJ hp
      rw [a1]
      apply ih J1 a2
      intro hall
      apply h
      intro q hq
      rcases List.mem_cons.mp hq with rfl | hq
      · exact hp
      · exact hall q hq
    · rw [deposit_rejects hs J hp]
      rfl

end FEL
end Teufel
