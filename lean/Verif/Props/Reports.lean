import Verif.Model.MeshReports
import Verif.Props.Mesh
import Verif.Props.FieldTrace

/-! # Properties C112 and C113: what is printed about meshed screens -/

namespace Teufel
open Vec

/-- energy per area (J/m²) which the field recorded in a trace transports -/
noncomputable def FieldTrace.fluence (tr : FieldTrace) : Vec := (tr.trace.map (fun F : EMField => cross F.E F.B / MuNull)).sum * tr.dt

namespace Mesh

/-- what the search has found among the first cells -/
def PeakOf (S : Nat → Vec) (n : Nat) (s : Peak) : Prop :=
  (s.index = none ∧ s.peak = 0 ∧ ∀ i < n, S i = 0) ∨
    ∃ k < n, s.index = some k ∧ s.Sp = S k ∧ s.peak = (S k).norm ∧ S k ≠ 0 ∧ (∀ i < n, (S i).norm ≤ (S k).norm) ∧ ∀ i < k, (S i).norm < (S k).norm

theorem peak_search (m : Mesh) (tr : Nat → FieldTrace) (hA : ∀ i < m.Np, m.A[i]? = some (tr i)) (n : Nat) (hn : n ≤ m.Np) :
    ∃ s, (List.range n).foldlM m.peakStep ⟨none, ⟨0, 0, 0⟩, 0⟩ = .ok s ∧ PeakOf (fun i => (tr i).fluence) n s := by
  induction n with
  | zero => exact ⟨_, rfl, Or.inl ⟨rfl, rfl, by simp⟩⟩
  | succ n ih =>
    obtain ⟨s, h1, h2⟩ := ih (by omega)
    rw [List.range_succ, List.foldlM_append, h1]
    have hf : (tr n).poynting = (tr n).fluence := FieldTrace.poynting_eq _
    have hstep : m.peakStep s n = .ok (open Classical in if (tr n).fluence.norm > s.peak then ⟨some n, (tr n).fluence, (tr n).fluence.norm⟩ else s) := by
      unfold peakStep
      rw [vecAt_ok.mpr (hA n (by omega))]
      simp only [bind, Except.bind, pure, Except.pure, hf]
    refine ⟨_, by simp only [bind, Except.bind, List.foldlM_cons, hstep, List.foldlM_nil, pure, Except.pure]; rfl, ?_⟩
    have h0 := Vec.norm_nonneg (tr n).fluence
    by_cases hgt : (tr n).fluence.norm > s.peak
    · rw [if_pos hgt]
      have hne : (tr n).fluence ≠ 0 := by
        intro h
        rw [h] at hgt
        have hz : Vec.norm 0 = 0 := Vec.norm_eq_zero.mpr rfl
        rcases h2 with ⟨-, hp, -⟩ | ⟨k, -, -, -, hp, -⟩
        · rw [hz, hp] at hgt; exact lt_irrefl _ hgt
        · rw [hz, hp] at hgt; exact absurd (Vec.norm_nonneg (tr k).fluence) (not_le.mpr hgt)
      have hall : ∀ i < n, (tr i).fluence.norm < (tr n).fluence.norm := by
        intro i hi
        rcases h2 with ⟨-, hp, hz⟩ | ⟨k, -, -, -, hp, -, hm, -⟩
        · have : (tr i).fluence = 0 := hz i hi
          rw [this, Vec.norm_eq_zero.mpr rfl]
          rw [hp] at hgt; exact hgt
        · exact lt_of_le_of_lt (hm i hi) (by rw [hp] at hgt; exact hgt)
      refine Or.inr ⟨n, Nat.lt_succ_self n, rfl, rfl, rfl, hne, ?_, hall⟩
      intro i hi
      rcases Nat.lt_succ_iff_lt_or_eq.mp hi with h | rfl
      · exact (hall i h).le
      · exact le_rfl
    · rw [if_neg hgt]
      have hle := not_lt.mp hgt
      rcases h2 with ⟨a, hp, hz⟩ | ⟨k, hk, a, b, hp, c, hm, d⟩
      · refine Or.inl ⟨a, hp, ?_⟩
        intro i hi
        rcases Nat.lt_succ_iff_lt_or_eq.mp hi with h | rfl
        · exact hz i h
        · rw [hp] at hle
          exact Vec.norm_eq_zero.mp (le_antisymm hle h0)
      · refine Or.inr ⟨k, by omega, a, b, hp, c, ?_, d⟩
        intro i hi
        rcases Nat.lt_succ_iff_lt_or_eq.mp hi with h | rfl
        · exact hm i h
        · rw [hp] at hle; exact hle

end Mesh

open Mesh in
/-- **C112.** The report on a meshed screen loaded from a file, whose triangles `(a i, b i, c i)` refer to existing points, is true: the area is the sum of the
areas of the triangles, the energy is the sum of the energies that pass the triangles (if none is degenerate), and the peak is the first cell with the largest
energy density, with its position, energy density, start time and time step; no peak is reported only if no cell has received energy. -/
theorem C112_report (f : MeshFile) (m : Mesh) (hf : Mesh.ofFile f = .ok m) (g : MeshGeometry) (hg : m.init = .ok g) (a b c : Nat → Vec)
    (hc : ∀ i < m.Np, m.Corners i (a i) (b i) (c i)) :
    ∃ (r : Report) (tr : Nat → FieldTrace), m.report g = .ok r ∧ (∀ i < m.Np, m.A[i]? = some (tr i)) ∧ f.Np = some r.Np ∧ r.Nt = m.Nt ∧
      r.area / 1e4 = ((List.range m.Np).map (fun i => (cross (b i - a i) (c i - a i)).norm / 2)).sum ∧
      ((∀ i < m.Np, cross (b i - a i) (c i - a i) ≠ 0) → ∃ e, r.energy = .ok (e * 1e6) ∧ e = ((List.range m.Np).map (fun i => through (tr i).fluence (a i) (b i) (c i))).sum) ∧
      (r.peak = none → ∀ i < m.Np, (tr i).fluence = 0) ∧
      ∀ p, r.peak = some p → p.index < m.Np ∧ (m.points[p.index]? = some p.position) ∧ p.S = (tr p.index).fluence ∧ p.density = p.S.norm ∧ p.S ≠ 0 ∧
        p.t0 = (tr p.index).t0 * 1e9 ∧ p.dt = (tr p.index).dt * 1e9 ∧ (∀ i < m.Np, (tr i).fluence.norm ≤ p.density) ∧ ∀ i < p.index, (tr i).fluence.norm < p.density := by
  obtain ⟨⟨w1, w2, w3, w4, w5⟩, -, hNp, -⟩ := C73_created f m hf
  obtain ⟨tr, hA⟩ : ∃ tr : Nat → FieldTrace, ∀ i < m.Np, m.A[i]? = some (tr i) :=
    ⟨fun i => m.A.getD i (FieldTrace.new 0 0 0), fun i hi => by
      have hi' : i < m.A.length := by rw [w4]; exact hi
      simp [List.getD, List.getElem?_eq_getElem hi']⟩
  obtain ⟨s, h1, h2⟩ := peak_search m tr hA m.Np le_rfl
  obtain ⟨g', e1, e2, e3, e4⟩ := C56_geometry m (fun i hi => ⟨_, _, _, hc i hi⟩)
  rw [hg] at e1
  obtain rfl := Except.ok.inj e1
  have harea : g.totalArea = ((List.range m.Np).map (fun i => (cross (b i - a i) (c i - a i)).norm / 2)).sum := by
    rw [e3]
    congr 1
    apply List.ext_getElem?
    intro i
    by_cases hi : i < m.Np
    · rw [(e4 i hi _ _ _ (hc i hi)).1]
      simp [hi]
    · rw [List.getElem?_eq_none (by rw [e2]; omega), List.getElem?_eq_none (by simp; omega)]
  have henergy : (∀ i < m.Np, cross (b i - a i) (c i - a i) ≠ 0) → m.totalEnergy g = .ok ((List.range m.Np).map (fun i => through (tr i).fluence (a i) (b i) (c i))).sum := by
    intro hne
    rw [C59_energy m g hg a b c tr hc hne hA]
    simp only [FieldTrace.poynting_eq]
    rfl
  have hcommon : ∀ pk, ({ Np := m.Np, Nt := m.Nt, area := g.totalArea * 1e4, energy := (m.totalEnergy g).map (fun e => e * 1e6), peak := pk } : Report).area / 1e4 =
      ((List.range m.Np).map (fun i => (cross (b i - a i) (c i - a i)).norm / 2)).sum := by
    intro pk
    rw [← harea]
    show g.totalArea * 1e4 / 1e4 = _
    rw [mul_div_assoc, div_self (by norm_num), mul_one]
  have hen : (∀ i < m.Np, cross (b i - a i) (c i - a i) ≠ 0) → ∃ e, (m.totalEnergy g).map (fun e => e * 1e6) = .ok (e * 1e6) ∧
      e = ((List.range m.Np).map (fun i => through (tr i).fluence (a i) (b i) (c i))).sum := by
    intro hne
    exact ⟨_, by rw [henergy hne]; rfl, rfl⟩
  rcases h2 with ⟨p1, p2, p3⟩ | ⟨k, hk, p1, p2, p3, p4, p5, p6⟩
  · refine ⟨_, tr, ?_, hA, hNp, rfl, hcommon none, hen, fun _ => p3, ?_⟩
    · unfold report
      rw [h1]
      simp only [bind, Except.bind, p1, pure, Except.pure]
    · intro p hp; cases hp
  · have hkp : k < m.points.length := by rw [w2]; exact hk
    have htm : tr k ∈ m.A := List.mem_of_getElem? (hA k hk)
    refine ⟨_, tr, ?_, hA, hNp, rfl, hcommon (some ⟨k, m.points[k], s.peak, s.Sp, (tr k).t0 * 1e9, m.dt * 1e9⟩), hen, ?_, ?_⟩
    · unfold report
      rw [h1]
      simp only [bind, Except.bind, p1, pure, Except.pure]
      rw [vecAt_ok.mpr (List.getElem?_eq_getElem hkp)]
      dsimp only
      rw [vecAt_ok.mpr (hA k hk)]
    · intro h; cases h
    · intro p hp
      obtain rfl := Option.some.inj hp
      refine ⟨hk, List.getElem?_eq_getElem hkp, p2, by rw [p2]; exact p3, by rw [p2]; exact p4, rfl, by rw [(w5 _ htm).2.2], ?_, ?_⟩
      · intro i hi; show _ ≤ s.peak; rw [p3]; exact p5 i hi
      · intro i hi; show _ < s.peak; rw [p3]; exact p6 i hi


namespace Mesh

/-- `b` is the smallest of `M` and the first `n` values -/
def Smallest (v : Nat → ℝ) (n : Nat) (M b : ℝ) : Prop := (∀ i < n, b ≤ v i) ∧ b ≤ M ∧ (b = M ∨ ∃ i < n, b = v i)

/-- `b` is the largest of `M` and the first `n` values -/
def Largest (v : Nat → ℝ) (n : Nat) (M b : ℝ) : Prop := (∀ i < n, v i ≤ b) ∧ M ≤ b ∧ (b = M ∨ ∃ i < n, b = v i)

open Classical in
theorem smallest_step {v : Nat → ℝ} {n : Nat} {M b : ℝ} (h : Smallest v n M b) : Smallest v (n + 1) M (if v n < b then v n else b) := by
  obtain ⟨h1, h2, h3⟩ := h
  split
  · rename_i c
    refine ⟨?_, c.le.trans h2, Or.inr ⟨n, by omega, rfl⟩⟩
    intro i hi
    rcases Nat.lt_succ_iff_lt_or_eq.mp hi with h | rfl
    · exact c.le.trans (h1 i h)
    · exact le_rfl
  · rename_i c
    refine ⟨?_, h2, h3.imp id (fun ⟨i, hi, e⟩ => ⟨i, by omega, e⟩)⟩
    intro i hi
    rcases Nat.lt_succ_iff_lt_or_eq.mp hi with h | rfl
    · exact h1 i h
    · exact not_lt.mp c

open Classical in
theorem largest_step {v : Nat → ℝ} {n : Nat} {M b : ℝ} (h : Largest v n M b) : Largest v (n + 1) M (if v n > b then v n else b) := by
  obtain ⟨h1, h2, h3⟩ := h
  split
  · rename_i c
    refine ⟨?_, h2.trans (le_of_lt c), Or.inr ⟨n, by omega, rfl⟩⟩
    intro i hi
    rcases Nat.lt_succ_iff_lt_or_eq.mp hi with h | rfl
    · exact (h1 i h).trans (le_of_lt c)
    · exact le_rfl
  · rename_i c
    refine ⟨?_, h2, h3.imp id (fun ⟨i, hi, e⟩ => ⟨i, by omega, e⟩)⟩
    intro i hi
    rcases Nat.lt_succ_iff_lt_or_eq.mp hi with h | rfl
    · exact h1 i h
    · exact not_lt.mp c

theorem box_loop (m : Mesh) (P : Nat → Vec) (tr : Nat → FieldTrace) (hP : ∀ i < m.Np, m.points[i]? = some (P i)) (hA : ∀ i < m.Np, m.A[i]? = some (tr i)) (n : Nat) (hn : n ≤ m.Np) :
    ∃ b, (List.range n).foldlM m.boxStep ⟨1e30, -1e30, 1e30, -1e30, 1e30, -1e30, 1e30, -1e30⟩ = .ok b ∧
      Smallest (fun i => (P i).x) n 1e30 b.x1 ∧ Largest (fun i => (P i).x) n (-1e30) b.x2 ∧ Smallest (fun i => (P i).y) n 1e30 b.y1 ∧ Largest (fun i => (P i).y) n (-1e30) b.y2 ∧
      Smallest (fun i => (P i).z) n 1e30 b.z1 ∧ Largest (fun i => (P i).z) n (-1e30) b.z2 ∧ Smallest (fun i => (tr i).t0) n 1e30 b.t1 ∧
      Largest (fun i => (tr i).t0 + m.Nt * m.getDt) n (-1e30) b.t2 := by
  induction n with
  | zero =>
    refine ⟨_, rfl, ?_⟩
    simp [Smallest, Largest]
  | succ n ih =>
    obtain ⟨b, h, h1, h2, h3, h4, h5, h6, h7, h8⟩ := ih (by omega)
    rw [List.range_succ, List.foldlM_append, h]
    simp only [bind, Except.bind, List.foldlM_cons, List.foldlM_nil]
    unfold boxStep
    rw [vecAt_ok.mpr (hP n (by omega))]
    simp only [bind, Except.bind]
    rw [vecAt_ok.mpr (hA n (by omega))]
    simp only [pure, Except.pure]
    refine ⟨_, rfl, smallest_step h1, largest_step h2, smallest_step h3, largest_step h4, smallest_step h5, largest_step h6, smallest_step h7, ?_⟩
    have := largest_step h8
    push_cast
    exact this

/-- the box contains the place and the time of every sample -/
def Box.Contains (b : Box) (p : Vec) (t : ℝ) : Prop := b.x1 ≤ p.x ∧ p.x ≤ b.x2 ∧ b.y1 ≤ p.y ∧ p.y ≤ b.y2 ∧ b.z1 ≤ p.z ∧ p.z ≤ b.z2 ∧ b.t1 ≤ t ∧ t ≤ b.t2

/-- all coordinates and times are below 10³⁰ -/
def Moderate (m : Mesh) : Prop := (∀ p ∈ m.points, |p.x| < 1e30 ∧ |p.y| < 1e30 ∧ |p.z| < 1e30) ∧ ∀ tr ∈ m.A, |tr.t0| < 1e30

end Mesh

open Mesh in
/-- **C113 (partial).** For a screen with at least one cell, loaded from a file, the bounding box contains all positions and touches them on all sides, and it
starts with the first trace; it contains all samples if the time step is a whole number of seconds.  Otherwise it ends too early. -/
theorem C113_box_partial (f : MeshFile) (m : Mesh) (hf : Mesh.ofFile f = .ok m) (hN : 0 < m.Np) (hm : m.Moderate) :
    ∃ b, m.boundingBox = .ok b ∧ (∀ p ∈ m.points, b.x1 ≤ p.x ∧ p.x ≤ b.x2 ∧ b.y1 ≤ p.y ∧ p.y ≤ b.y2 ∧ b.z1 ≤ p.z ∧ p.z ≤ b.z2) ∧
      (∃ p ∈ m.points, b.x1 = p.x) ∧ (∃ p ∈ m.points, b.x2 = p.x) ∧ (∃ p ∈ m.points, b.y1 = p.y) ∧ (∃ p ∈ m.points, b.y2 = p.y) ∧
      (∃ p ∈ m.points, b.z1 = p.z) ∧ (∃ p ∈ m.points, b.z2 = p.z) ∧ (∀ tr ∈ m.A, b.t1 ≤ tr.t0) ∧ (∃ tr ∈ m.A, b.t1 = tr.t0) ∧
      ((∃ k : ℤ, m.dt = k) → 0 ≤ m.dt → ∀ (i : Nat) (p : Vec) (tr : FieldTrace), m.points[i]? = some p → m.A[i]? = some tr → ∀ j < tr.N, b.Contains p (tr.t0 + j * tr.dt)) ∧
      (0 < m.dt → m.dt < 1 → ∀ t, t ≤ b.t2 ↔ ∃ tr ∈ m.A, t ≤ tr.t0) := by
  obtain ⟨⟨w1, w2, w3, w4, w5⟩, -⟩ := C73_created f m hf
  obtain ⟨P, hP⟩ : ∃ P : Nat → Vec, ∀ i < m.Np, m.points[i]? = some (P i) :=
    ⟨fun i => m.points.getD i 0, fun i hi => by
      have hi' : i < m.points.length := by rw [w2]; exact hi
      simp [List.getD, List.getElem?_eq_getElem hi']⟩
  obtain ⟨tr, hA⟩ : ∃ tr : Nat → FieldTrace, ∀ i < m.Np, m.A[i]? = some (tr i) :=
    ⟨fun i => m.A.getD i (FieldTrace.new 0 0 0), fun i hi => by
      have hi' : i < m.A.length := by rw [w4]; exact hi
      simp [List.getD, List.getElem?_eq_getElem hi']⟩
  have mP : ∀ i < m.Np, P i ∈ m.points := fun i hi => List.mem_of_getElem? (hP i hi)
  have mA : ∀ i < m.Np, tr i ∈ m.A := fun i hi => List.mem_of_getElem? (hA i hi)
  have iP : ∀ p ∈ m.points, ∃ i < m.Np, P i = p := by
    intro p hp
    obtain ⟨i, hi, rfl⟩ := List.mem_iff_getElem.mp hp
    refine ⟨i, by rw [← w2]; exact hi, ?_⟩
    have := hP i (by rw [← w2]; exact hi)
    rw [List.getElem?_eq_getElem hi] at this
    exact (Option.some.inj this).symm
  have iA : ∀ p ∈ m.A, ∃ i < m.Np, tr i = p := by
    intro p hp
    obtain ⟨i, hi, rfl⟩ := List.mem_iff_getElem.mp hp
    refine ⟨i, by rw [← w4]; exact hi, ?_⟩
    have := hA i (by rw [← w4]; exact hi)
    rw [List.getElem?_eq_getElem hi] at this
    exact (Option.some.inj this).symm
  obtain ⟨b, hb, h1, h2, h3, h4, h5, h6, h7, h8⟩ := box_loop m P tr hP hA m.Np le_rfl
  have lo : ∀ {v : Nat → ℝ} {b : ℝ}, (∀ i < m.Np, |v i| < 1e30) → Smallest v m.Np 1e30 b → ∃ i < m.Np, b = v i := by
    rintro v b hv ⟨a1, -, e | e⟩
    · have := a1 0 hN
      have := (abs_lt.mp (hv 0 hN)).2
      linarith
    · exact e
  have hi : ∀ {v : Nat → ℝ} {b : ℝ}, (∀ i < m.Np, |v i| < 1e30) → Largest v m.Np (-1e30) b → ∃ i < m.Np, b = v i := by
    rintro v b hv ⟨a1, -, e | e⟩
    · have := a1 0 hN
      have := (abs_lt.mp (hv 0 hN)).1
      linarith
    · exact e
  have toP : ∀ {c : Vec → ℝ} {x : ℝ}, (∃ i < m.Np, x = c (P i)) → ∃ p ∈ m.points, x = c p := fun ⟨i, hi, e⟩ => ⟨P i, mP i hi, e⟩
  have vx : ∀ i < m.Np, |(P i).x| < 1e30 := fun i hi => (hm.1 _ (mP i hi)).1
  have vy : ∀ i < m.Np, |(P i).y| < 1e30 := fun i hi => (hm.1 _ (mP i hi)).2.1
  have vz : ∀ i < m.Np, |(P i).z| < 1e30 := fun i hi => (hm.1 _ (mP i hi)).2.2
  have vt : ∀ i < m.Np, |(tr i).t0| < 1e30 := fun i hi => hm.2 _ (mA i hi)
  refine ⟨b, hb, ?_, toP (lo vx h1), toP (hi vx h2), toP (lo vy h3), toP (hi vy h4), toP (lo vz h5), toP (hi vz h6), ?_, ?_, ?_, ?_⟩
  · intro p hp
    obtain ⟨i, hi, rfl⟩ := iP p hp
    exact ⟨h1.1 i hi, h2.1 i hi, h3.1 i hi, h4.1 i hi, h5.1 i hi, h6.1 i hi⟩
  · intro q hq
    obtain ⟨i, hi, rfl⟩ := iA q hq
    exact h7.1 i hi
  · obtain ⟨i, hi, e⟩ := lo vt h7
    exact ⟨tr i, mA i hi, e⟩
  · intro hk hd i p q hp hq j hj
    have hi : i < m.Np := by
      rw [← w4]
      by_contra h
      rw [List.getElem?_eq_none (by omega)] at hq
      cases hq
    rw [hP i hi] at hp
    rw [hA i hi] at hq
    obtain rfl := Option.some.inj hp
    obtain rfl := Option.some.inj hq
    have hd' := (C58_time_step_partial m).mpr hk
    have hw := w5 _ (mA i hi)
    have e8 := h8.1 i hi
    simp only [hd'] at e8
    have hj' : (j : ℝ) ≤ m.Nt := by rw [← hw.2.1]; exact_mod_cast hj.le
    have hjd : (j : ℝ) * m.dt ≤ m.Nt * m.dt := mul_le_mul_of_nonneg_right hj' hd
    have hj0 : 0 ≤ (j : ℝ) * m.dt := by positivity
    have e7 := h7.1 i hi
    rw [hw.2.2]
    exact ⟨h1.1 i hi, h2.1 i hi, h3.1 i hi, h4.1 i hi, h5.1 i hi, h6.1 i hi, by simp only at e7; linarith, by linarith⟩
  · intro hd0 hd1 t
    have hz := (C58_full_statement_false m hd0 hd1).1
    simp only [hz, Int.cast_zero, mul_zero, add_zero] at h8
    constructor
    · intro ht
      obtain ⟨i, hi, e⟩ := hi vt h8
      exact ⟨tr i, mA i hi, by rw [← e]; exact ht⟩
    · rintro ⟨q, hq, ht⟩
      obtain ⟨i, hi, rfl⟩ := iA q hq
      exact ht.trans (h8.1 i hi)

/-- a screen with one triangle and two samples of half a second -/
noncomputable def boxFile : MeshFile :=
  ⟨some 3, [⟨0, 0, 0⟩, ⟨0, 1, 0⟩, ⟨1, 0, 0⟩], some 1, [⟨0, 0, 0⟩], some [⟨0, 1, 2⟩], some ⟨some 2, some (1 / 2), [0]⟩, some [⟨⟨1, 0, 0⟩, ⟨0, -1, 0⟩⟩, ⟨⟨1, 0, 0⟩, ⟨0, -1, 0⟩⟩]⟩

noncomputable def boxMesh : Mesh :=
  ⟨3, 1, 2, 1 / 2, [⟨0, 0, 0⟩, ⟨0, 1, 0⟩, ⟨1, 0, 0⟩], [⟨0, 1, 2⟩], [⟨0, 0, 0⟩], [⟨0, 1 / 2, 2, [⟨⟨1, 0, 0⟩, ⟨0, -1, 0⟩⟩, ⟨⟨1, 0, 0⟩, ⟨0, -1, 0⟩⟩]⟩]⟩

theorem boxFile_mesh : Mesh.ofFile boxFile = .ok boxMesh := by
  simp [Mesh.ofFile, boxFile, boxMesh, SourceScreen.required, Mesh.readInto, Mesh.readRaw, Mesh.readTiming, Mesh.readFields, bind, Except.bind, pure, Except.pure,
    FieldTrace.setBuffer, FieldTrace.new, FieldTrace.setFrom, List.range_succ, FieldTrace.setField]

theorem boxMesh_moderate : boxMesh.Moderate := by
  constructor <;> simp [boxMesh] <;> norm_num

open Mesh in
/-- **C113, the full statement is false**: the time step is cut to a whole number of seconds, so the box leaves out all samples but the first of the latest trace. -/
theorem C113_full_statement_false : ¬ ∀ (f : MeshFile) (m : Mesh), Mesh.ofFile f = .ok m → 0 < m.Np → m.Moderate → ∀ b, m.boundingBox = .ok b →
    ∀ (i : Nat) (p : Vec) (tr : FieldTrace), m.points[i]? = some p → m.A[i]? = some tr → ∀ j < tr.N, b.Contains p (tr.t0 + j * tr.dt) := by
  intro h
  obtain ⟨b, hb, -, -, -, -, -, -, -, -, -, -, ht⟩ := C113_box_partial boxFile boxMesh boxFile_mesh one_pos boxMesh_moderate
  have h1 := (h boxFile boxMesh boxFile_mesh one_pos boxMesh_moderate b hb 0 _ _ rfl rfl 1 (by simp)).2.2.2.2.2.2.2
  rw [ht (by norm_num [boxMesh]) (by norm_num [boxMesh])] at h1
  obtain ⟨tr, h2, h3⟩ := h1
  simp [boxMesh] at h2
  subst h2
  norm_num at h3

open Mesh in
/-- **C112 (energy flow).** The total energy flow vector printed by `reflection` is the sum of the energy densities of the cells times their areas. -/
theorem C112_flow (m : Mesh) (g : MeshGeometry) (hg : m.init = .ok g) (a b c : Nat → Vec) (tr : Nat → FieldTrace)
    (hc : ∀ i < m.Np, m.Corners i (a i) (b i) (c i)) (hA : ∀ i < m.Np, m.A[i]? = some (tr i)) :
    m.energyFlow g = .ok ((List.range m.Np).map (fun i => (tr i).fluence * ((cross (b i - a i) (c i - a i)).norm / 2))).sum := by
  obtain ⟨g', e1, e2, e3, e4⟩ := C56_geometry m (fun i hi => ⟨_, _, _, hc i hi⟩)
  rw [hg] at e1
  obtain rfl := Except.ok.inj e1
  unfold energyFlow
  have H : ∀ (l : List Nat), (∀ i ∈ l, i < m.Np) → ∀ S : Vec, l.foldlM (m.flowStep g) S = .ok (S + (l.map (fun i => (tr i).fluence * ((cross (b i - a i) (c i - a i)).norm / 2))).sum) := by
    intro l
    induction l with
    | nil => intro _ S; simp; rfl
    | cons i l ih =>
      intro hl S
      have hi := hl i (by simp)
      have hs : m.flowStep g S i = .ok (S + (tr i).fluence * ((cross (b i - a i) (c i - a i)).norm / 2)) := by
        unfold flowStep
        rw [vecAt_ok.mpr (hA i hi)]
        simp only [bind, Except.bind]
        rw [vecAt_ok.mpr (e4 i hi _ _ _ (hc i hi)).1]
        simp only [pure, Except.pure, FieldTrace.poynting_eq]
        rfl
      rw [List.foldlM_cons, hs]
      simp only [bind, Except.bind]
      rw [ih (fun j hj => hl j (by simp [hj])), List.map_cons, List.sum_cons, add_assoc]
  rw [H _ (fun i hi => List.mem_range.mp hi)]
  congr 1
  exact zero_add _

/-- non-vacuity of C112: the report on this screen names its only cell -/
example : ∃ g r p, boxMesh.init = .ok g ∧ boxMesh.report g = .ok r ∧ r.area = 5e3 ∧ r.peak = some p ∧ p.index = 0 ∧ p.S = ⟨0, 0, -1 / MuNull⟩ := by
  have hcor : ∀ i < boxMesh.Np, boxMesh.Corners i ⟨0, 0, 0⟩ ⟨0, 1, 0⟩ ⟨1, 0, 0⟩ := by
    intro i hi
    obtain rfl : i = 0 := Nat.lt_one_iff.mp hi
    exact ⟨⟨0, 1, 2⟩, rfl, by norm_num, by norm_num, by norm_num, rfl, rfl, rfl⟩
  obtain ⟨g, hg, -⟩ := C56_geometry boxMesh (fun i hi => ⟨_, _, _, hcor i hi⟩)
  obtain ⟨r, tr, h1, h2, -, -, h3, -, h4, h5⟩ := C112_report boxFile boxMesh boxFile_mesh g hg (fun _ => ⟨0, 0, 0⟩) (fun _ => ⟨0, 1, 0⟩) (fun _ => ⟨1, 0, 0⟩) hcor
  have hN : boxMesh.Np = 1 := rfl
  have hf : (tr 0).fluence = ⟨0, 0, -1 / MuNull⟩ := by
    have h : (⟨0, 1 / 2, 2, [⟨⟨1, 0, 0⟩, ⟨0, -1, 0⟩⟩, ⟨⟨1, 0, 0⟩, ⟨0, -1, 0⟩⟩]⟩ : FieldTrace) = tr 0 := Option.some.inj (h2 0 one_pos)
    rw [← h]
    unfold FieldTrace.fluence
    ext <;> simp <;> ring
  have hne : (tr 0).fluence ≠ 0 := by
    rw [hf]
    intro h
    have := congrArg Vec.z h
    simp at this
    exact MuNull_pos.ne' this
  cases hp : r.peak with
  | none => exact absurd (h4 hp 0 one_pos) hne
  | some p =>
    obtain ⟨a1, -, a2, -⟩ := h5 p hp
    have h0 : p.index = 0 := Nat.lt_one_iff.mp a1
    refine ⟨g, r, p, hg, h1, ?_, hp, h0, by rw [a2, h0, hf]⟩
    rw [hN] at h3
    have e : ((⟨0, 1, 0⟩ : Vec) - ⟨0, 0, 0⟩).cross (⟨1, 0, 0⟩ - ⟨0, 0, 0⟩) = ⟨0, 0, -1⟩ := by ext <;> simp
    have hn : Vec.norm ⟨0, 0, -1⟩ = 1 := by simp [Vec.norm]
    simp only [e, hn, List.range_one, List.map_cons, List.map_nil, List.sum_cons, List.sum_nil] at h3
    rw [div_eq_iff (by norm_num)] at h3
    rw [h3]
    norm_num

end Teufel
