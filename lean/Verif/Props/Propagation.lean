import Verif.Props.PropagateSurface
import Verif.Props.Mesh

/-!
# C54: propagated fields
-/

namespace Teufel

open Vec Mesh

namespace Propagate

/-- trace of given samples -/
def sampled (t0 dt : ℝ) (N : Nat) (f : Nat → EMField) : FieldTrace := ⟨t0, dt, N, (List.range N).map f⟩

theorem sampled_congr {t0 dt : ℝ} {N : Nat} {f g : Nat → EMField} (h : ∀ i < N, f i = g i) : sampled t0 dt N f = sampled t0 dt N g := by
  unfold sampled
  congr 1
  exact List.map_congr_left (fun i hi => h i (List.mem_range.mp hi))

theorem addAssign_sampled (t0 dt : ℝ) (N : Nat) (f g : Nat → EMField) :
    (sampled t0 dt N f).addAssign (sampled t0 dt N g) = (sampled t0 dt N (fun i => f i + g i), none) := by
  have hg : (sampled t0 dt N f).guardMatch (sampled t0 dt N g) = .ok () := FieldTrace.guard_ok ⟨rfl, rfl, rfl⟩
  unfold FieldTrace.addAssign
  rw [hg]
  dsimp only
  congr 1
  unfold sampled
  dsimp only
  congr 1
  apply List.ext_getElem?
  intro i
  rw [FieldTrace.addLoop]
  by_cases hi : i < N
  · rw [if_pos hi]; simp [hi]
  · rw [if_neg hi]; simp [hi]

theorem smul_sampled (t0 dt : ℝ) (N : Nat) (f : Nat → EMField) (k : ℝ) : (sampled t0 dt N f).smul k = sampled t0 dt N (fun i => f i * k) := by
  unfold sampled FieldTrace.smul
  simp only [List.map_map]
  rfl

/-- the retarded samples -/
noncomputable def retarded (src : FieldTrace) (delay t0 dt : ℝ) (i : Nat) : EMField := src.fieldAtTime (t0 + (i : ℝ) * dt - delay)

open Classical in
theorem retard_sampled (src : FieldTrace) (delay t0 dt : ℝ) (N : Nat) (c : List EMField) :
    src.retard delay ⟨t0, dt, N, c⟩ = (sampled t0 dt N (retarded src delay t0 dt),
      if ((List.range N).map (fun i => (retarded src delay t0 dt i).Poynting)).sum * dt = 0 then some .io else none) := by
  unfold FieldTrace.retard
  dsimp only
  congr 1
  rw [show ((if ((⟨t0, dt, N, _⟩ : FieldTrace).poynting.norm = 0) then some Err.io else none) : Option Err) = _ from rfl]
  simp only [Vec.norm_eq_zero, FieldTrace.poynting_eq, List.map_map]
  rfl

/-- a term that carries no energy is not added -/
theorem addTerm_skip (src : FieldTrace) (delay : ℝ) (k : Except Err ℝ) (dA t0 dt : ℝ) (N : Nat) (f : FieldTrace) (c : List EMField)
    (h : ((List.range N).map (fun i => (retarded src delay t0 dt i).Poynting)).sum * dt = 0) :
    addTerm src delay k dA (f, ⟨t0, dt, N, c⟩) = .ok (f, sampled t0 dt N (retarded src delay t0 dt)) := by
  unfold addTerm
  rw [retard_sampled, if_pos h]

theorem empty_fieldAtTime (t0 dt t : ℝ) : (⟨t0, dt, 0, []⟩ : FieldTrace).fieldAtTime t = 0 := by
  unfold FieldTrace.fieldAtTime FieldTrace.sampleOrZero
  ext <;> simp

theorem carried_visible {src : FieldTrace} {delay : ℝ} {T : FieldTrace} (hv : Visible src delay T) {i : Nat} (hi : i < T.N) :
    (carried src delay T).fieldAtTime (T.t0 + (i : ℝ) * T.dt - delay) = src.fieldAtTime (T.t0 + (i : ℝ) * T.dt - delay) := by
  unfold carried
  split
  · rename_i h
    rw [empty_fieldAtTime]
    rcases hv with hv | hv
    · exact (hv i hi).symm
    · exact absurd h hv
  · rfl

theorem addTerm_of (src : FieldTrace) (delay k dA : ℝ) (T : FieldTrace) (f : Nat → EMField) (c : List EMField) :
    addTerm src delay (.ok k) dA (sampled T.t0 T.dt T.N f, ⟨T.t0, T.dt, T.N, c⟩) =
      .ok (sampled T.t0 T.dt T.N (fun i => f i + retarded (carried src delay T) delay T.t0 T.dt i * (k * dA)), sampled T.t0 T.dt T.N (retarded src delay T.t0 T.dt)) := by
  by_cases h : ((List.range T.N).map (fun i => (retarded src delay T.t0 T.dt i).Poynting)).sum * T.dt = 0
  · rw [addTerm_skip _ _ _ _ _ _ _ _ _ h]
    have hz : carried src delay T = ⟨src.t0, src.dt, 0, []⟩ := if_pos h
    rw [hz]
    congr 2
    apply sampled_congr
    intro i hi
    unfold retarded
    rw [empty_fieldAtTime]
    ext <;> simp
  · have hz : carried src delay T = src := if_neg h
    rw [hz]
    unfold addTerm
    rw [retard_sampled, if_neg h]
    simp only [bind, Except.bind]
    rw [smul_sampled, smul_sampled, addAssign_sampled]
    simp only [pure, Except.pure]
    congr 2
    apply sampled_congr
    intro i _
    ext <;> simp <;> ring

/-- what is known about the source cell `i` -/
def CellData (s : Source) (P n : Nat → Vec) (a : Nat → ℝ) (F Ft Fn : Nat → FieldTrace) (i : Nat) : Prop :=
  s.mesh.points[i]? = some (P i) ∧ s.geometry.normal[i]? = some (.ok (n i)) ∧ s.geometry.area[i]? = some (a i) ∧
    s.mesh.A[i]? = some (F i) ∧ s.dts[i]? = some (Ft i) ∧ s.dns[i]? = some (Fn i)

theorem addCell_of (s : Source) (X : Vec) (T : FieldTrace) {P n : Nat → Vec} {a : Nat → ℝ} {F Ft Fn : Nat → FieldTrace} {i : Nat}
    (h : CellData s P n a F Ft Fn i) (hX : X ≠ P i) (f : Nat → EMField) (c : List EMField) :
    ∃ c', addCell s X (sampled T.t0 T.dt T.N f, ⟨T.t0, T.dt, T.N, c⟩) i =
      .ok (sampled T.t0 T.dt T.N (fun it => f it +
        (let tret := T.t0 + (it : ℝ) * T.dt - (X - P i).norm / SpeedOfLight
         kirchhoff X (P i) (n i) ((carried (F i) ((X - P i).norm / SpeedOfLight) T).fieldAtTime tret)
          ((carried (Ft i) ((X - P i).norm / SpeedOfLight) T).fieldAtTime tret)
          ((carried (Fn i) ((X - P i).norm / SpeedOfLight) T).fieldAtTime tret) * (a i / (4 * Pi)))),
        ⟨T.t0, T.dt, T.N, c'⟩) := by
  obtain ⟨h1, h2, h3, h4, h5, h6⟩ := h
  have hp : X - P i ≠ 0 := fun e => hX (sub_eq_zero.mp e)
  have hn : (X - P i).norm ≠ 0 := (norm_pos hp).ne'
  have hc := SpeedOfLight_ne
  refine ⟨(sampled T.t0 T.dt T.N (retarded (Fn i) ((X - P i).norm / SpeedOfLight) T.t0 T.dt)).trace, ?_⟩
  unfold addCell
  rw [vecAt_ok.mpr h1]
  simp only [bind, Except.bind]
  rw [vecAt_ok.mpr h3]
  dsimp only
  rw [vecAt_ok.mpr h2]
  dsimp only
  unfold Mesh.getTrace
  rw [vecAt_ok.mpr h4]
  dsimp only
  rw [if_neg (by positivity), addTerm_of _ _ _ _ T]
  dsimp only
  rw [vecAt_ok.mpr h5]
  dsimp only
  rw [if_neg (by positivity)]
  have e2 := fun g => addTerm_of (Ft i) ((X - P i).norm / SpeedOfLight) (-dot (X - P i) (n i) / ((X - P i).norm * (X - P i).norm * SpeedOfLight))
    (a i / (4 * Pi)) T g ((List.range T.N).map (retarded (F i) ((X - P i).norm / SpeedOfLight) T.t0 T.dt))
  have e3 := fun g => addTerm_of (Fn i) ((X - P i).norm / SpeedOfLight) (1 / (X - P i).norm)
    (a i / (4 * Pi)) T g ((List.range T.N).map (retarded (Ft i) ((X - P i).norm / SpeedOfLight) T.t0 T.dt))
  have u : ∀ g, (⟨T.t0, T.dt, T.N, (List.range T.N).map g⟩ : FieldTrace) = sampled T.t0 T.dt T.N g := fun _ => rfl
  simp only [u] at e2 e3
  rw [e2]
  dsimp only
  rw [vecAt_ok.mpr h6]
  dsimp only
  rw [if_neg hn, e3, ← u]
  congr 2
  apply sampled_congr
  intro it _
  rw [kirchhoff_eq X (P i) (n i) _ _ _ hX]
  unfold retarded
  ext <;> simp <;> ring

end Propagate

open Propagate

theorem kirchhoff_visible {N : Nat} {X : Vec} {T : FieldTrace} {P n : Nat → Vec} {a : Nat → ℝ} {F Ft Fn : Nat → FieldTrace}
    (hv : ∀ i < N, Visible (F i) ((X - P i).norm / SpeedOfLight) T ∧ Visible (Ft i) ((X - P i).norm / SpeedOfLight) T ∧
      Visible (Fn i) ((X - P i).norm / SpeedOfLight) T) {it : Nat} (hit : it < T.N) :
    kirchhoffSample N X P n a (fun i => carried (F i) ((X - P i).norm / SpeedOfLight) T) (fun i => carried (Ft i) ((X - P i).norm / SpeedOfLight) T) (fun i => carried (Fn i) ((X - P i).norm / SpeedOfLight) T) (T.t0 + (it : ℝ) * T.dt) =
      kirchhoffSample N X P n a F Ft Fn (T.t0 + (it : ℝ) * T.dt) := by
  unfold kirchhoffSample
  congr 1
  apply List.map_congr_left
  intro i hi
  obtain ⟨v1, v2, v3⟩ := hv i (List.mem_range.mp hi)
  dsimp only
  rw [carried_visible v1 hit, carried_visible v2 hit, carried_visible v3 hit]

/-- C54: exactly what is computed for a target cell: the sum over all source cells of Kirchhoff's integrand for the retarded fields and their
derivatives, multiplied by area/4π, but without those traces for which the time integral of the energy flow vanishes. -/
theorem C54_exactly (s : Source) (target : Mesh) (index : Nat) (X : Vec) (T : FieldTrace)
    (hX : target.points[index]? = some X) (hT : target.A[index]? = some T) (hw : T.WF)
    (P n : Nat → Vec) (a : Nat → ℝ) (F Ft Fn : Nat → FieldTrace) (h : ∀ i < s.mesh.Np, CellData s P n a F Ft Fn i) (hne : ∀ i < s.mesh.Np, X ≠ P i) :
    ∃ r, propagatedTrace s target index = .ok r ∧ r.WF ∧ r.t0 = T.t0 ∧ r.dt = T.dt ∧ r.N = T.N ∧
      ∀ it < T.N, r.trace[it]? = some (kirchhoffSample s.mesh.Np X P n a (fun i => carried (F i) ((X - P i).norm / SpeedOfLight) T) (fun i => carried (Ft i) ((X - P i).norm / SpeedOfLight) T) (fun i => carried (Fn i) ((X - P i).norm / SpeedOfLight) T) (T.t0 + (it : ℝ) * T.dt)) := by
  have hloop : ∀ k ≤ s.mesh.Np, ∃ c, (List.range k).foldlM (addCell s X) (T.zero, T.zero) =
      .ok (sampled T.t0 T.dt T.N (fun it => kirchhoffSample k X P n a (fun i => carried (F i) ((X - P i).norm / SpeedOfLight) T) (fun i => carried (Ft i) ((X - P i).norm / SpeedOfLight) T) (fun i => carried (Fn i) ((X - P i).norm / SpeedOfLight) T) (T.t0 + (it : ℝ) * T.dt)), ⟨T.t0, T.dt, T.N, c⟩) := by
    intro k
    induction k with
    | zero =>
      intro _
      have hz : T.zero = ⟨T.t0, T.dt, T.N, List.replicate T.N 0⟩ := by
        unfold FieldTrace.zero; rw [List.drop_of_length_le (by rw [hw]), List.append_nil]
      refine ⟨List.replicate T.N 0, ?_⟩
      simp only [List.range_zero, List.foldlM_nil, pure, Except.pure, hz]
      congr 2
      unfold sampled kirchhoffSample
      simp only [List.range_zero, List.map_nil, List.sum_nil, FieldTrace.mk.injEq, true_and]
      apply List.ext_getElem <;> simp
    | succ k ih =>
      intro hk
      obtain ⟨c, hc⟩ := ih (by omega)
      obtain ⟨c', hc'⟩ := addCell_of s X T (h k (by omega)) (hne k (by omega))
        (fun it => kirchhoffSample k X P n a (fun i => carried (F i) ((X - P i).norm / SpeedOfLight) T) (fun i => carried (Ft i) ((X - P i).norm / SpeedOfLight) T) (fun i => carried (Fn i) ((X - P i).norm / SpeedOfLight) T) (T.t0 + (it : ℝ) * T.dt)) c
      refine ⟨c', ?_⟩
      rw [List.range_succ, List.foldlM_append, hc]
      simp only [bind, Except.bind, List.foldlM_cons, List.foldlM_nil]
      rw [hc']
      simp only [pure, Except.pure]
      congr 2
      apply sampled_congr
      intro it _
      unfold kirchhoffSample
      rw [List.range_succ, List.map_append, List.sum_append]
      simp
  obtain ⟨c, hc⟩ := hloop s.mesh.Np (le_refl _)
  refine ⟨sampled T.t0 T.dt T.N (fun it => kirchhoffSample s.mesh.Np X P n a (fun i => carried (F i) ((X - P i).norm / SpeedOfLight) T) (fun i => carried (Ft i) ((X - P i).norm / SpeedOfLight) T) (fun i => carried (Fn i) ((X - P i).norm / SpeedOfLight) T) (T.t0 + (it : ℝ) * T.dt)), ?_,
    by simp [sampled, FieldTrace.WF], rfl, rfl, rfl, fun it hit => by simp [sampled, hit]⟩
  unfold propagatedTrace Mesh.getTrace
  rw [vecAt_ok.mpr hX]
  simp only [bind, Except.bind]
  rw [vecAt_ok.mpr hT]
  dsimp only
  rw [hc]
  rfl

/-- C54: for every target cell the tool computes the sum over all source cells of Kirchhoff's integrand for the retarded
fields and their derivatives, multiplied by area/4π, sampled like the trace of the target cell.  Missing: retarded traces
for which the time integral of the energy flow vanishes although the fields do not are left out, see below. -/
theorem C54_propagated_partial (s : Source) (target : Mesh) (index : Nat) (X : Vec) (T : FieldTrace)
    (hX : target.points[index]? = some X) (hT : target.A[index]? = some T) (hw : T.WF)
    (P n : Nat → Vec) (a : Nat → ℝ) (F Ft Fn : Nat → FieldTrace) (h : ∀ i < s.mesh.Np, CellData s P n a F Ft Fn i) (hne : ∀ i < s.mesh.Np, X ≠ P i)
    (hv : ∀ i < s.mesh.Np, Visible (F i) ((X - P i).norm / SpeedOfLight) T ∧ Visible (Ft i) ((X - P i).norm / SpeedOfLight) T ∧
      Visible (Fn i) ((X - P i).norm / SpeedOfLight) T) :
    ∃ r, propagatedTrace s target index = .ok r ∧ r.WF ∧ r.t0 = T.t0 ∧ r.dt = T.dt ∧ r.N = T.N ∧
      ∀ it < T.N, r.trace[it]? = some (kirchhoffSample s.mesh.Np X P n a F Ft Fn (T.t0 + (it : ℝ) * T.dt)) := by
  obtain ⟨r, h1, h2, h3, h4, h5, h6⟩ := C54_exactly s target index X T hX hT hw P n a F Ft Fn h hne
  refine ⟨r, h1, h2, h3, h4, h5, fun it hit => ?_⟩
  rw [h6 it hit]
  exact congrArg some (kirchhoff_visible hv hit)

/-- C54 for the whole target screen: the propagation succeeds, changes nothing but the fields and gives every cell the
trace described above. -/
theorem C54_screen_exactly (s : Source) (target : Mesh) (hm : target.WellSampled)
    (P n : Nat → Vec) (a : Nat → ℝ) (F Ft Fn : Nat → FieldTrace) (h : ∀ i < s.mesh.Np, CellData s P n a F Ft Fn i)
    (hne : ∀ i < s.mesh.Np, ∀ X ∈ target.points, X ≠ P i) :
    ∃ r, propagateTo s target = .ok r ∧ r = { target with A := r.A } ∧ r.WellSampled ∧
      ∀ (k : Nat) (X : Vec) (T : FieldTrace), target.points[k]? = some X → target.A[k]? = some T →
        ∃ T', r.A[k]? = some T' ∧ T'.t0 = T.t0 ∧
          ∀ it < target.Nt, T'.trace[it]? = some (kirchhoffSample s.mesh.Np X P n a (fun i => carried (F i) ((X - P i).norm / SpeedOfLight) T) (fun i => carried (Ft i) ((X - P i).norm / SpeedOfLight) T) (fun i => carried (Fn i) ((X - P i).norm / SpeedOfLight) T) (T.t0 + (it : ℝ) * target.dt)) := by
  obtain ⟨m1, m2, m3, m4, m5⟩ := hm
  have hcell : ∀ k : Nat, ∃ T' : FieldTrace, k < target.Np → (∀ A' : List FieldTrace, A'[k]? = target.A[k]? →
      propagatedTrace s { target with A := A' } k = .ok T') ∧ ∀ X T, target.points[k]? = some X → target.A[k]? = some T →
        T'.WF ∧ T'.t0 = T.t0 ∧ T'.dt = T.dt ∧ T'.N = T.N ∧
        ∀ it < target.Nt, T'.trace[it]? = some (kirchhoffSample s.mesh.Np X P n a (fun i => carried (F i) ((X - P i).norm / SpeedOfLight) T) (fun i => carried (Ft i) ((X - P i).norm / SpeedOfLight) T) (fun i => carried (Fn i) ((X - P i).norm / SpeedOfLight) T) (T.t0 + (it : ℝ) * target.dt)) := by
    intro k
    by_cases hk : k < target.Np
    · have hX := List.getElem?_eq_getElem (show k < target.points.length by omega)
      have hT := List.getElem?_eq_getElem (show k < target.A.length by omega)
      obtain ⟨w1, w2, w3⟩ := m5 _ (List.getElem_mem (show k < target.A.length by omega))
      obtain ⟨r, r1, r2, r3, r4, r5, r6⟩ := C54_exactly s target k _ _ hX hT w1 P n a F Ft Fn h
        (fun i hi => hne i hi _ (List.getElem_mem _))
      refine ⟨r, fun _ => ⟨?_, ?_⟩⟩
      · intro A' hA'
        rw [← r1]
        unfold propagatedTrace Mesh.getTrace Particle.vecAt
        dsimp only
        rw [hA']
      · intro X T hX' hT'
        rw [hX] at hX'; rw [hT] at hT'
        have e1 := Option.some.inj hX'
        have e2 := Option.some.inj hT'
        rw [e1, e2] at r6
        rw [e2] at r3 r4 r5 w2 w3
        refine ⟨r2, r3, r4, r5, fun it hit => ?_⟩
        rw [r6 it (by omega), w3]
    · exact ⟨FieldTrace.new 0 0 0, fun hk' => absurd hk' hk⟩
  choose new hnew using hcell
  have hloop := mesh_loop target (fun (m : Mesh) (index : Nat) => do
    let tr ← propagatedTrace s m index
    m.setTrace index tr) new m4 (by
      intro i hi A' hl hA'
      obtain ⟨c1, c2⟩ := hnew i hi
      have hT := List.getElem?_eq_getElem (show i < target.A.length by omega)
      have hX := List.getElem?_eq_getElem (show i < target.points.length by omega)
      obtain ⟨d1, d2, d3, d4, -⟩ := c2 _ _ hX hT
      rw [c1 A' hA']
      simp only [bind, Except.bind]
      unfold Mesh.setTrace
      dsimp only
      rw [vecAt_ok.mpr (hA'.trans hT)]
      simp only [bind, Except.bind]
      unfold FieldTrace.assign
      rw [if_neg (by rw [d4]; simp)]
      simp only [pure, Except.pure]
      congr 3
      ext1
      · rfl
      · rfl
      · exact d4.symm
      · rfl) target.Np (le_refl _)
  refine ⟨_, hloop, rfl, ⟨m1, m2, m3, by simpa using m4, ?_⟩, ?_⟩
  · intro tr htr
    obtain ⟨i, hi, rfl⟩ := List.mem_iff_getElem.mp htr
    simp only [List.length_mapIdx] at hi
    have hi' : i < target.Np := by omega
    have hT := List.getElem?_eq_getElem hi
    have hX := List.getElem?_eq_getElem (show i < target.points.length by omega)
    obtain ⟨d1, d2, d3, d4, -⟩ := (hnew i hi').2 _ _ hX hT
    obtain ⟨w1, w2, w3⟩ := m5 _ (List.getElem_mem hi)
    simp only [List.getElem_mapIdx, if_pos hi']
    exact ⟨d1, by rw [d4, w2], by rw [d3, w3]⟩
  · intro k X T hX hT
    have hk : k < target.Np := by
      have := (List.getElem?_eq_some_iff.mp hT).1; omega
    obtain ⟨d1, d2, d3, d4, d5⟩ := (hnew k hk).2 _ _ hX hT
    refine ⟨new k, ?_, d2, d5⟩
    dsimp only
    rw [List.getElem?_mapIdx, hT]
    simp [hk]

/-- C54 for the whole target screen: the propagation succeeds, changes nothing but the fields and gives every cell the
trace described above. -/
theorem C54_screen_partial (s : Source) (target : Mesh) (hm : target.WellSampled)
    (P n : Nat → Vec) (a : Nat → ℝ) (F Ft Fn : Nat → FieldTrace) (h : ∀ i < s.mesh.Np, CellData s P n a F Ft Fn i)
    (hne : ∀ i < s.mesh.Np, ∀ X ∈ target.points, X ≠ P i)
    (hv : ∀ i < s.mesh.Np, ∀ (k : Nat) (X : Vec) (T : FieldTrace), target.points[k]? = some X → target.A[k]? = some T →
      Visible (F i) ((X - P i).norm / SpeedOfLight) T ∧ Visible (Ft i) ((X - P i).norm / SpeedOfLight) T ∧
      Visible (Fn i) ((X - P i).norm / SpeedOfLight) T) :
    ∃ r, propagateTo s target = .ok r ∧ r = { target with A := r.A } ∧ r.WellSampled ∧
      ∀ (k : Nat) (X : Vec) (T : FieldTrace), target.points[k]? = some X → target.A[k]? = some T →
        ∃ T', r.A[k]? = some T' ∧ T'.t0 = T.t0 ∧
          ∀ it < target.Nt, T'.trace[it]? = some (kirchhoffSample s.mesh.Np X P n a F Ft Fn (T.t0 + (it : ℝ) * target.dt)) := by
  obtain ⟨r, h1, h2, h3, h4⟩ := C54_screen_exactly s target hm P n a F Ft Fn h hne
  refine ⟨r, h1, h2, h3, fun k X T hX hT => ?_⟩
  obtain ⟨T', e1, e2, e3⟩ := h4 k X T hX hT
  refine ⟨T', e1, e2, fun it hit => ?_⟩
  obtain ⟨w1, w2, w3⟩ := hm.2.2.2.2 T (List.mem_of_getElem? hT)
  rw [e3 it hit, ← w3]
  exact congrArg some (kirchhoff_visible (fun i hi => hv i hi k X T hX hT) (by omega))

/-! ### the energy flow of the retarded fields may vanish -/

namespace Electric

/-- an electric field without magnetic field -/
noncomputable def field : EMField := ⟨⟨0, 0, 1⟩, 0⟩

/-- one cell in the x-y plane with a constant field -/
noncomputable def meshOf (field : EMField) : Mesh :=
  { Ncp := 3, Np := 1, Nt := 2, dt := 1, corners := [0, ⟨0, 1, 0⟩, ⟨1, 0, 0⟩], triangles := [⟨0, 1, 2⟩], points := [0],
    A := [⟨0, 1, 2, [field, field]⟩] }

/-- one cell in the x-y plane with a constant electric field -/
noncomputable abbrev mesh : Mesh := meshOf field

/-- a target cell at distance one, observed at the time when the first sample arrives -/
noncomputable def target : Mesh :=
  { Ncp := 3, Np := 1, Nt := 1, dt := 1, corners := [⟨0, 0, 1⟩, ⟨0, 1, 1⟩, ⟨1, 0, 1⟩], triangles := [⟨0, 1, 2⟩], points := [⟨0, 0, 1⟩],
    A := [⟨1 / SpeedOfLight, 1, 1, [0]⟩] }

/-- the solution of smallest norm for a single equation of a constant -/
noncomputable def solve : Solver := fun _ b => [b.headD 0, 0, 0, 0, 0, 0]

theorem corners (field : EMField) : (meshOf field).Corners 0 0 ⟨0, 1, 0⟩ ⟨1, 0, 0⟩ := ⟨⟨0, 1, 2⟩, rfl, by decide, by decide, by decide, rfl, rfl, rfl⟩

theorem valid (field : EMField) : (meshOf field).Valid := by
  intro ip hip
  have : ip = 0 := by simp [meshOf] at hip; exact hip
  subst this
  exact ⟨_, _, _, corners field⟩

/-- the zero trace of two samples -/
noncomputable def zeros : FieldTrace := ⟨0, 1, 2, [0, 0]⟩

theorem derivative_const (field : EMField) : (⟨0, 1, 2, [field, field]⟩ : FieldTrace).derivative = .ok zeros := by
  unfold FieldTrace.derivative zeros
  rw [if_neg (by simp)]
  simp [List.range_succ]
  ext <;> simp

theorem normal_zero (xi eta n : Vec) : normalDerivative xi eta n 0 0 0 = 0 := by
  unfold normalDerivative
  ext <;> simp

theorem neighbours (field : EMField) : (meshOf field).getNeighbourhood 0 24 = .ok [0] := by
  rw [getNeighbourhood_eq (u := ⟨0, 1, 2⟩) rfl rfl]
  simp [meshOf, touching, common]

theorem source (field : EMField) : ∃ g s, (meshOf field).init = .ok g ∧ prepare solve (meshOf field) g = .ok s ∧ s.mesh = meshOf field ∧ s.geometry = g ∧
    g.normal[0]? = some (.ok ⟨0, 0, 1⟩) ∧ g.area[0]? = some (1 / 2) ∧ s.dts = [zeros] ∧ s.dns = [zeros] ∧
    normalTrace solve (meshOf field) g [zeros] 0 = .ok zeros := by
  obtain ⟨g, ns, hg, hl, hc, h1, -, h3, -, -⟩ := init_of (valid field)
  have hv := hc 0 0 ⟨0, 1, 0⟩ ⟨1, 0, 0⟩ (by simp [meshOf]) (corners field)
  have hz : cross ((⟨1, 0, 0⟩ : Vec) - 0) (⟨0, 1, 0⟩ - 0) = ⟨0, 0, 1⟩ := by ext <;> simp
  rw [hz] at hv
  have hu : dot (⟨0, 0, 1⟩ : Vec) ⟨0, 0, 1⟩ = 1 := by simp [dot]
  have hn : g.normal[0]? = some (.ok ⟨0, 0, 1⟩) := by
    rw [h3, List.getElem?_map, hv, Option.map_some, normalizeE_of_ne (ne_zero_of hu), normalize_of_unit hu]
  have ha : g.area[0]? = some (1 / 2) := by
    rw [h1, List.getElem?_map, hv, Option.map_some, norm_one_of hu]; norm_num
  have h0 : Vec.norm ⟨0, 0, 1⟩ = 1 := norm_one_of hu
  obtain ⟨xi, eta, f1, f2, f3, f4⟩ := C56_frames_partial (meshOf field) (valid field) g hg (fun _ => ⟨0, 0, 1⟩)
    (by intro ip hip
        have : ip = 0 := by simp [meshOf] at hip; exact hip
        subst this; exact hn) ⟨0, 0, 1⟩ (by simp [meshOf]) (ne_zero_of hu)
    (Or.inl ⟨by rw [h0]; norm_num, fun ip _ => by rw [h0]; norm_num [dot]⟩) 0 (by simp [meshOf])
  have hzt : zeros.transform xi eta ⟨0, 0, 1⟩ = zeros := by
    unfold zeros FieldTrace.transform FieldTrace.transformField
    ext1
    · rfl
    · rfl
    · rfl
    · simp; constructor <;> (ext <;> simp)
  have hnt : normalTrace solve (meshOf field) g [zeros] 0 = .ok zeros := by
    have hloop := sample_loop (normalSample solve xi eta ⟨0, 0, 1⟩ [designRow xi eta ⟨0, 0, 1⟩ 0 0]
      [(⟨0, 1, 2, [field, field]⟩ : FieldTrace).transform xi eta ⟨0, 0, 1⟩] ⟨0, 1, 2, [field, field]⟩ zeros) (fun _ => 0) 2 (by
        intro dn hw hN it hit
        unfold normalSample
        have ht : (⟨0, 1, 2, [field, field]⟩ : FieldTrace).getTime it = .ok (0 + (it : ℝ) * 1) := by
          unfold FieldTrace.getTime; rw [if_neg (by simpa using hit)]
        have hd : zeros.getField it = .ok 0 := by
          unfold FieldTrace.getField zeros
          rw [if_neg (by simpa using hit)]
          have : it = 0 ∨ it = 1 := by omega
          rcases this with rfl | rfl <;> rfl
        rw [ht]
        simp only [bind, Except.bind]
        rw [hd]
        unfold gradients slopes solve
        simp only [bind, Except.bind, pure, Except.pure, Particle.vecAt, List.getElem?_cons_succ, List.getElem?_cons_zero]
        have e : (⟨⟨0, 0, 0⟩, ⟨0, 0, 0⟩⟩ : EMField) = 0 := rfl
        rw [e, normal_zero]
        unfold FieldTrace.setField
        rw [if_neg (by omega), if_pos (by rw [hw]; omega)]) ⟨0, 1, 2, [field, field]⟩ rfl rfl 2 (le_refl _)
    obtain ⟨r, r1, r2, r3, r4, r5, r6⟩ := hloop
    have hr : r = zeros := by
      unfold FieldTrace.WF at r2
      ext1
      · exact r3
      · exact r4
      · exact r5
      · apply List.ext_getElem?
        intro i
        by_cases hi : i < 2
        · rw [r6 i hi]
          have : i = 0 ∨ i = 1 := by omega
          rcases this with rfl | rfl <;> rfl
        · rw [List.getElem?_eq_none (by omega), List.getElem?_eq_none (by simp [zeros]; omega)]
    subst hr
    unfold normalTrace
    rw [neighbours field]
    simp only [bind, Except.bind]
    rw [vecAt_ok.mpr (show (meshOf field).points[0]? = some 0 from rfl), vecAt_ok.mpr f1]
    dsimp only
    rw [vecAt_ok.mpr f2]
    dsimp only
    rw [vecAt_ok.mpr f3]
    dsimp only
    rw [mapM_vecAt_of (show [0].map (fun i => (meshOf field).points[i]?) = [(0 : Vec)].map some from rfl)]
    unfold Mesh.getTrace
    dsimp only
    rw [vecAt_ok.mpr (show (meshOf field).A[0]? = some ⟨0, 1, 2, [field, field]⟩ from rfl)]
    dsimp only
    rw [mapM_vecAt_of (show [0].map (fun i => (meshOf field).A[i]?) = [(⟨0, 1, 2, [field, field]⟩ : FieldTrace)].map some from rfl)]
    dsimp only
    rw [vecAt_ok.mpr (show [zeros][0]? = some zeros from rfl)]
    dsimp only
    rw [hzt]
    exact r1
  refine ⟨g, ⟨meshOf field, g, [zeros], [zeros]⟩, hg, ?_, rfl, rfl, hn, ha, rfl, rfl, hnt⟩
  unfold prepare
  have hNp : (meshOf field).Np = 1 := rfl
  rw [hNp]
  simp only [List.range_succ, List.range_zero, List.nil_append, List.mapM_cons, List.mapM_nil, bind, Except.bind, pure, Except.pure]
  unfold Mesh.getTrace
  rw [vecAt_ok.mpr (show (meshOf field).A[0]? = some ⟨0, 1, 2, [field, field]⟩ from rfl)]
  dsimp only
  rw [if_neg (by simp [meshOf])]
  simp only [List.mapM_cons, List.mapM_nil, bind, Except.bind, pure, Except.pure]
  rw [derivative_const field]
  dsimp only
  rw [hnt]

theorem no_flow (tr : FieldTrace) (h : ∀ f ∈ tr.trace, f.B = 0) (t : ℝ) : (tr.fieldAtTime t).Poynting = 0 := by
  have hs : ∀ i, (tr.sampleOrZero i).B = 0 := by
    intro i
    unfold FieldTrace.sampleOrZero
    split_ifs
    · cases hq : tr.trace[i.toNat]? with
      | none => rfl
      | some f => exact h f (List.mem_of_getElem? hq)
    · rfl
  have hB : (tr.fieldAtTime t).B = 0 := by
    unfold FieldTrace.fieldAtTime
    dsimp only
    rw [show ∀ (a b : EMField), (a + b).B = a.B + b.B from fun _ _ => rfl, show ∀ (a : EMField) (k : ℝ), (a * k).B = a.B * k from fun _ _ => rfl,
      show ∀ (a : EMField) (k : ℝ), (a * k).B = a.B * k from fun _ _ => rfl, hs, hs]
    ext <;> simp
  unfold EMField.Poynting
  rw [hB]
  ext <;> simp

theorem skip (src : FieldTrace) (h : ∀ f ∈ src.trace, f.B = 0) (delay : ℝ) (k : Except Err ℝ) (dA t0 dt : ℝ) (N : Nat) (f : FieldTrace) (c : List EMField) :
    ∃ c', addTerm src delay k dA (f, ⟨t0, dt, N, c⟩) = .ok (f, ⟨t0, dt, N, c'⟩) := by
  refine ⟨_, addTerm_skip src delay k dA t0 dt N f c ?_⟩
  have : ∀ i, (retarded src delay t0 dt i).Poynting = 0 := fun i => no_flow src h _
  simp only [this]
  rw [show (List.range N).map (fun _ => (0 : Vec)) = List.replicate N 0 by simp]
  simp [List.sum_replicate, mul_zero']

end Electric

/-- C54 fails if the retarded fields carry no energy: the contribution of a cell with a purely electric field is left
out. -/
theorem C54_full_statement_false :
    ¬ ∀ (solve : Solver) (m : Mesh) (g : MeshGeometry) (s : Source) (target : Mesh) (index : Nat) (X : Vec) (T r : FieldTrace),
      m.WellSampled → m.init = .ok g → prepare solve m g = .ok s → target.WellSampled →
      target.points[index]? = some X → target.A[index]? = some T → propagatedTrace s target index = .ok r →
      ∀ (P n : Nat → Vec) (a : Nat → ℝ) (F Ft Fn : Nat → FieldTrace), (∀ i < s.mesh.Np, CellData s P n a F Ft Fn i) →
        (∀ i < s.mesh.Np, X ≠ P i) →
        ∀ it < T.N, r.trace[it]? = some (kirchhoffSample s.mesh.Np X P n a F Ft Fn (T.t0 + (it : ℝ) * T.dt)) := by
  intro hall
  obtain ⟨g, s, h1, h2, h3, h4, h5, h6, h7, h8, -⟩ := Electric.source Electric.field
  have hcell : ∀ i < s.mesh.Np, CellData s (fun _ => 0) (fun _ => ⟨0, 0, 1⟩) (fun _ => 1 / 2)
      (fun _ => ⟨0, 1, 2, [Electric.field, Electric.field]⟩) (fun _ => Electric.zeros) (fun _ => Electric.zeros) i := by
    intro i hi
    have : i = 0 := by rw [h3] at hi; simp [Electric.mesh, Electric.meshOf] at hi; exact hi
    subst this
    refine ⟨by rw [h3]; rfl, by rw [h4]; exact h5, by rw [h4]; exact h6, by rw [h3]; rfl, by rw [h7]; rfl, by rw [h8]; rfl⟩
  have hX : (⟨0, 0, 1⟩ : Vec) ≠ 0 := ne_zero_of (by simp [dot])
  have hnorm : Vec.norm ((⟨0, 0, 1⟩ : Vec) - 0) = 1 := by rw [sub_zero]; exact norm_one_of (by simp [dot])
  have hr : propagatedTrace s Electric.target 0 = .ok ⟨1 / SpeedOfLight, 1, 1, [0]⟩ := by
    obtain ⟨c1, c2, c3, c4, c5, c6⟩ := hcell 0 (by rw [h3]; simp [Electric.mesh, Electric.meshOf])
    unfold propagatedTrace Mesh.getTrace
    rw [vecAt_ok.mpr (show Electric.target.points[0]? = some ⟨0, 0, 1⟩ from rfl)]
    simp only [bind, Except.bind]
    rw [vecAt_ok.mpr (show Electric.target.A[0]? = some ⟨1 / SpeedOfLight, 1, 1, [0]⟩ from rfl)]
    have hNp : s.mesh.Np = 1 := by rw [h3]; rfl
    rw [hNp]
    simp only [List.range_succ, List.range_zero, List.nil_append, List.foldlM_cons, List.foldlM_nil, bind, Except.bind, pure, Except.pure]
    have hz : (⟨1 / SpeedOfLight, 1, 1, [0]⟩ : FieldTrace).zero = ⟨1 / SpeedOfLight, 1, 1, [0]⟩ := rfl
    have hf : ∀ f ∈ [Electric.field, Electric.field], f.B = 0 := by intro f hf; simp at hf; subst hf; rfl
    have hf0 : ∀ f ∈ [(0 : EMField), 0], f.B = 0 := by intro f hf; simp at hf; subst hf; rfl
    have hcell : ∃ c, addCell s ⟨0, 0, 1⟩ (⟨1 / SpeedOfLight, 1, 1, [0]⟩, ⟨1 / SpeedOfLight, 1, 1, [0]⟩) 0 =
        .ok (⟨1 / SpeedOfLight, 1, 1, [0]⟩, ⟨1 / SpeedOfLight, 1, 1, c⟩) := by
      unfold addCell Mesh.getTrace
      rw [vecAt_ok.mpr c1]
      simp only [bind, Except.bind]
      rw [vecAt_ok.mpr c3]
      dsimp only
      rw [vecAt_ok.mpr c2]
      dsimp only
      rw [vecAt_ok.mpr c4]
      dsimp only
      obtain ⟨c', e1⟩ := Electric.skip ⟨0, 1, 2, [Electric.field, Electric.field]⟩ hf (Vec.norm ((⟨0, 0, 1⟩ : Vec) - 0) / SpeedOfLight)
        (if Vec.norm ((⟨0, 0, 1⟩ : Vec) - 0) * Vec.norm ((⟨0, 0, 1⟩ : Vec) - 0) * Vec.norm ((⟨0, 0, 1⟩ : Vec) - 0) = 0 then .error .nan else
          .ok (-dot ((⟨0, 0, 1⟩ : Vec) - 0) ⟨0, 0, 1⟩ / (Vec.norm ((⟨0, 0, 1⟩ : Vec) - 0) * Vec.norm ((⟨0, 0, 1⟩ : Vec) - 0) * Vec.norm ((⟨0, 0, 1⟩ : Vec) - 0))))
        (1 / 2 / (4 * Pi)) (1 / SpeedOfLight) 1 1 ⟨1 / SpeedOfLight, 1, 1, [0]⟩ [0]
      rw [e1]
      dsimp only
      rw [vecAt_ok.mpr c5]
      dsimp only
      obtain ⟨c'', e2⟩ := Electric.skip Electric.zeros hf0 (Vec.norm ((⟨0, 0, 1⟩ : Vec) - 0) / SpeedOfLight)
        (if Vec.norm ((⟨0, 0, 1⟩ : Vec) - 0) * Vec.norm ((⟨0, 0, 1⟩ : Vec) - 0) * SpeedOfLight = 0 then .error .nan else
          .ok (-dot ((⟨0, 0, 1⟩ : Vec) - 0) ⟨0, 0, 1⟩ / (Vec.norm ((⟨0, 0, 1⟩ : Vec) - 0) * Vec.norm ((⟨0, 0, 1⟩ : Vec) - 0) * SpeedOfLight)))
        (1 / 2 / (4 * Pi)) (1 / SpeedOfLight) 1 1 ⟨1 / SpeedOfLight, 1, 1, [0]⟩ c'
      rw [e2]
      dsimp only
      rw [vecAt_ok.mpr c6]
      dsimp only
      exact Electric.skip Electric.zeros hf0 _ _ _ _ _ _ _ _
    obtain ⟨c, hcell⟩ := hcell
    rw [hz, hcell]
  have hk := hall Electric.solve Electric.mesh g s Electric.target 0 ⟨0, 0, 1⟩ ⟨1 / SpeedOfLight, 1, 1, [0]⟩ _ ?_ h1 h2 ?_ rfl rfl hr _ _ _ _ _ _ hcell
    (fun _ _ => hX) 0 (by norm_num)
  · have hNp : s.mesh.Np = 1 := by rw [h3]; rfl
    rw [hNp] at hk
    have hF : (⟨0, 1, 2, [Electric.field, Electric.field]⟩ : FieldTrace).fieldAtTime 0 = Electric.field :=
      C17_sampling_times _ (by norm_num) 0 _ 0 rfl (by simp [FieldTrace.getTime])
    have hZ : Electric.zeros.fieldAtTime 0 = 0 :=
      C17_sampling_times _ (by norm_num [Electric.zeros]) 0 _ 0 rfl (by simp [FieldTrace.getTime, Electric.zeros])
    unfold kirchhoffSample at hk
    simp only [List.range_succ, List.range_zero, List.nil_append, List.map_cons, List.map_nil, List.sum_cons, List.sum_nil, hnorm] at hk
    have ht : (1 / SpeedOfLight + ((0 : Nat) : ℝ) * 1 - 1 / SpeedOfLight : ℝ) = 0 := by simp
    rw [ht, hF, hZ, kirchhoff_eq _ _ _ _ _ _ hX, hnorm] at hk
    have hz := congrArg (fun f : EMField => f.E.z) (Option.some.inj hk)
    have hpi : (Pi : ℝ) ≠ 0 := Pi_pos.ne'
    simp [Electric.field, dot, hpi] at hz
  · exact ⟨rfl, rfl, rfl, rfl, by intro tr htr; simp [Electric.mesh, Electric.meshOf] at htr; subst htr; exact ⟨rfl, rfl, rfl⟩⟩
  · exact ⟨rfl, rfl, rfl, rfl, by intro tr htr; simp [Electric.target] at htr; subst htr; exact ⟨rfl, rfl, rfl⟩⟩

/-- the conditions of the theorems are met: the reflection at one cell with a field that carries energy -/
example : ∃ (m m' : Mesh) (g : MeshGeometry) (F : EMField), m.WellSampled ∧ m.init = .ok g ∧ reflect g m = .ok m' ∧
    m.A[0]?.map (fun tr => tr.trace) = some [F] ∧ F.Poynting ≠ 0 := by
  let F : EMField := ⟨⟨1, 0, 1⟩, ⟨0, 1, 1⟩⟩
  let m : Mesh := { Electric.mesh with Nt := 1, A := [⟨0, 1, 1, [F]⟩] }
  have hval : m.Valid := fun ip hip => Electric.valid Electric.field ip hip
  have hw : m.WellSampled := ⟨rfl, rfl, rfl, rfl, by intro tr htr; simp [m] at htr; subst htr; exact ⟨rfl, rfl, rfl⟩⟩
  obtain ⟨g, ns, hg, hl, hc, h1, -, h3, -, -⟩ := init_of hval
  have hv := hc 0 0 ⟨0, 1, 0⟩ ⟨1, 0, 0⟩ (by simp [m, Electric.mesh, Electric.meshOf]) (Electric.corners Electric.field)
  have hz : cross ((⟨1, 0, 0⟩ : Vec) - 0) (⟨0, 1, 0⟩ - 0) = ⟨0, 0, 1⟩ := by ext <;> simp
  rw [hz] at hv
  have hu : dot (⟨0, 0, 1⟩ : Vec) ⟨0, 0, 1⟩ = 1 := by simp [dot]
  have hn : g.normal[0]? = some (.ok ⟨0, 0, 1⟩) := by
    rw [h3, List.getElem?_map, hv, Option.map_some, normalizeE_of_ne (ne_zero_of hu), normalize_of_unit hu]
  obtain ⟨m', hm', -⟩ := C52_boundary m hw g (fun _ => ⟨0, 0, 1⟩) (by
    intro ip hip
    have : ip = 0 := by simp [m, Electric.mesh, Electric.meshOf] at hip; exact hip
    subst this; exact hn) (fun _ _ => hu)
  refine ⟨m, m', g, F, hw, hg, hm', rfl, ?_⟩
  intro h
  have := congrArg Vec.z h
  simp [EMField.Poynting, F] at this
  exact MuNull_pos.ne' this

/-- the conditions of C54 are met: a cell whose recorded field carries energy, in front of a target cell -/
example : ∃ (s : Source) (r : FieldTrace), s.mesh.Np = 1 ∧ propagatedTrace s Electric.target 0 = .ok r ∧
    r.trace[0]? = some (kirchhoffSample 1 ⟨0, 0, 1⟩ (fun _ => 0) (fun _ => ⟨0, 0, 1⟩) (fun _ => 1 / 2)
      (fun _ => ⟨0, 1, 2, [⟨⟨1, 0, 0⟩, ⟨0, 1, 0⟩⟩, 0]⟩) (fun _ => Electric.zeros) (fun _ => Electric.zeros) (1 / SpeedOfLight)) := by
  let F : FieldTrace := ⟨0, 1, 2, [⟨⟨1, 0, 0⟩, ⟨0, 1, 0⟩⟩, 0]⟩
  let s : Source := ⟨{ Electric.mesh with A := [F] }, ⟨[1 / 2], 1 / 2, [.ok ⟨0, 0, 1⟩], [], []⟩, [Electric.zeros], [Electric.zeros]⟩
  have hnorm : Vec.norm ((⟨0, 0, 1⟩ : Vec) - 0) = 1 := by rw [sub_zero]; exact norm_one_of (by simp [dot])
  have ht : (1 / SpeedOfLight + ((0 : Nat) : ℝ) * 1 - 1 / SpeedOfLight : ℝ) = 0 := by simp
  have hF : F.fieldAtTime 0 = ⟨⟨1, 0, 0⟩, ⟨0, 1, 0⟩⟩ := C17_sampling_times _ (by norm_num [F]) 0 _ 0 rfl (by simp [FieldTrace.getTime, F])
  have hZ : Electric.zeros.fieldAtTime 0 = 0 :=
    C17_sampling_times _ (by norm_num [Electric.zeros]) 0 _ 0 rfl (by simp [FieldTrace.getTime, Electric.zeros])
  obtain ⟨r, r1, -, -, -, -, r2⟩ := C54_propagated_partial s Electric.target 0 ⟨0, 0, 1⟩ ⟨1 / SpeedOfLight, 1, 1, [0]⟩ rfl rfl rfl
    (fun _ => 0) (fun _ => ⟨0, 0, 1⟩) (fun _ => 1 / 2) (fun _ => F) (fun _ => Electric.zeros) (fun _ => Electric.zeros)
    (by intro i hi
        have : i = 0 := by simp [s, Electric.mesh, Electric.meshOf] at hi; exact hi
        subst this
        exact ⟨rfl, rfl, rfl, rfl, rfl, rfl⟩)
    (fun _ _ => ne_zero_of (by simp [dot]))
    (by intro i _
        have hz : Visible Electric.zeros ((⟨0, 0, 1⟩ - 0 : Vec).norm / SpeedOfLight) ⟨1 / SpeedOfLight, 1, 1, [0]⟩ := by
          left
          intro i hi
          have : i = 0 := by simp at hi; exact hi
          subst this
          rw [hnorm, ht, hZ]
        refine ⟨?_, hz, hz⟩
        right
        simp only [List.range_succ, List.range_zero, List.nil_append, List.map_cons, List.map_nil, List.sum_cons, List.sum_nil]
        rw [hnorm, ht, hF]
        intro h
        have := congrArg Vec.z h
        simp [EMField.Poynting] at this
        exact MuNull_pos.ne' this)
  refine ⟨s, r, rfl, r1, ?_⟩
  have hr := r2 0 (by norm_num)
  have e : (1 / SpeedOfLight + ((0 : Nat) : ℝ) * 1 : ℝ) = 1 / SpeedOfLight := by simp
  rw [e] at hr
  exact hr

end Teufel
