import Verif.Lemmas.Parallel
import Verif.Lemmas.Additive
import Verif.Spec.Observers

/-! # Observers as collections of samples -/

namespace Teufel
open Vec FieldTrace

/-! ## vectors of vectors -/

theorem gridAt_some {α} {g : List (List α)} {i j : Nat} {a : α} (h : gridAt g i j = .ok a) : ∃ row, g[i]? = some row ∧ row[j]? = some a := by
  unfold gridAt at h
  cases hr : g[i]? with
  | none => rw [hr] at h; cases h
  | some row =>
    rw [hr] at h
    simp only at h
    cases hx : row[j]? with
    | none => rw [hx] at h; cases h
    | some x => rw [hx] at h; injection h with h; subst h; exact ⟨row, rfl, hx⟩

theorem gridAt_rect {α} {g : List (List α)} {nx ny : Nat} (h1 : g.length = nx) (h2 : ∀ row ∈ g, row.length = ny) {i j : Nat} (hi : i < nx) (hj : j < ny) :
    ∃ a, gridAt g i j = .ok a := by
  have hi' : i < g.length := by omega
  have hr := h2 _ (List.getElem_mem hi')
  have hj' : j < g[i].length := by omega
  refine ⟨g[i][j], ?_⟩
  unfold gridAt
  rw [List.getElem?_eq_getElem hi']
  simp only
  rw [List.getElem?_eq_getElem hj']

theorem gridAt_lt {α} {g : List (List α)} {nx ny : Nat} (h1 : g.length = nx) (h2 : ∀ row ∈ g, row.length = ny) {i j : Nat} {a : α} (h : gridAt g i j = .ok a) :
    i < nx ∧ j < ny := by
  obtain ⟨row, hr, hx⟩ := gridAt_some h
  have := (List.getElem?_eq_some_iff.mp hr).1
  have h3 := (List.getElem?_eq_some_iff.mp hx).1
  rw [h2 row (List.mem_of_getElem? hr)] at h3
  omega

theorem rect_shape {α} {g : List (List α)} {nx ny : Nat} : (g.length = nx ∧ ∀ row ∈ g, row.length = ny) ↔ g.map List.length = List.replicate nx ny := by
  rw [List.eq_replicate_iff]
  simp

theorem gridMap_at {α β} (f : α → β) (g : List (List α)) (i j : Nat) : gridAt (g.map (List.map f)) i j = (gridAt g i j).map f := by
  unfold gridAt
  rw [List.getElem?_map]
  cases g[i]? with
  | none => rfl
  | some row =>
    simp only [Option.map_some, List.getElem?_map]
    cases row[j]? <;> rfl

theorem gridMap_set {α β : Type} (f : α → β) (g : List (List α)) (i j : Nat) (a b : α) (h : gridAt g i j = .ok b) (hab : f a = f b) :
    (gridSet g i j a).map (List.map f) = g.map (List.map f) := by
  apply (gridStore β).ext
  · have h1 := (gridStore α).shape_put g (i, j) a
    simp only [gridStore, List.map_map] at h1 ⊢
    have : (List.length ∘ List.map f) = List.length := by funext l; simp
    rw [this]
    exact h1
  · rintro ⟨i', j'⟩
    simp only [gridStore]
    rw [gridMap_at, gridMap_at]
    by_cases hk : (i', j') = (i, j)
    · cases hk
      have := (gridStore α).get_put g (i, j) a b h
      simp only [gridStore] at this
      rw [this, h]
      simp [Except.map, hab]
    · have := (gridStore α).get_other g (i, j) (i', j') a hk
      simp only [gridStore] at this
      rw [this]

theorem mem_cells {nx ny : Nat} {c : Nat × Nat} : c ∈ cells nx ny ↔ c.1 < nx ∧ c.2 < ny := by
  unfold cells
  obtain ⟨i, j⟩ := c
  simp [and_comm]

theorem cells_nodup (nx ny : Nat) : (cells nx ny).Nodup := by
  unfold cells
  rw [List.nodup_flatMap]
  constructor
  · intro i _
    exact (List.nodup_range).map (fun a b h => by simpa using h)
  · refine (List.nodup_range (n := nx)).imp ?_
    intro a b hab
    simp only [Function.onFun, List.disjoint_left, List.mem_map, List.mem_range]
    rintro ⟨x, y⟩ ⟨_, _, h⟩ ⟨_, _, h'⟩
    simp only [Prod.mk.injEq] at h h'
    exact hab (h.1.trans h'.1.symm)

/-! ## samples of traces -/

theorem trace_get {tr : FieldTrace} (h : tr.WF) {i : Nat} (hi : i < tr.N) : tr.getField i = .ok (vals tr i) := by
  have hl : i < tr.trace.length := by rw [h]; exact hi
  unfold FieldTrace.getField vals
  rw [if_neg (by omega), List.getElem?_eq_getElem hl]
  rfl

theorem trace_put {tr : FieldTrace} (h : tr.WF) {i : Nat} (hi : i < tr.N) (f : EMField) :
    tr.setField i f = .ok { tr with trace := tr.trace.set i f } := by
  have hl : i < tr.trace.length := by rw [h]; exact hi
  unfold FieldTrace.setField
  rw [if_neg (by omega), if_pos hl]

theorem vals_set {tr : FieldTrace} (h : tr.WF) {i : Nat} (hi : i < tr.N) (f : EMField) (j : Nat) :
    vals { tr with trace := tr.trace.set i f } j = if j = i then f else vals tr j := by
  have hl : i < tr.trace.length := by rw [h]; exact hi
  unfold vals
  simp only [List.getElem?_set]
  by_cases hij : i = j
  · subst hij; simp [hl]
  · rw [if_neg hij, if_neg (Ne.symm hij)]

/-- the trace with all samples zero -/
noncomputable def bare (tr : FieldTrace) : FieldTrace := FieldTrace.new tr.t0 tr.dt tr.N

theorem bare_eq {s t : FieldTrace} (h : bare s = bare t) : s.t0 = t.t0 ∧ s.dt = t.dt ∧ s.N = t.N := by
  unfold bare FieldTrace.new at h
  injection h with h1 h2 h3 h4
  exact ⟨h1, h2, h3⟩

theorem trace_ext {s t : FieldTrace} (hs : s.WF) (ht : t.WF) (hb : bare s = bare t) (h : ∀ i < s.N, vals s i = vals t i) : s = t := by
  obtain ⟨h1, h2, h3⟩ := bare_eq hb
  apply FieldTrace.ext h1 h2 h3
  apply List.ext_getElem
  · rw [hs, ht, h3]
  · intro i hi hi'
    have := h i (by rw [← hs]; exact hi)
    unfold vals at this
    rw [List.getElem?_eq_getElem hi, List.getElem?_eq_getElem hi'] at this
    exact this

theorem bare_adds (g : Nat → EMField) (tr : FieldTrace) : bare (adds g tr) = bare tr := rfl

theorem vals_adds {tr : FieldTrace} (h : tr.WF) (g : Nat → EMField) {i : Nat} (hi : i < tr.N) : vals (adds g tr) i = vals tr i + g i := by
  have hl : i < tr.trace.length := by rw [h]; exact hi
  unfold vals adds
  simp only [List.getElem?_mapIdx, List.getElem?_eq_getElem hl]
  rfl

theorem vals_bare (tr : FieldTrace) : vals (bare tr) = 0 := vals_new _ _ _

/-! ## well-formed observers -/

/-- the traces of a screen fit to its parameters -/
structure Screen.WF (s : Screen) : Prop where
  rows : s.Traces.length = s.Nx
  cols : ∀ row ∈ s.Traces, row.length = s.Ny
  traces : ∀ i j tr, gridAt s.Traces i j = .ok tr → tr.WF ∧ tr.N = s.NOTS ∧ tr.t0 = s.CellTimeZero i j ∧ tr.dt = s.dt

/-- the field array of a snapshot fits to its parameters -/
structure Snapshot.WF (s : Snapshot) : Prop where
  rows : s.FieldArray.length = s.Nx
  cols : ∀ row ∈ s.FieldArray, row.length = s.Ny

/-- the traces of a mesh fit to its parameters -/
structure MeshObs.WF (s : MeshObs) : Prop where
  points : s.points.length = s.Np
  cellNum : s.A.length = s.Np
  traces : ∀ i tr, MeshObs.at' s.A i = .ok tr → tr.WF ∧ tr.N = s.Nt

namespace Observer

/-- well-formed observers -/
def WF : Observer → Prop
  | .screen s => s.WF
  | .snapshot s => s.WF
  | .point s => s.trace.WF
  | .mesh s => s.WF

/-- the observer with all samples zero -/
noncomputable def blank : Observer → Observer
  | .screen s => .screen { s with Traces := s.Traces.map (List.map bare) }
  | .snapshot s => .snapshot { s with FieldArray := s.FieldArray.map (List.map (fun _ => 0)) }
  | .point s => .point { s with trace := bare s.trace }
  | .mesh s => .mesh { s with A := s.A.map bare }

end Observer

theorem mem_samples {s : Screen} {k : Observer.Key} : k ∈ s.samples ↔ k.1.1 < s.Nx ∧ k.1.2 < s.Ny ∧ k.2 < s.NOTS := by
  unfold Screen.samples
  obtain ⟨⟨i, j⟩, it⟩ := k
  simp only [List.mem_flatMap, mem_cells, List.mem_map, List.mem_range, Prod.mk.injEq]
  constructor
  · rintro ⟨c, hc, it', hit, rfl, rfl⟩
    exact ⟨hc.1, hc.2, hit⟩
  · rintro ⟨h1, h2, h3⟩
    exact ⟨(i, j), ⟨h1, h2⟩, it, h3, rfl, rfl⟩

theorem flatMap_range_nodup {α} (l : List α) (hl : l.Nodup) (n : Nat) : (l.flatMap (fun c => (List.range n).map (fun it : Nat => (c, it)))).Nodup := by
  rw [List.nodup_flatMap]
  constructor
  · intro c _
    exact (List.nodup_range).map (fun a b h => by simpa using h)
  · refine hl.imp ?_
    intro a b hab
    simp only [Function.onFun, List.disjoint_left, List.mem_map, List.mem_range]
    rintro ⟨x, y⟩ ⟨_, _, h⟩ ⟨_, _, h'⟩
    simp only [Prod.mk.injEq] at h h'
    exact hab (h.1.trans h'.1.symm)

namespace Observer

theorem keys_nodup (o : Observer) : o.keys.Nodup := by
  cases o with
  | screen s => exact flatMap_range_nodup _ (cells_nodup _ _) _
  | snapshot s => exact (cells_nodup _ _).map (fun a b h => by simpa using h)
  | point s => exact (List.nodup_range).map (fun a b h => by simpa using h)
  | mesh s =>
    have := flatMap_range_nodup ((List.range s.Np).map (fun i : Nat => ((i, 0) : Nat × Nat))) ((List.nodup_range).map (fun a b h => by simpa using h)) s.Nt
    rw [List.flatMap_map] at this
    exact this

theorem get_ok {o : Observer} (h : o.WF) {k : Key} (hk : k ∈ o.keys) : ∃ f, o.get k = .ok f := by
  cases o with
  | screen s =>
    obtain ⟨h1, h2, h3⟩ := mem_samples.mp hk
    obtain ⟨tr, ht⟩ := gridAt_rect h.rows h.cols h1 h2
    obtain ⟨hw, hn, _⟩ := h.traces _ _ _ ht
    refine ⟨vals tr k.2, ?_⟩
    show s.getField k.1.1 k.1.2 k.2 = _
    unfold Screen.getField
    rw [if_pos ⟨h1, h2, h3⟩, ht]
    exact trace_get hw (by omega)
  | snapshot s =>
    simp only [keys, List.mem_map] at hk
    obtain ⟨c, hc, rfl⟩ := hk
    have hc := mem_cells.mp hc
    obtain ⟨f, hf⟩ := gridAt_rect h.rows h.cols hc.1 hc.2
    refine ⟨f, ?_⟩
    show s.getField c.1 c.2 = _
    unfold Snapshot.getField
    rw [if_pos hc, hf]
  | point s =>
    simp only [keys, List.mem_map, List.mem_range] at hk
    obtain ⟨it, hit, rfl⟩ := hk
    exact ⟨_, trace_get h hit⟩
  | mesh s =>
    simp only [keys, List.mem_flatMap, List.mem_map, List.mem_range] at hk
    obtain ⟨i, hi, it, hit, rfl⟩ := hk
    have hi' : i < s.A.length := by rw [h.cellNum]; exact hi
    have hat : MeshObs.at' s.A i = .ok s.A[i] := by unfold MeshObs.at'; rw [List.getElem?_eq_getElem hi']
    obtain ⟨hw, hn⟩ := h.traces i _ hat
    refine ⟨vals s.A[i] it, ?_⟩
    show (do let tr ← MeshObs.at' s.A i; tr.getField it) = _
    rw [hat]
    exact trace_get hw (by omega)

theorem put_ok {o : Observer} (h : o.WF) {k : Key} (hk : k ∈ o.keys) (f : EMField) :
    ∃ o', o.put k f = .ok o' ∧ o'.WF ∧ o'.keys = o.keys ∧ o'.blank = o.blank ∧ o'.get k = .ok f ∧ ∀ k' ∈ o.keys, k' ≠ k → o'.get k' = o.get k' := by
  cases o with
  | screen s =>
    obtain ⟨⟨i, j⟩, it⟩ := k
    obtain ⟨h1, h2, h3⟩ := mem_samples.mp hk
    simp only at h1 h2 h3
    obtain ⟨tr, ht⟩ := gridAt_rect h.rows h.cols h1 h2
    obtain ⟨hw, hn, ht0, htd⟩ := h.traces _ _ _ ht
    set tr' : FieldTrace := { tr with trace := tr.trace.set it f } with htr'
    have hput : tr.setField it f = .ok tr' := trace_put hw (by omega) f
    have hw' : tr'.WF := by simp only [htr', FieldTrace.WF, List.length_set]; exact hw
    have hshape := (gridStore FieldTrace).shape_put s.Traces (i, j) tr'
    have hget := (gridStore FieldTrace).get_put s.Traces (i, j) tr' tr ht
    have hoth := fun c hc => (gridStore FieldTrace).get_other s.Traces (i, j) c tr' hc
    simp only [gridStore] at hshape hget hoth
    have hrect := rect_shape.mpr (hshape.trans (rect_shape.mp ⟨h.rows, h.cols⟩))
    refine ⟨.screen { s with Traces := gridSet s.Traces i j tr' }, ?_, ⟨hrect.1, hrect.2, ?_⟩, rfl, ?_, ?_, ?_⟩
    · show (s.setField i j it f).map Observer.screen = _
      unfold Screen.setField
      rw [if_pos ⟨h1, h2, h3⟩, ht]
      simp only [bind, Except.bind, hput]
      rfl
    · intro i' j' tr'' h''
      by_cases hc : (i', j') = (i, j)
      · cases hc
        simp only at h''
        rw [hget] at h''
        injection h'' with h''
        subst h''
        exact ⟨hw', hn, ht0, htd⟩
      · simp only at h''
        rw [hoth (i', j') hc] at h''
        exact h.traces i' j' tr'' h''
    · simp only [blank]
      rw [gridMap_set bare s.Traces i j tr' tr ht rfl]
    · show Screen.getField _ i j it = _
      unfold Screen.getField
      simp only
      rw [if_pos ⟨h1, h2, h3⟩, hget]
      refine (trace_get hw' (show it < tr.N by omega)).trans ?_
      rw [vals_set hw (by omega), if_pos rfl]
    · rintro ⟨⟨i', j'⟩, it'⟩ hk' hne
      obtain ⟨g1, g2, g3⟩ := mem_samples.mp hk'
      simp only at g1 g2 g3
      show Screen.getField _ i' j' it' = Screen.getField _ i' j' it'
      unfold Screen.getField
      simp only
      rw [if_pos ⟨g1, g2, g3⟩, if_pos ⟨g1, g2, g3⟩]
      by_cases hc : (i', j') = (i, j)
      · cases hc
        rw [hget, ht]
        refine (trace_get hw' (show it' < tr.N by omega)).trans ?_
        rw [vals_set hw (by omega), if_neg (fun e => hne (by rw [e]))]
        exact (trace_get hw (by omega)).symm
      · rw [hoth (i', j') hc]
  | snapshot s =>
    simp only [keys, List.mem_map] at hk
    obtain ⟨⟨i, j⟩, hc, rfl⟩ := hk
    have hc := mem_cells.mp hc
    obtain ⟨x, hx⟩ := gridAt_rect h.rows h.cols hc.1 hc.2
    have hshape := (gridStore EMField).shape_put s.FieldArray (i, j) f
    have hget := (gridStore EMField).get_put s.FieldArray (i, j) f x hx
    have hoth := fun c hc => (gridStore EMField).get_other s.FieldArray (i, j) c f hc
    simp only [gridStore] at hshape hget hoth
    have hrect := rect_shape.mpr (hshape.trans (rect_shape.mp ⟨h.rows, h.cols⟩))
    refine ⟨.snapshot { s with FieldArray := gridSet s.FieldArray i j f }, ?_, ⟨hrect.1, hrect.2⟩, rfl, ?_, ?_, ?_⟩
    · show (s.setField i j f).map Observer.snapshot = _
      unfold Snapshot.setField
      rw [if_pos hc, hx]
      rfl
    · simp only [blank]
      rw [gridMap_set (fun _ => (0 : EMField)) s.FieldArray i j f x hx rfl]
    · show Snapshot.getField _ i j = _
      unfold Snapshot.getField
      simp only
      rw [if_pos hc, hget]
    · intro k' hk' hne
      simp only [keys, List.mem_map] at hk'
      obtain ⟨⟨i', j'⟩, hc', rfl⟩ := hk'
      have hc' := mem_cells.mp hc'
      show Snapshot.getField _ i' j' = Snapshot.getField _ i' j'
      unfold Snapshot.getField
      simp only
      rw [if_pos hc', if_pos hc', hoth (i', j') (fun e => hne (by rw [e]))]
  | point s =>
    simp only [keys, List.mem_map, List.mem_range] at hk
    obtain ⟨it, hit, rfl⟩ := hk
    have hw : s.trace.WF := h
    set tr' : FieldTrace := { s.trace with trace := s.trace.trace.set it f } with htr'
    have hw' : tr'.WF := by simp only [htr', FieldTrace.WF, List.length_set]; exact hw
    refine ⟨.point { s with trace := tr' }, ?_, hw', rfl, rfl, ?_, ?_⟩
    · show (s.trace.setField it f).map _ = _
      rw [trace_put hw hit]
      rfl
    · refine (trace_get hw' (show it < s.trace.N from hit)).trans ?_
      rw [vals_set hw hit, if_pos rfl]
    · intro k' hk' hne
      simp only [keys, List.mem_map, List.mem_range] at hk'
      obtain ⟨it', hit', rfl⟩ := hk'
      refine (trace_get hw' (show it' < s.trace.N from hit')).trans ?_
      rw [vals_set hw hit, if_neg (fun e => hne (by rw [e]))]
      exact (trace_get hw hit').symm
  | mesh s =>
    simp only [keys, List.mem_flatMap, List.mem_map, List.mem_range] at hk
    obtain ⟨i, hi, it, hit, rfl⟩ := hk
    have hi' : i < s.A.length := by rw [h.cellNum]; exact hi
    have hat : MeshObs.at' s.A i = .ok s.A[i] := by unfold MeshObs.at'; rw [List.getElem?_eq_getElem hi']
    generalize s.A[i] = tr at hat
    obtain ⟨hw, hn⟩ := h.traces i _ hat
    set tr' : FieldTrace := { tr with trace := tr.trace.set it f } with htr'
    have hput : tr.setField it f = .ok tr' := trace_put hw (by omega) f
    have hw' : tr'.WF := by simp only [htr', FieldTrace.WF, List.length_set]; exact hw
    have hget := (vecStore FieldTrace).get_put s.A i tr' tr hat
    have hoth := fun c hc => (vecStore FieldTrace).get_other s.A i c tr' hc
    simp only [vecStore] at hget hoth
    refine ⟨.mesh { s with A := s.A.set i tr' }, ?_, ⟨h.points, by simpa using h.cellNum, ?_⟩, rfl, ?_, ?_, ?_⟩
    · show (do let tr ← MeshObs.at' s.A i; let tr ← tr.setField it f; return Observer.mesh { s with A := s.A.set i tr }) = _
      rw [hat]
      simp only [bind, Except.bind, hput]
      rfl
    · intro i' tr'' h''
      by_cases hc : i' = i
      · subst hc
        simp only at h''
        rw [hget] at h''
        injection h'' with h''
        subst h''
        exact ⟨hw', hn⟩
      · simp only at h''
        rw [hoth i' hc] at h''
        exact h.traces i' tr'' h''
    · simp only [blank]
      congr 2
      rw [List.map_set]
      apply List.ext_getElem?
      intro n
      rw [List.getElem?_set]
      split
      · rename_i hni
        subst hni
        unfold MeshObs.at' at hat
        rw [List.length_map, if_pos hi', List.getElem?_map]
        cases hA : s.A[i]? with
        | none => rw [hA] at hat; cases hat
        | some x => rw [hA] at hat; injection hat with hat; subst hat; rfl
      · rfl
    · show (do let tr ← MeshObs.at' (s.A.set i tr') i; tr.getField it) = _
      rw [hget]
      refine (trace_get hw' (show it < tr.N by omega)).trans ?_
      rw [vals_set hw (by omega), if_pos rfl]
    · intro k' hk' hne
      simp only [keys, List.mem_flatMap, List.mem_map, List.mem_range] at hk'
      obtain ⟨i', hi', it', hit', rfl⟩ := hk'
      show (do let tr ← MeshObs.at' (s.A.set i tr') i'; tr.getField it') = (do let tr ← MeshObs.at' s.A i'; tr.getField it')
      by_cases hc : i' = i
      · subst hc
        rw [hget, hat]
        refine (trace_get hw' (show it' < tr.N by omega)).trans ?_
        rw [vals_set hw (by omega), if_neg (fun e => hne (by rw [e]))]
        exact (trace_get hw (by omega)).symm
      · rw [hoth i' hc]

end Observer
end Teufel
