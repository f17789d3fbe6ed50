import Verif.Lemmas.Observe

/-! # Integration: every cell receives the sum of the shares of the sources -/

namespace Teufel
open Vec FieldTrace

section
variable {S κ τ : Type} [DecidableEq κ] (st : Store S κ τ)

/-- one iteration of a loop over the cells -/
def cellStep (task : κ → τ → Except Err τ) (s : S) (k : κ) : Except Err S := do
  let v ← st.get s k
  let v ← task k v
  return st.put s k v

theorem seq_spec (task : κ → τ → Except Err τ) (ks : List κ) (hnd : ks.Nodup) : ∀ (s : S), (∀ k ∈ ks, ∃ v, st.get s k = .ok v) →
    (∀ s', ks.foldlM (cellStep st task) s = .ok s' → st.shape s' = st.shape s ∧
      (∀ k ∈ ks, ∀ v, st.get s k = .ok v → ∃ v', task k v = .ok v' ∧ st.get s' k = .ok v') ∧ (∀ k, k ∉ ks → st.get s' k = st.get s k)) ∧
    ((∀ k ∈ ks, ∀ v, st.get s k = .ok v → ∃ v', task k v = .ok v') → ∃ s', ks.foldlM (cellStep st task) s = .ok s') := by
  induction ks with
  | nil =>
    intro s _
    refine ⟨?_, fun _ => ⟨s, rfl⟩⟩
    intro s' h
    simp only [List.foldlM_nil, pure, Except.pure, Except.ok.injEq] at h
    subst h
    exact ⟨rfl, by simp, fun _ _ => rfl⟩
  | cons k ks ih =>
    intro s hp
    rw [List.nodup_cons] at hnd
    obtain ⟨v, hv⟩ := hp k (by simp)
    have hne : ∀ k' ∈ ks, k' ≠ k := fun k' h' he => hnd.1 (he ▸ h')
    cases ht : task k v with
    | error e =>
      have : cellStep st task s k = .error e := by simp only [cellStep, bind, Except.bind, hv, ht]
      rw [List.foldlM_cons, this]
      refine ⟨fun s' h => (by cases h), ?_⟩
      intro h
      obtain ⟨v', h'⟩ := h k (by simp) v hv
      rw [ht] at h'; cases h'
    | ok v1 =>
      have : cellStep st task s k = .ok (st.put s k v1) := by simp only [cellStep, bind, Except.bind, hv, ht]; rfl
      rw [List.foldlM_cons, this]
      simp only [bind, Except.bind]
      obtain ⟨hA, hB⟩ := ih hnd.2 (st.put s k v1) (by
        intro k' hk'
        rw [st.get_other s k k' v1 (hne k' hk')]
        exact hp k' (by simp [hk']))
      refine ⟨?_, ?_⟩
      · intro s' h
        obtain ⟨a1, a2, a3⟩ := hA s' h
        refine ⟨a1.trans (st.shape_put s k v1), ?_, ?_⟩
        · intro k' hk' w hw
          rw [List.mem_cons] at hk'
          rcases hk' with rfl | hk'
          · rw [hv] at hw
            injection hw with hw
            subst hw
            exact ⟨v1, ht, by rw [a3 k' hnd.1]; exact st.get_put s k' v1 v hv⟩
          · exact a2 k' hk' w (by rw [st.get_other s k k' v1 (hne k' hk')]; exact hw)
        · intro k' hk'
          rw [List.mem_cons, not_or] at hk'
          rw [a3 k' hk'.2, st.get_other s k k' v1 hk'.1]
      · intro h
        apply hB
        intro k' hk' w hw
        rw [st.get_other s k k' v1 (hne k' hk')] at hw
        exact h k' (by simp [hk']) w hw
end

/-! ## shares -/

/-- what the source adds to the samples of a trace -/
noncomputable def shareAt (src : RadSource) (pos : Vec) (t0 dt : ℝ) (n : Nat) : Except Err (Nat → EMField) :=
  match src with
  | .beam b => sumM (traceShare pos t0 dt n) b.all
  | .bunch b => sumM (traceShare pos t0 dt n) b.P
  | .lattice f => ((List.range n).mapM (fun it : Nat => f (t0 + it * dt) pos)).map (fun fs i => (fs[i]?).getD 0)

/-- the field of the source at one time -/
noncomputable def fieldShare (src : RadSource) (t : ℝ) (pos : Vec) : Except Err EMField :=
  match src with
  | .beam b => sumM (fun p : Particle => p.RetardedFieldAt t pos) b.all
  | .bunch b => sumM (fun p : Particle => p.RetardedFieldAt t pos) b.P
  | .lattice f => f t pos

theorem record_spec (f : FieldFn) (time : Nat → Except Err ℝ) (pos : Vec) (m : Nat) (tr : FieldTrace) (hw : tr.WF) (hm : m ≤ tr.N)
    (ht : ∀ it < m, time it = .ok (tr.t0 + it * tr.dt)) :
    recordField f time pos m tr = ((List.range m).mapM (fun it : Nat => f (tr.t0 + it * tr.dt) pos)).map (fun fs => adds (fun i => (fs[i]?).getD 0) tr) := by
  induction m with
  | zero =>
    show Except.ok tr = Except.ok (adds (fun i => (([] : List EMField)[i]?).getD 0) tr)
    have : (fun i : Nat => (([] : List EMField)[i]?).getD 0) = 0 := by funext i; simp
    rw [this, adds_zero]
  | succ m ih =>
    have hs : recordField f time pos (m + 1) tr = (recordField f time pos m tr).bind (fun tr => do
        let t ← time m
        let F ← f t pos
        tr.addAt m F) := by
      unfold recordField
      rw [List.range_succ, List.foldlM_append]
      simp only [bind, Except.bind]
      congr 1
      funext tr'
      rw [List.foldlM_cons]
      simp only [bind, Except.bind, List.foldlM_nil, pure, Except.pure]
      cases time m with
      | error e => rfl
      | ok t =>
        simp only
        cases f t pos with
        | error e => rfl
        | ok F => simp only; cases tr'.addAt m F <;> rfl
    rw [hs, ih (by omega) (fun it h => ht it (by omega)), List.range_succ, List.mapM_append]
    cases hl : (List.range m).mapM (fun it : Nat => f (tr.t0 + it * tr.dt) pos) with
    | error e => rfl
    | ok fs =>
      have hlen : fs.length = m := by have := (mapM_except_length hl).1; simpa using this
      simp only [Except.map, Except.bind, bind, ht m (by omega), List.mapM_cons, List.mapM_nil, pure, Except.pure]
      cases hf : f (tr.t0 + m * tr.dt) pos with
      | error e => rfl
      | ok F =>
        simp only
        unfold FieldTrace.addAt
        have hl' : m < tr.trace.length := by rw [hw]; omega
        rw [if_neg (show ¬ m ≥ (adds (fun i => (fs[i]?).getD 0) tr).N by simp only [adds]; omega)]
        have hx : (adds (fun i => (fs[i]?).getD 0) tr).trace[m]? = some (tr.trace[m] + 0) := by
          simp only [adds, List.getElem?_mapIdx, List.getElem?_eq_getElem hl', Option.map_some]
          rw [List.getElem?_eq_none (by omega)]
          rfl
        rw [hx]
        simp only [Except.ok.injEq, adds]
        congr 1
        apply List.ext_getElem?
        intro j
        simp only [List.getElem?_set, List.getElem?_mapIdx, List.length_mapIdx]
        by_cases hj : m = j
        · subst hj
          rw [if_pos rfl, if_pos hl', List.getElem?_eq_getElem hl']
          simp [hlen]
        · rw [if_neg hj]
          cases tr.trace[j]? with
          | none => rfl
          | some x =>
            simp only [Option.map_some]
            congr 2
            rcases Nat.lt_or_gt_of_ne hj with h | h
            · rw [List.getElem?_eq_none (by omega), List.getElem?_eq_none (by simp; omega)]
            · rw [List.getElem?_append_left (by omega)]

theorem bunch_trace {b : Bunch} (h : b.NOP = b.P.length) (obs : Vec) (tr : FieldTrace) (hw : tr.WF) :
    b.integrateFieldTrace obs tr = (sumM (traceShare obs tr.t0 tr.dt tr.N) b.P).map (fun g => adds g tr) := by
  unfold Bunch.integrateFieldTrace
  rw [visited_all h, ← fold_share b.P obs tr hw]
  rfl

theorem bunch_retarded {b : Bunch} (h : b.NOP = b.P.length) (t : ℝ) (X : Vec) :
    b.RetardedField t X = sumM (fun p : Particle => p.RetardedFieldAt t X) b.P := by
  unfold Bunch.RetardedField
  rw [visited_all h]
  show b.P.foldlM _ 0 = _
  rw [foldlM_sumM]
  simp only [zero_add]
  cases sumM (fun p : Particle => p.RetardedFieldAt t X) b.P <;> rfl

theorem screen_task {src : RadSource} (h : src.Counted) (s : Screen) (c : Nat × Nat) (tr : FieldTrace) (hw : tr.WF) (hN : tr.N = s.NOTS) (h0 : tr.t0 = s.CellTimeZero c.1 c.2)
    (hd : tr.dt = s.dt) : s.cellTask src c tr = (shareAt src (s.CellPosition c.1 c.2) (s.CellTimeZero c.1 c.2) s.dt s.NOTS).map (fun g => adds g tr) := by
  cases src with
  | beam b =>
    simp only [Screen.cellTask, shareAt]
    rw [beam_trace h _ tr hw, hN, h0, hd]
  | bunch b =>
    simp only [Screen.cellTask, shareAt]
    rw [bunch_trace h _ tr hw, hN, h0, hd]
  | lattice f =>
    simp only [Screen.cellTask, shareAt]
    rw [record_spec f _ _ s.NOTS tr hw (by omega) (by intro it _; simp only [h0, hd]), h0, hd, except_map_map]

theorem mesh_task {src : RadSource} (h : src.Counted) (s : MeshObs) (i : Nat) (tr : FieldTrace) (hw : tr.WF) (hN : tr.N = s.Nt) {pos : Vec} (hp : MeshObs.at' s.points i = .ok pos) :
    s.cellTask src i tr = (shareAt src pos tr.t0 tr.dt s.Nt).map (fun g => adds g tr) := by
  simp only [MeshObs.cellTask, hp, bind, Except.bind]
  cases src with
  | beam b =>
    simp only [shareAt]
    rw [beam_trace h _ tr hw, hN]
  | bunch b =>
    simp only [shareAt]
    rw [bunch_trace h _ tr hw, hN]
  | lattice f =>
    simp only [shareAt]
    rw [record_spec f _ _ s.Nt tr hw (by omega) (by intro it hit; unfold FieldTrace.getTime; rw [if_neg (by omega)]), except_map_map]

theorem point_task {src : RadSource} (h : src.Counted) (s : PointObs) (hw : s.trace.WF) :
    s.integrate src = (shareAt src s.Pos s.trace.t0 s.trace.dt s.trace.N).map (fun g => { s with trace := adds g s.trace }) := by
  unfold PointObs.integrate
  cases src with
  | beam b =>
    simp only [shareAt]
    rw [beam_trace h _ s.trace hw]
    cases sumM (traceShare s.Pos s.trace.t0 s.trace.dt s.trace.N) b.all <;> rfl
  | bunch b =>
    simp only [shareAt]
    rw [bunch_trace h _ s.trace hw]
    cases sumM (traceShare s.Pos s.trace.t0 s.trace.dt s.trace.N) b.P <;> rfl
  | lattice f =>
    simp only [shareAt]
    rw [record_spec f _ _ s.trace.N s.trace hw le_rfl (by intro it hit; unfold FieldTrace.getTime; rw [if_neg (by omega)])]
    cases (List.range s.trace.N).mapM (fun it : Nat => f (s.trace.t0 + it * s.trace.dt) s.Pos) <;> rfl

theorem snapshot_task {src : RadSource} (h : src.Counted) (s : Snapshot) (c : Nat × Nat) : s.cellTask src c = fieldShare src s.tObs (s.CellPosition c.1 c.2) := by
  cases src with
  | beam b => exact beam_retarded h _ _
  | bunch b => exact bunch_retarded h _ _
  | lattice f => rfl

namespace Observer

theorem key_cell {o : Observer} {k : Key} (h : k ∈ o.keys) : k.1 ∈ o.cellsOf := by
  cases o with
  | screen s =>
    obtain ⟨h1, h2, _⟩ := mem_samples.mp h
    exact mem_cells.mpr ⟨h1, h2⟩
  | snapshot s =>
    simp only [keys, List.mem_map] at h
    obtain ⟨c, hc, rfl⟩ := h
    exact hc
  | point s =>
    simp only [keys, List.mem_map] at h
    obtain ⟨_, _, rfl⟩ := h
    simp [cellsOf]
  | mesh s =>
    simp only [keys, List.mem_flatMap, List.mem_map, List.mem_range] at h
    obtain ⟨i, hi, it, hit, rfl⟩ := h
    simpa [cellsOf] using hi

/-- the contribution of the source to the samples of a cell -/
noncomputable def share (o : Observer) (src : RadSource) (c : Nat × Nat) : Except Err (Nat → EMField) :=
  match o with
  | .screen s => shareAt src (s.CellPosition c.1 c.2) (s.CellTimeZero c.1 c.2) s.dt s.NOTS
  | .snapshot s => (fieldShare src s.tObs (s.CellPosition c.1 c.2)).map (fun f _ => f)
  | .point s => shareAt src s.Pos s.trace.t0 s.trace.dt s.trace.N
  | .mesh s => do
    let pos ← MeshObs.at' s.points c.1
    let tr ← MeshObs.at' s.A c.1
    shareAt src pos tr.t0 tr.dt s.Nt

theorem bare_idem (tr : FieldTrace) : bare (bare tr) = bare tr := rfl

theorem integrate_gen {o : Observer} (h : o.WF) {src : RadSource} (hs : src.Counted) :
    (∀ o', o.integrate src = .ok o' → o'.WF ∧ o'.blank = o.blank ∧ ∀ c ∈ o.cellsOf, ∃ g, o.share src c = .ok g ∧
      ∀ k ∈ o.keys, k.1 = c → ∀ v, o.get k = .ok v → o'.get k = .ok (o.startValue v + g k.2)) ∧
    ((∀ c ∈ o.cellsOf, ∃ g, o.share src c = .ok g) → ∃ o', o.integrate src = .ok o') := by
  cases o with
  | screen s =>
    have hpres : ∀ c ∈ cells s.Nx s.Ny, ∃ v, (gridStore FieldTrace).get s.Traces c = .ok v := by
      intro c hc
      have := mem_cells.mp hc
      exact gridAt_rect h.rows h.cols this.1 this.2
    have htask : ∀ c : Nat × Nat, ∀ tr, gridAt s.Traces c.1 c.2 = .ok tr → s.cellTask src c tr = (shareAt src (s.CellPosition c.1 c.2) (s.CellTimeZero c.1 c.2) s.dt s.NOTS).map (fun g => adds g tr) := by
      intro c tr ht
      obtain ⟨w, n, t, d⟩ := h.traces _ _ _ ht
      exact screen_task hs s c tr w n t d
    obtain ⟨hA, hB⟩ := seq_spec (gridStore FieldTrace) (s.cellTask src) (cells s.Nx s.Ny) (cells_nodup _ _) s.Traces hpres
    have hi : (Observer.screen s).integrate src = ((cells s.Nx s.Ny).foldlM (cellStep (gridStore FieldTrace) (s.cellTask src)) s.Traces).map (fun g => Observer.screen { s with Traces := g }) := by
      show ((cells s.Nx s.Ny).foldlM (s.updateCell src) s.Traces >>= fun g => Except.ok { s with Traces := g }).map Observer.screen = _
      have : s.updateCell src = cellStep (gridStore FieldTrace) (s.cellTask src) := rfl
      rw [this]
      cases (cells s.Nx s.Ny).foldlM (cellStep (gridStore FieldTrace) (s.cellTask src)) s.Traces <;> rfl
    rw [hi]
    refine ⟨?_, ?_⟩
    · intro o' ho
      cases hg : (cells s.Nx s.Ny).foldlM (cellStep (gridStore FieldTrace) (s.cellTask src)) s.Traces with
      | error e => rw [hg] at ho; cases ho
      | ok g =>
        rw [hg] at ho
        simp only [Except.map, Except.ok.injEq] at ho
        subst ho
        obtain ⟨a1, a2, a3⟩ := hA g hg
        have hrect := rect_shape.mpr (a1.trans (rect_shape.mp ⟨h.rows, h.cols⟩))
        have hcell : ∀ c ∈ cells s.Nx s.Ny, ∃ tr q, gridAt s.Traces c.1 c.2 = .ok tr ∧ (Observer.screen s).share src c = .ok q ∧ gridAt g c.1 c.2 = .ok (adds q tr) := by
          intro c hc
          obtain ⟨tr, ht⟩ := hpres c hc
          obtain ⟨tr', h1, h2⟩ := a2 c hc tr ht
          rw [htask c tr ht] at h1
          cases hq : shareAt src (s.CellPosition c.1 c.2) (s.CellTimeZero c.1 c.2) s.dt s.NOTS with
          | error e => rw [hq] at h1; cases h1
          | ok q =>
            rw [hq] at h1
            simp only [Except.map, Except.ok.injEq] at h1
            exact ⟨tr, q, ht, hq, by rw [h1]; exact h2⟩
        refine ⟨⟨hrect.1, hrect.2, ?_⟩, ?_, ?_⟩
        · intro i j tr' ht'
          have hc := gridAt_lt hrect.1 hrect.2 ht'
          obtain ⟨tr, q, b1, b2, b3⟩ := hcell (i, j) (mem_cells.mpr hc)
          simp only at ht' b1 b3
          rw [ht'] at b3
          injection b3 with b3
          subst b3
          obtain ⟨w, r⟩ := h.traces i j tr b1
          exact ⟨adds_wf q w, r⟩
        · simp only [blank]
          congr 1
          have : g.map (List.map bare) = s.Traces.map (List.map bare) := by
            apply (gridStore FieldTrace).ext
            · simp only [gridStore, List.map_map]
              have hc : (List.length ∘ List.map bare) = List.length := by funext l; simp
              rw [hc]
              exact a1
            · rintro ⟨i, j⟩
              show gridAt (g.map (List.map bare)) i j = gridAt (s.Traces.map (List.map bare)) i j
              rw [gridMap_at, gridMap_at]
              by_cases hc : (i, j) ∈ cells s.Nx s.Ny
              · obtain ⟨tr, q, b1, b2, b3⟩ := hcell (i, j) hc
                simp only at b1 b3
                rw [b3, b1]
                simp only [Except.map]
                rw [bare_adds]
              · have : gridAt g i j = gridAt s.Traces i j := a3 (i, j) hc
                rw [this]
          rw [this]
        · intro c hc
          obtain ⟨tr, q, b1, b2, b3⟩ := hcell c hc
          refine ⟨q, b2, ?_⟩
          rintro ⟨c', it⟩ hk rfl v hv
          obtain ⟨g1, g2, g3⟩ := mem_samples.mp hk
          obtain ⟨w, n, _⟩ := h.traces _ _ _ b1
          have hv : Screen.getField s c'.1 c'.2 it = .ok v := hv
          show Screen.getField _ c'.1 c'.2 it = _
          unfold Screen.getField at hv ⊢
          simp only
          rw [if_pos ⟨g1, g2, g3⟩] at hv ⊢
          rw [b1] at hv
          rw [b3]
          have hv : tr.getField it = .ok v := hv
          have hit : it < tr.N := by simp only at g3; omega
          rw [trace_get w hit] at hv
          injection hv with hv
          refine (trace_get (adds_wf q w) hit).trans ?_
          rw [vals_adds w q hit, hv]
          rfl
    · intro hall
      obtain ⟨g, hg⟩ := hB (by
        intro c hc tr ht
        obtain ⟨q, hq⟩ := hall c hc
        have hq : shareAt src (s.CellPosition c.1 c.2) (s.CellTimeZero c.1 c.2) s.dt s.NOTS = .ok q := hq
        exact ⟨adds q tr, by rw [htask c tr ht, hq]; rfl⟩)
      exact ⟨_, by rw [hg]; rfl⟩
  | snapshot s =>
    have hpres : ∀ c ∈ cells s.Nx s.Ny, ∃ v, (gridStore EMField).get s.FieldArray c = .ok v := by
      intro c hc
      have := mem_cells.mp hc
      exact gridAt_rect h.rows h.cols this.1 this.2
    obtain ⟨hA, hB⟩ := seq_spec (gridStore EMField) (fun c _ => s.cellTask src c) (cells s.Nx s.Ny) (cells_nodup _ _) s.FieldArray hpres
    have hi : (Observer.snapshot s).integrate src = ((cells s.Nx s.Ny).foldlM (cellStep (gridStore EMField) (fun c _ => s.cellTask src c)) s.FieldArray).map (fun g => Observer.snapshot { s with FieldArray := g }) := by
      show ((cells s.Nx s.Ny).foldlM (s.updateCell src) s.FieldArray >>= fun g => Except.ok { s with FieldArray := g }).map Observer.snapshot = _
      have : s.updateCell src = cellStep (gridStore EMField) (fun c _ => s.cellTask src c) := rfl
      rw [this]
      cases (cells s.Nx s.Ny).foldlM (cellStep (gridStore EMField) (fun c _ => s.cellTask src c)) s.FieldArray <;> rfl
    rw [hi]
    refine ⟨?_, ?_⟩
    · intro o' ho
      cases hg : (cells s.Nx s.Ny).foldlM (cellStep (gridStore EMField) (fun c _ => s.cellTask src c)) s.FieldArray with
      | error e => rw [hg] at ho; cases ho
      | ok g =>
        rw [hg] at ho
        simp only [Except.map, Except.ok.injEq] at ho
        subst ho
        obtain ⟨a1, a2, a3⟩ := hA g hg
        have hrect := rect_shape.mpr (a1.trans (rect_shape.mp ⟨h.rows, h.cols⟩))
        have hcell : ∀ c ∈ cells s.Nx s.Ny, ∃ q, fieldShare src s.tObs (s.CellPosition c.1 c.2) = .ok q ∧ gridAt g c.1 c.2 = .ok q := by
          intro c hc
          obtain ⟨tr, ht⟩ := hpres c hc
          obtain ⟨tr', h1, h2⟩ := a2 c hc tr ht
          rw [snapshot_task hs] at h1
          exact ⟨tr', h1, h2⟩
        refine ⟨⟨hrect.1, hrect.2⟩, ?_, ?_⟩
        · simp only [blank]
          congr 1
          have : g.map (List.map (fun _ => (0 : EMField))) = s.FieldArray.map (List.map (fun _ => (0 : EMField))) := by
            apply (gridStore EMField).ext
            · simp only [gridStore, List.map_map]
              have hc : (List.length ∘ List.map (fun _ : EMField => (0 : EMField))) = List.length := by funext l; simp
              rw [hc]
              exact a1
            · rintro ⟨i, j⟩
              show gridAt (g.map (List.map (fun _ => (0 : EMField)))) i j = gridAt (s.FieldArray.map (List.map (fun _ => (0 : EMField)))) i j
              rw [gridMap_at, gridMap_at]
              by_cases hc : (i, j) ∈ cells s.Nx s.Ny
              · obtain ⟨q, b2, b3⟩ := hcell (i, j) hc
                obtain ⟨tr, b1⟩ := hpres (i, j) hc
                have b1 : gridAt s.FieldArray i j = .ok tr := b1
                simp only at b3
                rw [b3, b1]
                rfl
              · have : gridAt g i j = gridAt s.FieldArray i j := a3 (i, j) hc
                rw [this]
          rw [this]
        · intro c hc
          obtain ⟨q, b2, b3⟩ := hcell c hc
          refine ⟨fun _ => q, ?_, ?_⟩
          · show (fieldShare src s.tObs (s.CellPosition c.1 c.2)).map _ = _
            rw [b2]; rfl
          · rintro ⟨c', it⟩ hk rfl v hv
            have hc' := mem_cells.mp hc
            show Snapshot.getField _ c'.1 c'.2 = _
            unfold Snapshot.getField
            simp only
            rw [if_pos hc', b3]
            show _ = Except.ok ((0 : EMField) + q)
            rw [zero_add]
    · intro hall
      obtain ⟨g, hg⟩ := hB (by
        intro c hc tr ht
        obtain ⟨q, hq⟩ := hall c hc
        have hq : (fieldShare src s.tObs (s.CellPosition c.1 c.2)).map (fun f _ => f) = .ok q := hq
        rw [snapshot_task hs]
        cases hx : fieldShare src s.tObs (s.CellPosition c.1 c.2) with
        | error e => rw [hx] at hq; cases hq
        | ok f => exact ⟨f, rfl⟩)
      exact ⟨_, by rw [hg]; rfl⟩
  | point s =>
    have hw : s.trace.WF := h
    have hi : (Observer.point s).integrate src = ((Observer.point s).share src (0, 0)).map (fun g => Observer.point { s with trace := adds g s.trace }) := by
      show (s.integrate src).map Observer.point = _
      rw [point_task hs s hw, except_map_map]
      rfl
    rw [hi]
    refine ⟨?_, ?_⟩
    · intro o' ho
      cases hq : (Observer.point s).share src (0, 0) with
      | error e => rw [hq] at ho; cases ho
      | ok q =>
        rw [hq] at ho
        simp only [Except.map, Except.ok.injEq] at ho
        subst ho
        refine ⟨adds_wf q hw, ?_, ?_⟩
        · simp only [blank, bare_adds]
        · intro c hc
          simp only [cellsOf, List.mem_singleton] at hc
          subst hc
          refine ⟨q, hq, ?_⟩
          intro k hk _ v hv
          simp only [keys, List.mem_map, List.mem_range] at hk
          obtain ⟨it, hit, rfl⟩ := hk
          have hv : s.trace.getField it = .ok v := hv
          rw [trace_get hw hit] at hv
          injection hv with hv
          show (adds q s.trace).getField it = _
          refine (trace_get (adds_wf q hw) hit).trans ?_
          rw [vals_adds hw q hit, hv]
          rfl
    · intro hall
      obtain ⟨q, hq⟩ := hall (0, 0) (by simp [cellsOf])
      exact ⟨_, by rw [hq]; rfl⟩
  | mesh s =>
    have hpres : ∀ i ∈ List.range s.Np, ∃ v, (vecStore FieldTrace).get s.A i = .ok v := by
      intro i hi
      have hi' : i < s.A.length := by rw [h.cellNum]; simpa using hi
      exact ⟨s.A[i], by show MeshObs.at' s.A i = _; unfold MeshObs.at'; rw [List.getElem?_eq_getElem hi']⟩
    have hpos : ∀ i ∈ List.range s.Np, ∃ p, MeshObs.at' s.points i = .ok p := by
      intro i hi
      have hi' : i < s.points.length := by rw [h.points]; simpa using hi
      exact ⟨s.points[i], by unfold MeshObs.at'; rw [List.getElem?_eq_getElem hi']⟩
    have htask : ∀ i ∈ List.range s.Np, ∀ tr, MeshObs.at' s.A i = .ok tr → s.cellTask src i tr = ((Observer.mesh s).share src (i, 0)).map (fun g => adds g tr) := by
      intro i hi tr ht
      obtain ⟨w, n⟩ := h.traces i tr ht
      obtain ⟨p, hp⟩ := hpos i hi
      rw [mesh_task hs s i tr w n hp]
      simp only [share, hp, ht, bind, Except.bind]
    obtain ⟨hA, hB⟩ := seq_spec (vecStore FieldTrace) (s.cellTask src) (List.range s.Np) List.nodup_range s.A hpres
    have hi : (Observer.mesh s).integrate src = ((List.range s.Np).foldlM (cellStep (vecStore FieldTrace) (s.cellTask src)) s.A).map (fun g => Observer.mesh { s with A := g }) := by
      show ((List.range s.Np).foldlM (s.updateCell src) s.A >>= fun g => Except.ok { s with A := g }).map Observer.mesh = _
      have : s.updateCell src = cellStep (vecStore FieldTrace) (s.cellTask src) := rfl
      rw [this]
      cases (List.range s.Np).foldlM (cellStep (vecStore FieldTrace) (s.cellTask src)) s.A <;> rfl
    rw [hi]
    refine ⟨?_, ?_⟩
    · intro o' ho
      cases hg : (List.range s.Np).foldlM (cellStep (vecStore FieldTrace) (s.cellTask src)) s.A with
      | error e => rw [hg] at ho; cases ho
      | ok g =>
        rw [hg] at ho
        simp only [Except.map, Except.ok.injEq] at ho
        subst ho
        obtain ⟨a1, a2, a3⟩ := hA g hg
        have hlen : g.length = s.Np := by
          have : [g.length] = [s.A.length] := a1
          rw [← h.cellNum]; simpa using this
        have hcell : ∀ i ∈ List.range s.Np, ∃ tr q, MeshObs.at' s.A i = .ok tr ∧ (Observer.mesh s).share src (i, 0) = .ok q ∧ MeshObs.at' g i = .ok (adds q tr) := by
          intro i hi
          obtain ⟨tr, ht⟩ := hpres i hi
          obtain ⟨tr', h1, h2⟩ := a2 i hi tr ht
          rw [htask i hi tr ht] at h1
          cases hq : (Observer.mesh s).share src (i, 0) with
          | error e => rw [hq] at h1; cases h1
          | ok q =>
            rw [hq] at h1
            simp only [Except.map, Except.ok.injEq] at h1
            exact ⟨tr, q, ht, rfl, by rw [h1]; exact h2⟩
        have hlt : ∀ i tr, MeshObs.at' g i = .ok tr → i ∈ List.range s.Np := by
          intro i tr ht
          unfold MeshObs.at' at ht
          cases hx : g[i]? with
          | none => rw [hx] at ht; cases ht
          | some x => rw [List.mem_range, ← hlen]; exact (List.getElem?_eq_some_iff.mp hx).1
        refine ⟨⟨h.points, hlen, ?_⟩, ?_, ?_⟩
        · intro i tr' ht'
          obtain ⟨tr, q, b1, b2, b3⟩ := hcell i (hlt i tr' ht')
          simp only at ht'
          rw [ht'] at b3
          injection b3 with b3
          subst b3
          obtain ⟨w, r⟩ := h.traces i tr b1
          exact ⟨adds_wf q w, r⟩
        · simp only [blank]
          congr 1
          have : g.map bare = s.A.map bare := by
            apply List.ext_getElem?
            intro i
            rw [List.getElem?_map, List.getElem?_map]
            cases hx : g[i]? with
            | none =>
              rw [List.getElem?_eq_none_iff] at hx
              rw [List.getElem?_eq_none (by rw [h.cellNum]; omega)]
            | some x =>
              have hat : MeshObs.at' g i = .ok x := by unfold MeshObs.at'; rw [hx]
              obtain ⟨tr, q, b1, b2, b3⟩ := hcell i (hlt i x hat)
              rw [hat] at b3
              injection b3 with b3
              subst b3
              simp only [Option.map_some]
              rw [bare_adds]
              unfold MeshObs.at' at b1
              cases hy : s.A[i]? with
              | none => rw [hy] at b1; cases b1
              | some y => rw [hy] at b1; injection b1 with b1; rw [b1]; rfl
          rw [this]
        · intro c hc
          simp only [cellsOf, List.mem_map] at hc
          obtain ⟨i, hi, rfl⟩ := hc
          obtain ⟨tr, q, b1, b2, b3⟩ := hcell i hi
          refine ⟨q, b2, ?_⟩
          rintro ⟨c', it⟩ hk rfl v hv
          simp only [keys, List.mem_flatMap, List.mem_map, List.mem_range, Prod.mk.injEq] at hk
          obtain ⟨i', hi', it', hit, ⟨⟨rfl, _⟩, rfl⟩⟩ := hk
          obtain ⟨w, n⟩ := h.traces _ _ b1
          have hv : (do let tr ← MeshObs.at' s.A i'; tr.getField it') = .ok v := hv
          rw [b1] at hv
          have hv : tr.getField it' = .ok v := hv
          have hit' : it' < tr.N := by omega
          rw [trace_get w hit'] at hv
          injection hv with hv
          show (do let tr ← MeshObs.at' g i'; tr.getField it') = _
          rw [b3]
          refine (trace_get (adds_wf q w) hit').trans ?_
          rw [vals_adds w q hit', hv]
          rfl
    · intro hall
      obtain ⟨g, hg⟩ := hB (by
        intro i hi tr ht
        obtain ⟨q, hq⟩ := hall (i, 0) (by simp only [cellsOf, List.mem_map]; exact ⟨i, hi, rfl⟩)
        exact ⟨adds q tr, by rw [htask i hi tr ht, hq]; rfl⟩)
      exact ⟨_, by rw [hg]; rfl⟩

theorem get_blank {o : Observer} (h : o.WF) (hz : o.blank = o) {k : Key} (hk : k ∈ o.keys) : o.get k = .ok 0 := by
  obtain ⟨f, hf⟩ := get_ok h hk
  rw [hf]
  congr 1
  cases o with
  | screen s =>
    simp only [blank, screen.injEq] at hz
    have hzT : s.Traces.map (List.map bare) = s.Traces := congrArg Screen.Traces hz
    obtain ⟨g1, g2, g3⟩ := mem_samples.mp hk
    obtain ⟨tr, ht⟩ := gridAt_rect h.rows h.cols g1 g2
    have hb := gridMap_at bare s.Traces k.1.1 k.1.2
    rw [hzT, ht] at hb
    simp only [Except.map, Except.ok.injEq] at hb
    obtain ⟨w, n, _⟩ := h.traces _ _ _ ht
    have hf : Screen.getField s k.1.1 k.1.2 k.2 = .ok f := hf
    unfold Screen.getField at hf
    rw [if_pos ⟨g1, g2, g3⟩, ht] at hf
    have hf : tr.getField k.2 = .ok f := hf
    rw [trace_get w (by omega), hb, vals_bare] at hf
    injection hf with hf
    exact hf.symm
  | snapshot s =>
    simp only [blank, snapshot.injEq] at hz
    have hzT : s.FieldArray.map (List.map (fun _ => (0 : EMField))) = s.FieldArray := congrArg Snapshot.FieldArray hz
    have hc := mem_cells.mp (key_cell hk)
    have hf : Snapshot.getField s k.1.1 k.1.2 = .ok f := hf
    unfold Snapshot.getField at hf
    rw [if_pos hc, ← hzT, gridMap_at] at hf
    obtain ⟨v, hv⟩ := gridAt_rect h.rows h.cols hc.1 hc.2
    rw [hv] at hf
    injection hf with hf
    exact hf.symm
  | point s =>
    simp only [blank, point.injEq] at hz
    have hzT : bare s.trace = s.trace := congrArg PointObs.trace hz
    have hw : s.trace.WF := h
    simp only [keys, List.mem_map, List.mem_range] at hk
    obtain ⟨it, hit, rfl⟩ := hk
    have hf : s.trace.getField it = .ok f := hf
    rw [trace_get hw hit, ← hzT, vals_bare] at hf
    injection hf with hf
    exact hf.symm
  | mesh s =>
    simp only [blank, mesh.injEq] at hz
    have hzT : s.A.map bare = s.A := congrArg MeshObs.A hz
    simp only [keys, List.mem_flatMap, List.mem_map, List.mem_range] at hk
    obtain ⟨i, hi, it, hit, rfl⟩ := hk
    have hi' : i < s.A.length := by rw [h.cellNum]; exact hi
    have hat : MeshObs.at' s.A i = .ok s.A[i] := by unfold MeshObs.at'; rw [List.getElem?_eq_getElem hi']
    obtain ⟨w, n⟩ := h.traces i _ hat
    have hf : (do let tr ← MeshObs.at' s.A i; tr.getField it) = .ok f := hf
    rw [hat] at hf
    have hf : s.A[i].getField it = .ok f := hf
    have hb : bare s.A[i] = s.A[i] := by
      have := congrArg (fun l => l[i]?) hzT
      simp only [List.getElem?_map, List.getElem?_eq_getElem hi', Option.map_some, Option.some.injEq] at this
      exact this
    rw [trace_get w (by omega), ← hb, vals_bare] at hf
    injection hf with hf
    exact hf.symm

theorem startValue_zero (o : Observer) : o.startValue 0 = 0 := by cases o <;> rfl

theorem integrate_spec {o : Observer} (h : o.WF) (hz : o.blank = o) {src : RadSource} (hs : src.Counted) :
    (∀ o', o.integrate src = .ok o' → o'.WF ∧ o'.blank = o ∧ ∀ c ∈ o.cellsOf, ∃ g, o.share src c = .ok g ∧ ∀ k ∈ o.keys, k.1 = c → o'.get k = .ok (g k.2)) ∧
    ((∀ c ∈ o.cellsOf, ∃ g, o.share src c = .ok g) → ∃ o', o.integrate src = .ok o') := by
  obtain ⟨hA, hB⟩ := integrate_gen h hs
  refine ⟨?_, hB⟩
  intro o' ho
  obtain ⟨a1, a2, a3⟩ := hA o' ho
  refine ⟨a1, a2.trans hz, ?_⟩
  intro c hc
  obtain ⟨g, hg, hk⟩ := a3 c hc
  refine ⟨g, hg, ?_⟩
  intro k hk' e
  have := hk k hk' e 0 (get_blank h hz hk')
  rw [startValue_zero, zero_add] at this
  exact this

end Observer
end Teufel
