import Verif.Lemmas.Observers

/-! # Buffers, integration and reduction of observers -/

namespace Teufel
open Vec FieldTrace

theorem mapM_ok_map {α β} (l : List α) (f : α → Except Err β) (g : α → β) (h : ∀ a ∈ l, f a = .ok (g a)) : l.mapM f = .ok (l.map g) := by
  induction l with
  | nil => rfl
  | cons a l ih => rw [List.mapM_cons, h a (by simp), ih (fun b hb => h b (by simp [hb]))]; rfl

theorem mapM_flatten {α β γ} (l : List α) (g : α → List β) (h : β → Except Err γ) (f : α → Except Err (List γ)) (hf : ∀ a ∈ l, f a = (g a).mapM h) :
    (l.mapM f).map List.flatten = (l.flatMap g).mapM h := by
  induction l with
  | nil => rfl
  | cons a l ih =>
    rw [List.mapM_cons, List.flatMap_cons, List.mapM_append, ← ih (fun b hb => hf b (by simp [hb])), hf a (by simp)]
    cases (g a).mapM h with
    | error e => rfl
    | ok x =>
      simp only [bind, Except.bind]
      cases l.mapM f <;> rfl

theorem foldlM_sim {α β γ : Type} (φ : α → β) (f : α → γ → Except Err α) (g : β → γ → Except Err β) (l : List γ)
    (h : ∀ a c, (f a c).map φ = g (φ a) c) (a : α) : (l.foldlM f a).map φ = l.foldlM g (φ a) := by
  induction l generalizing a with
  | nil => rfl
  | cons c l ih =>
    rw [List.foldlM_cons, List.foldlM_cons, ← h a c]
    cases f a c with
    | error e => rfl
    | ok b => exact ih b

theorem comps_length (fs : List EMField) : (fs.flatMap EMField.comps).length = 6 * fs.length := by
  induction fs with
  | nil => rfl
  | cons f fs ih => rw [List.flatMap_cons, List.length_append, ih]; simp [EMField.comps]; omega

theorem fill_exact (n : Nat) (vs : List ℝ) (h : vs.length = n) : fillBuffer n vs = .ok vs := by
  unfold fillBuffer intoBuffer
  rw [if_pos (by omega), h, Nat.sub_self]
  simp

theorem fill_over (n : Nat) (vs : List ℝ) (h : n < vs.length) : fillBuffer n vs = .error .ub := by
  unfold fillBuffer intoBuffer
  rw [if_neg (by omega)]

theorem read_comps (f : EMField) (rest : List ℝ) : readField (f.comps ++ rest) = .ok (f, rest) := rfl

namespace Observer

theorem keys_blank (o : Observer) : o.blank.keys = o.keys := by cases o <;> rfl

theorem keys_of_blank {o o' : Observer} (h : o.blank = o'.blank) : o.keys = o'.keys := by rw [← keys_blank o, h, keys_blank]

theorem ext' {o o' : Observer} (h : o.WF) (h' : o'.WF) (hb : o.blank = o'.blank) (hg : ∀ k ∈ o.keys, o.get k = o'.get k) : o = o' := by
  cases o with
  | screen s =>
    cases o' with
    | screen s' =>
      simp only [blank, screen.injEq] at hb
      have e1 := congrArg Screen.Traces hb
      have eN := congrArg Screen.NOTS hb
      have ex := congrArg Screen.Nx hb
      have ey := congrArg Screen.Ny hb
      simp only at e1 eN ex ey
      have hT : s.Traces = s'.Traces := by
        apply (gridStore FieldTrace).ext
        · have := congrArg (List.map List.length) e1
          simp only [List.map_map] at this
          have hc : (List.length ∘ List.map bare) = List.length := by funext l; simp
          rw [hc] at this
          exact this
        · rintro ⟨i, j⟩
          simp only [gridStore]
          have hm := gridMap_at bare s.Traces i j
          rw [e1, gridMap_at] at hm
          cases h1 : gridAt s.Traces i j with
          | error e =>
            rw [h1] at hm
            cases h2 : gridAt s'.Traces i j with
            | error e' => rw [h2] at hm; simp only [Except.map] at hm; injection hm with hm; rw [hm]
            | ok tr => rw [h2] at hm; cases hm
          | ok tr =>
            rw [h1] at hm
            cases h2 : gridAt s'.Traces i j with
            | error e' => rw [h2] at hm; cases hm
            | ok tr' =>
              rw [h2] at hm
              simp only [Except.map] at hm
              injection hm with hm
              congr 1
              obtain ⟨w, n, _⟩ := h.traces i j tr h1
              obtain ⟨w', n', _⟩ := h'.traces i j tr' h2
              obtain ⟨li, lj⟩ := gridAt_lt h.rows h.cols h1
              refine trace_ext w w' hm.symm ?_
              intro it hit
              have := hg ((i, j), it) (mem_samples.mpr ⟨li, lj, by simp only; omega⟩)
              have a1 : Screen.getField s i j it = .ok (vals tr it) := by
                unfold Screen.getField
                rw [if_pos ⟨li, lj, by omega⟩, h1]
                exact trace_get w hit
              have a2 : Screen.getField s' i j it = .ok (vals tr' it) := by
                unfold Screen.getField
                rw [if_pos ⟨by omega, by omega, by omega⟩, h2]
                exact trace_get w' (by omega)
              have : Screen.getField s i j it = Screen.getField s' i j it := this
              rw [a1, a2] at this
              injection this
      cases s
      cases s'
      simp only at hT
      simp only [Screen.mk.injEq] at hb ⊢
      subst hT
      simp_all
    | snapshot s' => cases hb
    | point s' => cases hb
    | mesh s' => cases hb
  | snapshot s =>
    cases o' with
    | snapshot s' =>
      simp only [blank, snapshot.injEq] at hb
      have e1 := congrArg Snapshot.FieldArray hb
      have ex := congrArg Snapshot.Nx hb
      have ey := congrArg Snapshot.Ny hb
      simp only at e1 ex ey
      have hT : s.FieldArray = s'.FieldArray := by
        apply (gridStore EMField).ext
        · have := congrArg (List.map List.length) e1
          simp only [List.map_map] at this
          have hc : (List.length ∘ List.map (fun _ : EMField => (0 : EMField))) = List.length := by funext l; simp
          rw [hc] at this
          exact this
        · rintro ⟨i, j⟩
          simp only [gridStore]
          by_cases hij : i < s.Nx ∧ j < s.Ny
          · have := hg ((i, j), 0) (by simp only [keys, List.mem_map]; exact ⟨(i, j), mem_cells.mpr hij, rfl⟩)
            have : Snapshot.getField s i j = Snapshot.getField s' i j := this
            unfold Snapshot.getField at this
            rwa [if_pos hij, if_pos ⟨by omega, by omega⟩] at this
          · have hn : ∀ (s : Snapshot), s.WF → ¬ (i < s.Nx ∧ j < s.Ny) → gridAt s.FieldArray i j = .error .ub := by
              intro s hs hij
              cases hgr : gridAt s.FieldArray i j with
              | ok x => exact absurd (gridAt_lt hs.rows hs.cols hgr) hij
              | error e =>
                unfold gridAt at hgr
                split at hgr
                · injection hgr with hgr; rw [hgr]
                · split at hgr
                  · injection hgr with hgr; rw [hgr]
                  · cases hgr
            rw [hn s h hij, hn s' h' (by rw [← ex, ← ey]; exact hij)]
      cases s
      cases s'
      simp only at hT
      simp only [Snapshot.mk.injEq] at hb ⊢
      subst hT
      simp_all
    | screen s' => cases hb
    | point s' => cases hb
    | mesh s' => cases hb
  | point s =>
    cases o' with
    | point s' =>
      simp only [blank, point.injEq] at hb
      have e1 := congrArg PointObs.trace hb
      have ex := congrArg PointObs.Pos hb
      simp only at e1 ex
      have hw : s.trace.WF := h
      have hw' : s'.trace.WF := h'
      have hN := (bare_eq e1).2.2
      have hT : s.trace = s'.trace := by
        refine trace_ext hw hw' e1 ?_
        intro it hit
        have := hg ((0, 0), it) (by simp only [keys, List.mem_map, List.mem_range]; exact ⟨it, hit, rfl⟩)
        have : s.trace.getField it = s'.trace.getField it := this
        rw [trace_get hw hit, trace_get hw' (by omega)] at this
        injection this
      cases s
      cases s'
      simp only at hT ex
      rw [hT, ex]
    | screen s' => cases hb
    | snapshot s' => cases hb
    | mesh s' => cases hb
  | mesh s =>
    cases o' with
    | mesh s' =>
      simp only [blank, mesh.injEq] at hb
      have e1 := congrArg MeshObs.A hb
      have ex := congrArg MeshObs.Np hb
      have et := congrArg MeshObs.Nt hb
      have ep := congrArg MeshObs.points hb
      simp only at e1 ex et ep
      have hT : s.A = s'.A := by
        apply List.ext_getElem?
        intro i
        have hm := congrArg (fun l => l[i]?) e1
        simp only [List.getElem?_map] at hm
        cases h1 : s.A[i]? with
        | none =>
          rw [h1] at hm
          cases h2 : s'.A[i]? with
          | none => rfl
          | some x => rw [h2] at hm; cases hm
        | some tr =>
          rw [h1] at hm
          cases h2 : s'.A[i]? with
          | none => rw [h2] at hm; cases hm
          | some tr' =>
            rw [h2] at hm
            simp only [Option.map_some, Option.some.injEq] at hm
            have q1 : MeshObs.at' s.A i = .ok tr := by unfold MeshObs.at'; rw [h1]
            have q2 : MeshObs.at' s'.A i = .ok tr' := by unfold MeshObs.at'; rw [h2]
            obtain ⟨w, n⟩ := h.traces i tr q1
            obtain ⟨w', n'⟩ := h'.traces i tr' q2
            have li := (List.getElem?_eq_some_iff.mp h1).1
            rw [h.cellNum] at li
            congr 1
            refine trace_ext w w' hm ?_
            intro it hit
            have := hg ((i, 0), it) (by
              simp only [keys, List.mem_flatMap, List.mem_map, List.mem_range]
              exact ⟨i, li, it, by omega, rfl⟩)
            have : (do let tr ← MeshObs.at' s.A i; tr.getField it) = (do let tr ← MeshObs.at' s'.A i; tr.getField it) := this
            rw [q1, q2] at this
            have : tr.getField it = tr'.getField it := this
            rw [trace_get w hit, trace_get w' (by omega)] at this
            injection this
      cases s
      cases s'
      simp only at hT ex et ep
      rw [hT, ex, et, ep]
    | screen s' => cases hb
    | snapshot s' => cases hb
    | point s' => cases hb

end Observer

theorem cells_length (nx ny : Nat) : (cells nx ny).length = nx * ny := by
  unfold cells
  simp [List.length_flatMap]

theorem samples_length (s : Screen) : s.samples.length = s.Nx * s.Ny * s.NOTS := by
  unfold Screen.samples
  rw [List.length_flatMap]
  simp [cells_length]

namespace Observer

theorem mesh_keys_length (s : MeshObs) : (Observer.mesh s).keys.length = s.Np * s.Nt := by
  simp [keys, List.length_flatMap]

theorem mapM_get_eq {o : Observer} (g : Key → EMField) (hg : ∀ k ∈ o.keys, o.get k = .ok (g k)) : o.keys.mapM o.get = .ok (o.keys.map g) :=
  mapM_ok_map _ _ _ hg

theorem getBuffer_fits {o : Observer} (h : o.WF) (hf : o.Fits) (g : Key → EMField) (hg : ∀ k ∈ o.keys, o.get k = .ok (g k)) :
    o.getBufferSize = .ok (6 * o.keys.length) ∧ o.getBuffer = .ok ((o.keys.map g).flatMap EMField.comps) := by
  have hm := mapM_get_eq g hg
  cases o with
  | screen s =>
    have hf' : 6 * s.samples.length < 2 ^ 32 := by rw [samples_length]; exact hf
    have hs : s.getBufferSize = 6 * s.samples.length := by
      unfold Screen.getBufferSize
      have : s.Nx * s.Ny * s.NOTS * 6 = 6 * s.samples.length := by rw [samples_length]; ring
      rw [this]
      exact Nat.mod_eq_of_lt hf'
    refine ⟨congrArg Except.ok hs, ?_⟩
    show s.getBuffer = _
    unfold Screen.getBuffer
    have hm : s.samples.mapM (fun i => s.getField i.1.1 i.1.2 i.2) = .ok (s.samples.map g) := hm
    rw [hm]
    exact fill_exact _ _ (by rw [comps_length, List.length_map, hs])
  | snapshot s =>
    have hf' : 6 * (cells s.Nx s.Ny).length < 2 ^ 32 := by rw [cells_length]; exact hf
    have hs : s.getBufferSize = 6 * (cells s.Nx s.Ny).length := by
      unfold Snapshot.getBufferSize
      have : s.Nx * s.Ny * 6 = 6 * (cells s.Nx s.Ny).length := by rw [cells_length]; ring
      rw [this]
      exact Nat.mod_eq_of_lt hf'
    refine ⟨?_, ?_⟩
    · show Except.ok s.getBufferSize = _
      rw [hs]
      simp [keys]
    · show s.getBuffer = _
      unfold Snapshot.getBuffer
      have hm : ((cells s.Nx s.Ny).map (fun c => (c, 0))).mapM (fun k : Key => s.getField k.1.1 k.1.2) = .ok (((cells s.Nx s.Ny).map (fun c => (c, 0))).map g) := hm
      rw [mapM_map'] at hm
      simp only at hm
      rw [hm]
      exact fill_exact _ _ (by rw [comps_length, List.length_map, List.length_map, hs])
  | point s =>
    refine ⟨?_, ?_⟩
    · show Except.ok s.getBufferSize = _
      simp [keys, PointObs.getBufferSize]
    · show s.getBuffer = _
      unfold PointObs.getBuffer FieldTrace.getBuffer
      have hm : ((List.range s.trace.N).map (fun it : Nat => (((0, 0), it) : Key))).mapM (fun k : Key => s.trace.getField k.2) = .ok (((List.range s.trace.N).map (fun it : Nat => (((0, 0), it) : Key))).map g) := hm
      rw [mapM_map'] at hm
      simp only [ne_eq, not_true_eq_false, if_false]
      have hm' : (List.range s.trace.N).mapM s.trace.getField = .ok (((List.range s.trace.N).map (fun it : Nat => (((0, 0), it) : Key))).map g) := hm
      rw [hm']
      exact fill_exact _ _ (by rw [comps_length, List.length_map, List.length_map, List.length_range])
  | mesh s =>
    have hs : s.getBufferSize = .ok (6 * (s.Np * s.Nt)) := by
      unfold MeshObs.getBufferSize
      have : s.Np * s.Nt * 6 = 6 * (s.Np * s.Nt) := by ring
      rw [this, if_pos (show 6 * (s.Np * s.Nt) < 2 ^ 31 from hf)]
    refine ⟨?_, ?_⟩
    · show s.getBufferSize = _
      rw [hs, mesh_keys_length]
    · show s.getBuffer = _
      unfold MeshObs.getBuffer
      rw [hs]
      simp only [bind, Except.bind]
      have hfl := mapM_flatten (List.range s.Np) (fun i : Nat => (List.range s.Nt).map (fun it : Nat => (((i, 0), it) : Key))) (Observer.mesh s).get s.cellFields (by
        intro i hi
        rw [List.mem_range] at hi
        have hi' : i < s.A.length := by rw [h.cellNum]; exact hi
        have hat : MeshObs.at' s.A i = .ok s.A[i] := by unfold MeshObs.at'; rw [List.getElem?_eq_getElem hi']
        obtain ⟨_, hn⟩ := h.traces i _ hat
        unfold MeshObs.cellFields
        rw [hat]
        simp only [bind, Except.bind]
        rw [hn, mapM_map']
        congr 1
        funext it
        show _ = (do let tr ← MeshObs.at' s.A i; tr.getField it)
        rw [hat]
        rfl)
      have hm : ((List.range s.Np).flatMap (fun i : Nat => (List.range s.Nt).map (fun it : Nat => (((i, 0), it) : Key)))).mapM (Observer.mesh s).get = .ok ((Observer.mesh s).keys.map g) := hm
      rw [hm] at hfl
      cases hx : (List.range s.Np).mapM s.cellFields with
      | error e => rw [hx] at hfl; cases hfl
      | ok fs =>
        rw [hx] at hfl
        simp only [Except.map] at hfl
        injection hfl with hfl
        simp only
        rw [hfl]
        exact fill_exact _ _ (by rw [comps_length, List.length_map, mesh_keys_length])

theorem getBuffer_overflow {o : Observer} (h : o.WF) (hf : ¬ o.Fits) : o.getBuffer = .error .ub := by
  have hm : ∃ fs, o.keys.mapM o.get = .ok fs ∧ fs.length = o.keys.length := by
    refine ⟨_, mapM_ok_map o.keys o.get (fun k => match o.get k with | .ok f => f | .error _ => 0) ?_, by simp⟩
    intro k hk
    obtain ⟨f, hf⟩ := get_ok h hk
    rw [hf]
  obtain ⟨fs, hm, hl⟩ := hm
  cases o with
  | screen s =>
    have hf' : ¬ 6 * s.samples.length < 2 ^ 32 := by rw [samples_length]; exact hf
    have hlt : s.getBufferSize < (fs.flatMap EMField.comps).length := by
      unfold Screen.getBufferSize
      have : s.Nx * s.Ny * s.NOTS * 6 = 6 * s.samples.length := by rw [samples_length]; ring
      rw [this, comps_length, hl]
      refine lt_of_lt_of_le (Nat.mod_lt _ (by norm_num)) ?_
      exact not_lt.mp hf'
    show s.getBuffer = _
    unfold Screen.getBuffer
    have hm : s.samples.mapM (fun i => s.getField i.1.1 i.1.2 i.2) = .ok fs := hm
    rw [hm]
    exact fill_over _ _ hlt
  | snapshot s =>
    have hf' : ¬ 6 * (cells s.Nx s.Ny).length < 2 ^ 32 := by rw [cells_length]; exact hf
    have hlt : s.getBufferSize < (fs.flatMap EMField.comps).length := by
      unfold Snapshot.getBufferSize
      have : s.Nx * s.Ny * 6 = 6 * (cells s.Nx s.Ny).length := by rw [cells_length]; ring
      have hl' : fs.length = (cells s.Nx s.Ny).length := by rw [hl]; simp [keys]
      rw [this, comps_length, hl']
      refine lt_of_lt_of_le (Nat.mod_lt _ (by norm_num)) ?_
      exact not_lt.mp hf'
    show s.getBuffer = _
    unfold Snapshot.getBuffer
    have hm : ((cells s.Nx s.Ny).map (fun c => (c, 0))).mapM (fun k : Key => s.getField k.1.1 k.1.2) = .ok fs := hm
    rw [mapM_map'] at hm
    simp only at hm
    rw [hm]
    exact fill_over _ _ hlt
  | point s => exact absurd trivial hf
  | mesh s =>
    show s.getBuffer = _
    unfold MeshObs.getBuffer MeshObs.getBufferSize
    have : s.Np * s.Nt * 6 = 6 * (s.Np * s.Nt) := by ring
    rw [this, if_neg (show ¬ 6 * (s.Np * s.Nt) < 2 ^ 31 from hf)]
    rfl

/-- reading of one sample -/
def readKey (ob : Observer × List ℝ) (k : Key) : Except Err (Observer × List ℝ) := do
  let fr ← readField ob.2
  let o ← ob.1.put k fr.1
  return (o, fr.2)

theorem fold_read (g : Key → EMField) (rest : List ℝ) (ks : List Key) (hnd : ks.Nodup) : ∀ (o : Observer), o.WF → (∀ k ∈ ks, k ∈ o.keys) →
    ∃ o', ks.foldlM readKey (o, (ks.map g).flatMap EMField.comps ++ rest) = .ok (o', rest) ∧ o'.WF ∧ o'.blank = o.blank ∧
      (∀ k ∈ ks, o'.get k = .ok (g k)) ∧ ∀ k ∈ o.keys, k ∉ ks → o'.get k = o.get k := by
  induction ks with
  | nil => intro o h _; exact ⟨o, rfl, h, rfl, by simp, fun _ _ _ => rfl⟩
  | cons k ks ih =>
    intro o h hsub
    rw [List.nodup_cons] at hnd
    obtain ⟨o1, p1, p2, p3, p4, p5, p6⟩ := put_ok h (hsub k (by simp)) (g k)
    obtain ⟨o', q1, q2, q3, q4, q5⟩ := ih hnd.2 o1 p2 (by intro k' hk'; rw [p3]; exact hsub k' (by simp [hk']))
    refine ⟨o', ?_, q2, q3.trans p4, ?_, ?_⟩
    · rw [List.foldlM_cons, List.map_cons, List.flatMap_cons, List.append_assoc]
      simp only [readKey, bind, Except.bind, read_comps, p1, pure, Except.pure]
      exact q1
    · intro k' hk'
      rw [List.mem_cons] at hk'
      rcases hk' with rfl | hk'
      · rw [q5 k' (by rw [p3]; exact hsub k' (by simp)) hnd.1, p5]
      · exact q4 k' hk'
    · intro k' hk' hn
      rw [List.mem_cons, not_or] at hn
      rw [q5 k' (by rw [p3]; exact hk') hn.2, p6 k' hk' hn.1]

theorem mesh_inner (its : List Nat) (s : MeshObs) (i : Nat) (tr : FieldTrace) (buf : List ℝ) (hat : MeshObs.at' s.A i = .ok tr) :
    (its.map (fun it : Nat => (((i, 0), it) : Key))).foldlM readKey (.mesh s, buf)
      = (its.foldlM PointObs.readSample (tr, buf)).map (fun r => (.mesh { s with A := s.A.set i r.1 }, r.2)) := by
  induction its generalizing s tr buf with
  | nil =>
    have : s.A.set i tr = s.A := by
      apply (vecStore FieldTrace).ext
      · exact (vecStore FieldTrace).shape_put s.A i tr
      · intro j
        by_cases hj : j = i
        · subst hj
          exact ((vecStore FieldTrace).get_put s.A j tr tr hat).trans hat.symm
        · exact (vecStore FieldTrace).get_other s.A i j tr hj
    simp [Except.map, pure, Except.pure, this]
  | cons it its ih =>
    rw [List.map_cons, List.foldlM_cons, List.foldlM_cons]
    simp only [readKey, PointObs.readSample, bind, Except.bind, pure, Except.pure]
    cases hr : readField buf with
    | error e => rfl
    | ok fr =>
      simp only [put, bind, Except.bind, hat]
      cases hs : tr.setField it fr.1 with
      | error e => rfl
      | ok tr' =>
        simp only [pure, Except.pure]
        refine (ih { s with A := s.A.set i tr' } tr' fr.2 ((vecStore FieldTrace).get_put s.A i tr' tr hat)).trans ?_
        simp only [List.set_set]

theorem setField_N {tr tr' : FieldTrace} {i : Nat} {f : EMField} (h : tr.setField i f = .ok tr') : tr'.N = tr.N := by
  unfold FieldTrace.setField at h
  split at h
  · cases h
  · split at h
    · injection h with h; rw [← h]
    · cases h

theorem readSample_N (its : List Nat) {tr : FieldTrace} {buf : List ℝ} {r : FieldTrace × List ℝ} (h : its.foldlM PointObs.readSample (tr, buf) = .ok r) :
    r.1.N = tr.N := by
  induction its generalizing tr buf with
  | nil => simp only [List.foldlM_nil, pure, Except.pure] at h; injection h with h; rw [← h]
  | cons it its ih =>
    rw [List.foldlM_cons] at h
    simp only [PointObs.readSample, bind, Except.bind, pure, Except.pure] at h
    cases hr : readField buf with
    | error e => rw [hr] at h; cases h
    | ok fr =>
      rw [hr] at h
      simp only at h
      cases hs : tr.setField it fr.1 with
      | error e => rw [hs] at h; cases h
      | ok tr' =>
        rw [hs] at h
        rw [ih h, setField_N hs]

theorem mesh_outer (is : List Nat) (s : MeshObs) (buf : List ℝ) (hA : ∀ i ∈ is, ∃ tr, MeshObs.at' s.A i = .ok tr ∧ tr.N = s.Nt) :
    (is.flatMap (fun i : Nat => (List.range s.Nt).map (fun it : Nat => (((i, 0), it) : Key)))).foldlM readKey (.mesh s, buf)
      = (is.foldlM MeshObs.readCell (s.A, buf)).map (fun r => (.mesh { s with A := r.1 }, r.2)) := by
  induction is generalizing s buf with
  | nil => rfl
  | cons i is ih =>
    obtain ⟨tr, hat, hN⟩ := hA i (by simp)
    rw [List.flatMap_cons, List.foldlM_append, mesh_inner _ s i tr buf hat, List.foldlM_cons]
    simp only [MeshObs.readCell, bind, Except.bind, pure, Except.pure, hat, hN]
    cases hr : (List.range s.Nt).foldlM PointObs.readSample (tr, buf) with
    | error e => rfl
    | ok r =>
      simp only [Except.map]
      refine (ih { s with A := s.A.set i r.1 } r.2 ?_).trans ?_
      · intro j hj
        by_cases hji : j = i
        · subst hji
          exact ⟨r.1, (vecStore FieldTrace).get_put s.A j r.1 tr hat, (readSample_N _ hr).trans hN⟩
        · obtain ⟨t, h1, h2⟩ := hA j (by simp [hj])
          exact ⟨t, ((vecStore FieldTrace).get_other s.A i j r.1 hji).trans h1, h2⟩
      · rfl

theorem fromBuffer_fits {o : Observer} (h : o.WF) (hf : o.Fits) (g : Key → EMField) :
    ∃ o', o.fromBuffer ((o.keys.map g).flatMap EMField.comps) (6 * o.keys.length) = .ok o' ∧ o'.WF ∧ o'.blank = o.blank ∧
      ∀ k ∈ o.keys, o'.get k = .ok (g k) := by
  obtain ⟨o', h1, h2, h3, h4, _⟩ := fold_read g [] o.keys o.keys_nodup o h (fun k hk => hk)
  rw [List.append_nil] at h1
  refine ⟨o', ?_, h2, h3, h4⟩
  cases o with
  | screen s =>
    have hf' : 6 * s.samples.length < 2 ^ 32 := by rw [samples_length]; exact hf
    have hs : 6 * s.samples.length = (s.Nx * s.Ny * s.NOTS * 6) % 2 ^ 32 := by
      have : s.Nx * s.Ny * s.NOTS * 6 = 6 * s.samples.length := by rw [samples_length]; ring
      rw [this]
      exact (Nat.mod_eq_of_lt hf').symm
    show (s.fromBuffer ((s.samples.map g).flatMap EMField.comps) (6 * s.samples.length)).map Observer.screen = _
    unfold Screen.fromBuffer
    rw [if_pos hs]
    have := foldlM_sim (fun sb : Screen × List ℝ => (Observer.screen sb.1, sb.2)) Screen.readSample readKey s.samples (by
      rintro ⟨s, b⟩ k
      simp only [Screen.readSample, readKey, bind, Except.bind, pure, Except.pure]
      cases readField b with
      | error e => rfl
      | ok fr =>
        simp only [put]
        cases s.setField k.1.1 k.1.2 k.2 fr.1 <;> rfl) (s, (s.samples.map g).flatMap EMField.comps)
    rw [show s.samples.foldlM readKey (Observer.screen s, (s.samples.map g).flatMap EMField.comps) = .ok (o', []) from h1] at this
    cases hx : s.samples.foldlM Screen.readSample (s, (s.samples.map g).flatMap EMField.comps) with
    | error e => rw [hx] at this; cases this
    | ok r =>
      rw [hx] at this
      simp only [Except.map, Except.ok.injEq, Prod.mk.injEq] at this
      simp only [Except.map]
      rw [this.1]
  | snapshot s =>
    have hf' : 6 * (cells s.Nx s.Ny).length < 2 ^ 32 := by rw [cells_length]; exact hf
    have hl : 6 * (Observer.snapshot s).keys.length = (s.Nx * s.Ny * 6) % 2 ^ 32 := by
      have : s.Nx * s.Ny * 6 = 6 * (cells s.Nx s.Ny).length := by rw [cells_length]; ring
      rw [this]
      simp only [keys, List.length_map]
      exact (Nat.mod_eq_of_lt hf').symm
    show (s.fromBuffer ((((Observer.snapshot s).keys).map g).flatMap EMField.comps) (6 * (Observer.snapshot s).keys.length)).map Observer.snapshot = _
    unfold Snapshot.fromBuffer
    rw [if_pos hl]
    generalize hbuf : (((Observer.snapshot s).keys).map g).flatMap EMField.comps = buf at h1
    have := foldlM_sim (fun sb : Snapshot × List ℝ => (Observer.snapshot sb.1, sb.2)) Snapshot.readSample
      (fun ob (c : Nat × Nat) => readKey ob (c, 0)) (cells s.Nx s.Ny) (by
      rintro ⟨s, b⟩ k
      simp only [Snapshot.readSample, readKey, bind, Except.bind, pure, Except.pure]
      cases readField b with
      | error e => rfl
      | ok fr =>
        simp only [put]
        cases s.setField k.1 k.2 fr.1 <;> rfl) (s, buf)
    have h1 : ((cells s.Nx s.Ny).map (fun c => ((c, 0) : Key))).foldlM readKey (Observer.snapshot s, buf) = .ok (o', []) := h1
    rw [List.foldlM_map] at h1
    simp only at this
    rw [h1] at this
    cases hx : (cells s.Nx s.Ny).foldlM Snapshot.readSample (s, buf) with
    | error e => rw [hx] at this; cases this
    | ok r =>
      rw [hx] at this
      simp only [Except.map, Except.ok.injEq, Prod.mk.injEq] at this
      simp only [Except.map]
      rw [this.1]
  | point s =>
    have hl : 6 * (Observer.point s).keys.length = 6 * s.trace.N := by simp [keys]
    show (s.fromBuffer ((((Observer.point s).keys).map g).flatMap EMField.comps) (6 * (Observer.point s).keys.length)).map Observer.point = _
    unfold PointObs.fromBuffer
    rw [if_pos hl]
    generalize hbuf : (((Observer.point s).keys).map g).flatMap EMField.comps = buf at h1
    have := foldlM_sim (fun sb : FieldTrace × List ℝ => (Observer.point { s with trace := sb.1 }, sb.2)) PointObs.readSample
      (fun ob (it : Nat) => readKey ob ((0, 0), it)) (List.range s.trace.N) (by
      rintro ⟨tr, b⟩ k
      simp only [PointObs.readSample, readKey, bind, Except.bind, pure, Except.pure]
      cases readField b with
      | error e => rfl
      | ok fr =>
        simp only [put]
        cases tr.setField k fr.1 <;> rfl) (s.trace, buf)
    have h1 : ((List.range s.trace.N).map (fun it : Nat => (((0, 0), it) : Key))).foldlM readKey (Observer.point s, buf) = .ok (o', []) := h1
    rw [List.foldlM_map] at h1
    simp only at this
    have e : Observer.point { s with trace := s.trace } = Observer.point s := rfl
    rw [show (Observer.point { Pos := s.Pos, trace := s.trace }, buf) = (Observer.point s, buf) from rfl, h1] at this
    cases hx : (List.range s.trace.N).foldlM PointObs.readSample (s.trace, buf) with
    | error e => rw [hx] at this; cases this
    | ok r =>
      rw [hx] at this
      simp only [Except.map, Except.ok.injEq, Prod.mk.injEq] at this
      simp only [Except.map]
      rw [this.1]
  | mesh s =>
    have hs : s.getBufferSize = .ok (6 * (s.Np * s.Nt)) := by
      unfold MeshObs.getBufferSize
      have : s.Np * s.Nt * 6 = 6 * (s.Np * s.Nt) := by ring
      rw [this, if_pos (show 6 * (s.Np * s.Nt) < 2 ^ 31 from hf)]
    show (s.fromBuffer ((((Observer.mesh s).keys).map g).flatMap EMField.comps) (6 * (Observer.mesh s).keys.length)).map Observer.mesh = _
    unfold MeshObs.fromBuffer
    rw [hs]
    simp only [bind, Except.bind]
    rw [if_pos (by rw [mesh_keys_length])]
    generalize hbuf : (((Observer.mesh s).keys).map g).flatMap EMField.comps = buf at h1
    have := mesh_outer (List.range s.Np) s buf (by
      intro i hi
      rw [List.mem_range] at hi
      have hi' : i < s.A.length := by rw [h.cellNum]; exact hi
      have hat : MeshObs.at' s.A i = .ok s.A[i] := by unfold MeshObs.at'; rw [List.getElem?_eq_getElem hi']
      exact ⟨_, hat, (h.traces i _ hat).2⟩)
    rw [show ((List.range s.Np).flatMap (fun i : Nat => (List.range s.Nt).map (fun it : Nat => (((i, 0), it) : Key)))).foldlM readKey (Observer.mesh s, buf) = .ok (o', []) from h1] at this
    cases hx : (List.range s.Np).foldlM MeshObs.readCell (s.A, buf) with
    | error e => rw [hx] at this; cases this
    | ok r =>
      rw [hx] at this
      simp only [Except.map, Except.ok.injEq, Prod.mk.injEq] at this
      simp only [Except.map]
      rw [this.1]

end Observer
end Teufel
