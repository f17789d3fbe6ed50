import Verif.Lemmas.Observers
import Verif.Props.Observation

/-! # C40: the recorded fields do not depend on the execution of the parallel loops -/

namespace Teufel
open FieldTrace

theorem Interleave.cons {α : Type} {l1 l2 : List (List α)} {a : α} {r evs} (h : Interleave (l1 ++ r :: l2) evs) : Interleave (l1 ++ (a :: r) :: l2) (a :: evs) := by
  refine Interleave.step (i := l1.length) (rest := r) (by simp) ?_
  rw [List.set_append_right _ _ le_rfl]
  simpa using h

theorem Interleave.perm {α : Type} {ls ls' : List (List α)} {evs : List α} (h : Interleave ls evs) (hp : ls.Perm ls') : Interleave ls' evs := by
  induction h generalizing ls' with
  | done h => exact .done (fun l hl => h l (hp.mem_iff.mpr hl))
  | @step ls i a rest evs h h' ih =>
    have hi := (List.getElem?_eq_some_iff.mp h).1
    have hx := (List.getElem?_eq_some_iff.mp h).2
    have e1 : ls = ls.take i ++ (a :: rest) :: ls.drop (i + 1) := by
      conv_lhs => rw [← List.take_append_drop i ls, List.drop_eq_getElem_cons hi, hx]
    have e2 : ls.set i rest = ls.take i ++ rest :: ls.drop (i + 1) := by
      rw [List.set_eq_take_append_cons_drop, if_pos hi]
    have hm : (a :: rest) ∈ ls' := hp.mem_iff.mp (List.mem_of_getElem? h)
    obtain ⟨m1, m2, rfl⟩ := List.append_of_mem hm
    apply Interleave.cons
    apply ih
    rw [e2]
    rw [e1] at hp
    have h1 : (ls.take i ++ ls.drop (i + 1)).Perm (m1 ++ m2) := by
      have := (List.perm_middle.symm.trans hp).trans List.perm_middle
      exact this.cons_inv
    exact List.perm_middle.trans ((h1.cons rest).trans List.perm_middle.symm)

theorem first_nonempty {α : Type} : ∀ (its : List (List α)) (a : α) (rest : List α), its.flatten = a :: rest →
    ∃ l1 r l2, its = l1 ++ (a :: r) :: l2 ∧ (l1 ++ r :: l2).flatten = rest := by
  intro its
  induction its with
  | nil => intro a rest h; simp at h
  | cons l its ih =>
    intro a rest h
    cases l with
    | nil =>
      obtain ⟨l1, r, l2, h1, h2⟩ := ih a rest (by simpa using h)
      exact ⟨[] :: l1, r, l2, by rw [h1]; rfl, by simpa using h2⟩
    | cons b l =>
      simp only [List.flatten_cons, List.cons_append, List.cons.injEq] at h
      exact ⟨[], l, its, by rw [h.1]; rfl, by simpa using h.2⟩

/-- every interleaving of threads, each of which executes a number of iterations one after the other, is an
interleaving of the iterations -/
theorem Interleave.threads {α : Type} {ls : List (List α)} {evs : List α} (h : Interleave ls evs) :
    ∀ (lss : List (List (List α))), ls = lss.map List.flatten → Interleave lss.flatten evs := by
  induction h with
  | done h =>
    intro lss e
    subst e
    refine .done ?_
    intro l hl
    obtain ⟨its, hi, hl⟩ := List.mem_flatten.mp hl
    have := h its.flatten (List.mem_map_of_mem hi)
    rw [List.flatten_eq_nil_iff] at this
    exact this l hl
  | @step ls i a rest evs h h' ih =>
    intro lss e
    subst e
    rw [List.getElem?_map, Option.map_eq_some_iff] at h
    obtain ⟨its, hi, hf⟩ := h
    have hlt := (List.getElem?_eq_some_iff.mp hi).1
    have hx := (List.getElem?_eq_some_iff.mp hi).2
    obtain ⟨l1, r, l2, h1, h2⟩ := first_nonempty its a rest hf
    have := ih (lss.set i (l1 ++ r :: l2)) (by rw [List.map_set, h2])
    have e1 : lss = lss.take i ++ its :: lss.drop (i + 1) := by
      conv_lhs => rw [← List.take_append_drop i lss, List.drop_eq_getElem_cons hlt, hx]
    rw [List.set_eq_take_append_cons_drop, if_pos hlt] at this
    rw [e1, h1]
    simp only [List.flatten_append, List.flatten_cons] at this ⊢
    have e2 : (lss.take i).flatten ++ (l1 ++ (a :: r) :: l2 ++ (lss.drop (i + 1)).flatten) = ((lss.take i).flatten ++ l1) ++ (a :: r) :: (l2 ++ (lss.drop (i + 1)).flatten) := by simp
    have e3 : (lss.take i).flatten ++ (l1 ++ r :: l2 ++ (lss.drop (i + 1)).flatten) = ((lss.take i).flatten ++ l1) ++ r :: (l2 ++ (lss.drop (i + 1)).flatten) := by simp
    rw [e2]
    rw [e3] at this
    exact this.cons

theorem threads_cells {κ α : Type} {threads : List (List κ)} {ks : List κ} (hp : threads.flatten.Perm ks) (it : κ → List α) {evs : List α}
    (h : Interleave (threads.map (fun t => t.flatMap it)) evs) : Interleave (ks.map it) evs := by
  have h1 := h.threads (threads.map (fun t => t.map it)) (by rw [List.map_map]; rfl)
  refine h1.perm ?_
  rw [← List.map_flatten]
  exact hp.map it

/-- C40: a screen is integrated by any number of threads.  `threads` says which cells each thread works on, in which
order; every cell is worked on once.  The work on one cell may be cut into any parts (`work`).  For all interleavings
of the threads the recorded traces are those of the sequential loop, the counter ends with the number of cells, and
an exception occurs exactly if one occurs in the sequential loop. -/
theorem C40_screen {s : Screen} (hr : (Observer.screen s).Reachable) (src : RadSource) (threads : List (List (Nat × Nat)))
    (hp : threads.flatten.Perm (cells s.Nx s.Ny)) (work : Nat × Nat → List (FieldTrace → Except Err FieldTrace))
    (hw : ∀ c ∈ cells s.Nx s.Ny, ∀ tr, (work c).foldlM (fun tr f => f tr) tr = s.cellTask src c tr)
    (evs : List (Event (Nat × Nat) FieldTrace)) (h : Interleave (threads.map (fun t => t.flatMap (fun c => iteration c (work c)))) evs) :
    match s.runSchedule evs, s.integrate src with
    | .ok (s', n), .ok s'' => s' = s'' ∧ n = s.Nx * s.Ny
    | .error _, .error _ => True
    | _, _ => False := by
  have hwf : s.WF := hr.wf
  have h1 := threads_cells hp (fun c => iteration c (work c)) h
  have := schedule_agree (gridStore FieldTrace) (cells s.Nx s.Ny) (cells_nodup _ _) work (s.cellTask src) hw s.Traces (by
    intro c hc
    have := mem_cells.mp hc
    exact gridAt_rect hwf.rows hwf.cols this.1 this.2) (fun _ => [.count]) (by simp) evs h1 0
  have e : s.integrate src = ((cells s.Nx s.Ny).foldlM (fun (g : List (List FieldTrace)) (c : Nat × Nat) => do
        let v ← (gridStore FieldTrace).get g c
        let v ← s.cellTask src c v
        return (gridStore FieldTrace).put g c v) s.Traces).map (fun g => { s with Traces := g }) := by
    show ((cells s.Nx s.Ny).foldlM (s.updateCell src) s.Traces >>= fun g => Except.ok { s with Traces := g }) = _
    show _ = ((cells s.Nx s.Ny).foldlM (s.updateCell src) s.Traces).map (fun g => { s with Traces := g })
    cases (cells s.Nx s.Ny).foldlM (s.updateCell src) s.Traces <;> rfl
  rw [e]
  unfold Screen.runSchedule
  have e2 : evs.foldlM (execEvent (fun g (c : Nat × Nat) => gridAt g c.1 c.2) (fun g c => gridSet g c.1 c.2)) (s.Traces, 0)
      = evs.foldlM (execEvent (gridStore FieldTrace).get (gridStore FieldTrace).put) (s.Traces, 0) := rfl
  rw [e2]
  revert this
  cases evs.foldlM (execEvent (gridStore FieldTrace).get (gridStore FieldTrace).put) (s.Traces, 0) with
  | error e =>
    cases (cells s.Nx s.Ny).foldlM (fun (g : List (List FieldTrace)) (c : Nat × Nat) => do
        let v ← (gridStore FieldTrace).get g c
        let v ← s.cellTask src c v
        return (gridStore FieldTrace).put g c v) s.Traces with
    | error e' => exact fun _ => trivial
    | ok g => exact fun h => h.elim
  | ok r =>
    cases (cells s.Nx s.Ny).foldlM (fun (g : List (List FieldTrace)) (c : Nat × Nat) => do
        let v ← (gridStore FieldTrace).get g c
        let v ← s.cellTask src c v
        return (gridStore FieldTrace).put g c v) s.Traces with
    | error e' => exact fun h => h.elim
    | ok g =>
      intro h
      simp only [Except.map] at h ⊢
      refine ⟨by rw [h.1], ?_⟩
      rw [h.2]
      simp [cells_length]

/-- C40 for snapshots: all schedules give the fields of the sequential loop. -/
theorem C40_snapshot {s : Snapshot} (hr : (Observer.snapshot s).Reachable) (src : RadSource) (threads : List (List (Nat × Nat)))
    (hp : threads.flatten.Perm (cells s.Nx s.Ny)) (work : Nat × Nat → List (EMField → Except Err EMField))
    (hw : ∀ c ∈ cells s.Nx s.Ny, ∀ v, (work c).foldlM (fun v f => f v) v = s.cellTask src c)
    (evs : List (Event (Nat × Nat) EMField)) (h : Interleave (threads.map (fun t => t.flatMap (fun c => (work c).map (Event.cell c)))) evs) :
    match s.runSchedule evs, s.integrate src with
    | .ok s', .ok s'' => s' = s''
    | .error _, .error _ => True
    | _, _ => False := by
  have hwf : s.WF := hr.wf
  have h1 := threads_cells hp (fun c => (work c).map (Event.cell c)) h
  have := schedule_agree (gridStore EMField) (cells s.Nx s.Ny) (cells_nodup _ _) work (fun c _ => s.cellTask src c) hw s.FieldArray (by
    intro c hc
    have := mem_cells.mp hc
    exact gridAt_rect hwf.rows hwf.cols this.1 this.2) (fun _ => []) (by simp) evs h1 0
  have e : s.integrate src = ((cells s.Nx s.Ny).foldlM (fun (g : List (List EMField)) (c : Nat × Nat) => do
        let v ← (gridStore EMField).get g c
        let v ← (fun c (_ : EMField) => s.cellTask src c) c v
        return (gridStore EMField).put g c v) s.FieldArray).map (fun g => { s with FieldArray := g }) := by
    show ((cells s.Nx s.Ny).foldlM (s.updateCell src) s.FieldArray >>= fun g => Except.ok { s with FieldArray := g }) = _
    show _ = ((cells s.Nx s.Ny).foldlM (s.updateCell src) s.FieldArray).map (fun g => { s with FieldArray := g })
    cases (cells s.Nx s.Ny).foldlM (s.updateCell src) s.FieldArray <;> rfl
  rw [e]
  unfold Snapshot.runSchedule
  have e2 : evs.foldlM (execEvent (fun g (c : Nat × Nat) => gridAt g c.1 c.2) (fun g c => gridSet g c.1 c.2)) (s.FieldArray, 0)
      = evs.foldlM (execEvent (gridStore EMField).get (gridStore EMField).put) (s.FieldArray, 0) := rfl
  rw [e2]
  revert this
  generalize (cells s.Nx s.Ny).foldlM (fun (g : List (List EMField)) (c : Nat × Nat) => do
        let v ← (gridStore EMField).get g c
        let v ← (fun c (_ : EMField) => s.cellTask src c) c v
        return (gridStore EMField).put g c v) s.FieldArray = x
  generalize evs.foldlM (execEvent (gridStore EMField).get (gridStore EMField).put) (s.FieldArray, 0) = y
  cases y with
  | error e =>
    cases x with
    | error e' => exact fun _ => trivial
    | ok g => exact fun h => h.elim
  | ok r =>
    cases x with
    | error e' => exact fun h => h.elim
    | ok g =>
      intro h
      simp only [Except.map] at h ⊢
      rw [h.1]

/-- C40 for meshes: all schedules give the traces of the sequential loop and count all cells. -/
theorem C40_mesh {s : MeshObs} (hr : (Observer.mesh s).Reachable) (src : RadSource) (threads : List (List Nat))
    (hp : threads.flatten.Perm (List.range s.Np)) (work : Nat → List (FieldTrace → Except Err FieldTrace))
    (hw : ∀ i ∈ List.range s.Np, ∀ tr, (work i).foldlM (fun tr f => f tr) tr = s.cellTask src i tr)
    (evs : List (Event Nat FieldTrace)) (h : Interleave (threads.map (fun t => t.flatMap (fun i => iteration i (work i)))) evs) :
    match s.runSchedule evs, s.integrate src with
    | .ok (s', n), .ok s'' => s' = s'' ∧ n = s.Np
    | .error _, .error _ => True
    | _, _ => False := by
  have hwf : s.WF := hr.wf
  have h1 := threads_cells hp (fun c => iteration c (work c)) h
  have := schedule_agree (vecStore FieldTrace) (List.range s.Np) List.nodup_range work (s.cellTask src) hw s.A (by
    intro i hi
    have hi' : i < s.A.length := by rw [hwf.cellNum]; simpa using hi
    exact ⟨s.A[i], by show MeshObs.at' s.A i = _; unfold MeshObs.at'; rw [List.getElem?_eq_getElem hi']⟩) (fun _ => [.count]) (by simp) evs h1 0
  have e : s.integrate src = ((List.range s.Np).foldlM (fun (g : List FieldTrace) (c : Nat) => do
        let v ← (vecStore FieldTrace).get g c
        let v ← s.cellTask src c v
        return (vecStore FieldTrace).put g c v) s.A).map (fun g => { s with A := g }) := by
    show ((List.range s.Np).foldlM (s.updateCell src) s.A >>= fun g => Except.ok { s with A := g }) = _
    show _ = ((List.range s.Np).foldlM (s.updateCell src) s.A).map (fun g => { s with A := g })
    cases (List.range s.Np).foldlM (s.updateCell src) s.A <;> rfl
  rw [e]
  unfold MeshObs.runSchedule
  have e2 : evs.foldlM (execEvent MeshObs.at' List.set) (s.A, 0)
      = evs.foldlM (execEvent (vecStore FieldTrace).get (vecStore FieldTrace).put) (s.A, 0) := rfl
  rw [e2]
  revert this
  generalize (List.range s.Np).foldlM (fun (g : List FieldTrace) (c : Nat) => do
        let v ← (vecStore FieldTrace).get g c
        let v ← s.cellTask src c v
        return (vecStore FieldTrace).put g c v) s.A = x
  generalize evs.foldlM (execEvent (vecStore FieldTrace).get (vecStore FieldTrace).put) (s.A, 0) = y
  cases y with
  | error e =>
    cases x with
    | error e' => exact fun _ => trivial
    | ok g => exact fun h => h.elim
  | ok r =>
    cases x with
    | error e' => exact fun h => h.elim
    | ok g =>
      intro h
      simp only [Except.map] at h ⊢
      refine ⟨by rw [h.1], ?_⟩
      rw [h.2]
      simp

/-- non-vacuity of C40: two threads share the four cells of a screen; the work on a cell is one part.  The threads
take turns: both count their first cell before any of them records a field. -/
example (src : RadSource) : ∃ (s : Screen) (threads : List (List (Nat × Nat))) (evs : List (Event (Nat × Nat) FieldTrace)),
    (Observer.screen s).Reachable ∧ threads.length = 2 ∧ threads.flatten.Perm (cells s.Nx s.Ny) ∧ 0 < s.Nx * s.Ny ∧
    Interleave (threads.map (fun t => t.flatMap (fun c => iteration c [s.cellTask src c]))) evs := by
  let s := Screen.new 0 ⟨1, 0, 0⟩ ⟨0, 1, 0⟩ 2 2 0 1 0 0 2
  let w := fun c : Nat × Nat => Event.cell c (s.cellTask src c)
  refine ⟨s, [[(0, 0), (1, 0)], [(0, 1), (1, 1)]], [.count, .count, w (0, 1), w (0, 0), .count, w (1, 0), .count, w (1, 1)],
    .fresh (.screen _ _ _ _ _ _ _ _ _ _), rfl, ?_, ?_, ?_⟩
  · show List.Perm [(0, 0), (1, 0), (0, 1), (1, 1)] [(0, 0), (0, 1), (1, 0), (1, 1)]
    decide
  · simp [s, Screen.new]
  · refine Interleave.step (i := 0) rfl (Interleave.step (i := 1) rfl (Interleave.step (i := 1) rfl (Interleave.step (i := 0) rfl ?_)))
    refine Interleave.step (i := 0) rfl (Interleave.step (i := 0) rfl (Interleave.step (i := 1) rfl (Interleave.step (i := 1) rfl (Interleave.done ?_))))
    simp

end Teufel
