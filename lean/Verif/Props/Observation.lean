import Verif.Lemmas.Reduce
import Verif.Props.HybridSerial

/-! # C37, C38, C39, C43: observations -/

namespace Teufel
open Vec FieldTrace

namespace Observer

theorem gridAt_error {α} {g : List (List α)} {i j : Nat} {e : Err} (h : gridAt g i j = .error e) : e = .ub := by
  unfold gridAt at h
  split at h
  · injection h with h; exact h.symm
  · split at h
    · injection h with h; exact h.symm
    · cases h

theorem Fresh.ok {o : Observer} (h : o.Fresh) : o.WF ∧ o.blank = o := by
  cases h with
  | screen position dx dy nx ny t0 dt dtx dty nots =>
    refine ⟨⟨by simp [Screen.new], ?_, ?_⟩, ?_⟩
    · intro row hr
      simp only [Screen.new, List.mem_map] at hr
      obtain ⟨_, _, rfl⟩ := hr
      simp [Screen.new]
    · intro i j tr ht
      obtain ⟨row, hr, hx⟩ := gridAt_some ht
      simp only [Screen.new, List.getElem?_map, Option.map_eq_some_iff] at hr
      obtain ⟨a, ha, rfl⟩ := hr
      rw [List.getElem?_map, Option.map_eq_some_iff] at hx
      obtain ⟨b, hb, rfl⟩ := hx
      have ha' : i = a := by
        have := (List.getElem?_eq_some_iff.mp ha).2
        simpa using this
      have hb' : j = b := by
        have := (List.getElem?_eq_some_iff.mp hb).2
        simpa using this
      subst ha' hb'
      exact ⟨new_wf _ _ _, rfl, rfl, rfl⟩
    · simp only [blank, Screen.new, List.map_map]
      congr 2
      apply List.map_congr_left
      intro ix _
      simp only [Function.comp_apply, List.map_map]
      rfl
  | snapshot position dx dy nx ny t =>
    refine ⟨⟨by simp [Snapshot.new], ?_⟩, ?_⟩
    · intro row hr
      simp only [Snapshot.new, List.mem_replicate] at hr
      simp [hr.2, Snapshot.new]
    · simp [blank, Snapshot.new]
  | point position t0 dt nots => exact ⟨new_wf _ _ _, rfl⟩
  | mesh points t0s dt nt hl =>
    refine ⟨⟨rfl, by simp [MeshObs.new, hl], ?_⟩, ?_⟩
    · intro i tr ht
      unfold MeshObs.at' at ht
      simp only [MeshObs.new, List.getElem?_map] at ht
      cases hx : t0s[i]? with
      | none => rw [hx] at ht; cases ht
      | some t =>
        rw [hx] at ht
        simp only [Option.map_some, Except.ok.injEq] at ht
        subst ht
        exact ⟨new_wf _ _ _, rfl⟩
    · simp only [blank, MeshObs.new, List.map_map]
      congr 2

theorem comps_surj {α : Type} [DecidableEq α] (ks : List α) (hnd : ks.Nodup) (vals : List ℝ) (h : vals.length = 6 * ks.length) :
    ∃ g : α → EMField, vals = (ks.map g).flatMap EMField.comps := by
  induction ks generalizing vals with
  | nil => exact ⟨fun _ => 0, by simpa using h⟩
  | cons k ks ih =>
    rw [List.nodup_cons] at hnd
    obtain ⟨v0, vals, rfl⟩ : ∃ v l, vals = v :: l := by cases vals with | nil => simp at h | cons v l => exact ⟨v, l, rfl⟩
    obtain ⟨v1, vals, rfl⟩ : ∃ v l, vals = v :: l := by cases vals with | nil => simp at h; omega | cons v l => exact ⟨v, l, rfl⟩
    obtain ⟨v2, vals, rfl⟩ : ∃ v l, vals = v :: l := by cases vals with | nil => simp at h; omega | cons v l => exact ⟨v, l, rfl⟩
    obtain ⟨v3, vals, rfl⟩ : ∃ v l, vals = v :: l := by cases vals with | nil => simp at h; omega | cons v l => exact ⟨v, l, rfl⟩
    obtain ⟨v4, vals, rfl⟩ : ∃ v l, vals = v :: l := by cases vals with | nil => simp at h; omega | cons v l => exact ⟨v, l, rfl⟩
    obtain ⟨v5, vals, rfl⟩ : ∃ v l, vals = v :: l := by cases vals with | nil => simp at h; omega | cons v l => exact ⟨v, l, rfl⟩
    obtain ⟨g, hg⟩ := ih hnd.2 vals (by simp at h; omega)
    refine ⟨fun k' => if k' = k then ⟨⟨v0, v1, v2⟩, ⟨v3, v4, v5⟩⟩ else g k', ?_⟩
    rw [List.map_cons, List.flatMap_cons, if_pos rfl]
    have : ks.map (fun k' => if k' = k then (⟨⟨v0, v1, v2⟩, ⟨v3, v4, v5⟩⟩ : EMField) else g k') = ks.map g := by
      apply List.map_congr_left
      intro k' hk'
      rw [if_neg (show ¬ k' = k from fun e => hnd.1 (e ▸ hk'))]
    rw [this, ← hg]
    rfl

theorem fromBuffer_wrong {o : Observer} (hf : o.Fits) (vals : List ℝ) (n : Nat) (hn : n ≠ 6 * o.keys.length) : o.fromBuffer vals n = .error .io := by
  cases o with
  | screen s =>
    show (s.fromBuffer vals n).map Observer.screen = _
    unfold Screen.fromBuffer
    have hf' : 6 * (s.Nx * s.Ny * s.NOTS) < 2 ^ 32 := hf
    have hk : (Observer.screen s).keys.length = s.Nx * s.Ny * s.NOTS := samples_length s
    rw [hk] at hn
    have : (s.Nx * s.Ny * s.NOTS * 6) % 2 ^ 32 = 6 * (s.Nx * s.Ny * s.NOTS) := by rw [Nat.mul_comm _ 6]; exact Nat.mod_eq_of_lt hf'
    rw [this, if_neg hn]
    rfl
  | snapshot s =>
    show (s.fromBuffer vals n).map Observer.snapshot = _
    unfold Snapshot.fromBuffer
    have hf' : 6 * (s.Nx * s.Ny) < 2 ^ 32 := hf
    have hk : (Observer.snapshot s).keys.length = s.Nx * s.Ny := by simp [keys, cells_length]
    rw [hk] at hn
    have : (s.Nx * s.Ny * 6) % 2 ^ 32 = 6 * (s.Nx * s.Ny) := by rw [Nat.mul_comm _ 6]; exact Nat.mod_eq_of_lt hf'
    rw [this, if_neg hn]
    rfl
  | point s =>
    show (s.fromBuffer vals n).map Observer.point = _
    unfold PointObs.fromBuffer
    have hk : (Observer.point s).keys.length = s.trace.N := by simp [keys]
    rw [hk] at hn
    rw [if_neg hn]
    rfl
  | mesh s =>
    show (s.fromBuffer vals n).map Observer.mesh = _
    unfold MeshObs.fromBuffer MeshObs.getBufferSize
    have hf' : 6 * (s.Np * s.Nt) < 2 ^ 31 := hf
    rw [mesh_keys_length] at hn
    rw [Nat.mul_comm (s.Np * s.Nt) 6, if_pos hf']
    simp only [bind, Except.bind]
    rw [if_neg hn]
    rfl

theorem fromBuffer_overflow {o : Observer} (hf : ¬ o.Fits) (vals : List ℝ) : ∃ e, o.fromBuffer vals (6 * o.keys.length) = .error e := by
  cases o with
  | screen s =>
    refine ⟨.io, ?_⟩
    show (s.fromBuffer vals _).map Observer.screen = _
    unfold Screen.fromBuffer
    have hf' : ¬ 6 * (s.Nx * s.Ny * s.NOTS) < 2 ^ 32 := hf
    have hk : (Observer.screen s).keys.length = s.Nx * s.Ny * s.NOTS := samples_length s
    have := Nat.mod_lt (s.Nx * s.Ny * s.NOTS * 6) (show 2 ^ 32 > 0 by norm_num)
    rw [hk, if_neg (by omega)]
    rfl
  | snapshot s =>
    refine ⟨.io, ?_⟩
    show (s.fromBuffer vals _).map Observer.snapshot = _
    unfold Snapshot.fromBuffer
    have hf' : ¬ 6 * (s.Nx * s.Ny) < 2 ^ 32 := hf
    have hk : (Observer.snapshot s).keys.length = s.Nx * s.Ny := by simp [keys, cells_length]
    have := Nat.mod_lt (s.Nx * s.Ny * 6) (show 2 ^ 32 > 0 by norm_num)
    rw [hk, if_neg (by omega)]
    rfl
  | point s => exact absurd trivial hf
  | mesh s =>
    refine ⟨.ub, ?_⟩
    show (s.fromBuffer vals _).map Observer.mesh = _
    unfold MeshObs.fromBuffer MeshObs.getBufferSize
    have hf' : ¬ 6 * (s.Np * s.Nt) < 2 ^ 31 := hf
    rw [Nat.mul_comm (s.Np * s.Nt) 6, if_neg hf']
    rfl

theorem Reachable.wf {o : Observer} (h : o.Reachable) : o.WF := by
  induction h with
  | fresh h => exact h.ok.1
  | integrate _ hc hi ih => exact ((integrate_gen ih hc).1 _ hi).1
  | put _ hk hp ih =>
    obtain ⟨o', h1, h2, _⟩ := put_ok ih hk _
    rw [hp] at h1
    injection h1 with h1
    rw [h1]
    exact h2
  | @fromBuffer o o' vals _ hl hp ih =>
    by_cases hf : o.Fits
    · obtain ⟨g, rfl⟩ := comps_surj o.keys o.keys_nodup vals hl
      obtain ⟨o'', h1, h2, _⟩ := fromBuffer_fits ih hf g
      rw [hp] at h1
      injection h1 with h1
      rw [h1]
      exact h2
    · obtain ⟨e, he⟩ := fromBuffer_overflow hf vals
      rw [hp] at he
      cases he

end Observer

/-! ## C39 -/

/-- C39: the buffer of an observer has six doubles for every sample of every cell, in the order of the samples.
Loading it into any observer with the same cells and numbers of samples reproduces all fields.
(`Fits`: the size of the buffer can be represented, see `C39_overflow`.) -/
theorem C39_round_trip {o o₂ : Observer} (h : o.Reachable) (h₂ : o₂.Reachable) (hk : o₂.keys = o.keys) (hf : o.Fits) (hf₂ : o₂.Fits) :
    ∃ buf : List ℝ, o.getBufferSize = .ok (6 * o.keys.length) ∧ o.getBuffer = .ok buf ∧ buf.length = 6 * o.keys.length ∧
      (∀ (i : Nat) k f, o.keys[i]? = some k → o.get k = .ok f →
        (buf.drop (6 * i)).take 6 = [f.E.x, f.E.y, f.E.z, f.B.x, f.B.y, f.B.z]) ∧
      ∃ o', o₂.fromBuffer buf (6 * o.keys.length) = .ok o' ∧ o'.keys = o.keys ∧ ∀ k ∈ o.keys, ∃ f, o.get k = .ok f ∧ o'.get k = .ok f := by
  have hw := h.wf
  have hw₂ := h₂.wf
  obtain ⟨g, hg⟩ : ∃ g : Observer.Key → EMField, ∀ k ∈ o.keys, o.get k = .ok (g k) := by
    refine ⟨fun k => match o.get k with | .ok f => f | .error _ => 0, ?_⟩
    intro k hk
    obtain ⟨f, hf⟩ := Observer.get_ok hw hk
    simp only [hf]
  obtain ⟨s1, s2⟩ := Observer.getBuffer_fits hw hf g hg
  obtain ⟨o', p1, p2, p3, p4⟩ := Observer.fromBuffer_fits hw₂ hf₂ g
  rw [hk] at p1 p4
  refine ⟨_, s1, s2, by rw [comps_length, List.length_map], ?_, o', p1, ?_, ?_⟩
  · intro i k f hi hfk
    have hmem := List.mem_of_getElem? hi
    rw [hg k hmem] at hfk
    injection hfk with hfk
    subst hfk
    clear s1 s2 p1 p4 hk hf hf₂ hg hmem
    generalize o.keys = ks at hi
    induction ks generalizing i with
    | nil => simp at hi
    | cons k' ks ih =>
      cases i with
      | zero =>
        simp only [List.getElem?_cons_zero, Option.some.injEq] at hi
        subst hi
        simp [EMField.comps]
      | succ i =>
        simp only [List.getElem?_cons_succ] at hi
        rw [← ih i hi, List.map_cons, List.flatMap_cons]
        have : 6 * (i + 1) = (g k').comps.length + 6 * i := by simp [EMField.comps]; omega
        rw [this, ← List.drop_drop, List.drop_left]
  · rw [Observer.keys_of_blank p3, hk]
  · intro k hk'
    exact ⟨g k, hg k hk', p4 k hk'⟩

/-- C39: a buffer of any other size is rejected. -/
theorem C39_other_sizes {o : Observer} (hf : o.Fits) (vals : List ℝ) (n : Nat) (hn : n ≠ 6 * o.keys.length) :
    o.fromBuffer vals n = .error .io := Observer.fromBuffer_wrong hf vals n hn

/-- C39: if the size cannot be represented, `getBuffer` writes behind the end of the memory it has allocated (screens,
snapshots), or the computation of the size already overflows (meshes). -/
theorem C39_overflow {o : Observer} (h : o.Reachable) (hf : ¬ o.Fits) : o.getBuffer = .error .ub :=
  Observer.getBuffer_overflow h.wf hf

/-- the size restriction is met by an observer that has recorded something -/
example : ∃ o : Observer, o.Reachable ∧ o.Fits ∧ o.keys.length = 6 ∧ ∃ f, o.get ((1, 0), 1) = .ok f ∧ f ≠ 0 := by
  obtain ⟨hw, _⟩ := (Observer.Fresh.screen 0 ⟨1, 0, 0⟩ ⟨0, 1, 0⟩ 3 1 0 1 0 0 2).ok
  have hmem : ((1, 0), 1) ∈ (Observer.screen (Screen.new 0 ⟨1, 0, 0⟩ ⟨0, 1, 0⟩ 3 1 0 1 0 0 2)).keys := by
    refine mem_samples.mpr ?_
    simp [Screen.new]
  obtain ⟨o', h1, h2, h3, h4, h5, h6⟩ := Observer.put_ok hw hmem ⟨⟨1, 2, 3⟩, 0⟩
  have hr := Observer.Reachable.put (.fresh (.screen 0 ⟨1, 0, 0⟩ ⟨0, 1, 0⟩ 3 1 0 1 0 0 2)) hmem h1
  have hlen : (Observer.screen (Screen.new 0 ⟨1, 0, 0⟩ ⟨0, 1, 0⟩ 3 1 0 1 0 0 2)).keys.length = 6 := by
    show (Screen.new 0 ⟨1, 0, 0⟩ ⟨0, 1, 0⟩ 3 1 0 1 0 0 2).samples.length = 6
    rw [samples_length]
    rfl
  refine ⟨o', hr, Observer.small_fits (by rw [h3, hlen]; norm_num), by rw [h3, hlen], _, h5, ?_⟩
  intro h0
  have := congrArg (fun f : EMField => f.E.x) h0
  simp at this

/-- C39, disagreement: there is a screen (65536 × 65536 cells with one sample each) for which `getBuffer` overflows
its buffer: the size computed is zero. -/
theorem C39_full_statement_false : ∃ o : Observer, o.Reachable ∧ o.getBufferSize = .ok 0 ∧ 0 < o.keys.length ∧ o.getBuffer = .error .ub := by
  refine ⟨_, .fresh (.screen 0 ⟨1, 0, 0⟩ ⟨0, 1, 0⟩ 65536 65536 0 1 0 0 1), ?_, ?_, C39_overflow (.fresh (.screen 0 ⟨1, 0, 0⟩ ⟨0, 1, 0⟩ 65536 65536 0 1 0 0 1)) ?_⟩
  · simp [Observer.getBufferSize, Screen.getBufferSize, Screen.new]
  · show 0 < (Screen.new 0 ⟨1, 0, 0⟩ ⟨0, 1, 0⟩ 65536 65536 0 1 0 0 1).samples.length
    rw [samples_length]
    simp [Screen.new]
  · simp [Observer.Fits, Screen.new]

/-! ## C37 -/

theorem run_counted {σ ω : Type} (R : Run σ ω) (hN : 0 < R.nodes) (ms : List Beam) (hlen : ms.length = R.nodes)
    (hwf : ∀ m ∈ ms, Beam.WF m) (m0 : Beam) (hm0 : ms.head? = some m0) (hblank : ∀ m ∈ ms, Beam.blank m = m0.blank)
    (s : σ) (out : ω) (k : Nat) (w : World σ ω) (hw : runSteps R ms s out k = .ok w) :
    (∀ n ∈ w.nodes, (RadSource.beam n.tracked).Counted) ∧ w.nodes ≠ [] := by
  have hm0wf := hwf m0 (List.mem_of_head? hm0)
  obtain ⟨M, hM, hMl, _, hdt, _, hMall, hlens, hset⟩ := setupMasters ms m0 hm0wf hwf hblank R.NOTS
  have hr := runSteps_abs R hN ms hlen hwf m0 hm0 hblank s out M hM hMl hset k
  rw [hr.1] at hw
  cases hA : absRun R (trackingNOP M.all.length R.nodes) M s out k with
  | error e => rw [hA] at hw; cases hw
  | ok A =>
    rw [hA] at hw
    simp only [Except.map] at hw
    injection hw with hw
    subst hw
    constructor
    · intro n hn
      simp only [Abs.world, List.mem_map] at hn
      obtain ⟨c, _, rfl⟩ := hn
      refine ⟨rfl, ?_⟩
      intro bu hb
      simp only [oneBunch, List.mem_singleton] at hb
      rw [hb]
    · intro h0
      have := congrArg List.length h0
      simp [Abs.world, chunks] at this
      omega

variable {σ ω : Type}

theorem sumM_nodes {o : Observer} (h : o.WF) (nodes : List (Node σ)) {c : Nat × Nat} (hc : c ∈ o.cellsOf) :
    sumM (fun s => o.share s c) (nodes.map (fun n => RadSource.beam n.tracked)) = sumM (o.pshare c) (nodes.flatMap (fun n => n.tracked.all)) := by
  rw [sumM_flatMap]
  unfold sumM
  rw [mapM_map']
  congr 2
  funext n
  exact Observer.share_beam h n.tracked hc

/-- C37: for any number of nodes, after tracking `k` steps, any newly constructed observer of the beam ends with
exactly the contents it has after the run with a single node, or fails in both runs.  Hypotheses are those of
`C36_nodes`. -/
theorem C37_nodes (R : Run σ ω) (hR : R.MasterOut) (hN : 0 < R.nodes) (ms : List Beam) (hlen : ms.length = R.nodes)
    (hreach : ∀ m ∈ ms, Beam.Reachable m) (m0 : Beam) (hm0 : ms.head? = some m0) (hblank : ∀ m ∈ ms, Beam.blank m = m0.blank)
    (s : σ) (out : ω) (junk₁ : Nat → Nat → Nat → ℝ) (k : Nat) (o : Observer) (ho : o.Fresh) :
    match (runSteps R ms s out k).bind (fun w => observeBeam w o),
      (runSteps { R with nodes := 1, junk := junk₁ } [m0] s out k).bind (fun w => observeBeam w o) with
    | .ok a, .ok b => a = b
    | .error _, .error _ => True
    | _, _ => False := by
  have h := C36_nodes R hR hN ms hlen hreach m0 hm0 hblank s out junk₁ k
  have hwf : ∀ m ∈ ms, Beam.WF m := fun m hm => Beam.wf_reachable (hreach m hm)
  have hm0wf := hwf m0 (List.mem_of_head? hm0)
  obtain ⟨ow, oz⟩ := ho.ok
  cases hr : runSteps R ms s out k with
  | error e =>
    rw [hr] at h
    cases hr₁ : runSteps { R with nodes := 1, junk := junk₁ } [m0] s out k with
    | error e₁ => trivial
    | ok w₁ => rw [hr₁] at h; exact h.elim
  | ok w =>
    rw [hr] at h
    cases hr₁ : runSteps { R with nodes := 1, junk := junk₁ } [m0] s out k with
    | error e₁ => rw [hr₁] at h; exact h.elim
    | ok w₁ =>
      rw [hr₁] at h
      simp only at h
      obtain ⟨c1, n1⟩ := run_counted R hN ms hlen hwf m0 hm0 hblank s out k w hr
      obtain ⟨c2, n2⟩ := run_counted { R with nodes := 1, junk := junk₁ } (by simp) [m0] rfl (by simpa using hm0wf) m0 rfl (by simp) s out k w₁ hr₁
      refine Observer.observe_agree ow oz (w.nodes.map (fun n => RadSource.beam n.tracked)) (w₁.nodes.map (fun n => RadSource.beam n.tracked))
        (by simpa using n1) (by simpa using n2) ?_ ?_ ?_
      · intro s hs
        simp only [List.mem_map] at hs
        obtain ⟨n, hn, rfl⟩ := hs
        exact c1 n hn
      · intro s hs
        simp only [List.mem_map] at hs
        obtain ⟨n, hn, rfl⟩ := hs
        exact c2 n hn
      · intro c hc q
        rw [sumM_nodes ow w.nodes hc, sumM_nodes ow w₁.nodes hc, h.2.2.2.2]

theorem sample_share {o : Observer} (h : o.WF) {k : Observer.Key} (hk : k ∈ o.keys) (p : Particle) :
    o.particleSample k p = (o.pshare k.1 p).map (fun g => g k.2) := by
  have main : ∀ (pos : Vec) (t0 dt : ℝ) (n i : Nat), i < n →
      (do let tr ← p.integrateFieldTrace pos (FieldTrace.new t0 dt n); tr.getField i) = (traceShare pos t0 dt n p).map (fun g => g i) := by
    intro pos t0 dt n i hi
    unfold traceShare
    rw [except_map_map]
    have hsh := integrate_share p pos (FieldTrace.new t0 dt n) (new_wf _ _ _)
    cases ht : p.integrateFieldTrace pos (FieldTrace.new t0 dt n) with
    | error e => rfl
    | ok tr =>
      rw [ht] at hsh
      cases hx : traceShare pos (FieldTrace.new t0 dt n).t0 (FieldTrace.new t0 dt n).dt (FieldTrace.new t0 dt n).N p with
      | error e => rw [hx] at hsh; cases hsh
      | ok g =>
        rw [hx] at hsh
        simp only [Except.map, Except.ok.injEq] at hsh
        subst hsh
        exact trace_get (adds_wf g (new_wf _ _ _)) hi
  cases o with
  | screen s =>
    obtain ⟨_, _, h3⟩ := mem_samples.mp hk
    exact main _ _ _ _ _ h3
  | snapshot s =>
    simp only [Observer.particleSample, Observer.pshare]
    rw [except_map_map]
    cases p.RetardedFieldAt s.tObs (s.CellPosition k.1.1 k.1.2) <;> rfl
  | point s =>
    simp only [Observer.keys, List.mem_map, List.mem_range] at hk
    obtain ⟨it, hit, rfl⟩ := hk
    exact main _ _ _ _ _ hit
  | mesh s =>
    simp only [Observer.keys, List.mem_flatMap, List.mem_map, List.mem_range] at hk
    obtain ⟨i, hi, it, hit, rfl⟩ := hk
    simp only [Observer.particleSample, Observer.pshare]
    cases MeshObs.at' s.points i with
    | error e => rfl
    | ok pos =>
      simp only [bind, Except.bind]
      cases MeshObs.at' s.A i with
      | error e => rfl
      | ok tr => exact main _ _ _ _ _ hit

/-- C37: every sample of the combined observer is the sum, over all particles of all nodes, of what the observer
records of that particle alone. -/
theorem C37_value (w : World σ ω) (hne : w.nodes ≠ []) (hc : ∀ n ∈ w.nodes, (RadSource.beam n.tracked).Counted) (o : Observer) (ho : o.Fresh)
    (o' : Observer) (h : observeBeam w o = .ok o') :
    o'.keys = o.keys ∧ ∀ k ∈ o.keys, ∃ fs : List EMField,
      (w.nodes.flatMap (fun n => n.tracked.all)).mapM (o.particleSample k) = .ok fs ∧ o'.get k = .ok fs.sum := by
  obtain ⟨ow, oz⟩ := ho.ok
  obtain ⟨hA, _⟩ := Observer.observe_spec ow oz (w.nodes.map (fun n => RadSource.beam n.tracked)) (by simpa using hne) (by
    intro s hs
    simp only [List.mem_map] at hs
    obtain ⟨n, hn, rfl⟩ := hs
    exact hc n hn)
  obtain ⟨_, _, b, v⟩ := hA o' h
  refine ⟨by rw [← Observer.keys_blank o', b], ?_⟩
  intro k hk
  obtain ⟨q, hq, hg⟩ := v k.1 (Observer.key_cell hk)
  rw [sumM_nodes ow w.nodes (Observer.key_cell hk)] at hq
  unfold sumM at hq
  cases hm : (w.nodes.flatMap (fun n => n.tracked.all)).mapM (o.pshare k.1) with
  | error e => rw [hm] at hq; cases hq
  | ok gs =>
    rw [hm] at hq
    simp only [Except.map, Except.ok.injEq] at hq
    refine ⟨gs.map (fun g => g k.2), ?_, ?_⟩
    · have e : o.particleSample k = fun p => (o.pshare k.1 p).map (fun g => g k.2) := by funext p; exact sample_share ow hk p
      rw [e]
      have : ∀ (l : List Particle) gs, l.mapM (o.pshare k.1) = .ok gs → l.mapM (fun p => (o.pshare k.1 p).map (fun g => g k.2)) = .ok (gs.map (fun g => g k.2)) := by
        intro l
        induction l with
        | nil =>
          intro gs h
          simp only [List.mapM_nil, pure, Except.pure, Except.ok.injEq] at h
          subst h; rfl
        | cons a l ih =>
          intro gs h
          rw [List.mapM_cons] at h
          rw [List.mapM_cons]
          cases h1 : o.pshare k.1 a with
          | error e => rw [h1] at h; cases h
          | ok x =>
            rw [h1] at h
            simp only [bind, Except.bind] at h
            cases h2 : l.mapM (o.pshare k.1) with
            | error e => rw [h2] at h; cases h
            | ok xs =>
              rw [h2] at h
              simp only [pure, Except.pure, Except.ok.injEq] at h
              subst h
              simp only [Except.map, bind, Except.bind]
              have := ih xs h2
              simp only [Except.map] at this
              rw [this]
              rfl
      exact this _ gs hm
    · rw [hg k hk rfl, ← hq]
      congr 1
      clear hm hq
      induction gs with
      | nil => rfl
      | cons a l ih => simp only [List.map_cons, List.sum_cons, Pi.add_apply, ih]

/-- non-vacuity of C37: a run on two nodes and a screen -/
example (k : Nat) : demoRun.MasterOut ∧ 0 < demoRun.nodes ∧ (∃ w, runSteps demoRun [demoVay, demoVay] () () k = .ok w) ∧
    (Observer.screen (Screen.new ⟨0, 0, 5⟩ ⟨1, 0, 0⟩ ⟨0, 1, 0⟩ 3 3 0 1 0 0 10)).Fresh := by
  refine ⟨⟨fun _ _ _ _ => rfl, fun _ _ _ _ _ => rfl⟩, by decide, ?_, .screen _ _ _ _ _ _ _ _ _ _⟩
  refine Exists.imp (fun _ h => h.1) <| C36_progress demoRun demoVay (fun _ => True) (fun _ => True) ⟨fun _ _ _ _ _ _ _ => ⟨_, rfl, trivial⟩, fun _ _ _ _ _ _ _ _ _ => ⟨_, rfl, trivial⟩, fun _ _ => ⟨_, rfl⟩, fun _ _ => ⟨_, rfl⟩⟩
      (fun _ _ _ => ⟨0, rfl⟩) (by decide) _ rfl ?_ rfl ?_ rfl demoVay_mass () () trivial k
  · intro m hm; simp at hm; rw [hm]; exact demoVay_reachable
  · intro m hm; simp at hm; rw [hm]

/-! ## C38 -/

/-- C38, as stated: the result of a lattice observer does not depend on the number of nodes -/
def C38_statement : Prop := ∀ (L : Lattice) (o : Observer) (n : Nat), o.Fresh → 0 < n → observeLattice n L o = observeLattice 1 L o

theorem sumM_replicate {α β} [AddCommMonoid β] (f : α → Except Err β) (a : α) (n : Nat) (hn : 0 < n) : sumM f (List.replicate n a) = (f a).map (fun x => n • x) := by
  induction n with
  | zero => omega
  | succ n ih =>
    rw [List.replicate_succ, sumM_cons]
    cases n with
    | zero =>
      cases f a with
      | error e => rfl
      | ok x => simp [sumM_nil, Except.bind, Except.map]
    | succ n =>
      rw [ih (by omega)]
      cases f a with
      | error e => rfl
      | ok x =>
        simp only [Except.bind, Except.map]
        rw [succ_nsmul' x (n + 1)]

theorem nsmul_field (n : Nat) (f : EMField) : n • f = f * (n : ℝ) := by
  induction n with
  | zero => ext <;> simp
  | succ n ih =>
    rw [succ_nsmul, ih]
    ext <;> simp <;> ring

/-- C38, proved part: with one node every sample of the observer is the field of the lattice at the time and place
of the sample. -/
theorem C38_single_node_partial (L : Lattice) (o : Observer) (ho : o.Fresh) (o' : Observer) (h : observeLattice 1 L o = .ok o') :
    o'.keys = o.keys ∧ ∀ k ∈ o.keys, ∃ t X f, o.samplePoint k = .ok (t, X) ∧ L.field t X = .ok f ∧ o'.get k = .ok f := by
  obtain ⟨ow, oz⟩ := ho.ok
  obtain ⟨hA, _⟩ := Observer.observe_spec ow oz (List.replicate 1 (RadSource.lattice L.field)) (by simp) (by
    intro s hs
    rw [(List.mem_replicate.mp hs).2]
    trivial)
  obtain ⟨_, _, b, v⟩ := hA o' h
  refine ⟨by rw [← Observer.keys_blank o', b], ?_⟩
  intro k hk
  obtain ⟨q, hq, hg⟩ := v k.1 (Observer.key_cell hk)
  rw [sumM_replicate _ _ _ (by norm_num)] at hq
  simp only [one_smul] at hq
  have hq : o.share (.lattice L.field) k.1 = .ok q := by
    cases hx : o.share (.lattice L.field) k.1 with
    | error e => rw [hx] at hq; cases hq
    | ok x => rw [hx] at hq; exact hq
  rw [hg k hk rfl]
  have trace : ∀ (pos : Vec) (t0 dt : ℝ) (n i : Nat), i < n → shareAt (.lattice L.field) pos t0 dt n = .ok q → L.field (t0 + i * dt) pos = .ok (q i) := by
    intro pos t0 dt n i hi hs
    simp only [shareAt] at hs
    cases hm : (List.range n).mapM (fun it : Nat => L.field (t0 + it * dt) pos) with
    | error e => rw [hm] at hs; cases hs
    | ok fs =>
      rw [hm] at hs
      simp only [Except.map, Except.ok.injEq] at hs
      obtain ⟨b, hb1, hb2⟩ := mapM_get hm (i := i) (a := i) (by rw [List.getElem?_range hi])
      rw [← hs]
      simp only [hb2, Option.getD_some]
      exact hb1
  cases o with
  | screen s =>
    obtain ⟨_, _, h3⟩ := mem_samples.mp hk
    exact ⟨_, _, _, rfl, trace _ _ _ _ _ h3 hq, rfl⟩
  | snapshot s =>
    have hq : (L.field s.tObs (s.CellPosition k.1.1 k.1.2)).map (fun (f : EMField) (_ : Nat) => f) = .ok q := hq
    refine ⟨_, _, _, rfl, ?_, rfl⟩
    cases hx : L.field s.tObs (s.CellPosition k.1.1 k.1.2) with
    | error e => rw [hx] at hq; cases hq
    | ok f =>
      rw [hx] at hq
      simp only [Except.map, Except.ok.injEq] at hq
      rw [← hq]
  | point s =>
    simp only [Observer.keys, List.mem_map, List.mem_range] at hk
    obtain ⟨it, hit, rfl⟩ := hk
    exact ⟨_, _, _, rfl, trace _ _ _ _ _ hit hq, rfl⟩
  | mesh s =>
    simp only [Observer.keys, List.mem_flatMap, List.mem_map, List.mem_range] at hk
    obtain ⟨i, hi, it, hit, rfl⟩ := hk
    simp only [Observer.share] at hq
    simp only [Observer.samplePoint]
    cases h1 : MeshObs.at' s.points i with
    | error e => rw [h1] at hq; cases hq
    | ok pos =>
      rw [h1] at hq
      simp only [bind, Except.bind] at hq ⊢
      cases h2 : MeshObs.at' s.A i with
      | error e => rw [h2] at hq; cases hq
      | ok tr =>
        rw [h2] at hq
        simp only at hq
        exact ⟨_, _, _, rfl, trace _ _ _ _ _ hit hq, rfl⟩

/-- C38, what the code does: with `n` nodes every sample is `n` times the sample obtained with one node. -/
theorem C38_factor_partial (L : Lattice) (o : Observer) (ho : o.Fresh) (n : Nat) (hn : 0 < n) :
    match observeLattice n L o, observeLattice 1 L o with
    | .ok a, .ok b => a.keys = o.keys ∧ b.keys = o.keys ∧ ∀ k ∈ o.keys, ∃ f, b.get k = .ok f ∧ a.get k = .ok (f * (n : ℝ))
    | .error _, .error _ => True
    | _, _ => False := by
  obtain ⟨ow, oz⟩ := ho.ok
  have hc : ∀ m, ∀ s ∈ List.replicate m (RadSource.lattice L.field), s.Counted := by
    intro m s hs
    rw [(List.mem_replicate.mp hs).2]
    trivial
  obtain ⟨hA, hB⟩ := Observer.observe_spec ow oz (List.replicate n (RadSource.lattice L.field)) (by simp; omega) (hc n)
  obtain ⟨hA', hB'⟩ := Observer.observe_spec ow oz (List.replicate 1 (RadSource.lattice L.field)) (by simp) (hc 1)
  have hok : ∀ m, 0 < m → ∀ c, (∃ q, sumM (fun s => o.share s c) (List.replicate m (RadSource.lattice L.field)) = .ok q) ↔ ∃ q, o.share (.lattice L.field) c = .ok q := by
    intro m hm c
    rw [sumM_replicate _ _ _ hm]
    cases o.share (.lattice L.field) c with
    | error e => exact ⟨fun ⟨q, h⟩ => (by cases h), fun ⟨q, h⟩ => (by cases h)⟩
    | ok q => exact ⟨fun _ => ⟨q, rfl⟩, fun _ => ⟨_, rfl⟩⟩
  have e1 : observeLattice n L o = observe o (List.replicate n (RadSource.lattice L.field)) := rfl
  have e2 : observeLattice 1 L o = observe o (List.replicate 1 (RadSource.lattice L.field)) := rfl
  rw [e1, e2]
  cases ha : observe o (List.replicate n (RadSource.lattice L.field)) with
  | error e =>
    cases hb : observe o (List.replicate 1 (RadSource.lattice L.field)) with
    | error e' => trivial
    | ok b =>
      obtain ⟨b1, _, _, b4⟩ := hA' b hb
      obtain ⟨a, ha'⟩ := hB ⟨b1, fun c hc' => (hok n hn c).mpr ((hok 1 (by norm_num) c).mp (by obtain ⟨q, hq, _⟩ := b4 c hc'; exact ⟨q, hq⟩))⟩
      rw [ha] at ha'
      cases ha'
  | ok a =>
    obtain ⟨a1, a2, a3, a4⟩ := hA a ha
    obtain ⟨b, hb⟩ := hB' ⟨a1, fun c hc' => (hok 1 (by norm_num) c).mpr ((hok n hn c).mp (by obtain ⟨q, hq, _⟩ := a4 c hc'; exact ⟨q, hq⟩))⟩
    rw [hb]
    obtain ⟨b1, b2, b3, b4⟩ := hA' b hb
    refine ⟨by rw [← Observer.keys_blank a, a3], by rw [← Observer.keys_blank b, b3], ?_⟩
    intro k hk
    obtain ⟨q, hq, hg⟩ := a4 k.1 (Observer.key_cell hk)
    obtain ⟨q', hq', hg'⟩ := b4 k.1 (Observer.key_cell hk)
    rw [sumM_replicate _ _ _ hn] at hq
    rw [sumM_replicate _ _ _ (by norm_num)] at hq'
    refine ⟨_, hg' k hk rfl, ?_⟩
    rw [hg k hk rfl]
    cases hx : o.share (.lattice L.field) k.1 with
    | error e => rw [hx] at hq; cases hq
    | ok x =>
      rw [hx] at hq hq'
      simp only [Except.map, Except.ok.injEq] at hq hq'
      rw [← hq, ← hq', one_smul, ← nsmul_field]
      rfl

/-- a lattice with a homogeneous field and a point observer with one sample -/
theorem C38_witness : ∃ a b fa fb, observeLattice 2 [HomogeneousField ⟨1, 0, 0⟩ 0] (.point (PointObs.new 0 0 1 1)) = .ok a ∧
    observeLattice 1 [HomogeneousField ⟨1, 0, 0⟩ 0] (.point (PointObs.new 0 0 1 1)) = .ok b ∧
    a.get ((0, 0), 0) = .ok fa ∧ b.get ((0, 0), 0) = .ok fb ∧ fb.E.x = 1 ∧ fa.E.x = 2 := by
  have hfr : (Observer.point (PointObs.new 0 0 1 1)).Fresh := .point _ _ _ _
  obtain ⟨ow, oz⟩ := hfr.ok
  have hfield : ∀ t X, Lattice.field [HomogeneousField ⟨1, 0, 0⟩ 0] t X = .ok ⟨⟨1, 0, 0⟩, 0⟩ := by
    intro t X
    have := (show Lattice.field [HomogeneousField ⟨1, 0, 0⟩ 0] t X = .ok ((0 : EMField) + ⟨⟨1, 0, 0⟩, 0⟩) from rfl)
    rw [zero_add] at this
    exact this
  have hsh : ∃ q, Observer.share (.point (PointObs.new 0 0 1 1)) (.lattice (Lattice.field [HomogeneousField ⟨1, 0, 0⟩ 0])) (0, 0) = .ok q := by
    simp only [Observer.share, shareAt, PointObs.new, FieldTrace.new, hfield]
    exact ⟨_, rfl⟩
  obtain ⟨_, hB⟩ := Observer.observe_spec ow oz (List.replicate 1 (RadSource.lattice (Lattice.field [HomogeneousField ⟨1, 0, 0⟩ 0]))) (by simp) (by
    intro s hs
    rw [(List.mem_replicate.mp hs).2]
    trivial)
  obtain ⟨b, hb⟩ := hB ⟨by simp [Observer.keys, PointObs.new, FieldTrace.new], by
    intro c hc
    simp only [Observer.cellsOf, List.mem_singleton] at hc
    subst hc
    rw [sumM_replicate _ _ _ (by norm_num)]
    obtain ⟨q, hq⟩ := hsh
    rw [hq]
    exact ⟨_, rfl⟩⟩
  have hb : observeLattice 1 [HomogeneousField ⟨1, 0, 0⟩ 0] (.point (PointObs.new 0 0 1 1)) = .ok b := hb
  have hfac := C38_factor_partial [HomogeneousField ⟨1, 0, 0⟩ 0] (.point (PointObs.new 0 0 1 1)) hfr 2 (by norm_num)
  rw [hb] at hfac
  have hk : ((0, 0), 0) ∈ (Observer.point (PointObs.new 0 0 1 1)).keys := by simp [Observer.keys, PointObs.new, FieldTrace.new]
  cases ha : observeLattice 2 [HomogeneousField ⟨1, 0, 0⟩ 0] (.point (PointObs.new 0 0 1 1)) with
  | error e => rw [ha] at hfac; exact hfac.elim
  | ok a =>
    rw [ha] at hfac
    obtain ⟨f, f1, f2⟩ := hfac.2.2 _ hk
    obtain ⟨t, X, f', _, g2, g3⟩ := (C38_single_node_partial _ _ hfr b hb).2 _ hk
    rw [hfield] at g2
    injection g2 with g2
    subst g2
    rw [f1] at g3
    injection g3 with g3
    subst g3
    exact ⟨a, b, _, _, rfl, hb, f2, f1, rfl, by simp⟩

/-- C38, disagreement: with two nodes the observer of a homogeneous field contains twice the field. -/
theorem C38_full_statement_false : ¬ C38_statement := by
  intro h
  obtain ⟨a, b, fa, fb, h1, h2, h3, h4, h5, h6⟩ := C38_witness
  have := h [HomogeneousField ⟨1, 0, 0⟩ 0] (.point (PointObs.new 0 0 1 1)) 2 (.point _ _ _ _) (by norm_num)
  rw [h1, h2] at this
  injection this with this
  subst this
  rw [h3] at h4
  injection h4 with h4
  subst h4
  rw [h5] at h6
  norm_num at h6

/-! ## C43 -/

theorem remove_loop (L : Lattice) : ∀ (fuel i : Nat), i ≤ L.length → L.length - i < fuel →
    removeInteractions fuel i L = .ok (L.take i ++ (L.drop i).filter (fun e => e.isExternal)) := by
  intro fuel
  induction fuel generalizing L with
  | zero => intro i _ h; omega
  | succ fuel ih =>
    intro i hi hf
    unfold removeInteractions
    by_cases hlt : i < L.length
    · rw [if_pos (show (i : Int) < L.count by simp only [Lattice.count]; omega)]
      have hat : L.elemAt i = .ok L[i] := by
        unfold Lattice.elemAt
        rw [if_neg (by omega), if_neg (by omega)]
        simp [List.getElem?_eq_getElem hlt]
      rw [hat]
      simp only [bind, Except.bind]
      cases he : L[i].isExternal with
      | false =>
        have hrem : L.remove i = .ok (L.eraseIdx i) := by
          unfold Lattice.remove
          rw [if_neg (by omega), if_neg (by omega)]
          simp
        rw [hrem]
        simp only [Bool.not_false, if_true]
        have hlen : (L.eraseIdx i).length = L.length - 1 := by rw [List.length_eraseIdx, if_pos hlt]
        rw [ih (L.eraseIdx i) i (by omega) (by omega)]
        rw [List.drop_eq_getElem_cons hlt, List.filter_cons_of_neg (by rw [he]; simp)]
        rw [List.eraseIdx_eq_take_drop_succ]
        have hl : (L.take i).length = i := by rw [List.length_take]; omega
        rw [List.take_left' hl, List.drop_left' hl]
      | true =>
        simp only [Bool.not_true, Bool.false_eq_true, if_false]
        have := ih L (i + 1) (by omega) (by omega)
        rw [show ((i : Int) + 1) = ((i + 1 : Nat) : Int) by push_cast; ring, this]
        rw [List.drop_eq_getElem_cons hlt, List.filter_cons_of_pos he, List.take_succ_eq_append_getElem hlt, List.append_assoc]
        rfl
    · rw [if_neg (show ¬ (i : Int) < L.count by simp only [Lattice.count]; omega)]
      rw [List.drop_of_length_le (by omega), List.take_of_length_le (by omega)]
      simp

/-- C43: the loop ends after at most one iteration per element, never accesses the lattice outside its range, and
leaves exactly those elements that are external, in their order. -/
theorem C43_removal (L : Lattice) : ∃ fuel, removeInteractions fuel 0 L = .ok (L.filter (fun e => e.isExternal)) ∧
    ∀ fuel' ≥ fuel, removeInteractions fuel' 0 L = .ok (L.filter (fun e => e.isExternal)) := by
  have h : ∀ fuel' ≥ L.length + 1, removeInteractions fuel' 0 L = .ok (L.filter (fun e => e.isExternal)) := by
    intro f hf
    have := remove_loop L f 0 (by omega) (by omega)
    simpa using this
  exact ⟨L.length + 1, h _ le_rfl, h⟩

/-- C43: for a lattice of homogeneous and localised fields and interaction fields exactly the interaction fields are
removed -/
theorem C43_elements (L : List (GeneralField ⊕ FieldFn)) (hL : ∀ e, Sum.inl e ∈ L → (∃ E B, e = HomogeneousField E B) ∨ ∃ f t0 X, e = LocalizedField f t0 X) :
    ∃ fuel, removeInteractions fuel 0 (L.map (Sum.elim id InteractionField)) = .ok (L.filterMap (Sum.elim some (fun _ => none))) := by
  obtain ⟨fuel, h, -⟩ := C43_removal (L.map (Sum.elim id InteractionField))
  refine ⟨fuel, h.trans ?_⟩
  congr 1
  clear h
  clear * - hL
  induction L with
  | nil => rfl
  | cons e L ih =>
    have ih := ih (fun e he => hL e (by simp [he]))
    cases e with
    | inl e =>
      have he : e.isExternal = true := by
        rcases hL e (by simp) with ⟨E, B, rfl⟩ | ⟨f, t0, X, rfl⟩ <;> rfl
      rw [List.map_cons, List.filterMap_cons_some (show Sum.elim some (fun _ => none) (Sum.inl e : GeneralField ⊕ FieldFn) = some e from rfl), List.filter_cons_of_pos (by simpa using he), ih]
      rfl
    | inr f => rw [List.map_cons, List.filterMap_cons_none rfl, List.filter_cons_of_neg (by simp [InteractionField]), ih]

/-- non-vacuity of C43 -/
example : ∃ fuel, removeInteractions fuel 0 [InteractionField (fun _ _ => .ok 0), HomogeneousField 0 0, InteractionField (fun _ _ => .ok 0)] = .ok [HomogeneousField 0 0] :=
  C43_elements [.inr (fun _ _ => .ok 0), .inl (HomogeneousField 0 0), .inr (fun _ _ => .ok 0)] (by simp)

/-- C43, observation: a lattice used as an element of a lattice counts as an interaction and is removed.  (The input
file cannot express this.) -/
theorem C43_nested_lattice (E B : Vec) : ∃ fuel, removeInteractions fuel 0 [Lattice.asField [HomogeneousField E B]] = .ok [] := by
  obtain ⟨fuel, h, _⟩ := C43_removal [Lattice.asField [HomogeneousField E B]]
  exact ⟨fuel, h⟩

end Teufel
