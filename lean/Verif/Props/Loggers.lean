import Verif.Lemmas.Output

/-! # C41: loggers record exactly at the requested steps -/

namespace Teufel
open Vec

variable {σ : Type}

/-- observation: `m` and `t` are the master beam and the tracked beam of rank 0 after `j` steps of the run -/
def RootAt {ω} (R : Run σ ω) (ms : List Beam) (s : σ) (out : ω) (j : Nat) (m t : Beam) : Prop :=
  ∃ w, runSteps R ms s out j = .ok w ∧ w.root = some (m, t)

theorem update_stepsize {junk : Nat → ℝ} {fuel : Nat} {m t : Beam} {l l' : Logger} (h : l.update junk fuel m t = .ok l') :
    l'.stepsize = l.stepsize := by
  cases l with
  | param i L =>
    simp only [Logger.update] at h
    cases hv : Particle.vecAt m.B i with
    | error e => rw [hv] at h; cases h
    | ok bu => rw [hv] at h; simp only [Except.map] at h; injection h with h; subst h; rfl
  | traj i L =>
    simp only [Logger.update, bind, Except.bind, pure, Except.pure] at h
    cases hv : Particle.vecAt m.B i with
    | error e => rw [hv] at h; cases h
    | ok bu =>
      rw [hv] at h
      simp only [TrajLog.update, bind, Except.bind, pure, Except.pure] at h
      cases hb : bu.bufferCoordinates L.NOP with
      | error e => rw [hb] at h; cases h
      | ok vals =>
        rw [hb] at h
        simp only at h
        by_cases hl : vals.length ≤ L.NOP * 6
        · rw [if_pos hl] at h; simp only at h; injection h with h; subst h; rfl
        · rw [if_neg hl] at h; cases h
  | probe L =>
    simp only [Logger.update, ProbeLog.update, bind, Except.bind, pure, Except.pure] at h
    cases hb : t.bufferProbe L.NOP fuel with
    | error e => rw [hb] at h; cases h
    | ok vals =>
      rw [hb] at h
      simp only at h
      by_cases hl : vals.length ≤ Beam.getProbeBufferSize L.NOP
      · rw [if_pos hl] at h; simp only [Except.map] at h; injection h with h; subst h; rfl
      · rw [if_neg hl] at h; cases h

theorem writeWatches_loggers {k : Int} {m : Beam} {o o' : Output} (h : writeWatches k m o = .ok o') :
    o'.loggers = o.loggers ∧ o'.watches = o.watches := by
  unfold writeWatches at h
  simp only [bind, Except.bind, pure, Except.pure] at h
  split at h
  · cases h
  · injection h with h; subst h; exact ⟨rfl, rfl⟩

theorem start_logger {junk : Nat → ℝ} {fuel : Nat} {m t : Beam} {o o' : Output} (h : o.start junk fuel m t = .ok o') {i : Nat} {l : Logger}
    (hl : o.loggers[i]? = some l) : ∃ l', l.update junk fuel m t = .ok l' ∧ o'.loggers[i]? = some l' := by
  unfold Output.start at h
  simp only [bind, Except.bind, pure, Except.pure] at h
  cases hw : writeWatches 0 m o with
  | error e => rw [hw] at h; cases h
  | ok o1 =>
    rw [hw] at h
    simp only at h
    cases hm : o1.loggers.mapM (Logger.update junk fuel m t) with
    | error e => rw [hm] at h; cases h
    | ok ls =>
      rw [hm] at h
      simp only at h
      injection h with h
      subst h
      rw [(writeWatches_loggers hw).1] at hm
      exact mapM_get hm i l hl

theorem step_logger {junk : Nat → ℝ} {fuel : Nat} {k : Nat} {m t : Beam} {o o' : Output} (h : o.step junk fuel k m t = .ok o') {i : Nat} {l : Logger}
    (hl : o.loggers[i]? = some l) : ∃ l', l.maybe junk fuel k m t = .ok l' ∧ o'.loggers[i]? = some l' := by
  unfold Output.step at h
  simp only [bind, Except.bind] at h
  cases hm : o.loggers.mapM (Logger.maybe junk fuel k m t) with
  | error e => rw [hm] at h; cases h
  | ok ls =>
    rw [hm] at h
    simp only at h
    rw [(writeWatches_loggers h).1]
    exact mapM_get hm i l hl

/-- a logger is updated with the states at steps 0, st, 2 st, ... -/
theorem history (R : Run σ Output) (junk : Nat → ℝ) (fuel : Nat) (hR : R.stepOut = Output.step junk fuel) (ms : List Beam) (s : σ) (out : Output) (i st : Nat)
    (Q : Beam → Beam → Logger → Prop)
    (h0 : ∀ m t o', R.startOut m t out = .ok o' → ∃ l l', Q m t l ∧ l.stepsize = st ∧ l.update junk fuel m t = .ok l' ∧ o'.loggers[i]? = some l')
    (hst : 1 ≤ st) (k : Nat) (w : World σ Output) (hw : runSteps R ms s out k = .ok w) :
    ∃ (l : Logger) (H : List (Beam × Beam)) (l' : Logger), H.length = 1 + k / st ∧
      (∀ (j : Nat) r, H[j]? = some r → RootAt R ms s out (j * st) r.1 r.2) ∧ (∃ r, H[0]? = some r ∧ Q r.1 r.2 l) ∧
      H.foldlM (fun (l : Logger) (r : Beam × Beam) => l.update junk fuel r.1 r.2) l = .ok l' ∧ l'.stepsize = st ∧
      w.out.loggers[i]? = some l' := by
  induction k generalizing w with
  | zero =>
    obtain ⟨m, t, h1, h2⟩ := run_start _ ms s out w hw
    obtain ⟨l, l', h0P, h0s, h3, h4⟩ := h0 m t _ h2
    refine ⟨l, [(m, t)], l', by simp, ?_, ⟨(m, t), rfl, h0P⟩, ?_, (update_stepsize h3).trans h0s, h4⟩
    · intro j r hr
      cases j with
      | zero => simp at hr; subst hr; exact ⟨w, by simpa using hw, h1⟩
      | succ j => simp at hr
    · simp only [List.foldlM_cons, List.foldlM_nil, h3, bind, Except.bind, pure, Except.pure]
  | succ k ih =>
    obtain ⟨w', hw'⟩ := runSteps_prefix _ ms s out (k + 1) w hw k (by omega)
    obtain ⟨l, H, l', i1, i2, iP, i3, i4, i5⟩ := ih w' hw'
    obtain ⟨m, t, h1, h2⟩ := run_next _ ms s out k w' w hw' (run_root _ ms s out k w' hw') hw
    rw [hR] at h2
    obtain ⟨l'', h3, h4⟩ := step_logger h2 i5
    unfold Logger.maybe logRequested at h3
    rw [i4, if_neg (by omega)] at h3
    simp only [bind, Except.bind, pure, Except.pure] at h3
    by_cases hd : (k + 1) % st = 0
    · simp only [hd, decide_true, if_true] at h3
      have hdiv : (k + 1) / st = k / st + 1 := Nat.succ_div_of_dvd (Nat.dvd_of_mod_eq_zero hd)
      have hne : 0 < H.length := by rw [i1]; exact Nat.lt_of_lt_of_le Nat.one_pos (Nat.le_add_right _ _)
      refine ⟨l, H ++ [(m, t)], l'', by rw [List.length_append, i1, hdiv]; simp; omega, ?_, ?_, ?_, (update_stepsize h3).trans i4, h4⟩
      · intro j r hr
        by_cases hj : j < H.length
        · rw [List.getElem?_append_left hj] at hr
          exact i2 j r hr
        · rw [List.getElem?_append_right (by omega)] at hr
          have hj0 : j - H.length = 0 := by
            by_contra hne
            obtain ⟨q, hq⟩ := Nat.exists_eq_succ_of_ne_zero hne
            rw [hq] at hr
            simp at hr
          rw [hj0] at hr
          simp at hr
          subst hr
          have hje : j = (k + 1) / st := by omega
          refine ⟨w, ?_, h1⟩
          rw [hje, Nat.div_mul_cancel (Nat.dvd_of_mod_eq_zero hd)]
          exact hw
      · obtain ⟨r, r1, r2⟩ := iP
        exact ⟨r, by rw [List.getElem?_append_left hne]; exact r1, r2⟩
      · rw [List.foldlM_append, i3]
        simp only [List.foldlM_cons, List.foldlM_nil, h3, bind, Except.bind, pure, Except.pure]
    · simp only [hd, decide_false, Bool.false_eq_true, if_false] at h3
      injection h3 with h3
      subst h3
      have hdiv : (k + 1) / st = k / st := by
        rw [Nat.succ_div, if_neg (fun h => hd (Nat.mod_eq_zero_of_dvd h))]; simp
      exact ⟨l, H, l', by rw [hdiv]; exact i1, i2, iP, i3, i4, h4⟩

theorem records_start {R : Run σ Output} {junk : Nat → ℝ} {fuel : Nat} {probe : Option (Nat × Nat)} (hR : R.Records junk fuel probe) {m t : Beam} {o o' : Output}
    (h : R.startOut m t o = .ok o') {i : Nat} {l : Logger} (hl : o.loggers[i]? = some l) : ∃ l', l.update junk fuel m t = .ok l' ∧ o'.loggers[i]? = some l' := by
  rw [hR.2] at h
  cases probe with
  | none => exact start_logger h hl
  | some p =>
    simp only [Output.startProbe] at h
    cases hL : ProbeLog.new t p.1 p.2 with
    | error e => rw [hL] at h; cases h
    | ok L =>
      rw [hL] at h
      simp only [bind, Except.bind] at h
      refine start_logger h ?_
      simp only
      rw [List.getElem?_append_left (List.getElem?_eq_some_iff.mp hl).1]
      exact hl

theorem logger_history (R : Run σ Output) (junk : Nat → ℝ) (fuel : Nat) {probe : Option (Nat × Nat)} (hR : R.Records junk fuel probe) (ms : List Beam) (s : σ) (out : Output) (i : Nat) (l : Logger)
    (hl : out.loggers[i]? = some l) (hst : 1 ≤ l.stepsize) (k : Nat) (w : World σ Output)
    (hw : runSteps R ms s out k = .ok w) :
    ∃ (H : List (Beam × Beam)) (l' : Logger), H.length = 1 + k / l.stepsize ∧
      (∀ (j : Nat) r, H[j]? = some r → RootAt R ms s out (j * l.stepsize) r.1 r.2) ∧
      H.foldlM (fun (l : Logger) (r : Beam × Beam) => l.update junk fuel r.1 r.2) l = .ok l' ∧ l'.stepsize = l.stepsize ∧
      w.out.loggers[i]? = some l' := by
  obtain ⟨l1, H, l', h1, h2, ⟨_, _, rfl⟩, h3, h4, h5⟩ := history R junk fuel hR.1 ms s out i l.stepsize (fun _ _ l1 => l1 = l) (by
    intro m t o' ho
    obtain ⟨l', e1, e2⟩ := records_start hR ho hl
    exact ⟨l, l', rfl, rfl, e1, e2⟩) hst k w hw
  exact ⟨H, l', h1, h2, h3, h4, h5⟩

theorem param_fold (junk : Nat → ℝ) (fuel : Nat) (b : Nat) (H : List (Beam × Beam)) (L : ParamLog) (l' : Logger)
    (h : H.foldlM (fun (l : Logger) (r : Beam × Beam) => l.update junk fuel r.1 r.2) (.param b L) = .ok l') :
    ∃ bus : List Bunch, bus.length = H.length ∧ (∀ (j : Nat) bu, bus[j]? = some bu → ∃ r, H[j]? = some r ∧ r.1.B[b]? = some bu) ∧
      l' = .param b (bus.foldl ParamLog.update L) := by
  induction H generalizing L with
  | nil =>
    simp only [List.foldlM_nil, pure, Except.pure] at h
    injection h with h
    exact ⟨[], rfl, by simp, h.symm⟩
  | cons r H ih =>
    rw [List.foldlM_cons] at h
    simp only [Logger.update, bind, Except.bind] at h
    unfold Particle.vecAt at h
    cases hb : r.1.B[b]? with
    | none => rw [hb] at h; cases h
    | some bu =>
      rw [hb] at h
      obtain ⟨bus, h1, h2, h3⟩ := ih (L.update bu) h
      refine ⟨bu :: bus, by simp [h1], ?_, h3⟩
      intro j bu' hj
      cases j with
      | zero => simp at hj; subst hj; exact ⟨r, rfl, hb⟩
      | succ j => simp only [List.getElem?_cons_succ] at hj ⊢; exact h2 j bu' hj

/-- the value recorded as bunching factor, specification -/
noncomputable def bunchingSpec (bf : Option ℝ) (bu : Bunch) : Except Err ℝ :=
  match bf with
  | some f => (bu.BunchingFactor f).map (fun z => ‖z‖)
  | none => .ok 0

theorem param_columns (bus : List Bunch) (L : ParamLog) :
    (bus.foldl ParamLog.update L).NOTS = L.NOTS + bus.length ∧ (bus.foldl ParamLog.update L).bunching = L.bunching ∧
    (bus.foldl ParamLog.update L).Time = L.Time ++ bus.map Bunch.avgTime ∧
    (bus.foldl ParamLog.update L).Pos = L.Pos ++ bus.map Bunch.avgPosition ∧
    (bus.foldl ParamLog.update L).BG = L.BG ++ bus.map Bunch.avgMomentum ∧
    (bus.foldl ParamLog.update L).PosRMS = L.PosRMS ++ bus.map Bunch.rmsPosition ∧
    (bus.foldl ParamLog.update L).Gamma = L.Gamma ++ bus.map Bunch.avgGamma ∧
    (bus.foldl ParamLog.update L).BGRMS.length = L.BGRMS.length + bus.length ∧
    (bus.foldl ParamLog.update L).PosBG.length = L.PosBG.length + bus.length ∧
    (bus.foldl ParamLog.update L).BF = L.BF ++ bus.map (bunchingSpec L.bunching) ∧
    (bus.foldl ParamLog.update L).Delta = L.Delta ++ bus.map Bunch.delta := by
  induction bus generalizing L with
  | nil => simp
  | cons bu bus ih =>
    obtain ⟨h1, h2, h3, h4, h5, h6, h7, h8, h9, h10, h11⟩ := ih (L.update bu)
    simp only [List.foldl_cons, h1, h2, h3, h4, h5, h6, h7, h8, h9, h10, h11]
    simp only [ParamLog.update, ParamLog.bfValue, List.length_cons, List.map_cons, List.append_assoc, List.cons_append, List.nil_append,
      List.length_append, List.length_nil]
    refine ⟨by omega, trivial, trivial, trivial, trivial, trivial, trivial, by omega, by omega, ?_, trivial⟩
    rfl

/-- C41: a parameter logger with step size `st` on bunch `b`.  After `k` steps it holds `1+⌊k/st⌋` records in every
column, the table can be written, and record `l` contains the averages of the bunch after `l*st` steps. -/
theorem C41_parameter (R : Run σ Output) (junk : Nat → ℝ) (fuel : Nat) {probe : Option (Nat × Nat)} (hR : R.Records junk fuel probe) (ms : List Beam) (s : σ) (out : Output) (i b st : Nat) (bf : Option ℝ)
    (hst : 1 ≤ st) (hl : out.loggers[i]? = some (.param b (ParamLog.new st bf))) (k : Nat) (w : World σ Output)
    (hw : runSteps R ms s out k = .ok w) :
    ∃ L, w.out.loggers[i]? = some (.param b L) ∧ L.NOTS = 1 + k / st ∧
      L.Time.length = 1 + k / st ∧ L.Pos.length = 1 + k / st ∧ L.BG.length = 1 + k / st ∧ L.PosRMS.length = 1 + k / st ∧
      L.Gamma.length = 1 + k / st ∧ L.BGRMS.length = 1 + k / st ∧ L.PosBG.length = 1 + k / st ∧ L.BF.length = 1 + k / st ∧
      L.Delta.length = 1 + k / st ∧
      (∀ l, l * st ≤ k → ∃ m t bu, RootAt R ms s out (l * st) m t ∧ m.B[b]? = some bu ∧
        L.Time[l]? = some bu.avgTime ∧ L.Pos[l]? = some bu.avgPosition ∧ L.BG[l]? = some bu.avgMomentum ∧
        L.PosRMS[l]? = some bu.rmsPosition ∧ L.Gamma[l]? = some bu.avgGamma ∧ L.BF[l]? = some (bunchingSpec bf bu) ∧
        L.Delta[l]? = some bu.delta) ∧
      ∃ rows, L.table = .ok rows ∧ rows.length = 1 + k / st := by
  obtain ⟨H, l', h1, h2, h3, h4, h5⟩ := logger_history R junk fuel hR ms s out i _ hl hst k w hw
  obtain ⟨bus, g1, g2, rfl⟩ := param_fold junk fuel b H _ l' h3
  obtain ⟨c1, c2, c3, c4, c5, c6, c7, c8, c9, c10, c11⟩ := param_columns bus (ParamLog.new st bf)
  have hst' : (Logger.param b (ParamLog.new st bf)).stepsize = st := rfl
  rw [hst'] at h1 h2
  have hn : bus.length = 1 + k / st := g1.trans h1
  simp only [ParamLog.new, List.nil_append, List.length_nil, Nat.zero_add] at c1 c3 c4 c5 c6 c7 c8 c9 c10 c11
  refine ⟨_, h5, ?_, ?_, ?_, ?_, ?_, ?_, ?_, ?_, ?_, ?_, ?_, ?_⟩
  · rw [← hn]; exact c1
  · rw [← hn, ← List.length_map (f := Bunch.avgTime)]; exact congrArg List.length c3
  · rw [← hn, ← List.length_map (f := Bunch.avgPosition)]; exact congrArg List.length c4
  · rw [← hn, ← List.length_map (f := Bunch.avgMomentum)]; exact congrArg List.length c5
  · rw [← hn, ← List.length_map (f := Bunch.rmsPosition)]; exact congrArg List.length c6
  · rw [← hn, ← List.length_map (f := Bunch.avgGamma)]; exact congrArg List.length c7
  · rw [← hn]; exact c8
  · rw [← hn]; exact c9
  · rw [← hn, ← List.length_map (f := bunchingSpec bf)]; exact congrArg List.length c10
  · rw [← hn, ← List.length_map (f := Bunch.delta)]; exact congrArg List.length c11
  · intro l hlk
    have hlt : l < bus.length := by
      rw [hn]
      have := (Nat.le_div_iff_mul_le (by omega)).mpr hlk
      omega
    have hbu := List.getElem?_eq_getElem hlt
    obtain ⟨r, hr1, hr2⟩ := g2 l _ hbu
    refine ⟨r.1, r.2, bus[l], h2 l r hr1, hr2, ?_, ?_, ?_, ?_, ?_, ?_, ?_⟩
    · refine (congrArg (fun l' => l'[l]?) c3).trans ?_; simp only [List.getElem?_map, hbu, Option.map_some]
    · refine (congrArg (fun l' => l'[l]?) c4).trans ?_; simp only [List.getElem?_map, hbu, Option.map_some]
    · refine (congrArg (fun l' => l'[l]?) c5).trans ?_; simp only [List.getElem?_map, hbu, Option.map_some]
    · refine (congrArg (fun l' => l'[l]?) c6).trans ?_; simp only [List.getElem?_map, hbu, Option.map_some]
    · refine (congrArg (fun l' => l'[l]?) c7).trans ?_; simp only [List.getElem?_map, hbu, Option.map_some]
    · refine (congrArg (fun l' => l'[l]?) c10).trans ?_; simp only [List.getElem?_map, hbu, Option.map_some]
    · refine (congrArg (fun l' => l'[l]?) c11).trans ?_; simp only [List.getElem?_map, hbu, Option.map_some]
  · have hrow : ∃ rows, (bus.foldl ParamLog.update (ParamLog.new st bf)).table = .ok rows := by
      unfold ParamLog.table
      apply mapM_exists
      intro j hj
      rw [List.mem_range] at hj
      have hlt : j < bus.length := by
        have : (bus.foldl ParamLog.update (ParamLog.new st bf)).NOTS = bus.length := c1
        omega
      have hbu := List.getElem?_eq_getElem hlt
      have e : ∀ {α : Type} (c : List α) (f : Bunch → α), c = bus.map f → Particle.vecAt c j = .ok (f bus[j]) := by
        intro α c f hc
        subst hc
        unfold Particle.vecAt
        rw [List.getElem?_map, hbu]
        rfl
      unfold ParamLog.row
      rw [show Particle.vecAt (bus.foldl ParamLog.update (ParamLog.new st bf)).Time j = _ from e _ _ c3,
        show Particle.vecAt (bus.foldl ParamLog.update (ParamLog.new st bf)).Pos j = _ from e _ _ c4,
        show Particle.vecAt (bus.foldl ParamLog.update (ParamLog.new st bf)).BG j = _ from e _ _ c5,
        show Particle.vecAt (bus.foldl ParamLog.update (ParamLog.new st bf)).Gamma j = _ from e _ _ c7,
        show Particle.vecAt (bus.foldl ParamLog.update (ParamLog.new st bf)).Delta j = _ from e _ _ c11,
        show Particle.vecAt (bus.foldl ParamLog.update (ParamLog.new st bf)).PosRMS j = _ from e _ _ c6,
        show Particle.vecAt (bus.foldl ParamLog.update (ParamLog.new st bf)).BF j = _ from e _ _ c10]
      exact ⟨_, rfl⟩
    obtain ⟨rows, hrows⟩ := hrow
    refine ⟨rows, hrows, ?_⟩
    have := (mapM_except_length hrows).1
    rw [this, List.length_range, ← hn]
    exact c1

/-- C41: a logger with step size zero ends every run of at least one step (division by zero). -/
theorem C41_zero (R : Run σ Output) (junk : Nat → ℝ) (fuel : Nat) {probe : Option (Nat × Nat)} (hR : R.Records junk fuel probe) (ms : List Beam) (s : σ) (out : Output) (i : Nat) (l : Logger)
    (hl : out.loggers[i]? = some l) (hst : l.stepsize = 0) (k : Nat) (hk : 1 ≤ k) (w : World σ Output) :
    runSteps R ms s out k ≠ .ok w := by
  intro hw
  obtain ⟨w1, hw1⟩ := runSteps_prefix _ ms s out k w hw 1 hk
  obtain ⟨w0, hw0⟩ := runSteps_prefix _ ms s out k w hw 0 (by omega)
  obtain ⟨m, t, h1, h2⟩ := run_start _ ms s out w0 hw0
  obtain ⟨l', h3, h4⟩ := records_start hR h2 hl
  obtain ⟨m', t', h5, h6⟩ := run_next _ ms s out 0 w0 w1 hw0 ⟨_, h1⟩ hw1
  rw [hR.1] at h6
  obtain ⟨l'', h7, _⟩ := step_logger h6 h4
  unfold Logger.maybe logRequested at h7
  rw [update_stepsize h3, if_pos hst] at h7
  cases h7

theorem traj_fold (junk : Nat → ℝ) (fuel : Nat) (b : Nat) (H : List (Beam × Beam)) (L : TrajLog) (l' : Logger)
    (h : H.foldlM (fun (l : Logger) (r : Beam × Beam) => l.update junk fuel r.1 r.2) (.traj b L) = .ok l') :
    ∃ (bus : List Bunch) (recs : List (List ℝ)), bus.length = H.length ∧ recs.length = H.length ∧
      (∀ (j : Nat) bu, bus[j]? = some bu → ∃ r, H[j]? = some r ∧ r.1.B[b]? = some bu) ∧
      (∀ (j : Nat) bu v, bus[j]? = some bu → recs[j]? = some v → ∃ vals, bu.bufferCoordinates L.NOP = .ok vals ∧ vals.length ≤ L.NOP * 6 ∧
        v = vals ++ (List.range (L.NOP * 6 - vals.length)).map junk) ∧
      l' = .traj b { L with data := L.data ++ recs, NOTS := L.NOTS + recs.length } := by
  induction H generalizing L with
  | nil =>
    simp only [List.foldlM_nil, pure, Except.pure] at h
    injection h with h
    exact ⟨[], [], rfl, rfl, by simp, by simp, by simp [← h]⟩
  | cons r H ih =>
    rw [List.foldlM_cons] at h
    simp only [Logger.update, bind, Except.bind] at h
    unfold Particle.vecAt at h
    cases hb : r.1.B[b]? with
    | none => rw [hb] at h; cases h
    | some bu =>
      rw [hb] at h
      simp only [TrajLog.update, bind, Except.bind, pure, Except.pure] at h
      cases hc : bu.bufferCoordinates L.NOP with
      | error e => rw [hc] at h; cases h
      | ok vals =>
        rw [hc] at h
        simp only at h
        by_cases hle : vals.length ≤ L.NOP * 6
        · rw [if_pos hle] at h
          obtain ⟨bus, recs, h1, h2, h3, h4, h5⟩ := ih _ h
          refine ⟨bu :: bus, (vals ++ (List.range (L.NOP * 6 - vals.length)).map junk) :: recs, by simp [h1], by simp [h2], ?_, ?_, ?_⟩
          · intro j bu' hj
            cases j with
            | zero => simp at hj; subst hj; exact ⟨r, rfl, hb⟩
            | succ j => simp only [List.getElem?_cons_succ] at hj ⊢; exact h3 j bu' hj
          · intro j bu' v hj hv
            cases j with
            | zero => simp at hj hv; subst hj; exact ⟨vals, hc, hle, hv.symm⟩
            | succ j => simp only [List.getElem?_cons_succ] at hj hv; exact h4 j bu' v hj hv
          · rw [h5]
            simp only [List.append_assoc, List.cons_append, List.nil_append, List.length_cons]
            congr 2
            omega
        · rw [if_neg hle] at h; cases h

theorem length_flatMap_const {α β} (f : α → List β) (n : Nat) (l : List α) (h : ∀ a ∈ l, (f a).length = n) : (l.flatMap f).length = l.length * n := by
  induction l with
  | nil => simp
  | cons a l ih =>
    rw [List.flatMap_cons, List.length_append, h a (by simp), ih (fun x hx => h x (by simp [hx])), List.length_cons]
    ring

theorem root_mem {ω} {w : World σ ω} {m t : Beam} (h : w.root = some (m, t)) : ∃ n ∈ w.nodes, n.master = m ∧ n.tracked = t := by
  unfold World.root at h
  cases hh : w.nodes.head? with
  | none => rw [hh] at h; cases h
  | some n =>
    rw [hh] at h
    simp only [Option.map_some, Option.some.injEq, Prod.mk.injEq] at h
    exact ⟨n, List.mem_of_head? hh, h.1, h.2⟩

/-- C41: a trajectory logger for up to `number` particles of bunch `b`.  After `k` steps it holds `1+⌊k/st⌋` records;
record `l` are position and momentum of the first `min(number, NOP)` particles of the bunch after `l*st` steps, nothing
undefined is recorded, and the output has `NOTS*NOP*6` values. -/
theorem C41_trajectory (R : Run σ Output) (junk : Nat → ℝ) (fuel : Nat) {probe : Option (Nat × Nat)} (hR : R.Records junk fuel probe) (hN : 0 < R.nodes) (ms : List Beam) (hlen : ms.length = R.nodes)
    (hreach : ∀ m ∈ ms, Beam.Reachable m) (m0 : Beam) (hm0 : ms.head? = some m0) (hblank : ∀ m ∈ ms, Beam.blank m = m0.blank)
    (s : σ) (out : Output) (i b st number : Nat) (bu0 : Bunch) (hb0 : m0.B[b]? = some bu0)
    (hst : 1 ≤ st) (hl : out.loggers[i]? = some (.traj b (TrajLog.new bu0 st number))) (k : Nat) (w : World σ Output)
    (hw : runSteps R ms s out k = .ok w) :
    ∃ L, w.out.loggers[i]? = some (.traj b L) ∧ L.NOTS = 1 + k / st ∧ L.data.length = 1 + k / st ∧ L.NOP = min number bu0.getNOP ∧
      (∀ l, l * st ≤ k → ∃ m t bu, RootAt R ms s out (l * st) m t ∧ m.B[b]? = some bu ∧ bu.getNOP = bu0.getNOP ∧
        L.data[l]? = some ((bu.P.take L.NOP).flatMap (fun p => [p.XCur.x, p.XCur.y, p.XCur.z, p.PCur.x, p.PCur.y, p.PCur.z]))) ∧
      L.output = .ok L.data.flatten ∧ L.data.flatten.length = L.NOTS * L.NOP * 6 := by
  obtain ⟨H, l', h1, h2, h3, h4, h5⟩ := logger_history R junk fuel hR ms s out i _ hl hst k w hw
  obtain ⟨bus, recs, g1, g2, g3, g4, rfl⟩ := traj_fold junk fuel b H _ l' h3
  have hst' : (Logger.traj b (TrajLog.new bu0 st number)).stepsize = st := rfl
  rw [hst'] at h1 h2
  have hn : recs.length = 1 + k / st := g2.trans h1
  have hnop : (TrajLog.new bu0 st number).NOP = min number bu0.getNOP := by
    simp only [TrajLog.new]
    split <;> omega
  -- bunch sizes
  have hsize : ∀ (j : Nat) bu, bus[j]? = some bu → bu.getNOP = bu0.getNOP ∧ bu.NOP = bu.P.length := by
    intro j bu hbu
    obtain ⟨r, hr1, hr2⟩ := g3 j bu hbu
    obtain ⟨w', hw', hroot⟩ := h2 j r hr1
    obtain ⟨n, hn, hm, _⟩ := root_mem hroot
    obtain ⟨q1, q2⟩ := run_sizes R hN ms hlen hreach m0 hm0 hblank s out _ w' hw' n hn
    rw [hm] at q1 q2
    have := congrArg (fun l => l[b]?) q2
    simp only [List.getElem?_map, hr2, hb0, Option.map_some, Option.some.injEq] at this
    exact ⟨this, (q1.2 bu (List.mem_of_getElem? hr2)).1⟩
  have hrec : ∀ (j : Nat) v, recs[j]? = some v → ∃ bu, bus[j]? = some bu ∧
      v = (bu.P.take (TrajLog.new bu0 st number).NOP).flatMap (fun p => [p.XCur.x, p.XCur.y, p.XCur.z, p.PCur.x, p.PCur.y, p.PCur.z]) ∧
      v.length = (TrajLog.new bu0 st number).NOP * 6 := by
    intro j v hv
    have hlt : j < bus.length := by
      have := (List.getElem?_eq_some_iff.mp hv).1
      omega
    have hbu := List.getElem?_eq_getElem hlt
    obtain ⟨e1, e2⟩ := hsize j _ hbu
    obtain ⟨vals, v1, v2, v3⟩ := g4 j _ v hbu hv
    have hle : (TrajLog.new bu0 st number).NOP ≤ bus[j].NOP := by
      rw [hnop]
      have : bus[j].NOP = bu0.getNOP := e1
      omega
    have hvals : vals = (bus[j].P.take (TrajLog.new bu0 st number).NOP).flatMap (fun p => [p.XCur.x, p.XCur.y, p.XCur.z, p.PCur.x, p.PCur.y, p.PCur.z]) := by
      unfold Bunch.bufferCoordinates visited at v1
      have hc : (if bus[j].NOP > (TrajLog.new bu0 st number).NOP then (TrajLog.new bu0 st number).NOP else bus[j].NOP) = (TrajLog.new bu0 st number).NOP := by
        split <;> omega
      rw [hc, if_pos (by omega)] at v1
      simp only [Except.map] at v1
      injection v1 with v1
      rw [← v1]
      rfl
    have hlen : vals.length = (TrajLog.new bu0 st number).NOP * 6 := by
      rw [hvals, length_flatMap_const _ 6 _ (fun _ _ => rfl), List.length_take, Nat.min_eq_left (by omega)]
    rw [hlen] at v3
    simp only [Nat.sub_self, List.range_zero, List.map_nil, List.append_nil] at v3
    exact ⟨_, hbu, by rw [v3, hvals], by rw [v3, hlen]⟩
  have hlens : ∀ v ∈ recs, v.length = (TrajLog.new bu0 st number).NOP * 6 := by
    intro v hv
    obtain ⟨j, hj⟩ := List.getElem?_of_mem hv
    obtain ⟨_, _, _, h⟩ := hrec j v hj
    exact h
  refine ⟨_, h5, ?_, ?_, hnop, ?_, ?_, ?_⟩
  · simp only [TrajLog.new, Nat.zero_add]; exact hn
  · simp only [TrajLog.new, List.nil_append]; exact hn
  · intro l hlk
    have hlt : l < recs.length := by
      rw [hn]
      have := (Nat.le_div_iff_mul_le (by omega)).mpr hlk
      omega
    have hv := List.getElem?_eq_getElem hlt
    obtain ⟨bu, b1, b2, _⟩ := hrec l _ hv
    obtain ⟨r, hr1, hr2⟩ := g3 l bu b1
    refine ⟨r.1, r.2, bu, h2 l r hr1, hr2, (hsize l bu b1).1, ?_⟩
    have : (TrajLog.new bu0 st number).data = [] := rfl
    simp only [this, List.nil_append, hv, b2]
  · have hd : (TrajLog.new bu0 st number).data = [] := rfl
    have hz : (TrajLog.new bu0 st number).NOTS = 0 := rfl
    unfold TrajLog.output
    simp only [hd, hz, List.nil_append, Nat.zero_add]
    have hm : (List.range recs.length).mapM (fun i : Nat => do
        let src ← Particle.vecAt recs i
        if 6 * (TrajLog.new bu0 st number).NOP ≤ src.length then return src.take (6 * (TrajLog.new bu0 st number).NOP) else Except.error Err.ub)
        = .ok recs := by
      have : recs = (List.range recs.length).map (fun i : Nat => recs.getD i []) := by
        apply List.ext_getElem?
        intro j
        rw [List.getElem?_map]
        by_cases hj : j < recs.length
        · rw [List.getElem?_range hj]
          simp [List.getElem?_eq_getElem hj]
        · rw [List.getElem?_eq_none (by omega), List.getElem?_eq_none (by simpa using hj)]
          rfl
      conv_rhs => rw [this]
      apply mapM_ok'
      intro j hj
      rw [List.mem_range] at hj
      have hv := List.getElem?_eq_getElem hj
      unfold Particle.vecAt
      rw [hv]
      have hl6 := hlens _ (List.getElem_mem hj)
      simp only [bind, Except.bind, pure, Except.pure]
      rw [if_pos (by omega), List.take_of_length_le (by omega)]
      simp [hv]
    rw [hm]
    rfl
  · have hd : (TrajLog.new bu0 st number).data = [] := rfl
    have hz : (TrajLog.new bu0 st number).NOTS = 0 := rfl
    simp only [hd, hz, List.nil_append, Nat.zero_add]
    rw [List.flatten_eq_flatMap, length_flatMap_const id ((TrajLog.new bu0 st number).NOP * 6) recs hlens, Nat.mul_assoc]

theorem probe_fold (junk : Nat → ℝ) (fuel : Nat) (H : List (Beam × Beam)) (L : ProbeLog) (l' : Logger)
    (h : H.foldlM (fun (l : Logger) (r : Beam × Beam) => l.update junk fuel r.1 r.2) (.probe L) = .ok l') :
    ∃ recs : List (List ℝ), recs.length = H.length ∧
      (∀ (j : Nat) v, recs[j]? = some v → ∃ r, H[j]? = some r ∧ r.2.bufferProbe L.NOP fuel = .ok v) ∧
      l' = .probe { L with data := L.data ++ recs, NOTS := L.NOTS + recs.length } := by
  induction H generalizing L with
  | nil =>
    simp only [List.foldlM_nil, pure, Except.pure] at h
    injection h with h
    exact ⟨[], rfl, by simp, by simp [← h]⟩
  | cons r H ih =>
    rw [List.foldlM_cons] at h
    simp only [Logger.update, ProbeLog.update, bind, Except.bind, pure, Except.pure] at h
    cases hc : r.2.bufferProbe L.NOP fuel with
    | error e => rw [hc] at h; cases h
    | ok vals =>
      rw [hc] at h
      simp only at h
      by_cases hle : vals.length ≤ Beam.getProbeBufferSize L.NOP
      · rw [if_pos hle] at h
        obtain ⟨recs, h1, h2, h3⟩ := ih _ h
        refine ⟨vals :: recs, by simp [h1], ?_, ?_⟩
        · intro j v hv
          cases j with
          | zero => simp at hv; subst hv; exact ⟨r, rfl, hc⟩
          | succ j => simp only [List.getElem?_cons_succ] at hv ⊢; exact h2 j v hv
        · rw [h3]
          simp only [List.append_assoc, List.cons_append, List.nil_append, List.length_cons]
          congr 2
          omega
      · rw [if_neg hle] at h; cases h

/-- C41: a probe logger.  After `k` steps it holds `1+⌊k/st⌋` records; record `l` is the probe of the tracked beam of
rank 0 after `l*st` steps. -/
theorem C41_probe (R : Run σ Output) (junk : Nat → ℝ) (fuel : Nat) {probe : Option (Nat × Nat)} (hR : R.Records junk fuel probe) (ms : List Beam) (s : σ) (out : Output) (i st nop nod : Nat)
    (hst : 1 ≤ st) (hl : out.loggers[i]? = some (.probe ⟨st, nop, nod, 0, []⟩)) (k : Nat) (w : World σ Output)
    (hw : runSteps R ms s out k = .ok w) :
    ∃ L, w.out.loggers[i]? = some (.probe L) ∧ L.NOTS = 1 + k / st ∧ L.data.length = 1 + k / st ∧ L.NOP = nop ∧
      ∀ l, l * st ≤ k → ∃ m t vals, RootAt R ms s out (l * st) m t ∧ t.bufferProbe nop fuel = .ok vals ∧
        L.data[l]? = some vals := by
  obtain ⟨H, l', h1, h2, h3, h4, h5⟩ := logger_history R junk fuel hR ms s out i _ hl hst k w hw
  obtain ⟨recs, g1, g2, rfl⟩ := probe_fold junk fuel H _ l' h3
  have hst' : (Logger.probe ⟨st, nop, nod, 0, []⟩).stepsize = st := rfl
  rw [hst'] at h1 h2
  have hn : recs.length = 1 + k / st := g1.trans h1
  refine ⟨_, h5, by simpa using hn, by simpa using hn, rfl, ?_⟩
  intro l hlk
  have hlt : l < recs.length := by
    rw [hn]
    have := (Nat.le_div_iff_mul_le (by omega)).mpr hlk
    omega
  have hv := List.getElem?_eq_getElem hlt
  obtain ⟨r, r1, r2⟩ := g2 l _ hv
  exact ⟨r.1, r.2, _, h2 l r r1, r2, by simpa using hv⟩

end Teufel
