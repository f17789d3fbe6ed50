import Verif.Props.FELField

/-! # C76, C78: the field an FEL interaction starts with, and the file it writes -/

namespace Teufel
open Vec

namespace FEL

/-- the field seen in the middle of a cell is the one stored in that cell -/
theorem field_at {f : FEL} (hs : f.Sized) (hdt : 0 < f.ds) (hint : (f.N : Int) < 2 ^ 31) {j : Nat} {e : ℝ} (he : f.E[j]? = some e) {t : ℝ} {X : Vec}
    (ht : |t - f.time| ≤ 1 / 4 * f.dt) (hX : |dot (f.head - X) f.prop - j * f.ds| < 1 / 2 * f.ds) :
    f.Field t X = .ok ⟨f.ex * e, f.ey * e / SpeedOfLight⟩ := by
  have hj : j < f.N := by
    have := (List.getElem?_eq_some_iff.mp he).1
    rw [hs.E] at this; exact this
  have hq : |dot (f.head - X) f.prop / f.ds - j| < 1 / 2 := by
    rw [show dot (f.head - X) f.prop / f.ds - j = (dot (f.head - X) f.prop - j * f.ds) / f.ds by field_simp, abs_div, abs_of_pos hdt, div_lt_iff₀ hdt]
    exact hX
  have hc : crint (dot (f.head - X) f.prop / f.ds) = (j : Int) := by
    have h1 := crint_near (dot (f.head - X) f.prop / f.ds)
    rw [abs_le] at h1
    rw [abs_lt] at hq
    have h2 : (crint (dot (f.head - X) f.prop / f.ds) : ℝ) < ((j + 1 : Int) : ℝ) := by push_cast; linarith [h1.2, hq.2]
    have h3 : (((j : Int) - 1 : Int) : ℝ) < (crint (dot (f.head - X) f.prop / f.ds) : ℝ) := by push_cast; linarith [h1.1, hq.1]
    have h4 := Int.cast_lt.mp h2
    have h5 := Int.cast_lt.mp h3
    omega
  unfold Field
  rw [if_neg (not_lt.mpr ht), if_neg hdt.ne']
  simp only [bind, Except.bind, pure, Except.pure]
  rw [hc]
  have : toInt32 (j : Int) = .ok (j : Int) := by unfold toInt32; rw [if_pos (by omega)]
  rw [this]
  simp only
  rw [if_neg (by omega)]
  have h0 : cellAt f.E (j : Int) = .ok e := by
    unfold cellAt
    rw [if_neg (by omega)]
    simp [he]
  rw [h0]

/-- everything the constructor sets from the input file -/
theorem ofInput_all {dt : ℝ} {i : Input} {f : FEL} (h : FEL.ofInput dt i = .ok f) :
    ∃ (n : Int) (pos p prop pol ex : Vec) (o : Option Int) (zR w0 zw : ℝ), i.N = some n ∧ 0 ≤ n ∧ i.position = some pos ∧ i.prop = some p ∧ normalizeE p = .ok prop ∧
      i.pol = some pol ∧ normalizeE (pol - prop * dot pol prop) = .ok ex ∧ logStep i.log = .ok o ∧ i.mode = some (zR, w0, zw) ∧
      (match i.seed with
       | none => setup n.toNat dt (dt * SpeedOfLight) pos prop ex (cross prop ex) o zR w0 zw = f
       | some s => (setup n.toNat dt (dt * SpeedOfLight) pos prop ex (cross prop ex) o zR w0 zw).seed s = .ok f) := by
  obtain ⟨N, position, prop, pol, log, mode, sd⟩ := i
  unfold ofInput at h
  simp only [pure, Except.pure, bind, Except.bind] at h
  cases N with
  | none => cases h
  | some n =>
  cases position with
  | none => cases h
  | some pos =>
  cases prop with
  | none => cases h
  | some p =>
  cases pol with
  | none => cases h
  | some pl =>
  simp only at h
  cases ho : logStep log with
  | error e => rw [ho] at h; cases h
  | ok o =>
  rw [ho] at h
  cases mode with
  | none => cases h
  | some m =>
  obtain ⟨zR, w0, zw⟩ := m
  by_cases hn : n < 0
  · simp only [if_pos hn] at h; cases h
  simp only [if_neg hn] at h
  cases hp : normalizeE p with
  | error e => rw [hp] at h; cases h
  | ok pr =>
  rw [hp] at h
  simp only at h
  cases he : normalizeE (pl - pr * dot pl pr) with
  | error e => rw [he] at h; cases h
  | ok ex =>
  rw [he] at h
  refine ⟨n, pos, p, pr, pl, ex, o, zR, w0, zw, rfl, by omega, rfl, rfl, hp, rfl, he, by first | exact ho | rfl, rfl, ?_⟩
  cases sd with
  | none => injection h with h
  | some s => exact h

theorem seedValue_pulse (dt : ℝ) (s : SeedInput) (j : Nat) : seedValue dt s j = Pulse s.E0 s.lambda s.tau (j * dt - s.tstart) := by
  unfold seedValue Pulse
  congr 2
  · simp only [Pi]; congr 1; ring
  · congr 1; ring

/-- the state of an interaction created from the input file -/
theorem ofInput_state {dt : ℝ} {i : Input} {f : FEL} (h : FEL.ofInput dt i = .ok f) :
    ∃ (n : Int) (pos p pol : Vec) (o : Option Int) (zR w0 zw : ℝ), i.N = some n ∧ 0 ≤ n ∧ i.position = some pos ∧ i.prop = some p ∧ p ≠ 0 ∧
      i.pol = some pol ∧ logStep i.log = .ok o ∧ i.mode = some (zR, w0, zw) ∧
      f.N = n.toNat ∧ f.dt = dt ∧ f.ds = dt * SpeedOfLight ∧ f.head = pos ∧ f.origin = pos ∧ f.prop = p.normalize ∧
      f.ex = (pol - p.normalize * dot pol p.normalize).normalize ∧ f.ey = cross f.prop f.ex ∧ f.zR = zR ∧ f.w0 = w0 ∧ f.zw = zw ∧ f.stepOutput = o ∧
      f.E = (List.range n.toNat).map (fun j : Nat => i.prescribed (j * dt)) := by
  obtain ⟨n, pos, p, prop, pol, ex, o, zR, w0, zw, h1, h2, h3, h4, h5, h6, h7, h8, h9, h10⟩ := ofInput_all h
  obtain ⟨hp0, hp⟩ : p ≠ 0 ∧ prop = p.normalize := by
    unfold normalizeE at h5; split at h5
    · cases h5
    · rename_i h0; injection h5 with h5; exact ⟨h0, h5.symm⟩
  have hex : ex = (pol - prop * dot pol prop).normalize := by
    unfold normalizeE at h7; split at h7
    · cases h7
    · injection h7 with h7; exact h7.symm
  refine ⟨n, pos, p, pol, o, zR, w0, zw, h1, h2, h3, h4, hp0, h6, h8, h9, ?_⟩
  rw [hp] at hex
  cases hsd : i.seed with
  | none =>
    rw [hsd] at h10
    simp only at h10
    subst h10
    refine ⟨rfl, rfl, rfl, rfl, rfl, hp, hex, rfl, rfl, rfl, rfl, rfl, ?_⟩
    simp only [setup, Input.prescribed, hsd]
    symm
    exact List.eq_replicate_iff.mpr ⟨by simp, by simp⟩
  | some s =>
    rw [hsd] at h10
    simp only [seed] at h10
    split at h10
    · cases h10
    · injection h10 with h10
      subst h10
      refine ⟨rfl, rfl, rfl, rfl, rfl, hp, hex, rfl, rfl, rfl, rfl, rfl, ?_⟩
      simp only [setup, Input.prescribed, hsd]
      apply List.map_congr_left
      intro j _
      exact seedValue_pulse dt s j

/-- **C76 (initial field).** The field of an interaction created from the input file is the prescribed pulse (no field without
a seed): the electric field is along the prescribed polarization, made perpendicular to the prescribed direction of propagation
and normalised; the magnetic field is that of a plane wave.  In the middle of the grid cell number `j` (the grid extends
from the prescribed position against the direction of propagation, with spacing `c·dt`) it has the value of the pulse at the
time `j·dt`, and it is the same within half a grid spacing and a quarter of the time step. -/
theorem C76_initial_field {dt : ℝ} {i : Input} {f : FEL} (hdt : 0 < dt) (h : FEL.ofInput dt i = .ok f) {n : Int} (hn : i.N = some n) (hn31 : n < 2 ^ 31)
    {pos p pol : Vec} (hpos : i.position = some pos) (hp : i.prop = some p) (hpol : i.pol = some pol)
    (j : Nat) (hj : (j : Int) < n) (t : ℝ) (ht : |t| ≤ dt / 4) (X : Vec) (hX : |dot (pos - X) p.normalize - j * (SpeedOfLight * dt)| < SpeedOfLight * dt / 2) :
    let ex := (pol - p.normalize * dot pol p.normalize).normalize
    let E := ex * i.prescribed (j * dt)
    f.Field t X = .ok ⟨E, cross p.normalize E / SpeedOfLight⟩ := by
  intro ex E
  obtain ⟨n', pos', p', pol', o, zR, w0, zw, e1, e2, e3, e4, e5, e6, e7, e8, g1, g2, g3, g4, g5, g6, g7, g8, _, _, _, _, g13⟩ := ofInput_state h
  rw [hn] at e1; injection e1 with e1; subst e1
  rw [hpos] at e3; injection e3 with e3; subst e3
  rw [hp] at e4; injection e4 with e4; subst e4
  rw [hpol] at e6; injection e6 with e6; subst e6
  have hc : Constructed f := .ofInput (by intro m hm; rw [hn] at hm; injection hm with hm; omega) h
  have hf := hc.fresh
  have hds : 0 < f.ds := by rw [g3]; exact mul_pos hdt SpeedOfLight_pos
  have hE : f.E[j]? = some (i.prescribed (j * dt)) := by
    rw [g13, List.getElem?_map, List.getElem?_range (by omega)]; rfl
  rw [field_at hf.sized hds hf.int hE (by rw [hf.time, g2, sub_zero]; linarith) (by rw [g4, g6, g3, mul_comm dt]; linarith)]
  rw [g8, g6, g7]
  congr 2
  ext <;> simp [cross, E, ex] <;> ring

/-- **C76 (log step).** The fields are recorded at every step unless the `<log>` node has a step attribute; a `<log>` node
without file name is an error. -/
theorem C76_log_step {dt : ℝ} {i : Input} {f : FEL} (h : FEL.ofInput dt i = .ok f) :
    (∀ b, i.log = some (b, none) → b = true ∧ f.stepOutput = some 1) ∧ (∀ b s, i.log = some (b, some s) → b = true ∧ f.stepOutput = some s) := by
  obtain ⟨n', pos', p', pol', o, zR, w0, zw, e1, e2, e3, e4, e5, e6, e7, e8, g1, g2, g3, g4, g5, g6, g7, g8, _, _, _, g12, g13⟩ := ofInput_state h
  constructor
  · intro b hb
    rw [hb] at e7
    cases b with
    | false => cases e7
    | true => injection e7 with e7; exact ⟨rfl, by rw [g12, ← e7]⟩
  · intro b s hb
    rw [hb] at e7
    cases b with
    | false => cases e7
    | true => injection e7 with e7; exact ⟨rfl, by rw [g12, ← e7]⟩

/-- the hypotheses of C76 are met by a seeded interaction, the field of which does not vanish -/
example : ∃ (i : Input) (f : FEL), FEL.ofInput 1 i = .ok f ∧ i.log = some (true, some 2) ∧
    f.Field 0 0 = .ok ⟨(⟨1, 0, 0⟩ : Vec) * (3 : ℝ), cross ⟨0, 0, 1⟩ ((⟨1, 0, 0⟩ : Vec) * (3 : ℝ)) / SpeedOfLight⟩ := by
  obtain ⟨f, h, _⟩ := demoInput_constructed 3
  refine ⟨_, f, h, rfl, ?_⟩
  have n1 : (⟨0, 0, 1⟩ : Vec).normalize = ⟨0, 0, 1⟩ := by
    ext <;> simp [Vec.normalize, Vec.norm, Vec.abs2nd]
  have n2 : (⟨1, 0, 0⟩ : Vec).normalize = ⟨1, 0, 0⟩ := by
    ext <;> simp [Vec.normalize, Vec.norm, Vec.abs2nd]
  have := C76_initial_field (n := 4) one_pos h rfl (by norm_num) rfl rfl rfl 0 (by norm_num) 0 (by norm_num) 0
    (by simp [dot]; exact SpeedOfLight_pos)
  rw [this]
  have e : (⟨1, 0, 0⟩ : Vec) - (⟨0, 0, 1⟩ : Vec) * dot (⟨1, 0, 0⟩ : Vec) ⟨0, 0, 1⟩ = ⟨1, 0, 0⟩ := by ext <;> simp [dot]
  rw [n1, e, n2]
  simp [Input.prescribed, demoInput, Pulse]

/-! ## C78: the output file -/

theorem fill_row (row : List ℝ) (N : Nat) (h : row.length = N) (buf : List ℝ) :
    (List.range N).foldlM (fun (buf : List ℝ) (iy : Nat) => do
      let e ← cellAt row iy
      return buf ++ [e]) buf = (.ok (buf ++ row) : Except Err (List ℝ)) := by
  suffices H : ∀ k ≤ N, (List.range k).foldlM (fun (buf : List ℝ) (iy : Nat) => do
      let e ← cellAt row iy
      return buf ++ [e]) buf = (.ok (buf ++ row.take k) : Except Err (List ℝ)) by
    have := H N le_rfl
    rw [List.take_of_length_le (by omega)] at this
    exact this
  intro k
  induction k with
  | zero => intro _; simp [pure, Except.pure]
  | succ k ih =>
    intro hk
    rw [List.range_succ, List.foldlM_append, ih (by omega)]
    have hc : cellAt row (k : Int) = .ok (row[k]'(by omega)) := by
      unfold cellAt
      rw [if_neg (by omega)]
      simp [List.getElem?_eq_getElem (show k < row.length by omega)]
    simp only [bind, Except.bind, List.foldlM_cons, hc, List.foldlM_nil, pure, Except.pure]
    rw [List.append_assoc, ← List.take_succ_eq_append_getElem]

theorem fillBuffer_ok (N : Nat) (rows : List (List ℝ)) (h : ∀ r ∈ rows, List.length r = N) : fillBuffer rows.length N rows = .ok rows.flatten := by
  unfold fillBuffer
  suffices H : ∀ k ≤ rows.length, (List.range k).foldlM (fun (buf : List ℝ) (ix : Nat) =>
      match rows[ix]? with
      | none => .error .ub
      | some row => (List.range N).foldlM (fun (buf : List ℝ) (iy : Nat) => do
        let e ← cellAt row iy
        return buf ++ [e]) buf) [] = (.ok (rows.take k).flatten : Except Err (List ℝ)) by
    have := H _ le_rfl
    rw [List.take_length] at this
    exact this
  intro k
  induction k with
  | zero => intro _; rfl
  | succ k ih =>
    intro hk
    rw [List.range_succ, List.foldlM_append, ih (by omega)]
    simp only [bind, Except.bind, List.foldlM_cons, List.foldlM_nil]
    have hr : rows[k]? = some (rows[k]'(by omega)) := List.getElem?_eq_getElem (by omega)
    rw [hr]
    have := fill_row (rows[k]'(by omega)) N (h _ (List.getElem_mem _)) (rows.take k).flatten
    simp only [bind, Except.bind] at this
    simp only
    rw [this]
    simp only [pure, Except.pure]
    congr 1
    rw [List.take_succ_eq_append_getElem (show k < rows.length by omega), List.flatten_append]
    simp

theorem flatten_at (rows : List (List ℝ)) (N : Nat) (h : ∀ r ∈ rows, List.length r = N) : ∀ (k j : Nat), k < rows.length → j < N →
    rows.flatten[k * N + j]? = (rows[k]?).bind (fun r => r[j]?) := by
  induction rows with
  | nil => intro k j hk; simp at hk
  | cons r rows ih =>
    intro k j hk hj
    have hr : r.length = N := h r (by simp)
    cases k with
    | zero => simp [List.getElem?_append_left (show j < r.length by omega)]
    | succ k =>
      rw [List.flatten_cons, List.getElem?_append_right (by rw [hr, Nat.succ_mul]; omega), hr,
        show (k + 1) * N + j - N = k * N + j by rw [Nat.succ_mul]; omega]
      rw [ih (fun r hr => h r (by simp [hr])) k j (by simpa using hk) hj]
      simp

/-- the records of a course, with the currents -/
theorem records_currents {h : Nat → FEL} {b : Nat → Beam} {n : Nat} {d : Int} (hc : Course h b n) (ho : (h 0).stepOutput = some d) :
    (h n).stepOutput = some d ∧ ∃ J : Nat → List ℝ, J 0 = List.replicate (h 0).N 0 ∧
      (∀ s, 2 ≤ s → s ≤ n → ∃ ps, (b (s - 1)).traverse = .ok ps ∧ ps.foldlM (h (s - 1)).deposit (List.replicate (h 0).N 0) = .ok (J s)) ∧
    (h n).currents = ((List.range (n + 1)).filter (fun s : Nat => decide (s ≠ 1 ∧ d ∣ (s : Int)))).map J := by
  suffices H : ∀ k ≤ n, (h k).stepOutput = some d ∧ (h k).N = (h 0).N ∧ (h k).steps = k ∧ ∃ J : Nat → List ℝ, J 0 = List.replicate (h 0).N 0 ∧
      (∀ s, 2 ≤ s → s ≤ k → ∃ ps, (b (s - 1)).traverse = .ok ps ∧ ps.foldlM (h (s - 1)).deposit (List.replicate (h 0).N 0) = .ok (J s)) ∧
      (h k).currents = ((List.range (k + 1)).filter (fun s : Nat => decide (s ≠ 1 ∧ d ∣ (s : Int)))).map J by
    obtain ⟨h1, _, _, h2⟩ := H n le_rfl
    exact ⟨h1, h2⟩
  intro k
  induction k with
  | zero =>
    intro _
    refine ⟨ho, rfl, hc.start.fresh.steps, fun _ => List.replicate (h 0).N 0, rfl, fun s h1 h2 => by omega, ?_⟩
    rw [hc.start.fresh.currents]
    simp
  | succ k ih =>
    intro hk
    obtain ⟨i1, i2, i3, J, j0, j1, j2⟩ := ih (by omega)
    cases k with
    | zero =>
      obtain ⟨_, _, _, ha, _, h2⟩ := init_inv hc.start.fresh.sized (hc.first hk)
      refine ⟨by rw [ha.out, i1], by rw [ha.N], by rw [ha.steps, i3], J, j0, fun s h1 h2 => by omega, ?_⟩
      rw [h2, List.range_succ, List.filter_append, List.map_append, j2]
      simp
    | succ k =>
      have hsz := (hc.reachable (k + 1) (by omega)).inv.sized
      obtain ⟨_, _, ps, J', due, hp, hJ, hl, hd, ha, _, h2⟩ := step_inv hsz (hc.next (k + 1) (by omega) (by omega))
      refine ⟨by rw [ha.out, i1], by rw [ha.N, i2], by rw [ha.steps, i3], fun s => if s = k + 2 then J' else J s, by simp [j0], ?_, ?_⟩
      · intro s h1 h2
        by_cases hs : s = k + 2
        · subst hs
          simp only [if_true]
          rw [i2] at hJ
          exact ⟨ps, hp, hJ⟩
        · simp only [if_neg hs]
          exact j1 s h1 (by omega)
      · rw [h2, List.range_succ, List.filter_append, List.map_append, j2]
        have hm : ∀ l : List Nat, (∀ s ∈ l, s ≤ k + 1) → l.map (fun s => if s = k + 2 then J' else J s) = l.map J := by
          intro l hl
          apply List.map_congr_left
          intro s hs
          rw [if_neg (by have := hl s hs; omega)]
        rw [hm _ (fun s hs => by have := List.mem_range.mp (List.mem_filter.mp hs).1; omega)]
        have := recordDue_dvd i1 hd
        rw [i3] at this
        subst this
        by_cases hdv : d ∣ ((k + 1 + 1 : Nat) : Int)
        · rw [List.filter_cons_of_pos (by simp only [decide_eq_true_eq]; exact ⟨by omega, hdv⟩), if_pos (by simpa using hdv)]; simp
        · rw [List.filter_cons_of_neg (by simp only [decide_eq_true_eq]; exact fun hc => hdv hc.2), if_neg (by simpa using hdv)]; rfl

/-- the steps recorded -/
theorem recorded_multiples {d : Nat} (hd : 2 ≤ d) (n : Nat) :
    (List.range (n + 1)).filter (fun s : Nat => decide (s ≠ 1 ∧ (d : Int) ∣ (s : Int))) = (List.range (n / d + 1)).map (fun k => k * d) := by
  induction n with
  | zero => simp
  | succ n ih =>
    rw [List.range_succ, List.filter_append, ih, Nat.succ_div]
    have hdv : ((d : Int) ∣ ((n + 1 : Nat) : Int)) ↔ d ∣ n + 1 := Int.natCast_dvd_natCast
    by_cases h : d ∣ n + 1
    · have h1 : n + 1 ≠ 1 := by
        intro h1; rw [h1] at h; have := Nat.le_of_dvd one_pos h; omega
      rw [if_pos h, List.filter_cons_of_pos (by simp only [decide_eq_true_eq]; exact ⟨h1, hdv.mpr h⟩), List.range_succ (n := n / d + 1), List.map_append]
      have : (n / d + 1) * d = n + 1 := by
        have h2 := Nat.succ_div (a := n) (b := d)
        rw [if_pos h] at h2
        rw [← h2]; exact Nat.div_mul_cancel h
      simp [this]
    · rw [if_neg h, List.filter_cons_of_neg (by simp only [decide_eq_true_eq]; exact fun hc => h (hdv.mp hc.2))]
      simp

theorem recorded_all (n : Nat) (hn : 1 ≤ n) :
    (List.range (n + 1)).filter (fun s : Nat => decide (s ≠ 1 ∧ (1 : Int) ∣ (s : Int))) = 0 :: (List.range (n - 1)).map (fun k => k + 2) := by
  induction n with
  | zero => omega
  | succ n ih =>
    rw [List.range_succ, List.filter_append]
    cases n with
    | zero => rfl
    | succ n =>
      rw [ih (by omega), List.filter_cons_of_pos (by simp), show n + 1 + 1 - 1 = (n + 1 - 1) + 1 by omega, List.range_succ, List.map_append]
      simp

/-- what is written in the end -/
theorem writeOutput_ok {f : FEL} (hf : f.Reachable) {d : Int} (ho : f.stepOutput = some d) (hs : f.N * f.fields.length < 2 ^ 31) :
    ∃ o, f.writeOutput = .ok o ∧ o.records = f.fields.length ∧ o.cells = f.N ∧ o.N_field = f.N ∧ o.N_steps = f.fields.length ∧ o.N_output = d ∧
      o.dt = f.dt ∧ o.w0 = f.w0 ∧ o.z_Rayl = f.zR ∧ o.z_waist = f.zw ∧ o.origin = f.origin ∧ o.prop = f.prop * (-f.dt * SpeedOfLight) ∧
      (∀ k j, o.at o.InteractionField k j = (f.fields[k]?).bind (fun r => r[j]?)) ∧
      ∀ k j, o.at o.CurrentDensity k j = (f.currents[k]?).bind (fun r => r[j]?) := by
  have hi := hf.inv
  have h1 := fillBuffer_ok f.N f.fields hi.fields
  have h2 := fillBuffer_ok f.N f.currents hi.currents
  rw [← hi.records] at h2
  have key : ∀ rows : List (List ℝ), rows.length = f.fields.length → (∀ r ∈ rows, List.length r = f.N) → ∀ k j,
      (if k < f.fields.length ∧ j < f.N then rows.flatten[k * f.N + j]? else none) = (rows[k]?).bind (fun r => r[j]?) := by
    intro rows hl hr k j
    by_cases hk : k < f.fields.length
    · by_cases hj : j < f.N
      · rw [if_pos ⟨hk, hj⟩, flatten_at rows f.N hr k j (by omega) hj]
      · rw [if_neg (by tauto)]
        cases hrk : rows[k]? with
        | none => rfl
        | some r =>
          have := hr r (List.mem_of_getElem? hrk)
          simp [List.getElem?_eq_none_iff]; omega
    · rw [if_neg (by tauto), List.getElem?_eq_none_iff.mpr (by omega)]; rfl
  refine ⟨⟨f.fields.length, f.N, f.N, f.fields.length, d, f.dt, f.w0, f.zR, f.zw, f.origin, f.prop * (-f.dt * SpeedOfLight), f.fields.flatten, f.currents.flatten⟩,
    ?_, rfl, rfl, rfl, rfl, rfl, rfl, rfl, rfl, rfl, rfl, rfl, key f.fields rfl hi.fields, key f.currents hi.records.symm hi.currents⟩
  unfold writeOutput
  rw [if_neg (by omega), ho]
  simp only [bind, Except.bind, pure, Except.pure]
  rw [h1, h2]

/-- parameters which do not change in the course of a run -/
theorem course_const {h : Nat → FEL} {b : Nat → Beam} {n : Nat} (hc : Course h b n) : ∀ k ≤ n,
    (h k).N = (h 0).N ∧ (h k).dt = (h 0).dt ∧ (h k).ds = (h 0).ds ∧ (h k).w0 = (h 0).w0 ∧ (h k).zR = (h 0).zR ∧ (h k).zw = (h 0).zw ∧
    (h k).origin = (h 0).origin ∧ (h k).prop = (h 0).prop ∧ (h k).ex = (h 0).ex ∧ (h k).ey = (h 0).ey ∧ (h k).stepOutput = (h 0).stepOutput ∧ (h k).steps = k := by
  intro k
  induction k with
  | zero => intro _; exact ⟨rfl, rfl, rfl, rfl, rfl, rfl, rfl, rfl, rfl, rfl, rfl, hc.start.fresh.steps⟩
  | succ k ih =>
    intro hk
    obtain ⟨a1, a2, a3, a4, a5, a6, a7, a8, a9, a10, a11, a12⟩ := ih (by omega)
    have hsz := (hc.reachable k (by omega)).inv.sized
    have : ∃ J, (h k).Advanced (h (k + 1)) J := by
      cases k with
      | zero => obtain ⟨_, _, _, ha, _⟩ := init_inv hsz (hc.first hk); exact ⟨_, ha⟩
      | succ k => obtain ⟨_, _, _, _, _, _, _, _, _, ha, _⟩ := step_inv hsz (hc.next (k + 1) (by omega) (by omega)); exact ⟨_, ha⟩
    obtain ⟨J, ha⟩ := this
    exact ⟨by rw [ha.N, a1], by rw [ha.dt, a2], by rw [ha.ds, a3], by rw [ha.w0, a4], by rw [ha.zR, a5], by rw [ha.zw, a6], by rw [ha.origin, a7],
      by rw [ha.prop, a8], by rw [ha.ex, a9], by rw [ha.ey, a10], by rw [ha.out, a11], by rw [ha.steps, a12]⟩

/-- What a reader of the file takes it for: there are `n/d + 1` rows; row `k` of the field is what the interaction has
after `k·d` steps, when the head of the grid has moved by `k·d·c·dt` along the direction of propagation (this is how the
evaluation notebooks in tests/ use the files); row `k` of the current density is what the beam has deposited in that step;
the attributes describe the geometry. -/
def FileDescribes (h : Nat → FEL) (b : Nat → Beam) (n d : Nat) : Prop :=
  ∃ o, (h n).writeOutput = .ok o ∧ o.N_field = (h 0).N ∧ o.cells = (h 0).N ∧ o.records = n / d + 1 ∧ o.N_steps = (n / d + 1 : Nat) ∧ o.N_output = d ∧
    o.dt = (h 0).dt ∧ o.w0 = (h 0).w0 ∧ o.z_Rayl = (h 0).zR ∧ o.z_waist = (h 0).zw ∧ o.origin = (h 0).head ∧ o.prop = (h 0).prop * (-(SpeedOfLight * (h 0).dt)) ∧
    (∀ k ≤ n / d, (h (k * d)).head = o.origin + (h 0).prop * ((k : ℝ) * (d : ℝ) * (SpeedOfLight * o.dt) : ℝ)) ∧
    (∀ k ≤ n / d, ∀ j < (h 0).N, ∃ e : ℝ, o.at o.InteractionField k j = some e ∧
      ∀ (t : ℝ) (X : Vec), |t - k * d * o.dt| ≤ o.dt / 4 → |dot ((h (k * d)).head - X) (h 0).prop - j * (SpeedOfLight * o.dt)| < SpeedOfLight * o.dt / 2 →
        (h (k * d)).Field t X = .ok ⟨(h 0).ex * e, (h 0).ey * e / SpeedOfLight⟩) ∧
    (∀ j < (h 0).N, o.at o.CurrentDensity 0 j = some 0) ∧
    ∀ k, 1 ≤ k → k ≤ n / d → ∃ ps J, (b (k * d - 1)).traverse = .ok ps ∧ ps.foldlM (h (k * d - 1)).deposit (List.replicate (h 0).N 0) = .ok J ∧
      ∀ j < (h 0).N, o.at o.CurrentDensity k j = J[j]?

/-- **C78 (partial).** For output steps larger than one the file has exactly the rows a reader expects.
Missing: the output step 1, which is the default; see the next theorems. -/
theorem C78_file_partial {h : Nat → FEL} {b : Nat → Beam} {n d : Nat} (hc : Course h b n) (hdt : 0 < (h 0).dt) (hd : 2 ≤ d) (ho : (h 0).stepOutput = some (d : Int))
    (hs : (h 0).N * (n / d + 1) < 2 ^ 31) : FileDescribes h b n d := by
  obtain ⟨r1, r2⟩ := C47_records_partial hc ho
  obtain ⟨q1, J, q2, q3, q4⟩ := records_currents hc ho
  rw [recorded_multiples hd, List.map_map] at r1 q4
  have hconst := course_const hc
  obtain ⟨c1, c2, c3, c4, c5, c6, c7, c8, c9, c10, c11, c12⟩ := hconst n le_rfl
  have hlen : (h n).fields.length = n / d + 1 := by rw [r1]; simp
  obtain ⟨o, w1, w2, w3, w4, w5, w6, w7, w8, w9, w10, w11, w12, w13, w14⟩ := writeOutput_ok (hc.reachable n le_rfl) q1 (by rw [c1, hlen]; exact hs)
  have h0 := hc.start.fresh
  have hkd : ∀ k ≤ n / d, k * d ≤ n := fun k hk => le_trans (Nat.mul_le_mul_right d hk) (Nat.div_mul_le_self n d)
  have hhead : ∀ k ≤ n / d, (h (k * d)).head = o.origin + (h 0).prop * ((k : ℝ) * (d : ℝ) * (SpeedOfLight * o.dt) : ℝ) := by
    intro k hk
    have hi := (hc.reachable (k * d) (hkd k hk)).inv
    obtain ⟨d1, d2, d3, d4, d5, d6, d7, d8, d9, d10, d11, d12⟩ := hconst (k * d) (hkd k hk)
    rw [hi.head, d7, d8, d3, h0.ds, d12, w11, c7, w7, c2]
    push_cast
    rw [show (k : ℝ) * d * ((h 0).dt * SpeedOfLight) = k * d * (SpeedOfLight * (h 0).dt) by ring]
  refine ⟨o, w1, by rw [w4, c1], by rw [w3, c1], by rw [w2, hlen], by rw [w5, hlen], w6, by rw [w7, c2], by rw [w8, c4], by rw [w9, c5], by rw [w10, c6],
    by rw [w11, c7, h0.head], by rw [w12, c8, c2]; congr 1; ring, hhead, ?_, ?_, ?_⟩
  · intro k hk j hj
    have hi := (hc.reachable (k * d) (hkd k hk)).inv
    obtain ⟨d1, d2, d3, d4, d5, d6, d7, d8, d9, d10, d11, d12⟩ := hconst (k * d) (hkd k hk)
    have hjl : j < (h (k * d)).E.length := by rw [hi.sized.E, d1]; exact hj
    refine ⟨(h (k * d)).E[j], ?_, ?_⟩
    · rw [w13, r1, List.getElem?_map, List.getElem?_range (by omega)]
      simp [List.getElem?_eq_getElem hjl]
    · intro t X ht hX
      rw [w7, c2] at ht hX
      rw [field_at hi.sized (by rw [d3, h0.ds]; exact mul_pos hdt SpeedOfLight_pos) hi.int (List.getElem?_eq_getElem hjl)
        (by rw [hi.time, d12, d2]; push_cast; linarith) (by rw [d8, d3, h0.ds, mul_comm (h 0).dt]; linarith), d9, d10]
  · intro j hj
    rw [w14, q4, List.getElem?_map, List.getElem?_range (Nat.succ_pos _)]
    simp [q2, hj]
  · intro k hk1 hk
    have h2 : 2 ≤ k * d := le_trans hd (Nat.le_mul_of_pos_left d hk1)
    obtain ⟨ps, p1, p2⟩ := q3 (k * d) h2 (hkd k hk)
    refine ⟨ps, J (k * d), p1, p2, ?_⟩
    intro j hj
    rw [w14, q4, List.getElem?_map, List.getElem?_range (by omega)]
    rfl

/-- **C78 (size).** A file of 2³¹ numbers or more per data set is not written: the size of the buffer overflows. -/
theorem C78_size {h : Nat → FEL} {b : Nat → Beam} {n d : Nat} (hc : Course h b n) (hdt : 0 < (h 0).dt) (hd : 2 ≤ d) (ho : (h 0).stepOutput = some (d : Int)) :
    (∃ o, (h n).writeOutput = .ok o) ↔ (h 0).N * (n / d + 1) < 2 ^ 31 := by
  constructor
  · rintro ⟨o, h1⟩
    by_contra hs
    obtain ⟨r1, _⟩ := C47_records_partial hc ho
    rw [recorded_multiples hd, List.map_map] at r1
    have hlen : (h n).fields.length = n / d + 1 := by rw [r1]; simp
    obtain ⟨c1, _⟩ := course_const hc n le_rfl
    unfold writeOutput at h1
    rw [c1, hlen, if_pos (by omega)] at h1
    cases h1
  · intro hs
    obtain ⟨o, h1, _⟩ := C78_file_partial hc hdt hd ho hs
    exact ⟨o, h1⟩

/-- **C78 (every step).** If every step is to be recorded (the default), the file of a run with `n` steps has `n` rows instead of
`n+1`: the row for the first step is missing, row `k` is the field after `k+1` steps. -/
theorem C78_every_step {h : Nat → FEL} {b : Nat → Beam} {n : Nat} (hc : Course h b n) (hn : 1 ≤ n) (ho : (h 0).stepOutput = some 1) (hs : (h 0).N * n < 2 ^ 31) :
    ∃ o, (h n).writeOutput = .ok o ∧ o.records = n ∧ (∀ j, o.at o.InteractionField 0 j = (h 0).E[j]?) ∧
      ∀ k, 1 ≤ k → k < n → ∀ j, o.at o.InteractionField k j = (h (k + 1)).E[j]? := by
  obtain ⟨r1, r2⟩ := C47_records_partial hc ho
  obtain ⟨q1, _⟩ := records_currents hc ho
  rw [recorded_all n hn] at r1
  obtain ⟨c1, _⟩ := course_const hc n le_rfl
  have hlen : (h n).fields.length = n := by rw [r1]; simp; omega
  obtain ⟨o, w1, w2, w3, w4, w5, w6, w7, w8, w9, w10, w11, w12, w13, w14⟩ := writeOutput_ok (hc.reachable n le_rfl) q1 (by rw [c1, hlen]; exact hs)
  refine ⟨o, w1, by rw [w2, hlen], ?_, ?_⟩
  · intro j; rw [w13, r1]; simp
  · intro k hk1 hk j
    obtain ⟨k, rfl⟩ : ∃ m, k = m + 1 := ⟨k - 1, by omega⟩
    rw [w13, r1, List.map_cons, List.getElem?_cons_succ, List.map_map, List.getElem?_map, List.getElem?_range (by omega)]
    rfl

/-- a run of three steps without particles in which every step is recorded -/
theorem C78_full_statement_false : ¬ ∀ (h : Nat → FEL) (b : Nat → Beam) (n d : Nat), Course h b n → 0 < (h 0).dt → 1 ≤ d → (h 0).stepOutput = some (d : Int) →
    (h 0).N * (n / d + 1) < 2 ^ 31 → FileDescribes h b n d := by
  intro H
  obtain ⟨f, _, hf, hs, ho, hdt, _, _, hN, _⟩ := default_constructed
  obtain ⟨h, h0, hc⟩ := vacuum_exists hf hs ho (by decide) 3
  have hb : (h 0).N * 4 < 2 ^ 31 := by rw [h0, hN]; norm_num
  obtain ⟨o, o1, _, _, o2, _⟩ := H h _ 3 1 hc (by rw [h0, hdt]; norm_num) le_rfl (by rw [h0, ho]; rfl) (by simpa using hb)
  obtain ⟨o', o1', o2', _⟩ := C78_every_step hc (by norm_num) (by rw [h0, ho]) (by omega)
  rw [o1] at o1'
  injection o1' with o1'
  subst o1'
  rw [o2] at o2'
  simp at o2'

/-- the hypotheses of C78 are met by runs of any moderate length -/
example (n : Nat) (hn : n < 1000) : ∃ h b, Course h b n ∧ 0 < (h 0).dt ∧ (h 0).stepOutput = some ((2 : Nat) : Int) ∧ (h 0).N * (n / 2 + 1) < 2 ^ 31 ∧ (h 0).E[0]? = some 1 := by
  obtain ⟨f, _, hf, hs, ho, hdt, hE, _, _, _, hN, _⟩ := demoInput_constructed 1
  obtain ⟨h, h0, hc⟩ := vacuum_exists hf hs ho (by decide) n
  refine ⟨h, _, hc, by rw [h0, hdt]; norm_num, by rw [h0, ho]; rfl, ?_, by rw [h0, hE]⟩
  rw [h0, hN]
  have : n / 2 ≤ n := Nat.div_le_self n 2
  calc 4 * (n / 2 + 1) ≤ 4 * (n + 1) := by omega
    _ < 2 ^ 31 := by norm_num; omega

end FEL
end Teufel
