import Verif.Lemmas.FELHistory
import Verif.Props.BeamExchange

/-! # Properties of the one-dimensional FEL interaction: C45, C46, C47 -/

namespace Teufel
open Vec

theorem mem_all_iff {b : Beam} (h : b.WF) (p : Particle) : p ∈ b.all ↔ ∃ i j, b.Holds i j p := by
  unfold Beam.all
  simp only [List.mem_flatMap]
  constructor
  · rintro ⟨bu, hb, hp⟩
    obtain ⟨i, hi⟩ := List.mem_iff_getElem?.mp hb
    obtain ⟨j, hj⟩ := List.mem_iff_getElem?.mp hp
    exact ⟨i, j, (holds_iff h i j p).mpr ⟨bu, hi, hj⟩⟩
  · rintro ⟨i, j, hh⟩
    obtain ⟨bu, h1, h2⟩ := (holds_iff h i j p).mp hh
    exact ⟨bu, List.mem_of_getElem? h1, List.mem_of_getElem? h2⟩

namespace FEL

/-! ## C45: propagation in vacuum -/

/-- the fields after `n` steps without particles -/
noncomputable def vacuumVal (f : Nat → ℝ) (n j : Nat) : ℝ :=
  f j - (if j / 2 < n then f (j % 2) else 0) + (if j % 2 = 1 ∧ n = j / 2 + 1 then f 0 else 0)

theorem vacuumVal_rec (f : Nat → ℝ) (n j : Nat) :
    vacuumVal f (n + 2) (j + 2) = vacuumVal f (n + 1) j + vacuumVal f (n + 1) (j + 2) - vacuumVal f n j := by
  unfold vacuumVal
  rw [show (j + 2) % 2 = j % 2 by omega, show (j + 2) / 2 = j / 2 + 1 by omega]
  split_ifs <;> first | (exfalso; omega) | ring

theorem deposit_none {f f' : FEL} (hf : f.Sized) {b : Beam} (hb : b.traverse = .ok []) (hs : f.step b = .ok f') :
    f.Advanced f' (fun _ => 0) := by
  obtain ⟨_, _, ps, J, due, h1, h2, h3, _, ha, _⟩ := step_inv hf hs
  rw [hb] at h1
  injection h1 with h1
  subst h1
  injection h2 with h2
  subst h2
  have : fval (List.replicate f.N 0) = fun _ => 0 := by funext i; exact fval_replicate _ _
  rwa [this] at ha

theorem vacuum_course {h : Nat → FEL} {b : Nat → Beam} {n : Nat} (hc : Course h b n) (hb : ∀ k, 1 ≤ k → k < n → (b k).traverse = .ok []) :
    ∀ k ≤ n, (h k).N = (h 0).N ∧ (∀ j < (h 0).N, fval (h k).E j = vacuumVal (fval (h 0).E) k j) ∧
      (∀ j < (h 0).N, fval (h k).prev j = vacuumVal (fval (h 0).E) (k - 1) j) := by
  have hz : ∀ (f : Nat → ℝ) j, vacuumVal f 0 j = f j := by
    intro f j; unfold vacuumVal; rw [if_neg (by omega), if_neg (by omega)]; ring
  have hstep : ∀ (f f' : FEL) (g : Nat → ℝ) (k : Nat), f.Advanced f' (fun _ => 0) → (∀ j < f.N, fval f.E j = vacuumVal g (k + 1) j) →
      (∀ j < f.N, fval f.prev j = vacuumVal g k j) → ∀ j < f.N, fval f'.E j = vacuumVal g (k + 2) j := by
    intro f f' g k ha h1 h2 j hj
    rw [ha.E]
    unfold nextVal
    match j with
    | 0 => simp [vacuumVal]
    | 1 =>
      rw [if_neg (by omega), if_pos rfl, h1 0 (by omega)]
      unfold vacuumVal
      simp
    | j + 2 =>
      rw [if_neg (by omega), if_neg (by omega), if_pos hj, show j + 2 - 2 = j by omega, vacuumVal_rec, h1 j (by omega), h1 (j + 2) hj, h2 j (by omega)]
      ring
  intro k
  induction k with
  | zero =>
    intro _
    refine ⟨rfl, fun j _ => (hz _ j).symm, fun j _ => ?_⟩
    rw [hc.start.fresh.still]; exact (hz _ j).symm
  | succ k ih =>
    intro hk
    obtain ⟨h1, h2, h3⟩ := ih (by omega)
    cases k with
    | zero =>
      obtain ⟨_, _, _, ha, _⟩ := init_inv hc.start.fresh.sized (hc.first hk)
      refine ⟨ha.N, ?_, ?_⟩
      · intro j hj
        rw [ha.E]
        unfold nextVal
        rw [hc.start.fresh.still]
        match j with
        | 0 => simp [vacuumVal]
        | 1 => simp [vacuumVal]
        | j + 2 =>
          rw [if_neg (by omega), if_neg (by omega), if_pos hj]
          unfold vacuumVal
          rw [if_neg (by omega), if_neg (by omega)]
          ring
      · intro j _
        rw [ha.prev]
        simp [hz]
    | succ k =>
      have hsz := (hc.reachable (k + 1) (by omega)).inv.sized
      have ha := deposit_none hsz (hb (k + 1) (by omega) (by omega)) (hc.next (k + 1) (by omega) (by omega))
      refine ⟨by rw [ha.N, h1], ?_, ?_⟩
      · intro j hj
        rw [← h1] at hj
        exact hstep _ _ _ k ha (by rw [h1]; exact h2) (by rw [h1]; exact h3) j hj
      · intro j hj
        rw [ha.prev, h2 j hj]
        simp

/-- **C45 (main).** In a run without particles (constructor, `init`, any number of `step`s with beams containing no
particle) the pulse is stationary in the co-moving grid up to the field of the two head cells: every cell always differs
from its initial value by at most the sum of the initial amplitudes of the two head cells. -/
theorem C45_stationary {h : Nat → FEL} {b : Nat → Beam} {n : Nat} (hc : Course h b n) (hb : ∀ k, 1 ≤ k → k < n → (b k).traverse = .ok [])
    (k : Nat) (hk : k ≤ n) (e0 e1 : ℝ) (h0 : (h 0).E[0]? = some e0) (h1 : (h 0).E[1]? = some e1) :
    (h k).E.length = (h 0).E.length ∧ ∀ (j : Nat) (x y : ℝ), (h 0).E[j]? = some x → (h k).E[j]? = some y → |y - x| ≤ |e0| + |e1| := by
  obtain ⟨a1, a2, _⟩ := vacuum_course hc hb k hk
  refine ⟨by rw [(hc.reachable k hk).inv.sized.E, hc.start.fresh.sized.E, a1], ?_⟩
  intro j x y hx hy
  have hj : j < (h 0).N := by rw [← hc.start.fresh.sized.E]; exact (List.getElem?_eq_some_iff.mp hx).1
  have hv := a2 j hj
  have ex : fval (h 0).E j = x := by unfold fval; rw [hx]; rfl
  have ey : fval (h k).E j = y := by unfold fval; rw [hy]; rfl
  have ee0 : fval (h 0).E 0 = e0 := by unfold fval; rw [h0]; rfl
  have ee1 : fval (h 0).E 1 = e1 := by unfold fval; rw [h1]; rfl
  rw [ey] at hv
  unfold vacuumVal at hv
  rw [ex, ee0] at hv
  rw [hv]
  have p0 := abs_nonneg e0
  have p1 := abs_nonneg e1
  rcases Nat.mod_two_eq_zero_or_one j with hm | hm
  · rw [hm, ee0]
    rw [if_neg (show ¬ (0 = 1 ∧ k = j / 2 + 1) by omega)]
    split_ifs
    · rw [show x - e0 + 0 - x = -e0 by ring, abs_neg]; linarith
    · rw [show x - 0 + 0 - x = 0 by ring, abs_zero]; linarith
  · rw [hm, ee1]
    split_ifs
    · rw [show x - e1 + e0 - x = e0 - e1 by ring]; exact abs_sub _ _
    · rw [show x - e1 + 0 - x = -e1 by ring, abs_neg]; linarith
    · rw [show x - 0 + e0 - x = e0 by ring]; linarith
    · rw [show x - 0 + 0 - x = 0 by ring, abs_zero]; linarith

/-- **C45 (exact).** A pulse that is zero in the two head cells never changes. -/
theorem C45_unchanged {h : Nat → FEL} {b : Nat → Beam} {n : Nat} (hc : Course h b n) (hb : ∀ k, 1 ≤ k → k < n → (b k).traverse = .ok [])
    (k : Nat) (hk : k ≤ n) (h0 : (h 0).E[0]? = some 0) (h1 : (h 0).E[1]? = some 0) : (h k).E = (h 0).E := by
  obtain ⟨hl, hv⟩ := C45_stationary hc hb k hk 0 0 h0 h1
  apply List.ext_getElem hl
  intro j hj hj'
  have := hv j _ _ (List.getElem?_eq_getElem hj') (List.getElem?_eq_getElem hj)
  simp only [abs_zero, add_zero] at this
  have := abs_nonpos_iff.mp this
  linarith

/-- **C45 (head).** No field enters through the head of the grid: with or without particles, the first cell is zero after
every step. -/
theorem C45_head {f f' : FEL} (hf : f.Reachable) (b : Beam) (hs : f.init b = .ok f' ∨ f.step b = .ok f') : f'.E[0]? = some 0 := by
  have key : ∀ J, f.Advanced f' J → 2 ≤ f.N → f'.E[0]? = some 0 := by
    intro J ha hN
    have h := ha.E 0
    have hl : 0 < f'.E.length := by rw [ha.sized.E, ha.N]; omega
    rw [fval_lt hl] at h
    rw [List.getElem?_eq_getElem hl, h]
    simp [nextVal]
  rcases hs with hs | hs
  · obtain ⟨_, _, hN, ha, _⟩ := init_inv hf.inv.sized hs
    exact key _ ha hN
  · obtain ⟨_, hN, _, _, _, _, _, _, _, ha, _⟩ := step_inv hf.inv.sized hs
    exact key _ ha hN

/-! ### a run without particles exists -/

/-- a beam without particles at a given step -/
noncomputable def noParticles (dt : ℝ) (k : Nat) : Beam := { Beam.empty with dt := dt, NOTS := k }

theorem noParticles_reachable (dt : ℝ) (k : Nat) : (noParticles dt k).Reachable :=
  .setNOTS (b := { Beam.empty with dt := dt }) k (.setTimeStep dt .empty)

theorem noParticles_traverse (dt : ℝ) (k : Nat) : (noParticles dt k).traverse = .ok [] := rfl

theorem vacuum_exists {f : FEL} (hf : Constructed f) (hs : f.Sane) {d : Int} (ho : f.stepOutput = some d) (hd : d ≠ 0) (n : Nat) :
    ∃ h, h 0 = f ∧ Course h (noParticles f.dt) n := by
  suffices H : ∃ h, h 0 = f ∧ Course h (noParticles f.dt) n ∧ ∀ k ≤ n, (h k).Sane ∧ (h k).stepOutput = some d ∧ (h k).dt = f.dt ∧ (h k).steps = k by
    obtain ⟨h, h0, hc, _⟩ := H
    exact ⟨h, h0, hc⟩
  induction n with
  | zero =>
    refine ⟨fun _ => f, rfl, ⟨hf, by omega, by omega⟩, ?_⟩
    intro k hk
    obtain rfl : k = 0 := by omega
    exact ⟨hs, ho, rfl, hf.fresh.steps⟩
  | succ n ih =>
    obtain ⟨h, h0, hc, hk⟩ := ih
    obtain ⟨c1, c2, c3, c4⟩ := hk n le_rfl
    have hinv := (hc.reachable n le_rfl).inv
    have hnew : ∃ f', (n = 0 → (h 0).init (noParticles f.dt 0) = .ok f') ∧ (1 ≤ n → (h n).step (noParticles f.dt n) = .ok f') ∧ ∃ J, (h n).Advanced f' J := by
      cases n with
      | zero =>
        obtain ⟨f', e1, e2, _⟩ := init_ok hinv.sized c1.two (noParticles f.dt 0) c1.dt.ne' (by
          rw [c3]; simp [noParticles]; norm_num)
        exact ⟨f', fun _ => e1, by omega, _, e2⟩
      | succ n =>
        obtain ⟨J, _, _, _, j4⟩ := step_ok hinv.sized c1 (noParticles_traverse f.dt (n + 1)) (by
          rw [hinv.time, c4, c3]
          simp only [noParticles]
          push_cast
          rw [sub_self, abs_zero]
          have := c1.dt; rw [c3] at this
          positivity) (by simp)
        have hr : (h (n + 1)).recordDue ((h (n + 1)).steps + 1) = .ok (decide ((((h (n + 1)).steps + 1 : Nat) : Int).tmod d = 0)) := by
          unfold recordDue
          rw [c2]
          simp only
          rw [if_neg hd]
        obtain ⟨f', e1, e2, _⟩ := j4 _ hr
        exact ⟨f', by omega, fun _ => e1, _, e2⟩
    obtain ⟨f', n1, n2, J, ha⟩ := hnew
    refine ⟨fun k => if k = n + 1 then f' else h k, by simp [h0], ⟨?_, ?_, ?_⟩, ?_⟩
    · simp only [if_neg (show ¬ (0 = n + 1) by omega)]; exact hc.start
    · intro _
      simp only [if_neg (show ¬ (0 = n + 1) by omega)]
      by_cases hn : n = 0
      · subst hn; simp only [if_true]; exact n1 rfl
      · rw [if_neg (by omega)]; exact hc.first (by omega)
    · intro k h1 h2
      show FEL.step _ (if k = n + 1 then f' else h k) = .ok (if k + 1 = n + 1 then f' else h (k + 1))
      rw [if_neg (show ¬ k = n + 1 by omega)]
      by_cases hn : k = n
      · subst hn; rw [if_pos rfl]; exact n2 h1
      · rw [if_neg (by omega)]; exact hc.next k h1 (by omega)
    · intro k hk'
      by_cases hn : k = n + 1
      · simp only [if_pos hn]
        refine ⟨⟨by rw [ha.N]; exact c1.two, by rw [ha.N]; exact c1.int, by rw [ha.dt]; exact c1.dt, by rw [ha.ds, ha.dt]; exact c1.ds, by rw [ha.zR]; exact c1.zR, by rw [ha.w0]; exact c1.w0⟩, by rw [ha.out, c2], by rw [ha.dt, c3], by rw [ha.steps, c4, hn]⟩
      · simp only [if_neg hn]; exact hk k (by omega)

/-- a seeded interaction with four cells -/
noncomputable def demoInput (E0 : ℝ) : Input :=
  { N := some 4, position := some 0, prop := some ⟨0, 0, 1⟩, pol := some ⟨1, 0, 0⟩, log := some (true, some 2),
    mode := some (1, 1, 0), seed := some ⟨E0, SpeedOfLight, 1, 0⟩ }

theorem normalizeE_unit {v : Vec} (h : v.norm = 1) : normalizeE v = .ok v := by
  unfold normalizeE
  have h0 : v ≠ 0 := by
    intro hv
    rw [hv] at h
    simp [Vec.norm, Vec.abs2nd] at h
  rw [if_neg h0]
  unfold Vec.normalize
  rw [h]
  congr 1
  ext <;> simp

theorem demoInput_constructed (E0 : ℝ) : ∃ f, FEL.ofInput 1 (demoInput E0) = .ok f ∧ Constructed f ∧ f.Sane ∧ f.stepOutput = some 2 ∧ f.dt = 1 ∧ f.E[0]? = some E0 ∧
    f.ex = ⟨1, 0, 0⟩ ∧ f.prop = ⟨0, 0, 1⟩ ∧ f.head = 0 ∧ f.N = 4 ∧ f.w0 = 1 ∧ f.zR = 1 ∧ f.zw = 0 ∧ f.E = (List.range 4).map (fun i => E0 * seedValue 1 ⟨1, SpeedOfLight, 1, 0⟩ i) := by
  have h1 : normalizeE (⟨0, 0, 1⟩ : Vec) = .ok ⟨0, 0, 1⟩ := normalizeE_unit (by simp [Vec.norm, Vec.abs2nd])
  have h2 : (⟨1, 0, 0⟩ : Vec) - (⟨0, 0, 1⟩ : Vec) * dot (⟨1, 0, 0⟩ : Vec) ⟨0, 0, 1⟩ = ⟨1, 0, 0⟩ := by ext <;> simp [dot]
  have h3 : normalizeE (⟨1, 0, 0⟩ : Vec) = .ok ⟨1, 0, 0⟩ := normalizeE_unit (by simp [Vec.norm, Vec.abs2nd])
  have hseed : ∀ g : FEL, g.seed ⟨E0, SpeedOfLight, 1, 0⟩ = .ok { g with E := (List.range g.N).map (seedValue g.dt ⟨E0, SpeedOfLight, 1, 0⟩), prev := (List.range g.N).map (seedValue g.dt ⟨E0, SpeedOfLight, 1, 0⟩), fields := [(List.range g.N).map (seedValue g.dt ⟨E0, SpeedOfLight, 1, 0⟩)], currents := [List.replicate g.N 0], steps := 0 } := by
    intro g
    unfold seed
    rw [if_neg (by simp [SpeedOfLight_pos.ne'])]
  obtain ⟨f, hfe⟩ : ∃ f, f = { setup 4 1 (1 * SpeedOfLight) 0 ⟨0, 0, 1⟩ ⟨1, 0, 0⟩ (cross ⟨0, 0, 1⟩ ⟨1, 0, 0⟩) (some 2) 1 1 0 with E := (List.range 4).map (seedValue 1 ⟨E0, SpeedOfLight, 1, 0⟩), prev := (List.range 4).map (seedValue 1 ⟨E0, SpeedOfLight, 1, 0⟩), fields := [(List.range 4).map (seedValue 1 ⟨E0, SpeedOfLight, 1, 0⟩)], currents := [List.replicate 4 0], steps := 0 } := ⟨_, rfl⟩
  have h : FEL.ofInput 1 (demoInput E0) = .ok f := by
    rw [hfe]
    unfold ofInput demoInput
    simp only [pure, Except.pure, bind, Except.bind, h1, h2, h3, logStep]
    rw [if_neg (by omega)]
    exact hseed _
  refine ⟨f, h, .ofInput (by intro n hn; simp [demoInput] at hn; omega) h, ?_⟩
  subst hfe
  refine ⟨?_, rfl, rfl, ?_, rfl, rfl, rfl, rfl, rfl, rfl, rfl, ?_⟩
  · exact ⟨by simp [setup], by simp [setup], by norm_num [setup], rfl, by norm_num [setup], by norm_num [setup]⟩
  · simp [setup, seedValue]
  · show List.map _ _ = List.map _ _
    congr 1
    funext i
    simp only [seedValue]
    ring

/-- non-vacuity of C45: runs of any length with a non-zero seed -/
example (n : Nat) : ∃ h, Course h (noParticles 1) n ∧ (h 0).E[0]? = some 1 ∧ ∀ k, (noParticles 1 k).traverse = .ok [] := by
  obtain ⟨f, _, hf, hs, ho, hdt, hE, _⟩ := demoInput_constructed 1
  obtain ⟨h, h0, hc⟩ := vacuum_exists hf hs ho (by decide) n
  rw [hdt] at hc
  exact ⟨h, hc, by rw [h0, hE], fun k => rfl⟩

/-! ## C46: no access outside the grid -/

/-- **C46 (init).** Handing a beam to an interaction with at least two cells never touches memory outside the grid: it
succeeds, or the time steps differ and an `IOexception` is raised. -/
theorem C46_init {f : FEL} (hf : f.Reachable) (hs : f.Sane) (b : Beam) : (∃ f', f.init b = .ok f') ∨ f.init b = .error .io := by
  by_cases hb : |b.dt - f.dt| / f.dt ≤ 1e-9
  · obtain ⟨f', h, _⟩ := init_ok hf.inv.sized hs.two b hs.dt.ne' hb
    exact Or.inl ⟨f', h⟩
  · right
    unfold init
    rw [if_neg hs.dt.ne', if_pos (not_le.mp hb)]
    rfl

/-- **C46 (step).** For an interaction with a usable output step, `step` never touches memory outside the grid, for any
beam: it succeeds exactly if the beam and all its particles are in step with the field and all particles are on the grid,
in all other cases it raises an `IOexception`. -/
theorem C46_step {f : FEL} (hf : f.Reachable) (hs : f.Sane) {d : Int} (ho : f.stepOutput = some d) (hd : d ≠ 0) {b : Beam} (hb : b.Reachable) :
    ((∃ f', f.step b = .ok f') ↔ |(b.NOTS : ℝ) * f.dt - f.time| ≤ 1 / 4 * f.dt ∧ ∀ i j p, b.Holds i j p →
      |p.tCur - f.time| ≤ 1 / 4 * f.dt ∧ 0 ≤ dot (f.head - p.XCur) f.prop ∧ dot (f.head - p.XCur) f.prop ≤ f.N * f.ds) ∧
    ((¬ ∃ f', f.step b = .ok f') → f.step b = .error .io) := by
  have hwf := Beam.wf_reachable hb
  have htr := traverse_all hwf
  have hall : (∀ p ∈ b.all, f.Accepts p) ↔ ∀ i j p, b.Holds i j p →
      |p.tCur - f.time| ≤ 1 / 4 * f.dt ∧ 0 ≤ dot (f.head - p.XCur) f.prop ∧ dot (f.head - p.XCur) f.prop ≤ f.N * f.ds := by
    constructor
    · intro h i j p hp; exact h p ((mem_all_iff hwf p).mpr ⟨i, j, hp⟩)
    · intro h p hp; obtain ⟨i, j, hh⟩ := (mem_all_iff hwf p).mp hp; exact h i j p hh
  rw [← hall]
  have hok : |(b.NOTS : ℝ) * f.dt - f.time| ≤ 1 / 4 * f.dt ∧ (∀ p ∈ b.all, f.Accepts p) → ∃ f', f.step b = .ok f' := by
    rintro ⟨h1, h2⟩
    obtain ⟨J, _, _, _, j4⟩ := step_ok hf.inv.sized hs htr h1 h2
    have hr : f.recordDue (f.steps + 1) = .ok (decide (((f.steps + 1 : Nat) : Int).tmod d = 0)) := by
      unfold recordDue
      rw [ho]
      simp only
      rw [if_neg hd]
    obtain ⟨f', e, _⟩ := j4 _ hr
    exact ⟨f', e⟩
  have hno : ¬ (|(b.NOTS : ℝ) * f.dt - f.time| ≤ 1 / 4 * f.dt ∧ ∀ p ∈ b.all, f.Accepts p) → f.step b = .error .io := step_rejects hs htr
  constructor
  · constructor
    · rintro ⟨f', h⟩
      by_contra hc
      rw [hno hc] at h
      cases h
    · exact hok
  · intro h
    exact hno (fun hc => h (hok hc))

/-- the full claim for the evaluation of the field -/
def FieldNeverOutside : Prop :=
  ∀ f : FEL, f.Reachable → f.Sane → ∀ (t : ℝ) (X : Vec), (∃ F, f.Field t X = .ok F) ∨ f.Field t X = .error .io

/-- **C46 (Field, partial).** Evaluating the field never touches memory outside the grid, and positions off the grid raise
an `IOexception`, provided the distance to the head of the grid, counted in cells, is in the range of an `int`. -/
theorem C46_Field_partial {f : FEL} (hf : f.Reachable) (hs : f.Sane) (t : ℝ) (X : Vec)
    (hr : |dot (f.head - X) f.prop| ≤ (2 ^ 31 - 1) * f.ds) :
    ((∃ F, f.Field t X = .ok F) ∨ f.Field t X = .error .io) ∧
    (dot (f.head - X) f.prop < -(1 / 2) * f.ds ∨ (f.N - 1 / 2) * f.ds < dot (f.head - X) f.prop → f.Field t X = .error .io) ∧
    (|t - f.time| ≤ 1 / 4 * f.dt → 0 ≤ dot (f.head - X) f.prop → dot (f.head - X) f.prop ≤ (f.N - 1) * f.ds → ∃ F, f.Field t X = .ok F) := by
  have hds := hs.ds_pos
  set dz := dot (f.head - X) f.prop with hdz
  obtain ⟨r1, r2⟩ := abs_le.mp hr
  have q1 : (((-(2 ^ 31 - 1) : Int)) : ℝ) ≤ dz / f.ds := by
    rw [le_div_iff₀ hds]; push_cast; linarith
  have q2 : dz / f.ds ≤ (((2 ^ 31 - 1 : Int)) : ℝ) := by
    rw [div_le_iff₀ hds]; push_cast; linarith
  obtain ⟨c1, c2⟩ := crint_mono_bounds q1 q2
  have ht : toInt32 (crint (dz / f.ds)) = .ok (crint (dz / f.ds)) := by
    unfold toInt32; rw [if_pos (by omega)]
  by_cases htm : 1 / 4 * f.dt < |t - f.time|
  · have : f.Field t X = .error .io := by unfold Field; rw [if_pos htm]; rfl
    exact ⟨Or.inr this, fun _ => this, fun h => absurd h (not_le.mpr htm)⟩
  · have hF : f.Field t X = (if crint (dz / f.ds) < 0 ∨ crint (dz / f.ds) ≥ f.N then .error .io else
        (cellAt f.E (crint (dz / f.ds))).map (fun e => (⟨f.ex * e, f.ey * e / SpeedOfLight⟩ : EMField))) := by
      unfold Field
      rw [if_neg htm, if_neg hds.ne']
      simp only [pure, Except.pure, bind, Except.bind, ← hdz, ht]
      split
      · rfl
      · cases cellAt f.E (crint (dz / f.ds)) <;> rfl
    rw [hF]
    have hcell : ¬ (crint (dz / f.ds) < 0 ∨ crint (dz / f.ds) ≥ f.N) → ∃ e, cellAt f.E (crint (dz / f.ds)) = .ok e := by
      intro hc
      have hz : ((crint (dz / f.ds)).toNat : Int) = crint (dz / f.ds) := Int.toNat_of_nonneg (by omega)
      rw [← hz]
      exact ⟨_, cellAt_ok (by rw [hf.inv.sized.E]; omega)⟩
    refine ⟨?_, ?_, ?_⟩
    · by_cases hc : crint (dz / f.ds) < 0 ∨ crint (dz / f.ds) ≥ f.N
      · rw [if_pos hc]; exact Or.inr rfl
      · rw [if_neg hc]; obtain ⟨e, he⟩ := hcell hc; rw [he]; exact Or.inl ⟨_, rfl⟩
    · intro ho
      rw [if_pos]
      have hn := abs_le.mp (crint_near (dz / f.ds))
      rcases ho with ho | ho
      · left
        have : dz / f.ds < -(1 / 2) := by rw [div_lt_iff₀ hds]; exact ho
        have h2 : ((crint (dz / f.ds) : Int) : ℝ) < ((0 : Int) : ℝ) := by push_cast; linarith [hn.2]
        exact Int.cast_lt.mp h2
      · right
        have : (f.N : ℝ) - 1 / 2 < dz / f.ds := by rw [lt_div_iff₀ hds]; exact ho
        have h2 : (((f.N : Int) - 1 : Int) : ℝ) < ((crint (dz / f.ds) : Int) : ℝ) := by push_cast; linarith [hn.1]
        have := Int.cast_lt.mp h2
        omega
    · intro _ h1 h2
      have b1 : (((0 : Int)) : ℝ) ≤ dz / f.ds := by push_cast; exact div_nonneg h1 hds.le
      have b2 : dz / f.ds ≤ (((f.N : Int) - 1 : Int) : ℝ) := by rw [div_le_iff₀ hds]; push_cast; exact h2
      obtain ⟨d1, d2⟩ := crint_mono_bounds b1 b2
      have hc : ¬ (crint (dz / f.ds) < 0 ∨ crint (dz / f.ds) ≥ f.N) := by omega
      rw [if_neg hc]
      obtain ⟨e, he⟩ := hcell hc
      rw [he]
      exact ⟨_, rfl⟩

/-- the parameters of an interaction created by the default constructor -/
theorem default_constructed : ∃ f, FEL.default 1 4 = .ok f ∧ Constructed f ∧ f.Sane ∧ f.stepOutput = some 1 ∧ f.dt = 1 ∧ f.head = 0 ∧ f.prop = ⟨0, 0, 1⟩ ∧ f.N = 4 ∧
    f.ex = ⟨0, 1, 0⟩ ∧ f.ey = 0 := by
  have h : FEL.default 1 4 = .ok (setup 4 1 (1 * SpeedOfLight) 0 ⟨0, 0, 1⟩ ⟨0, 1, 0⟩ 0 (some 1) 1 1e-3 1) := by
    unfold FEL.default; rw [if_neg (by omega)]; rfl
  exact ⟨_, h, .default (by omega) h, ⟨by simp [setup], by simp [setup], by norm_num [setup], rfl, by norm_num [setup], by norm_num [setup]⟩, rfl, rfl, rfl, rfl, rfl, rfl, rfl⟩

theorem crint_intCast (n : Int) : crint (n : ℝ) = n := by
  have := crint_mono_bounds (x := (n : ℝ)) (a := n) (b := n) le_rfl le_rfl
  omega

/-- The conversion of the distance to an `int` comes before the range check: for a position more than 2^31 cells away from
the head of the grid the behaviour is undefined. -/
theorem C46_Field_full_statement_false : ¬ FieldNeverOutside := by
  intro h
  obtain ⟨f, _, hc, hs, _, hdt, hh, hp, hN, _⟩ := default_constructed
  have hds : f.ds = SpeedOfLight := by rw [hs.ds, hdt, one_mul]
  have hz : dot (f.head - (⟨0, 0, -(2 ^ 32 * SpeedOfLight)⟩ : Vec)) f.prop / f.ds = ((2 ^ 32 : Int) : ℝ) := by
    rw [hh, hp, hds]
    simp only [dot, Vec.sub_x, Vec.sub_y, Vec.sub_z, Vec.zero_x, Vec.zero_y, Vec.zero_z]
    have := SpeedOfLight_pos.ne'
    rw [div_eq_iff this]
    push_cast
    ring
  have hF : f.Field f.time ⟨0, 0, -(2 ^ 32 * SpeedOfLight)⟩ = .error .ub := by
    unfold Field
    rw [if_neg (by rw [sub_self, abs_zero]; have := hs.dt; linarith), if_neg hs.ds_pos.ne']
    simp only [bind, Except.bind]
    rw [hz, crint_intCast]
    unfold toInt32
    rw [if_neg (by omega)]
  rcases h f (.start hc) hs f.time ⟨0, 0, -(2 ^ 32 * SpeedOfLight)⟩ with ⟨F, h⟩ | h
  · rw [hF] at h; cases h
  · rw [hF] at h; cases h

/-- Grids with fewer than two cells are accepted by the constructors, but the first use writes outside the grid. -/
theorem C46_small_grid {f : FEL} (hf : f.Reachable) (hN : f.N < 2) (hdt : 0 < f.dt) (b : Beam) (hb : b.dt = f.dt) : f.init b = .error .ub := by
  unfold init
  rw [if_neg hdt.ne', if_neg (by rw [hb, sub_self, abs_zero, zero_div]; norm_num)]
  simp only [pure, Except.pure, bind, Except.bind]
  unfold propagate
  have hE := hf.inv.sized.E
  by_cases h0 : f.N = 0
  · have : cellAt f.E 0 = .error .ub := by
      unfold cellAt
      rw [if_neg (by omega)]
      have : f.E[(0 : Int).toNat]? = none := by rw [List.getElem?_eq_none_iff]; omega
      rw [this]
    rw [this]; rfl
  · have h1 : cellAt f.E 0 = .ok (fval f.E 0) := cellAt_ok (i := 0) (by omega)
    rw [h1]
    simp only [bind, Except.bind]
    have h2 : cellPut (List.replicate f.N 0) 1 (fval f.E 0) = .error .ub := by
      unfold cellPut
      rw [if_neg]
      rintro ⟨_, h⟩
      rw [List.length_replicate] at h
      have : (1 : Int).toNat = 1 := rfl
      omega
    rw [h2]

/-- non-vacuity of C46: an interaction after `init`, a beam with particles at another step is rejected -/
example : ∃ f : FEL, f.Reachable ∧ f.Sane ∧ f.stepOutput = some 2 ∧ ∃ b : Beam, b.Reachable ∧ (∃ p, b.Holds 1 1 p) ∧ f.step b = .error .io := by
  obtain ⟨f, _, hf, hs, ho, hdt, _⟩ := demoInput_constructed 1
  refine ⟨f, .start hf, hs, ho, { demoBeam with NOTS := 7 }, .setNOTS 7 demoBeam_reachable, ?_, ?_⟩
  · exact ⟨_, (holds_iff (Beam.wf_reachable (.setNOTS 7 demoBeam_reachable)) 1 1 _).mpr ⟨_, rfl, rfl⟩⟩
  · refine (C46_step (.start hf) hs ho (by decide) (.setNOTS 7 demoBeam_reachable)).2 ?_
    rw [(C46_step (.start hf) hs ho (by decide) (.setNOTS 7 demoBeam_reachable)).1]
    rintro ⟨h, _⟩
    rw [hdt, hf.fresh.time] at h
    norm_num at h

/-! ## C47: records -/

/-- **C47 (sizes).** At any time there are as many field records as current records, and each has the size of the grid. -/
theorem C47_sizes {f : FEL} (hf : f.Reachable) : f.fields.length = f.currents.length ∧
    (∀ r ∈ f.fields, List.length r = f.N) ∧ ∀ r ∈ f.currents, List.length r = f.N :=
  ⟨hf.inv.records, hf.inv.fields, hf.inv.currents⟩

/-- the full claim: the records are the fields after those steps (the initial field counting as step 0) whose number is
a multiple of the output step -/
def RecordsAtMultiples : Prop :=
  ∀ (h : Nat → FEL) (b : Nat → Beam) (n : Nat) (d : Int), Course h b n → (h 0).stepOutput = some d →
    (h n).fields = ((List.range (n + 1)).filter (fun s : Nat => decide (d ∣ (s : Int)))).map (fun s => (h s).E)

theorem recordDue_dvd {f : FEL} {d : Int} (ho : f.stepOutput = some d) {s : Nat} {due : Bool} (h : f.recordDue s = .ok due) : due = decide (d ∣ (s : Int)) := by
  unfold recordDue at h
  rw [ho] at h
  simp only at h
  split at h
  · cases h
  · injection h with h
    rw [← h]
    congr 1
    rw [eq_iff_iff]
    exact (Int.dvd_iff_tmod_eq_zero).symm

/-- **C47 (records, partial).** The records are the initial field and the fields after the steps number 2, 3, ... whose
number is a multiple of the output step.  Missing: the first step (taken by `init`) is never recorded. -/
theorem C47_records_partial {h : Nat → FEL} {b : Nat → Beam} {n : Nat} {d : Int} (hc : Course h b n) (ho : (h 0).stepOutput = some d) :
    (h n).fields = ((List.range (n + 1)).filter (fun s : Nat => decide (s ≠ 1 ∧ d ∣ (s : Int)))).map (fun s => (h s).E) ∧ ∀ k ≤ n, (h k).steps = k := by
  suffices H : ∀ k ≤ n, (h k).fields = ((List.range (k + 1)).filter (fun s : Nat => decide (s ≠ 1 ∧ d ∣ (s : Int)))).map (fun s => (h s).E) ∧ (h k).steps = k ∧ (h k).stepOutput = some d by
    exact ⟨(H n le_rfl).1, fun k hk => (H k hk).2.1⟩
  intro k
  induction k with
  | zero =>
    intro _
    refine ⟨?_, hc.start.fresh.steps, ho⟩
    rw [hc.start.fresh.fields]
    simp
  | succ k ih =>
    intro hk
    obtain ⟨i1, i2, i3⟩ := ih (by omega)
    rw [List.range_succ, List.filter_append, List.map_append, ← i1]
    cases k with
    | zero =>
      obtain ⟨_, _, _, ha, h1, _⟩ := init_inv hc.start.fresh.sized (hc.first hk)
      exact ⟨by rw [h1]; simp, by rw [ha.steps, i2], by rw [ha.out, i3]⟩
    | succ k =>
      have hsz := (hc.reachable (k + 1) (by omega)).inv.sized
      obtain ⟨_, _, _, _, due, _, _, _, hd, ha, h1, _⟩ := step_inv hsz (hc.next (k + 1) (by omega) (by omega))
      refine ⟨?_, by rw [ha.steps, i2], by rw [ha.out, i3]⟩
      rw [h1]
      have := recordDue_dvd i3 hd
      rw [i2] at this
      subst this
      by_cases hdv : d ∣ ((k + 1 + 1 : Nat) : Int)
      · rw [List.filter_cons_of_pos (by simp only [decide_eq_true_eq]; exact ⟨by omega, hdv⟩), if_pos (by simpa using hdv)]; rfl
      · rw [List.filter_cons_of_neg (by simp only [decide_eq_true_eq]; exact fun hc => hdv hc.2), if_neg (by simpa using hdv)]; rfl

/-- With output step 1 every step should be recorded, but the first one is missing. -/
theorem C47_records_full_statement_false : ¬ RecordsAtMultiples := by
  intro H
  obtain ⟨f, _, hf, hs, ho, hdt, _⟩ := default_constructed
  obtain ⟨h, h0, hc⟩ := vacuum_exists hf hs ho (by decide) 1
  have h1 := H h _ 1 1 hc (by rw [h0, ho])
  obtain ⟨_, _, _, _, h2, _⟩ := init_inv hc.start.fresh.sized (hc.first le_rfl)
  rw [h2, hc.start.fresh.fields] at h1
  have := congrArg List.length h1
  simp at this

/-- **C47 (no log node).** If the input file has no `<log>` node, the output step is never set, and the first `step` with a
beam that is in step reads it. -/
theorem C47_no_log {dt : ℝ} {i : Input} {f f1 : FEL} (hl : i.log = none) (hn : ∀ n, i.N = some n → n < 2 ^ 31) (hf : FEL.ofInput dt i = .ok f) (hs : f.Sane) {b0 b1 : Beam}
    (h1 : f.init b0 = .ok f1) (hb : b1.Reachable) (hin : |(b1.NOTS : ℝ) * f1.dt - f1.time| ≤ 1 / 4 * f1.dt)
    (hp : ∀ i j p, b1.Holds i j p → |p.tCur - f1.time| ≤ 1 / 4 * f1.dt ∧ 0 ≤ dot (f1.head - p.XCur) f1.prop ∧ dot (f1.head - p.XCur) f1.prop ≤ f1.N * f1.ds) :
    f1.step b1 = .error .ub := by
  have hc : Constructed f := .ofInput hn hf
  have ho : f.stepOutput = none := by
    obtain ⟨n, pos, p, prop, pol, ex, o, zR, w0, zw, _, _, _, _, _, _, _, hlo, hf'⟩ := ofInput_inv hf
    have ho := hlo hl
    rcases hf' with h | ⟨s, _, h⟩
    · rw [← h, ho]; rfl
    · unfold seed at h
      split at h
      · cases h
      · injection h with h
        rw [← h, ho]; rfl
  obtain ⟨_, _, _, ha, _⟩ := init_inv hc.fresh.sized h1
  have hs1 : f1.Sane := ⟨by rw [ha.N]; exact hs.two, by rw [ha.N]; exact hs.int, by rw [ha.dt]; exact hs.dt, by rw [ha.ds, ha.dt]; exact hs.ds, by rw [ha.zR]; exact hs.zR, by rw [ha.w0]; exact hs.w0⟩
  have hwf := Beam.wf_reachable hb
  obtain ⟨J, _, _, j3, _⟩ := step_ok ha.sized hs1 (traverse_all hwf) hin (fun p hp' => by
    obtain ⟨i, j, hh⟩ := (mem_all_iff hwf p).mp hp'; exact hp i j p hh)
  refine j3 _ ?_
  unfold recordDue
  rw [ha.out, ho]

/-- non-vacuity of C47: a course of any length with output step 2 -/
example (n : Nat) : ∃ h b, Course h b n ∧ (h 0).stepOutput = some 2 := by
  obtain ⟨f, _, hf, hs, ho, hdt, hE⟩ := demoInput_constructed 1
  obtain ⟨h, h0, hc⟩ := vacuum_exists hf hs ho (by decide) n
  exact ⟨h, _, hc, by rw [h0, ho]⟩

end FEL
end Teufel
