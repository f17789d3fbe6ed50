import Verif.Lemmas.Moved
import Verif.Props.FELRun
import Verif.Props.FELFile
import Verif.Props.Coupled
import Verif.Lemmas.SourceScreen

/-!
# C88: conditions under which particles and interactions can be advanced
-/

namespace Teufel
open Vec

namespace FEL

/-- the direction of propagation is a unit vector -/
theorem Constructed.unit {f : FEL} (h : Constructed f) : Vec.norm f.prop = 1 := by
  cases h with
  | default hn h =>
    unfold FEL.default at h
    split at h
    · cases h
    · injection h with h
      subst h
      simp [setup, Vec.norm]
  | ofInput hn h =>
    obtain ⟨n, pos, p, prop, pol, ex, o, zR, w0, zw, _, _, _, _, hp, _, _, _, hf⟩ := ofInput_inv h
    obtain ⟨h0, rfl⟩ := normalizeE_ok hp
    have hu : Vec.norm p.normalize = 1 := normalize_norm h0
    cases hf with
    | inl hf => subst hf; exact hu
    | inr hf =>
      obtain ⟨s, _, hs⟩ := hf
      unfold seed at hs
      split at hs
      · cases hs
      · injection hs with hs
        subst hs
        exact hu

/-- the field exists on the grid at the time of the interaction -/
theorem field_exists {f : FEL} (hs : f.Sized) (hds : 0 < f.ds) (hint : (f.N : Int) < 2 ^ 31) (hdt : 0 ≤ f.dt) {t : ℝ} {X : Vec} (ht : t = f.time)
    (h0 : 0 ≤ f.depth X) (h1 : f.depth X ≤ ((f.N : ℝ) - 1) * f.ds) : ∃ F, f.Field t X = .ok F := by
  unfold Field
  rw [if_neg (by rw [ht, sub_self, abs_zero]; exact not_lt.mpr (by positivity)), if_neg hds.ne']
  have hc : (0 : Int) ≤ crint (f.depth X / f.ds) ∧ crint (f.depth X / f.ds) ≤ (f.N : Int) - 1 := by
    apply crint_mono_bounds
    · push_cast; exact div_nonneg h0 hds.le
    · push_cast; rw [div_le_iff₀ hds]; exact h1
  have h32 : toInt32 (crint (f.depth X / f.ds)) = .ok (crint (f.depth X / f.ds)) := by unfold toInt32; rw [if_pos (by omega)]
  change ∃ F, (do
    let index ← toInt32 (crint (f.depth X / f.ds))
    if index < 0 ∨ index ≥ f.N then Except.error Err.io
    let e ← cellAt f.E index
    return (⟨f.ex * e, f.ey * e / SpeedOfLight⟩ : EMField)) = .ok F
  rw [h32]
  simp only [bind, Except.bind, pure, Except.pure]
  rw [if_neg (by omega)]
  obtain ⟨j, hj⟩ : ∃ j : Nat, crint (f.depth X / f.ds) = (j : Int) := ⟨(crint (f.depth X / f.ds)).toNat, by omega⟩
  rw [hj, cellAt_ok (by rw [hs.E]; omega)]
  exact ⟨_, rfl⟩

/-- `f` is the interaction `f0` after `n` calls of `init` and `step`, with at most `n` records -/
structure Course.At (f0 : FEL) (n : Nat) (f : FEL) : Prop where
  later : Later f0 n f
  reach : Reachable f
  N : f.N = f0.N
  zR : f.zR = f0.zR
  w0 : f.w0 = f0.w0
  out : f.stepOutput = f0.stepOutput
  records : f.fields.length ≤ n

theorem Course.At.first {f f' : FEL} (hf : Constructed f) {b : Beam} (h : f.init b = .ok f') : Course.At f 1 f' := by
  obtain ⟨_, _, _, ha, hfi, _⟩ := init_inv hf.fresh.sized h
  exact ⟨(Later.start hf.fresh).next ha, .init b (.start hf) h, ha.N, ha.zR, ha.w0, ha.out, by rw [hfi, hf.fresh.fields]; simp⟩

theorem Course.At.next {f0 f f' : FEL} {n : Nat} (hf : Course.At f0 n f) {b : Beam} (h : f.step b = .ok f') : Course.At f0 (n + 1) f' := by
  obtain ⟨_, _, _, _, due, _, _, _, _, ha, hfi, _⟩ := step_inv hf.later.sized h
  refine ⟨hf.later.next ha, .step b hf.reach h, by rw [ha.N, hf.N], by rw [ha.zR, hf.zR], by rw [ha.w0, hf.w0], by rw [ha.out, hf.out], ?_⟩
  rw [hfi, List.length_append]
  have := hf.records
  split_ifs <;> simp <;> omega

end FEL

/-- the interactions of the coupled calculation -/
theorem after_at {ext : Lattice} {dt : ℝ} {ps qs : List Particle} {s S : List FEL} {k : Nat} (hs : ∀ f ∈ s, FEL.Constructed f) (h : Coupled.after ext dt ps s k = .ok (qs, S)) :
    List.Forall₂ (fun f0 f => FEL.Course.At f0 (k + 1) f) s S := by
  induction k generalizing qs S with
  | zero =>
    unfold Coupled.after at h
    simp only [bind, Except.bind, pure, Except.pure] at h
    cases hq : ps.mapM (fun p => dropState ((p.initTrajectory p.tCur p.XCur p.PCur p.ACur).InitVay dt (Coupled.field ext s))) with
    | error e => rw [hq] at h; cases h
    | ok a =>
      rw [hq] at h
      simp only at h
      cases hi : s.mapM (FEL.init ⟨1, [⟨a.length, a⟩], 0, dt, .vay⟩) with
      | error e => rw [hi] at h; cases h
      | ok b =>
        rw [hi] at h
        simp only [Except.ok.injEq, Prod.mk.injEq] at h
        obtain ⟨rfl, rfl⟩ := h
        have hf := forall₂_mapM hi
        clear * - hf hs
        induction hf with
        | nil => exact .nil
        | cons hx _ ih => exact .cons (.first (hs _ (by simp)) hx) (ih (fun f hf => hs f (by simp [hf])))
  | succ k ih =>
    unfold Coupled.after at h
    cases hb : Coupled.after ext dt ps s k with
    | error e => rw [hb] at h; cases h
    | ok r =>
      obtain ⟨a, c⟩ := r
      rw [hb] at h
      simp only [bind, Except.bind, pure, Except.pure] at h
      have ih := ih hb
      cases hq : a.mapM (fun p => dropState (p.StepVay (Coupled.field ext c))) with
      | error e => rw [hq] at h; cases h
      | ok a' =>
        rw [hq] at h
        simp only at h
        cases hi : c.mapM (FEL.step ⟨1, [⟨a'.length, a'⟩], k + 1, dt, .vay⟩) with
        | error e => rw [hi] at h; cases h
        | ok b =>
          rw [hi] at h
          simp only [Except.ok.injEq, Prod.mk.injEq] at h
          obtain ⟨rfl, rfl⟩ := h
          have hf := forall₂_mapM hi
          clear * - hf ih
          induction ih generalizing b with
          | nil => cases hf; exact .nil
          | cons hx _ ih2 =>
            cases hf with
            | cons hy hf => exact .cons (hx.next hy) (ih2 _ hf)

theorem coupled_field_exists {ext : Lattice} {s : List FEL} {t : ℝ} {X : Vec} (hext : ∃ F, Lattice.field ext t X = .ok F) (hs : ∀ f ∈ s, ∃ F, FEL.Field f t X = .ok F) :
    ∃ F, Coupled.field ext s t X = .ok F := by
  obtain ⟨F, hF⟩ := hext
  obtain ⟨Gs, hG⟩ := mapM_exists (fun f : FEL => f.Field t X) s hs
  unfold Coupled.field
  rw [hF]
  simp only [bind, Except.bind]
  rw [hG]
  exact ⟨_, rfl⟩

/-- a particle which is not slower than the grid stays on it -/
theorem depth_moved {f0 f : FEL} {n : Nat} (hL : FEL.Later f0 n f) (hu : Vec.norm f0.prop = 1) (hds : f0.ds = f0.dt * SpeedOfLight) {x y : Vec}
    (hxy : Vec.norm (y - x) ≤ SpeedOfLight * (n * f0.dt)) :
    f0.depth x ≤ f.depth y ∧ f.depth y ≤ f0.depth x + 2 * n * f0.ds := by
  have hc := abs_dot_le (y - x) f0.prop
  rw [hu, mul_one] at hc
  have hpp : dot f0.prop f0.prop = 1 := by
    have : Vec.norm f0.prop ^ 2 = 1 := by rw [hu]; norm_num
    rw [Vec.norm_sq] at this
    exact this
  have key : f.depth y = f0.depth x + n * f0.ds - dot (y - x) f0.prop := by
    unfold FEL.depth
    rw [hL.head, hL.prop]
    have e : dot (f0.head + f0.prop * ((n : ℝ) * f0.ds) - y) f0.prop = dot (f0.head - x) f0.prop + (n * f0.ds) * dot f0.prop f0.prop - dot (y - x) f0.prop := by
      simp [dot]; ring
    rw [e, hpp, mul_one]
  rw [abs_le] at hc
  have hn : SpeedOfLight * (n * f0.dt) = n * f0.ds := by rw [hds]; ring
  rw [hn] at hxy
  rw [key]
  constructor <;> linarith [hc.1, hc.2]

/-- the step of a particle exists if the field at its new position does, which is the same in all fields -/
theorem step_exists {f : FieldFn} (a : Particle) (h : ∀ b, dropState (a.StepVay (fun _ _ => .ok 0)) = .ok b → ∃ F, f b.tCur b.XCur = .ok F) :
    ∃ b, dropState (a.StepVay f) = .ok b := by
  unfold Particle.StepVay at h ⊢
  simp only at h ⊢
  obtain ⟨F, hF⟩ := h _ rfl
  simp only [Particle.setCurrentPoint, Particle.storeTrajectoryPoint] at hF
  rw [hF]
  exact ⟨_, rfl⟩

/-- **C88 (staying on the grid).** Let the fields of the lattice exist everywhere, the particles start at time 0 with a mass and the interactions be fresh, with
sensible parameters and the time step of the tracking.  If every particle starts on every grid, not ahead of its head and at least `2·n` cells away from its end,
then particles and interactions can be advanced by `n` steps: particles are not faster than the head of the grid and lose at most two cells per step. -/
theorem C88_stays_on_grid (ext : Lattice) (hext : ∀ t X, ∃ F, Lattice.field ext t X = .ok F) (dt : ℝ) (hdt : 0 < dt) (ps : List Particle)
    (hps : ∀ p ∈ ps, Particle.Reachable p ∧ p.Mass ≠ 0 ∧ p.tCur = 0) (s : List FEL)
    (hs : ∀ f ∈ s, FEL.Constructed f ∧ 2 ≤ f.N ∧ f.zR ≠ 0 ∧ f.w0 ≠ 0 ∧ f.dt = dt ∧ ∃ d, f.stepOutput = some d ∧ d ≠ 0) (n : Nat)
    (hgrid : ∀ p ∈ ps, ∀ f ∈ s, 0 ≤ FEL.cellsBehindHead f p ∧ FEL.cellsBehindHead f p + 2 * n ≤ (f.N : ℝ) - 1) :
    ∀ k ≤ n, ∃ r, Coupled.after ext dt ps s k = .ok r := by
  have hc : ∀ f ∈ s, FEL.Constructed f := fun f hf => (hs f hf).1
  have hds : ∀ f ∈ s, 0 < FEL.ds f := by
    intro f hf
    obtain ⟨h1, _, _, _, h5, _⟩ := hs f hf
    rw [h1.fresh.ds, h5]
    exact mul_pos hdt SpeedOfLight_pos
  have hg : ∀ p ∈ ps, ∀ f ∈ s, 0 ≤ FEL.depth f p.XCur ∧ FEL.depth f p.XCur + 2 * n * f.ds ≤ ((f.N : ℝ) - 1) * f.ds := by
    intro p hp f hf
    obtain ⟨g1, g2⟩ := hgrid p hp f hf
    have hd := hds f hf
    have e : FEL.cellsBehindHead f p * f.ds = FEL.depth f p.XCur := by
      unfold FEL.cellsBehindHead FEL.depth
      field_simp
    constructor
    · rw [← e]; exact mul_nonneg g1 hd.le
    · have := mul_le_mul_of_nonneg_right g2 hd.le
      rw [← e]
      linarith
  intro k
  induction k with
  | zero =>
    intro _
    obtain ⟨qs, hqs⟩ := mapM_exists (fun p : Particle => dropState ((p.initTrajectory p.tCur p.XCur p.PCur p.ACur).InitVay dt (Coupled.field ext s))) ps (by
      intro p hp
      obtain ⟨r, hm, ht⟩ := hps p hp
      rw [init_single (p := p) rfl rfl rfl rfl rfl]
      rw [if_neg (show (p.initTrajectory p.tCur p.XCur p.PCur p.ACur).Mass ≠ 0 from hm)]
      obtain ⟨F, hF⟩ := coupled_field_exists (s := s) (hext p.tCur p.XCur) (by
        intro f hf
        obtain ⟨h1, _, _, _, h5, _⟩ := hs f hf
        obtain ⟨g1, g2⟩ := hg p hp f hf
        refine FEL.field_exists h1.fresh.sized (hds f hf) h1.fresh.int (by rw [h5]; exact hdt.le) (by rw [ht, h1.fresh.time]) g1 ?_
        have : (0 : ℝ) ≤ 2 * n * f.ds := mul_nonneg (by positivity) (hds f hf).le
        linarith)
      rw [hF]
      exact ⟨_, rfl⟩)
    obtain ⟨S, hS⟩ := mapM_exists (FEL.init ⟨1, [⟨qs.length, qs⟩], 0, dt, .vay⟩) s (by
      intro f hf
      obtain ⟨h1, h2, _, _, h5, _⟩ := hs f hf
      obtain ⟨f', hf', _⟩ := FEL.init_ok h1.fresh.sized h2 ⟨1, [⟨qs.length, qs⟩], 0, dt, .vay⟩ (by rw [h5]; exact hdt.ne') (by rw [h5]; simp; norm_num)
      exact ⟨f', hf'⟩)
    unfold Coupled.after
    simp only [hqs, hS, bind, Except.bind]
    exact ⟨_, rfl⟩
  | succ k ih =>
    intro hk
    obtain ⟨⟨a, c⟩, hb⟩ := ih (by omega)
    have hmoved := after_moved hb
    have hat := after_at hc hb
    -- positions after one more step
    have hpos : ∀ p q b, p ∈ ps → Moved dt p k q → ∀ g, dropState (q.StepVay g) = .ok b → b.tCur = (k + 1 : Nat) * dt ∧
        ∀ f0 ∈ s, ∀ f, FEL.Course.At f0 (k + 1) f → b.tCur = f.time ∧ 0 ≤ f.depth b.XCur ∧ f.depth b.XCur ≤ ((f.N : ℝ) - 1) * f.ds := by
      intro p q b hp hq g hg'
      obtain ⟨r, _, ht⟩ := hps p hp
      have hm := hq.next hg'
      have h1 := (hm.facts r hdt).2.2.2.2
      rw [ht, zero_add] at h1
      refine ⟨h1, ?_⟩
      intro f0 hf0 f hf
      obtain ⟨c1, _, _, _, c5, _⟩ := hs f0 hf0
      obtain ⟨g1, g2⟩ := hg p hp f0 hf0
      have hn := hm.near r hdt
      rw [← c5] at hn
      obtain ⟨d1, d2⟩ := depth_moved hf.later c1.unit c1.fresh.ds hn
      refine ⟨by rw [h1, hf.later.time, c5], by linarith, ?_⟩
      rw [hf.N, hf.later.ds]
      have : (2 : ℝ) * ((k + 1 : Nat) : ℝ) * f0.ds ≤ 2 * n * f0.ds := by
        apply mul_le_mul_of_nonneg_right _ (hds f0 hf0).le
        have : ((k + 1 : Nat) : ℝ) ≤ n := by exact_mod_cast hk
        linarith
      linarith
    have hback : ∀ f ∈ c, ∃ f0 ∈ s, FEL.Course.At f0 (k + 1) f := by
      intro f hf
      obtain ⟨i, hi⟩ := List.getElem?_of_mem hf
      have hil := (List.getElem?_eq_some_iff.mp hi).1
      have hil' : i < s.length := by rw [hat.length_eq]; exact hil
      refine ⟨s[i], List.getElem_mem _, ?_⟩
      have := List.Forall₂.get hat hil' hil
      rw [List.getElem?_eq_getElem hil] at hi
      injection hi with hi
      simpa [hi] using this
    have hbackp : ∀ q ∈ a, ∃ p ∈ ps, Moved dt p k q := by
      intro f hf
      obtain ⟨i, hi⟩ := List.getElem?_of_mem hf
      have hil := (List.getElem?_eq_some_iff.mp hi).1
      have hil' : i < ps.length := by rw [hmoved.length_eq]; exact hil
      refine ⟨ps[i], List.getElem_mem _, ?_⟩
      have := List.Forall₂.get hmoved hil' hil
      rw [List.getElem?_eq_getElem hil] at hi
      injection hi with hi
      simpa [hi] using this
    have hsized : ∀ f ∈ c, ∃ f0 ∈ s, FEL.Course.At f0 (k + 1) f ∧ 0 < f.ds ∧ (f.N : Int) < 2 ^ 31 ∧ f.dt = dt := by
      intro f hf
      obtain ⟨f0, h0, hf0⟩ := hback f hf
      exact ⟨f0, h0, hf0, by rw [hf0.later.ds]; exact hds f0 h0, by rw [hf0.N]; exact (hc f0 h0).fresh.int, by rw [hf0.later.dt]; exact (hs f0 h0).2.2.2.2.1⟩
    obtain ⟨qs, hqs⟩ := mapM_exists (fun p : Particle => dropState (p.StepVay (Coupled.field ext c))) a (by
      intro q hq
      obtain ⟨p, hp, hpq⟩ := hbackp q hq
      refine step_exists q ?_
      intro b hb'
      obtain ⟨_, hp2⟩ := hpos p q b hp hpq _ hb'
      refine coupled_field_exists (hext _ _) ?_
      intro f hf
      obtain ⟨f0, h0, hf0, x1, x2, x3⟩ := hsized f hf
      obtain ⟨y1, y2, y3⟩ := hp2 f0 h0 f hf0
      exact FEL.field_exists hf0.later.sized x1 x2 (by rw [x3]; exact hdt.le) y1 y2 y3)
    obtain ⟨S, hS⟩ := mapM_exists (FEL.step ⟨1, [⟨qs.length, qs⟩], k + 1, dt, .vay⟩) c (by
      intro f hf
      obtain ⟨f0, h0, hf0, x1, x2, x3⟩ := hsized f hf
      obtain ⟨c1, c2, c3, c4, c5, d, c6, c7⟩ := hs f0 h0
      have hsane : f.Sane := ⟨by rw [hf0.N]; exact c2, x2, by rw [x3]; exact hdt, by rw [hf0.later.ds, hf0.later.dt]; exact c1.fresh.ds, by rw [hf0.zR]; exact c3, by rw [hf0.w0]; exact c4⟩
      have hq4 : (0 : ℝ) ≤ 1 / 4 * f.dt := by rw [x3]; positivity
      obtain ⟨J, _, _, _, j4⟩ := FEL.step_ok hf0.later.sized hsane (b := ⟨1, [⟨qs.length, qs⟩], k + 1, dt, .vay⟩) (oneBunch_visits dt (k + 1) qs) (by
          rw [hf0.later.time, x3, c5]
          push_cast
          rw [sub_self, abs_zero]
          positivity) (by
        intro b hb'
        obtain ⟨q, hq, hqb⟩ := mapM_mem hqs b hb'
        obtain ⟨p, hp, hpq⟩ := hbackp q hq
        obtain ⟨_, hp2⟩ := hpos p q b hp hpq _ hqb
        obtain ⟨y1, y2, y3⟩ := hp2 f0 h0 f hf0
        refine ⟨by rw [y1, sub_self, abs_zero]; exact hq4, y2, ?_⟩
        have : ((f.N : ℝ) - 1) * f.ds ≤ f.N * f.ds := by
          apply mul_le_mul_of_nonneg_right _ x1.le
          linarith
        linarith)
      have hr : f.recordDue (f.steps + 1) = .ok (decide (((f.steps + 1 : Nat) : Int).tmod d = 0)) := by
        unfold FEL.recordDue
        rw [hf0.out, c6]
        simp only [if_neg c7]
      obtain ⟨f', e, _⟩ := j4 _ hr
      exact ⟨f', e⟩)
    unfold Coupled.after
    simp only [hb, hqs, hS, bind, Except.bind]
    exact ⟨_, rfl⟩

/-- non-vacuity of `C88_stays_on_grid`: a particle at the head of a seeded grid of four cells -/
example (E0 : ℝ) : ∃ f, FEL.Constructed f ∧ f.E[0]? = some E0 ∧ ∃ r, Coupled.after [] 1 [resting] [f] 1 = .ok r := by
  obtain ⟨f, h1, h2, h3, h4, h5, h6, h7, h8, h9, h10, h11, h12, _⟩ := FEL.demoInput_constructed E0
  refine ⟨f, h2, h6, C88_stays_on_grid [] (fun t X => ⟨_, rfl⟩) 1 one_pos [resting] ?_ [f] ?_ 1 ?_ 1 le_rfl⟩
  · intro p hp
    rw [List.mem_singleton] at hp
    subst hp
    exact ⟨⟨Particle.new 1 1, [.init 0 0 0 0], Or.inl ⟨1, 1, rfl⟩, rfl⟩, one_ne_zero, rfl⟩
  · intro g hg
    rw [List.mem_singleton] at hg
    subst hg
    exact ⟨h2, by omega, by rw [h12]; norm_num, by rw [h11]; norm_num, h5, 2, h4, by norm_num⟩
  · intro p hp g hg
    rw [List.mem_singleton] at hp hg
    subst hp hg
    have : FEL.cellsBehindHead g resting = 0 := by
      simp [FEL.cellsBehindHead, h9, h8, resting, Particle.initTrajectory, dot]
    rw [this, h10]
    norm_num

end Teufel
