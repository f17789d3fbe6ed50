import Verif.Props.FEL
import Mathlib.Data.List.Perm.Basic

/-! # Properties of the one-dimensional FEL interaction: C48, C49 -/

namespace Teufel
open Vec
namespace FEL

/-! ## C48: superposition -/

/-- the particles of beam `c` are those of `a` and `b` together, in any order and distribution over bunches, at the same
step and with the same time step -/
def Joined (a b c : Beam) : Prop :=
  ∃ pa pb pc, a.traverse = .ok pa ∧ b.traverse = .ok pb ∧ c.traverse = .ok pc ∧ pc.Perm (pa ++ pb) ∧ c.NOTS = a.NOTS ∧ c.dt = a.dt

theorem fval_zipWith {a b : List ℝ} (h : a.length = b.length) (j : Nat) : fval (List.zipWith (· + ·) a b) j = fval a j + fval b j := by
  by_cases hj : j < a.length
  · rw [fval_lt (by simp; omega), fval_lt hj, fval_lt (by omega)]
    simp
  · rw [fval_ge (by simp; omega), fval_ge (by omega), fval_ge (by omega)]; ring

theorem SameSetup.share {f g : FEL} (h : f.SameSetup g) (p : Particle) (i : Nat) : g.share p i = f.share p i := by
  unfold FEL.share FEL.strength FEL.depth FEL.modeArea
  rw [h.N, h.dt, h.ds, h.steps, h.head, h.prop, h.ex, h.zR, h.w0, h.zw]

theorem SameSetup.accepts {f g : FEL} (h : f.SameSetup g) (p : Particle) : g.Accepts p ↔ f.Accepts p := by
  unfold FEL.Accepts FEL.depth
  rw [h.N, h.dt, h.ds, h.time, h.head, h.prop]

theorem SameSetup.sane {f g : FEL} (h : f.SameSetup g) (hs : f.Sane) : g.Sane :=
  ⟨by rw [h.N]; exact hs.two, by rw [h.N]; exact hs.int, by rw [h.dt]; exact hs.dt, by rw [h.ds, h.dt]; exact hs.ds, by rw [h.zR]; exact hs.zR, by rw [h.w0]; exact hs.w0⟩

theorem SameSetup.advance {f f' h h' : FEL} {J K : Nat → ℝ} (hh : f.SameSetup h) (ha : f.Advanced f' J) (hb : h.Advanced h' K) : f'.SameSetup h' where
  N := by rw [ha.N, hb.N, hh.N]
  dt := by rw [ha.dt, hb.dt, hh.dt]
  ds := by rw [ha.ds, hb.ds, hh.ds]
  time := by rw [ha.time, hb.time, hh.time, hh.dt]
  steps := by rw [ha.steps, hb.steps, hh.steps]
  head := by rw [ha.head, hb.head, hh.head, hh.prop, hh.ds]
  prop := by rw [ha.prop, hb.prop, hh.prop]
  ex := by rw [ha.ex, hb.ex, hh.ex]
  zR := by rw [ha.zR, hb.zR, hh.zR]
  w0 := by rw [ha.w0, hb.w0, hh.w0]
  zw := by rw [ha.zw, hb.zw, hh.zw]
  stepOutput := by rw [ha.out, hb.out, hh.stepOutput]

theorem Superposed.advance {f g h f' g' h' : FEL} {J K L : Nat → ℝ} (hf : f.Sized) (hg : g.Sized) (hs : Superposed f g h)
    (a : f.Advanced f' J) (b : g.Advanced g' K) (c : h.Advanced h' L) (hL : ∀ i, L i = J i + K i) : Superposed f' g' h' := by
  have hfg : f.N = g.N := by rw [← hs.left.N, hs.right.N]
  have hl : f.E.length = g.E.length := by rw [hf.E, hg.E, hfg]
  have hl' : f.prev.length = g.prev.length := by rw [hf.prev, hg.prev, hfg]
  have el : f'.E.length = g'.E.length := by rw [a.sized.E, b.sized.E, a.N, b.N, hfg]
  have pl : f'.prev.length = g'.prev.length := by rw [a.sized.prev, b.sized.prev, a.N, b.N, hfg]
  have hE : ∀ j, fval h.E j = fval f.E j + fval g.E j := by intro j; rw [hs.E, fval_zipWith hl]
  have hP : ∀ j, fval h.prev j = fval f.prev j + fval g.prev j := by intro j; rw [hs.prev, fval_zipWith hl']
  refine ⟨hs.left.advance a c, hs.right.advance b c, ?_, ?_⟩
  · apply fval_ext
    · rw [c.sized.E, c.N, hs.left.N, List.length_zipWith, a.sized.E, b.sized.E, a.N, b.N, hfg, Nat.min_self]
    · intro j _
      rw [fval_zipWith el, a.E, b.E, c.E]
      unfold nextVal
      rw [hE, hE, hE, hP, hL, hs.left.N, hs.left.dt, ← hfg, ← hs.right.dt, hs.left.dt]
      split_ifs <;> ring
  · apply fval_ext
    · rw [c.sized.prev, c.N, hs.left.N, List.length_zipWith, a.sized.prev, b.sized.prev, a.N, b.N, hfg, Nat.min_self]
    · intro j _
      rw [fval_zipWith pl, a.prev, b.prev, c.prev, hE, hL, hs.left.N, hs.left.dt, ← hfg, ← hs.right.dt, hs.left.dt]
      split_ifs <;> ring

/-- **C48 (one step).** If the fields of `h` are the sums of those of `f` and `g`, and its beam contains the particles of
both other beams, then also after the step the fields of `h` are the sums; the step of `h` succeeds if the other two do. -/
theorem C48_step {f g h f' g' : FEL} (hf : f.Reachable) (hg : g.Reachable) (hsane : f.Sane) (hs : Superposed f g h) {a b c : Beam} (hj : Joined a b c)
    (hfs : f.step a = .ok f') (hgs : g.step b = .ok g') : ∃ h', h.step c = .ok h' ∧ Superposed f' g' h' := by
  obtain ⟨pa, pb, pc, t1, t2, t3, hperm, hn, _⟩ := hj
  have fsz := hf.inv.sized
  have gsz := hg.inv.sized
  have hgsane : g.Sane := by
    have hsame := hs.left.sane hsane
    exact ⟨by rw [← hs.right.N]; exact hsame.two, by rw [← hs.right.N]; exact hsame.int, by rw [← hs.right.dt]; exact hsame.dt,
      by rw [← hs.right.ds, ← hs.right.dt]; exact hsame.ds, by rw [← hs.right.zR]; exact hsame.zR, by rw [← hs.right.w0]; exact hsame.w0⟩
  have hfg : f.N = g.N := by rw [← hs.left.N, hs.right.N]
  have hsz : h.Sized := by
    constructor
    · rw [hs.E, List.length_zipWith, fsz.E, gsz.E, hs.left.N, hfg, Nat.min_self]
    · rw [hs.prev, List.length_zipWith, fsz.prev, gsz.prev, hs.left.N, hfg, Nat.min_self]
  have inv : ∀ {u u' : FEL} {x : Beam} {ps : List Particle}, u.Sized → u.Sane → x.traverse = .ok ps → u.step x = .ok u' →
      |(x.NOTS : ℝ) * u.dt - u.time| ≤ 1 / 4 * u.dt ∧ (∀ p ∈ ps, u.Accepts p) ∧ u.Advanced u' (fun i => (ps.map (fun p => u.share p i)).sum) ∧ ∃ due, u.recordDue (u.steps + 1) = .ok due := by
    intro u u' x ps us uu ut ux
    by_cases hc : |(x.NOTS : ℝ) * u.dt - u.time| ≤ 1 / 4 * u.dt ∧ ∀ p ∈ ps, u.Accepts p
    · obtain ⟨J, _, j2, j3, j4⟩ := step_ok us uu ut hc.1 hc.2
      cases hd : u.recordDue (u.steps + 1) with
      | error e => rw [j3 e hd] at ux; cases ux
      | ok due =>
        obtain ⟨u1, e1, e2, _⟩ := j4 due hd
        rw [ux] at e1
        injection e1 with e1
        subst e1
        have : fval J = fun i => (ps.map (fun p => u.share p i)).sum := by funext i; exact j2 i
        rw [this] at e2
        exact ⟨hc.1, hc.2, e2, due, rfl⟩
    · rw [step_rejects uu ut hc] at ux; cases ux
  obtain ⟨f1, f2, f3, due, f4⟩ := inv fsz hsane t1 hfs
  obtain ⟨g1, g2, g3, _⟩ := inv gsz hgsane t2 hgs
  have hacc : ∀ p ∈ pc, h.Accepts p := by
    intro p hp
    rcases List.mem_append.mp (hperm.mem_iff.mp hp) with hp | hp
    · exact (hs.left.accepts p).mpr (f2 p hp)
    · exact (hs.right.accepts p).mpr (g2 p hp)
  obtain ⟨J, _, j2, _, j4⟩ := step_ok hsz (hs.left.sane hsane) t3 (by rw [hn, hs.left.dt, hs.left.time]; exact f1) hacc
  have hd : h.recordDue (h.steps + 1) = .ok due := by
    rw [← f4]; unfold recordDue; rw [hs.left.stepOutput, hs.left.steps]
  obtain ⟨h', e1, e2, _⟩ := j4 due hd
  refine ⟨h', e1, hs.advance fsz gsz f3 g3 e2 ?_⟩
  intro i
  rw [j2, (hperm.map _).sum_eq, List.map_append, List.sum_append]
  congr 1
  · congr 1; exact List.map_congr_left (fun p _ => hs.left.share p i)
  · congr 1; exact List.map_congr_left (fun p _ => hs.right.share p i)

/-- **C48 (whole run).** Three runs of the same length: if the initial fields of the third are the sums of those of the
others, and it is given the particles of both at every step, its fields are the sums of those of the others at all times. -/
theorem C48_course {h₁ h₂ h : Nat → FEL} {b₁ b₂ b : Nat → Beam} {n : Nat} (c1 : Course h₁ b₁ n) (c2 : Course h₂ b₂ n) (c : Course h b n)
    (hsane : (h₁ 0).Sane) (hs : Superposed (h₁ 0) (h₂ 0) (h 0)) (hj : ∀ k, Joined (b₁ k) (b₂ k) (b k)) : ∀ k ≤ n, Superposed (h₁ k) (h₂ k) (h k) := by
  suffices H : ∀ k ≤ n, (h₁ k).Sane ∧ Superposed (h₁ k) (h₂ k) (h k) from fun k hk => (H k hk).2
  intro k
  induction k with
  | zero => intro _; exact ⟨hsane, hs⟩
  | succ k ih =>
    intro hk
    obtain ⟨i1, i2⟩ := ih (by omega)
    have r1 := c1.reachable k (by omega)
    have r2 := c2.reachable k (by omega)
    have r := c.reachable k (by omega)
    have sane' : ∀ {J}, (h₁ k).Advanced (h₁ (k + 1)) J → (h₁ (k + 1)).Sane := fun ha =>
      ⟨by rw [ha.N]; exact i1.two, by rw [ha.N]; exact i1.int, by rw [ha.dt]; exact i1.dt, by rw [ha.ds, ha.dt]; exact i1.ds, by rw [ha.zR]; exact i1.zR, by rw [ha.w0]; exact i1.w0⟩
    cases k with
    | zero =>
      obtain ⟨_, _, _, a1, _⟩ := init_inv r1.inv.sized (c1.first hk)
      obtain ⟨_, _, _, a2, _⟩ := init_inv r2.inv.sized (c2.first hk)
      obtain ⟨_, _, _, a, _⟩ := init_inv r.inv.sized (c.first hk)
      exact ⟨sane' a1, i2.advance r1.inv.sized r2.inv.sized a1 a2 a (fun _ => by ring)⟩
    | succ k =>
      have s1 := c1.next (k + 1) (by omega) (by omega)
      have s2 := c2.next (k + 1) (by omega) (by omega)
      have s := c.next (k + 1) (by omega) (by omega)
      obtain ⟨h', e1, e2⟩ := C48_step r1 r2 i1 i2 (hj (k + 1)) s1 s2
      rw [s] at e1
      injection e1 with e1
      subst e1
      obtain ⟨_, _, _, _, _, _, _, _, _, ha, _⟩ := step_inv r1.inv.sized s1
      exact ⟨sane' ha, e2⟩

/-- non-vacuity of C48: seeds of amplitudes 1, 2 and 3, runs of any length -/
example (n : Nat) : ∃ h₁ h₂ h b₁ b₂ b, Course h₁ b₁ n ∧ Course h₂ b₂ n ∧ Course h b n ∧ (h₁ 0).Sane ∧ Superposed (h₁ 0) (h₂ 0) (h 0) ∧
    (∀ k, Joined (b₁ k) (b₂ k) (b k)) ∧ (h 0).E[0]? = some 3 := by
  obtain ⟨f, _, hf, fs, fo, fdt, _, fex, fpr, fhd, fN, fw, fR, fz, fE⟩ := demoInput_constructed 1
  obtain ⟨g, _, hg, gs, go, gdt, _, gex, gpr, ghd, gN, gw, gR, gz, gE⟩ := demoInput_constructed 2
  obtain ⟨k, _, hk, ks, ko, kdt, k0, kex, kpr, khd, kN, kw, kR, kz, kE⟩ := demoInput_constructed 3
  obtain ⟨h1, e1, c1⟩ := vacuum_exists hf fs fo (by decide) n
  obtain ⟨h2, e2, c2⟩ := vacuum_exists hg gs go (by decide) n
  obtain ⟨h3, e3, c3⟩ := vacuum_exists hk ks ko (by decide) n
  refine ⟨h1, h2, h3, _, _, _, c1, c2, c3, by rw [e1]; exact fs, ?_, ?_, by rw [e3]; exact k0⟩
  · rw [e1, e2, e3]
    have hE : k.E = List.zipWith (· + ·) f.E g.E := by
      rw [kE, fE, gE, List.zipWith_map, List.zipWith_self]
      apply List.map_congr_left
      intro i _
      ring
    refine ⟨⟨by rw [kN, fN], by rw [kdt, fdt], by rw [ks.ds, fs.ds, kdt, fdt], by rw [hk.fresh.time, hf.fresh.time], by rw [hk.fresh.steps, hf.fresh.steps],
      by rw [khd, fhd], by rw [kpr, fpr], by rw [kex, fex], by rw [kR, fR], by rw [kw, fw], by rw [kz, fz], by rw [ko, fo]⟩,
      ⟨by rw [kN, gN], by rw [kdt, gdt], by rw [ks.ds, gs.ds, kdt, gdt], by rw [hk.fresh.time, hg.fresh.time], by rw [hk.fresh.steps, hg.fresh.steps],
      by rw [khd, ghd], by rw [kpr, gpr], by rw [kex, gex], by rw [kR, gR], by rw [kw, gw], by rw [kz, gz], by rw [ko, go]⟩, hE, ?_⟩
    rw [hf.fresh.still, hg.fresh.still, hk.fresh.still, hE]
  · intro i
    exact ⟨[], [], [], rfl, rfl, rfl, List.Perm.refl _, rfl, by rw [kdt, fdt]⟩

/-! ## C49: the field is a plane wave -/

/-- a plane wave travelling in direction `n` (a unit vector) -/
def PlaneWave (n : Vec) (F : EMField) : Prop := dot F.E n = 0 ∧ F.B = cross n F.E / SpeedOfLight

/-- the full claim: whatever the constructor and the history, the field returned is a plane wave in the direction of
propagation -/
def AlwaysPlaneWave : Prop := ∀ (h : Nat → FEL) (b : Nat → Beam) (n : Nat), Course h b n → ∀ (t : ℝ) (X : Vec) (F : EMField), (h n).Field t X = .ok F → PlaneWave (h n).prop F

theorem Field_inv {f : FEL} {t : ℝ} {X : Vec} {F : EMField} (h : f.Field t X = .ok F) : ∃ e : ℝ, F = ⟨f.ex * e, f.ey * e / SpeedOfLight⟩ := by
  unfold Field at h
  simp only [pure, Except.pure, bind, Except.bind] at h
  split at h
  · cases h
  split at h
  · cases h
  split at h
  · cases h
  split at h
  · cases h
  split at h
  · cases h
  injection h with h
  exact ⟨_, h.symm⟩

theorem Course.axes {h : Nat → FEL} {b : Nat → Beam} {n : Nat} (hc : Course h b n) : ∀ k ≤ n, (h k).prop = (h 0).prop ∧ (h k).ex = (h 0).ex ∧ (h k).ey = (h 0).ey := by
  intro k
  induction k with
  | zero => intro _; exact ⟨rfl, rfl, rfl⟩
  | succ k ih =>
    intro hk
    obtain ⟨i1, i2, i3⟩ := ih (by omega)
    have r := (hc.reachable k (by omega)).inv.sized
    have ha : ∃ J, (h k).Advanced (h (k + 1)) J := by
      cases k with
      | zero => obtain ⟨_, _, _, ha, _⟩ := init_inv r (hc.first hk); exact ⟨_, ha⟩
      | succ k => obtain ⟨_, _, _, _, _, _, _, _, _, ha, _⟩ := step_inv r (hc.next (k + 1) (by omega) (by omega)); exact ⟨_, ha⟩
    obtain ⟨J, ha⟩ := ha
    exact ⟨by rw [ha.prop, i1], by rw [ha.ex, i2], by rw [ha.ey, i3]⟩

/-- **C49 (partial).** For an interaction created from the input file the field returned is, at all times and positions, a
plane wave travelling in the direction given in the file.  Missing: the constructor without input file. -/
theorem C49_plane_wave_partial {h : Nat → FEL} {b : Nat → Beam} {n : Nat} (hc : Course h b n) {dt : ℝ} {i : Input} {p : Vec} (hi : FEL.ofInput dt i = .ok (h 0))
    (hp : i.prop = some p) {t : ℝ} {X : Vec} {F : EMField} (hF : (h n).Field t X = .ok F) : p ≠ 0 ∧ PlaneWave p.normalize F := by
  obtain ⟨m, pos, p', prop, pol, ex, o, zR, w0, zw, _, _, _, hp', hn, _, he, _, hf⟩ := ofInput_inv hi
  rw [hp] at hp'
  injection hp' with hp'
  subst hp'
  have ax : (h 0).prop = prop ∧ (h 0).ex = ex ∧ (h 0).ey = cross prop ex := by
    rcases hf with hf | ⟨s, _, hf⟩
    · rw [← hf]; exact ⟨rfl, rfl, rfl⟩
    · unfold seed at hf
      split at hf
      · cases hf
      · injection hf with hf; rw [← hf]; exact ⟨rfl, rfl, rfl⟩
  obtain ⟨a1, a2, a3⟩ := hc.axes n le_rfl
  obtain ⟨e, rfl⟩ := Field_inv hF
  unfold normalizeE at hn he
  split at hn
  · cases hn
  · rename_i hp0
    split at he
    · cases he
    · injection hn with hn
      injection he with he
      subst hn
      refine ⟨hp0, ?_, ?_⟩
      · show dot ((h n).ex * e) _ = 0
        rw [a2, ax.2.1, ← he, Vec.normalize_eq (pol - p.normalize * dot pol p.normalize), dot_mul_left, dot_div_left, dot_sub_left, dot_mul_left, dot_self, normalize_abs2nd hp0]
        ring
      · show (h n).ey * e / SpeedOfLight = cross _ ((h n).ex * e) / SpeedOfLight
        rw [a2, a3, ax.2.1, ax.2.2]
        ext <;> simp [cross] <;> ring

/-- a particle oscillating in y direction -/
noncomputable def wiggling : Particle := (Particle.new 1 1).initTrajectory 1 0 0 ⟨0, 1, 0⟩

/-- a beam at step 1 containing it -/
noncomputable def wigglingBeam : Beam := { (Beam.empty.Add (Bunch.empty.Add wiggling)) with dt := 1, NOTS := 1 }

theorem wigglingBeam_reachable : wigglingBeam.Reachable :=
  .setNOTS (b := { (Beam.empty.Add (Bunch.empty.Add wiggling)) with dt := 1 }) 1
    (.setTimeStep 1 (.Add _ .empty (.Add _ .empty ⟨Particle.new 1 1, [.init 1 0 0 ⟨0, 1, 0⟩], Or.inl ⟨1, 1, rfl⟩, rfl⟩)))

theorem wigglingBeam_traverse : wigglingBeam.traverse = .ok [wiggling] := rfl

/-- a run in which the current of one particle creates a field: after two steps, cell 2 is not zero -/
theorem wiggling_run {f : FEL} (hf : Constructed f) (hs : f.Sane) {d : Int} (ho : f.stepOutput = some d) (hd : d ≠ 0) (hdt : f.dt = 1) (hh : f.head = 0)
    (hp : f.prop = ⟨0, 0, 1⟩) (hN : f.N = 4) (hex : f.ex.y ≠ 0)
    (hE : f.E = List.replicate 4 0) :
    ∃ (h : Nat → FEL) (b : Nat → Beam) (e : ℝ), h 0 = f ∧ (∀ k, b k = wigglingBeam) ∧ Course h b 2 ∧ e ≠ 0 ∧ (h 2).Field 2 0 = .ok ⟨f.ex * e, f.ey * e / SpeedOfLight⟩ := by
  have hc0 := SpeedOfLight_pos
  have hds : f.ds = SpeedOfLight := by rw [hs.ds, hdt, one_mul]
  obtain ⟨f1, i1, a1, _⟩ := init_ok hf.fresh.sized hs.two wigglingBeam hs.dt.ne' (by rw [hdt]; simp [wigglingBeam]; norm_num)
  have s1 : f1.Sane := ⟨by rw [a1.N]; exact hs.two, by rw [a1.N]; exact hs.int, by rw [a1.dt]; exact hs.dt, by rw [a1.ds, a1.dt]; exact hs.ds, by rw [a1.zR]; exact hs.zR, by rw [a1.w0]; exact hs.w0⟩
  have t1 : f1.time = 1 := by rw [a1.time, hf.fresh.time, hdt, zero_add]
  have hd1 : f1.head = ⟨0, 0, SpeedOfLight⟩ := by rw [a1.head, hh, hp, hds]; ext <;> simp
  have hdep : f1.depth wiggling.XCur = SpeedOfLight := by
    unfold depth
    rw [hd1, a1.prop, hp]
    simp [wiggling, Particle.initTrajectory, dot]
  have hacc : f1.Accepts wiggling := by
    refine ⟨?_, by rw [hdep]; exact hc0.le, ?_⟩
    · rw [t1, a1.dt, hdt]; simp [wiggling, Particle.initTrajectory]
    · rw [hdep, a1.N, a1.ds, hds, hN]; push_cast; linarith
  obtain ⟨J, j1, j2, _, j4⟩ := step_ok a1.sized s1 wigglingBeam_traverse (by rw [a1.dt, hdt, t1]; simp [wigglingBeam]) (by simpa using hacc)
  have hr : f1.recordDue (f1.steps + 1) = .ok (decide (((f1.steps + 1 : Nat) : Int).tmod d = 0)) := by
    unfold recordDue
    rw [a1.out, ho]
    simp only
    rw [if_neg hd]
  obtain ⟨f2, e1, e2, _⟩ := j4 _ hr
  have hcen : crint (f1.depth wiggling.XCur / f1.ds) = 1 := by
    rw [hdep, a1.ds, hds, div_self hc0.ne']
    have := crint_intCast 1
    simpa using this
  have hJ : fval J 1 ≠ 0 := by
    rw [j2]
    simp only [List.map_cons, List.map_nil, List.sum_cons, List.sum_nil, add_zero]
    unfold share
    simp only
    rw [hcen, if_pos (by rw [a1.N, hN]; omega)]
    have hst : f1.strength wiggling ≠ 0 := by
      unfold strength
      have hq : wiggling.getCharge ≠ 0 := by
        simp [wiggling, Particle.getCharge, Particle.initTrajectory, Particle.new, ElementaryCharge_pos.ne']
      have hm : f1.modeArea ≠ 0 := by
        unfold modeArea
        have hw : f1.w0 * Real.sqrt (1 + ((f1.steps * f1.ds - f1.zw) / f1.zR) ^ 2) ≠ 0 :=
          mul_ne_zero s1.w0 (Real.sqrt_ne_zero'.mpr (by positivity))
        have hpi : Pi ≠ 0 := Pi_pos.ne'
        simp only
        exact mul_ne_zero (mul_ne_zero (mul_ne_zero (by norm_num) hpi) hw) hw
      have hmu : MuNull ≠ 0 := MuNull_pos.ne'
      have hacc : dot (wiggling.ACur / Real.sqrt (wiggling.PCur.abs2nd + 1)) f1.ex = f.ex.y := by
        rw [a1.ex]
        simp [wiggling, Particle.initTrajectory, dot, Vec.abs2nd]
      rw [hacc]
      have hdt1 : f1.dt ≠ 0 := s1.dt.ne'
      exact mul_ne_zero (mul_ne_zero (mul_ne_zero (div_ne_zero (div_ne_zero (mul_ne_zero hex hq) hm) hdt1) hmu) hc0.ne') hc0.ne'
    have hpi : (2 : ℝ) * Real.sqrt (2 * Pi) ≠ 0 := mul_ne_zero (by norm_num) (Real.sqrt_ne_zero'.mpr (mul_pos two_pos Pi_pos))
    exact div_ne_zero (mul_ne_zero hst (Real.exp_pos _).ne') hpi
  -- the field in cell 2
  have hz : ∀ j, fval f.E j = 0 := fun j => by rw [hE, fval_replicate]
  have hz1 : ∀ j, fval f1.E j = 0 := by
    intro j
    rw [a1.E]
    unfold nextVal
    rw [hf.fresh.still, hz, hz, hz]
    split_ifs <;> simp
  have hE2 : fval f2.E 2 = fval J 1 := by
    rw [e2.E]
    unfold nextVal
    rw [if_neg (by omega), if_neg (by omega), if_pos (by rw [a1.N, hN]; omega), a1.dt, hdt, hz1, hz1, a1.prev, hz]
    simp
  refine ⟨fun k => if k = 0 then f else if k = 1 then f1 else f2, fun _ => wigglingBeam, fval J 1, rfl, fun _ => rfl, ⟨hf, fun _ => i1, ?_⟩, hJ, ?_⟩
  · intro k h1 h2
    obtain rfl : k = 1 := by omega
    exact e1
  · show f2.Field 2 0 = _
    unfold Field
    have hdz : dot (f2.head - (0 : Vec)) f2.prop / f2.ds = ((2 : Int) : ℝ) := by
      rw [e2.head, hd1, e2.prop, a1.prop, e2.ds, a1.ds, hp, hds]
      simp only [dot, Vec.sub_x, Vec.sub_y, Vec.sub_z, Vec.add_x, Vec.add_y, Vec.add_z, Vec.mul_x, Vec.mul_y, Vec.mul_z, Vec.zero_x, Vec.zero_y, Vec.zero_z]
      rw [div_eq_iff hc0.ne']
      push_cast
      ring
    have hl : 2 < f2.E.length := by rw [e2.sized.E, e2.N, a1.N, hN]; omega
    have hcell : cellAt f2.E 2 = .ok (fval f2.E 2) := cellAt_ok (i := 2) hl
    rw [if_neg (by rw [e2.time, e2.dt, a1.dt, t1, hdt]; norm_num), if_neg (by rw [e2.ds, a1.ds, hds]; exact hc0.ne')]
    simp only [pure, Except.pure, bind, Except.bind]
    rw [hdz, crint_intCast]
    have h32 : toInt32 2 = .ok 2 := rfl
    rw [h32]
    simp only
    rw [if_neg (by rw [e2.N, a1.N, hN]; omega), hcell, hE2, e2.ex, e2.ey, a1.ex, a1.ey]

/-- The constructor without input file assigns the y axis to the polarisation and leaves the direction of the magnetic
field zero (the second assignment goes to the same member): the magnetic field is missing. -/
theorem C49_full_statement_false : ¬ AlwaysPlaneWave := by
  intro H
  obtain ⟨f, hf, hc, hs, ho, hdt, hh, hp, hN, hex, hey⟩ := default_constructed
  have hE : f.E = List.replicate 4 0 := by
    unfold FEL.default at hf
    rw [if_neg (by omega)] at hf
    injection hf with hf
    rw [← hf]; rfl
  obtain ⟨h, b, e, h0, -, hco, he, hF⟩ := wiggling_run hc hs ho (by decide) hdt hh hp hN (by rw [hex]; norm_num) hE
  obtain ⟨_, hB⟩ := H h b 2 hco 2 0 _ hF
  have := congrArg Vec.x hB
  rw [(hco.axes 2 le_rfl).1, h0, hp, hex, hey] at this
  simp [cross] at this
  have h2 := this.symm
  rw [div_eq_zero_iff] at h2
  rcases h2 with h2 | h2
  · exact he (neg_eq_zero.mp h2)
  · exact SpeedOfLight_pos.ne' h2

/-- non-vacuity of C49: an interaction created from the input file with a non-zero field -/
example : ∃ h b p i F, Course h b 1 ∧ FEL.ofInput 1 i = .ok (h 0) ∧ i.prop = some p ∧ (h 1).Field 1 ⟨0, 0, 0⟩ = .ok F ∧ F.E ≠ 0 := by
  obtain ⟨f, hi, hf, hs, ho, hdt, hE0, hex, hp, hh, hN, _⟩ := demoInput_constructed 1
  obtain ⟨h, h0, hc⟩ := vacuum_exists hf hs ho (by decide) 1
  have i1 := hc.first le_rfl
  obtain ⟨_, _, _, a1, _⟩ := init_inv hc.start.fresh.sized i1
  rw [h0] at a1
  have hc0 := SpeedOfLight_pos
  have hds : f.ds = SpeedOfLight := by rw [hs.ds, hdt, one_mul]
  have hE1 : fval (h 1).E 1 = 1 := by
    rw [a1.E]
    unfold nextVal
    rw [if_neg (by omega), if_pos rfl]
    unfold fval
    rw [hE0]; rfl
  refine ⟨h, _, ⟨0, 0, 1⟩, demoInput 1, ⟨f.ex * (1 : ℝ), f.ey * (1 : ℝ) / SpeedOfLight⟩, hc, by rw [h0]; exact hi, rfl, ?_, ?_⟩
  · unfold Field
    have hdz : dot ((h 1).head - (⟨0, 0, 0⟩ : Vec)) (h 1).prop / (h 1).ds = ((1 : Int) : ℝ) := by
      rw [a1.head, hh, a1.prop, a1.ds, hp, hds]
      simp only [dot, Vec.sub_x, Vec.sub_y, Vec.sub_z, Vec.add_x, Vec.add_y, Vec.add_z, Vec.mul_x, Vec.mul_y, Vec.mul_z, Vec.zero_x, Vec.zero_y, Vec.zero_z]
      rw [div_eq_iff hc0.ne']
      push_cast
      ring
    have hl : 1 < (h 1).E.length := by rw [a1.sized.E, a1.N, hN]; omega
    have hcell : cellAt (h 1).E 1 = .ok (fval (h 1).E 1) := cellAt_ok (i := 1) hl
    rw [if_neg (by rw [a1.time, a1.dt, hf.fresh.time, hdt]; norm_num), if_neg (by rw [a1.ds, hds]; exact hc0.ne')]
    simp only [pure, Except.pure, bind, Except.bind]
    rw [hdz, crint_intCast]
    have h32 : toInt32 1 = .ok 1 := rfl
    rw [h32]
    simp only
    rw [if_neg (by rw [a1.N, hN]; omega), hcell, hE1, a1.ex, a1.ey]
  · intro hz
    have := congrArg Vec.x hz
    simp [hex] at this

end FEL
end Teufel
