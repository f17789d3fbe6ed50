import Verif.Props.Schedule
import Verif.Props.Interp

/-! # C65, C66: the geometry of snapshots and screens -/

namespace Teufel
open Vec

/-- the states of an observer reached from the state `o` by any sequence of calls -/
inductive Observer.After (o : Observer) : Observer → Prop
  | refl : After o o
  | integrate {o' o'' src} : After o o' → RadSource.Counted src → o'.integrate src = .ok o'' → After o o''
  | put {o' o'' k f} : After o o' → k ∈ o'.keys → o'.put k f = .ok o'' → After o o''
  | fromBuffer {o' o'' vals} : After o o' → vals.length = 6 * o'.keys.length → o'.fromBuffer vals (6 * o'.keys.length) = .ok o'' → After o o''

theorem Observer.After.reachable {o o' : Observer} (h : o.After o') (ho : o.Fresh) : o'.Reachable := by
  induction h with
  | refl => exact .fresh ho
  | integrate _ hc hi ih => exact .integrate ih hc hi
  | put _ hk hp ih => exact .put ih hk hp
  | fromBuffer _ hl hp ih => exact .fromBuffer ih hl hp

theorem Observer.After.blank {o o' : Observer} (h : o.After o') (ho : o.Fresh) : o'.blank = o.blank := by
  induction h with
  | refl => rfl
  | integrate h' hc hi ih => exact (((integrate_gen (h'.reachable ho).wf hc).1 _ hi).2.1).trans ih
  | put h' hk hp ih =>
    obtain ⟨o1, h1, _, _, h3, _⟩ := put_ok (h'.reachable ho).wf hk _
    rw [hp] at h1
    injection h1 with h1
    rw [h1]
    exact h3.trans ih
  | @fromBuffer o' o'' vals h' hl hp ih =>
    by_cases hf : o'.Fits
    · obtain ⟨g, rfl⟩ := comps_surj o'.keys o'.keys_nodup vals hl
      obtain ⟨o1, h1, h2, h3, _⟩ := fromBuffer_fits (h'.reachable ho).wf hf g
      rw [hp] at h1
      injection h1 with h1
      rw [h1]
      exact h3.trans ih
    · obtain ⟨e, he⟩ := fromBuffer_overflow hf vals
      rw [hp] at he
      cases he

/-- a screen after any history -/
theorem screen_after {position dx dy : Vec} {nx ny : Nat} {t0 dt dtx dty : ℝ} {nots : Nat} {o : Observer}
    (h : (Observer.screen (Screen.new position dx dy nx ny t0 dt dtx dty nots)).After o) :
    ∃ s, o = .screen s ∧ s.Nx = nx ∧ s.Ny = ny ∧ s.NOTS = nots ∧ s.Origin = position ∧ s.dX = dx ∧ s.dY = dy ∧
      s.normal = Vec.normalize (cross dx dy * (-1 : ℝ)) ∧ s.t0 = t0 ∧ s.dt = dt ∧ s.dtx = dtx ∧ s.dty = dty ∧ s.WF := by
  have hb := h.blank (.screen _ _ _ _ _ _ _ _ _ _)
  have hw := (h.reachable (.screen _ _ _ _ _ _ _ _ _ _)).wf
  cases o with
  | screen s =>
    have e : ({ s with Traces := s.Traces.map (List.map bare) } : Screen) = { Screen.new position dx dy nx ny t0 dt dtx dty nots with
      Traces := (Screen.new position dx dy nx ny t0 dt dtx dty nots).Traces.map (List.map bare) } := by
      injection hb
    refine ⟨s, rfl, congrArg Screen.Nx e, congrArg Screen.Ny e, congrArg Screen.NOTS e, congrArg Screen.Origin e, congrArg Screen.dX e,
      congrArg Screen.dY e, congrArg Screen.normal e, congrArg Screen.t0 e, congrArg Screen.dt e, congrArg Screen.dtx e, congrArg Screen.dty e, hw⟩
  | snapshot s => cases hb
  | point s => cases hb
  | mesh s => cases hb

/-- C66: at all times the cells of a screen lie on the grid spanned by the pitch vectors around the given position:
the cell in the middle (integer division) is at the given position, its trace starts at the given time, and one
step in the indices shifts position and start time by the given pitches.  Sample `it` of the trace of a cell is
the field at `it` time steps after the start time. -/
theorem C66_grid (position dx dy : Vec) (nx ny : Nat) (t0 dt dtx dty : ℝ) (nots : Nat) (o : Observer)
    (h : (Observer.screen (Screen.new position dx dy nx ny t0 dt dtx dty nots)).After o) :
    ∃ s, o = .screen s ∧ s.Nx = nx ∧ s.Ny = ny ∧
      s.CellPosition (nx / 2) (ny / 2) = position ∧ s.CellTimeZero (nx / 2) (ny / 2) = t0 ∧
      (∀ ix iy, s.CellPosition ix iy = position + dx * ((ix : ℝ) - ((nx / 2 : Nat) : ℝ)) + dy * ((iy : ℝ) - ((ny / 2 : Nat) : ℝ))) ∧
      (∀ ix iy, s.CellPosition (ix + 1) iy - s.CellPosition ix iy = dx ∧ s.CellPosition ix (iy + 1) - s.CellPosition ix iy = dy) ∧
      (∀ ix iy, s.CellTimeZero (ix + 1) iy - s.CellTimeZero ix iy = dtx ∧ s.CellTimeZero ix (iy + 1) - s.CellTimeZero ix iy = dty) ∧
      (∀ ix < nx, ∀ iy < ny, ∃ tr, gridAt s.Traces ix iy = .ok tr ∧ tr.N = nots ∧ ∀ it < nots, tr.getTime it = .ok (s.CellTimeZero ix iy + it * dt)) := by
  obtain ⟨s, rfl, h1, h2, h3, h4, h5, h6, _, h8, h9, h10, h11, hw⟩ := screen_after h
  have hdx : ∀ n : Nat, (n : Int) / 2 = ((n / 2 : Nat) : Int) := fun n => by omega
  refine ⟨s, rfl, h1, h2, ?_, ?_, ?_, ?_, ?_, ?_⟩
  · unfold Screen.CellPosition
    rw [h1, h2, h4, hdx, hdx]
    ext <;> simp
  · unfold Screen.CellTimeZero
    rw [h1, h2, h8, hdx, hdx]
    simp
  · intro ix iy
    unfold Screen.CellPosition
    rw [h1, h2, h4, h5, h6, hdx, hdx]
    push_cast
    rfl
  · intro ix iy
    unfold Screen.CellPosition
    rw [h1, h2, h4, h5, h6, hdx, hdx]
    push_cast
    constructor <;> ext <;> simp <;> ring
  · intro ix iy
    unfold Screen.CellTimeZero
    rw [h1, h2, h10, h11, hdx, hdx]
    push_cast
    constructor <;> ring
  · intro ix hix iy hiy
    obtain ⟨tr, htr⟩ := gridAt_rect hw.rows hw.cols (i := ix) (j := iy) (by omega) (by omega)
    obtain ⟨_, hN, ht, hd⟩ := hw.traces ix iy tr htr
    refine ⟨tr, htr, by rw [hN, h3], ?_⟩
    intro it hit
    unfold FieldTrace.getTime
    rw [if_neg (by omega), ht, hd, h9]

/-- C66: for pitch vectors that are not parallel the normal is a unit vector perpendicular to both of them, and
`(dx, dy, -n)` is right-handed; and it stays so. -/
theorem C66_normal (position dx dy : Vec) (nx ny : Nat) (t0 dt dtx dty : ℝ) (nots : Nat) (hne : cross dx dy ≠ 0) (o : Observer)
    (h : (Observer.screen (Screen.new position dx dy nx ny t0 dt dtx dty nots)).After o) :
    ∃ s, o = .screen s ∧ dot s.normal s.normal = 1 ∧ dot s.normal dx = 0 ∧ dot s.normal dy = 0 ∧ 0 < dot (cross dx dy) (-s.normal) := by
  obtain ⟨s, rfl, _, _, _, _, _, _, hn, _⟩ := screen_after h
  have hne' : cross dx dy * (-1 : ℝ) ≠ 0 := by
    intro e
    apply hne
    have e1 := congrArg Vec.x e
    have e2 := congrArg Vec.y e
    have e3 := congrArg Vec.z e
    simp only [mul_x, mul_y, mul_z, zero_x, zero_y, zero_z, mul_neg, mul_one, neg_eq_zero] at e1 e2 e3
    ext <;> assumption
  refine ⟨s, rfl, ?_, ?_, ?_, ?_⟩
  · rw [hn, dot_self, normalize_abs2nd hne']
  · rw [hn, normalize_eq, dot_div_left, dot_mul_left, dot_comm, dot_cross_left]; simp
  · rw [hn, normalize_eq, dot_div_left, dot_mul_left, dot_comm, dot_cross_right]; simp
  · rw [hn, normalize_eq, dot_neg_right, dot_div_right, dot_mul_right, dot_self]
    have h1 := norm_pos hne'
    have h2 : 0 < (cross dx dy).abs2nd := lt_of_le_of_ne (abs2nd_nonneg _) (fun e => hne (abs2nd_eq_zero.mp e.symm))
    rw [mul_neg_one, neg_div, neg_neg]
    exact div_pos h2 h1

/-- non-vacuity of C66: a screen with an even and an odd number of cells and pitch vectors that are not parallel
(and not orthogonal), after recording the field of a lattice -/
example : cross (⟨1, 0, 0⟩ : Vec) ⟨1, 2, 0⟩ ≠ 0 ∧
    ∃ o, (Observer.screen (Screen.new 0 ⟨1, 0, 0⟩ ⟨1, 2, 0⟩ 4 3 0 1 0 0 2)).After o ∧
      (Observer.screen (Screen.new 0 ⟨1, 0, 0⟩ ⟨1, 2, 0⟩ 4 3 0 1 0 0 2)).integrate (.lattice (fun _ _ => .ok ⟨⟨1, 0, 0⟩, 0⟩)) = .ok o := by
  constructor
  · intro h
    have := congrArg Vec.z h
    simp [cross] at this
  · obtain ⟨o, ho⟩ := (Observer.integrate_gen (Observer.Fresh.screen 0 ⟨1, 0, 0⟩ ⟨1, 2, 0⟩ 4 3 0 1 0 0 2).ok.1
      (src := .lattice (fun _ _ => .ok ⟨⟨1, 0, 0⟩, 0⟩)) trivial).2 (by
        intro c _
        refine ⟨fun i => (((List.range 2).map (fun _ : Nat => (⟨⟨1, 0, 0⟩, 0⟩ : EMField)))[i]?).getD 0, ?_⟩
        show (((List.range 2).mapM (fun _ : Nat => (Except.ok ⟨⟨1, 0, 0⟩, 0⟩ : Except Err EMField))).map (fun (fs : List EMField) (i : Nat) => (fs[i]?).getD 0)) = _
        rw [mapM_ok_map _ _ (fun _ : Nat => (⟨⟨1, 0, 0⟩, 0⟩ : EMField)) (fun _ _ => rfl)]
        rfl)
    exact ⟨o, .integrate (src := .lattice (fun _ _ => .ok ⟨⟨1, 0, 0⟩, 0⟩)) .refl trivial ho, ho⟩

/-- C65: at all times the cells of a snapshot are placed symmetrically about the given position: cells with mirrored
indices are at mirrored positions, and neighbouring cells differ by the pitch vectors; every cell stores one field. -/
theorem C65_grid (position dx dy : Vec) (nx ny : Nat) (t : ℝ) (o : Observer)
    (h : (Observer.snapshot (Snapshot.new position dx dy nx ny t)).After o) :
    ∃ s, o = .snapshot s ∧ s.Nx = nx ∧ s.Ny = ny ∧ s.tObs = t ∧
      (∀ ix < nx, ∀ iy < ny, s.CellPosition ix iy + s.CellPosition (nx - 1 - ix) (ny - 1 - iy) = position * (2 : ℝ)) ∧
      (∀ ix iy, s.CellPosition (ix + 1) iy - s.CellPosition ix iy = dx ∧ s.CellPosition ix (iy + 1) - s.CellPosition ix iy = dy) ∧
      (∀ ix iy, (∃ f, s.getField ix iy = .ok f) ↔ ix < nx ∧ iy < ny) := by
  have hb := h.blank (.snapshot _ _ _ _ _ _)
  have hw := (h.reachable (.snapshot _ _ _ _ _ _)).wf
  cases o with
  | snapshot s =>
    have hw : s.WF := hw
    have e : ({ s with FieldArray := s.FieldArray.map (List.map (fun _ => 0)) } : Snapshot) = { Snapshot.new position dx dy nx ny t with
      FieldArray := (Snapshot.new position dx dy nx ny t).FieldArray.map (List.map (fun _ => 0)) } := by
      injection hb
    have h1 : s.Nx = nx := congrArg Snapshot.Nx e
    have h2 : s.Ny = ny := congrArg Snapshot.Ny e
    have h3 : s.O = position := congrArg Snapshot.O e
    have h4 : s.dX = dx := congrArg Snapshot.dX e
    have h5 : s.dY = dy := congrArg Snapshot.dY e
    refine ⟨s, rfl, h1, h2, congrArg Snapshot.tObs e, ?_, ?_, ?_⟩
    · intro ix hix iy hiy
      have e1 : ((nx - 1 - ix : Nat) : ℝ) = (nx : ℝ) - 1 - ix := by rw [Nat.cast_sub (by omega), Nat.cast_sub (by omega)]; simp
      have e2 : ((ny - 1 - iy : Nat) : ℝ) = (ny : ℝ) - 1 - iy := by rw [Nat.cast_sub (by omega), Nat.cast_sub (by omega)]; simp
      unfold Snapshot.CellPosition
      rw [h1, h2, h3, h4, h5, e1, e2]
      ext <;> simp <;> ring
    · intro ix iy
      unfold Snapshot.CellPosition
      rw [h1, h2, h3, h4, h5]
      push_cast
      constructor <;> ext <;> simp <;> ring
    · intro ix iy
      unfold Snapshot.getField
      rw [h1, h2]
      constructor
      · rintro ⟨f, hf⟩
        by_contra hc
        rw [if_neg hc] at hf
        cases hf
      · intro hc
        rw [if_pos hc]
        exact gridAt_rect hw.rows hw.cols (by omega) (by omega)
  | screen s => cases hb
  | point s => cases hb
  | mesh s => cases hb

theorem mapM_snap_error {α β} {f : α → Except Err β} {l : List α} {e : Err} (h : l.mapM f = .error e) : ∃ a ∈ l, f a = .error e := by
  induction l with
  | nil => cases h
  | cons a l ih =>
    rw [List.mapM_cons] at h
    cases ha : f a with
    | error e' =>
      rw [ha] at h
      injection h with h
      exact ⟨a, by simp, by rw [ha, h]⟩
    | ok b =>
      rw [ha] at h
      cases hl : l.mapM f with
      | error e' =>
        rw [hl] at h
        injection h with h
        subst h
        obtain ⟨c, hc, he⟩ := ih hl
        exact ⟨c, by simp [hc], he⟩
      | ok bs => rw [hl] at h; cases h

theorem snap_length (l : List (Vec × Vec)) : (l.flatMap (fun xp : Vec × Vec => Particle.comps xp.1 ++ Particle.comps xp.2)).length = 6 * l.length := by
  induction l with
  | nil => rfl
  | cons a l ih => rw [List.flatMap_cons, List.length_append, ih]; simp [Particle.comps]; omega

theorem snap_get (l : List (Vec × Vec)) (k : Nat) (x m : Vec) (h : l[k]? = some (x, m)) :
    ((l.flatMap (fun xp : Vec × Vec => Particle.comps xp.1 ++ Particle.comps xp.2)).drop (6 * k)).take 6 = [x.x, x.y, x.z, m.x, m.y, m.z] := by
  induction l generalizing k with
  | nil => simp at h
  | cons a l ih =>
    cases k with
    | zero => simp only [List.getElem?_cons_zero, Option.some.injEq] at h; subst h; rfl
    | succ k =>
      rw [List.flatMap_cons, show 6 * (k + 1) = 6 + 6 * k by ring, ← List.drop_drop]
      exact ih k (by simpa using h)

/-- C65: storing the particles of any beam into a snapshot writes exactly six numbers for every particle, never
behind the end of the buffer: the position and the momentum of the particle at the time of the snapshot,
bunch by bunch.  It fails only if a particle cannot give its coordinates; the fields are not touched. -/
theorem C65_particles {b : Beam} (hr : b.Reachable) (s : Snapshot) :
    ((∀ i j p, b.Holds i j p → ∃ c, p.CoordinatesAtTime s.tObs = .ok c) →
      ∃ n s', b.getNOP = .ok n ∧ s.storeParticlePositions b = .ok s' ∧ s'.particlesStored = n ∧ s'.particleBuffer.length = 6 * n ∧
        s'.FieldArray = s.FieldArray ∧ s'.tObs = s.tObs ∧
        ∀ i j p x m, b.Holds i j p → p.CoordinatesAtTime s.tObs = .ok (x, m) →
          (s'.particleBuffer.drop (6 * (((b.B.take i).map Bunch.getNOP).sum + j))).take 6 = [x.x, x.y, x.z, m.x, m.y, m.z]) ∧
    (∀ e, s.storeParticlePositions b = .error e → ∃ i j p, b.Holds i j p ∧ p.CoordinatesAtTime s.tObs = .error e) := by
  have h := Beam.wf_reachable hr
  have hall : ∀ p ∈ b.all, ∃ i j, b.Holds i j p := by
    intro p hp
    unfold Beam.all at hp
    obtain ⟨bu, hbu, hp⟩ := List.mem_flatMap.mp hp
    obtain ⟨i, hi⟩ := List.mem_iff_getElem?.mp hbu
    obtain ⟨j, hj⟩ := List.mem_iff_getElem?.mp hp
    exact ⟨i, j, (holds_iff h i j p).mpr ⟨bu, hi, hj⟩⟩
  have hs : s.storeParticlePositions b = (do
      let xs ← b.all.mapM (fun p : Particle => p.CoordinatesAtTime s.tObs)
      let buf ← fillBuffer (6 * b.all.length) (xs.flatMap (fun xp : Vec × Vec => Particle.comps xp.1 ++ Particle.comps xp.2))
      return { s with particleBuffer := buf, particlesStored := b.all.length }) := by
    unfold Snapshot.storeParticlePositions
    rw [nop_all h, traverse_all h]
    rfl
  constructor
  · intro hc
    have hc' : ∀ p ∈ b.all, ∃ c, p.CoordinatesAtTime s.tObs = .ok c := fun p hp => by
      obtain ⟨i, j, hh⟩ := hall p hp
      exact hc i j p hh
    choose! g hg using hc'
    have hm := mapM_ok_map b.all (fun p : Particle => p.CoordinatesAtTime s.tObs) g hg
    rw [hs, hm]
    have hl := snap_length (b.all.map g)
    rw [List.length_map] at hl
    refine ⟨b.all.length, { s with particleBuffer := (b.all.map g).flatMap (fun xp : Vec × Vec => Particle.comps xp.1 ++ Particle.comps xp.2), particlesStored := b.all.length },
      nop_all h, ?_, rfl, ?_, rfl, rfl, ?_⟩
    · show (fillBuffer _ _ >>= _) = _
      rw [fill_exact _ _ hl]
      rfl
    · exact hl
    · intro i j p x m hh hx
      apply snap_get
      have e := all_index h hh
      have := hg p (List.mem_of_getElem? e)
      rw [hx] at this
      injection this with this
      rw [List.getElem?_map, e, Option.map_some, this]
  · intro e he
    rw [hs] at he
    cases hm : b.all.mapM (fun p : Particle => p.CoordinatesAtTime s.tObs) with
    | error e' =>
      rw [hm] at he
      injection he with he
      subst he
      obtain ⟨p, hp, hpe⟩ := mapM_snap_error hm
      obtain ⟨i, j, hh⟩ := hall p hp
      exact ⟨i, j, p, hh, hpe⟩
    | ok xs =>
      rw [hm] at he
      have hl := snap_length xs
      rw [(mapM_except_length hm).1] at hl
      have he : (fillBuffer (6 * b.all.length) (xs.flatMap (fun xp : Vec × Vec => Particle.comps xp.1 ++ Particle.comps xp.2)) >>= fun buf =>
        Except.ok ({ s with particleBuffer := buf, particlesStored := b.all.length } : Snapshot)) = .error e := he
      rw [fill_exact _ _ hl] at he
      cases he

/-- a particle with two trajectory points -/
noncomputable def movingParticle (x : ℝ) : Particle :=
  ((Particle.new 1 1).initTrajectory 0 ⟨x, 0, 0⟩ 0 0).storeTrajectoryPoint 2 ⟨x, 0, 4⟩ ⟨0, 0, 6⟩ 0

theorem movingParticle_reachable (x : ℝ) : (movingParticle x).Reachable :=
  ⟨Particle.new 1 1, [.init 0 ⟨x, 0, 0⟩ 0 0, .store 2 ⟨x, 0, 4⟩ ⟨0, 0, 6⟩ 0], Or.inl ⟨1, 1, rfl⟩, rfl⟩

theorem movingParticle_coordinates (x : ℝ) : (movingParticle x).CoordinatesAtTime 1 = .ok (⟨x, 0, 2⟩, ⟨0, 0, 3⟩) := by
  have h : (movingParticle x).IncreasingTimes := by
    intro i j hij a b ha hb
    have ga := get_of_TrajTime ha
    have gb := get_of_TrajTime hb
    have e : (movingParticle x).Time = [0, 2] := rfl
    rw [e] at ga gb
    have hj : j < 2 := (List.getElem?_eq_some_iff.mp gb).1
    obtain rfl : j = 1 := by omega
    obtain rfl : i = 0 := by omega
    simp at ga gb
    rw [← ga, ← gb]
    norm_num
  have := C10_interpolation (movingParticle x) (movingParticle_reachable x) h 0 1 0 2 rfl rfl (by norm_num) (by norm_num) ⟨x, 0, 0⟩ ⟨x, 0, 4⟩ 0 ⟨0, 0, 6⟩ rfl rfl rfl rfl
  rw [this]
  unfold lerp
  congr 2 <;> ext <;> norm_num <;> ring

/-- non-vacuity of C65: a beam with two particles in two bunches which have trajectories; at the time of the
snapshot they are at different places between their trajectory points -/
example : ((Beam.empty.Add (Bunch.empty.Add (movingParticle 1))).Add (Bunch.empty.Add (movingParticle 2))).Reachable ∧
    ((Beam.empty.Add (Bunch.empty.Add (movingParticle 1))).Add (Bunch.empty.Add (movingParticle 2))).Holds 1 0 (movingParticle 2) ∧
    (movingParticle 2).CoordinatesAtTime (Snapshot.new 0 ⟨1, 0, 0⟩ ⟨0, 1, 0⟩ 2 3 1).tObs = .ok (⟨2, 0, 2⟩, ⟨0, 0, 3⟩) := by
  have hr : ((Beam.empty.Add (Bunch.empty.Add (movingParticle 1))).Add (Bunch.empty.Add (movingParticle 2))).Reachable :=
    .Add _ (.Add _ .empty (.Add _ .empty (movingParticle_reachable 1))) (.Add _ .empty (movingParticle_reachable 2))
  refine ⟨hr, ?_, movingParticle_coordinates 2⟩
  rw [holds_iff (Beam.wf_reachable hr)]
  exact ⟨_, rfl, rfl⟩

end Teufel
