import Verif.Lemmas.ObserverFiles
import Verif.Props.Grid

/-! # C79: the files written by observers -/

namespace Teufel
open Vec

/-- all field values of an observer -/
theorem Observer.values {o : Observer} (h : o.WF) : ∃ g : Observer.Key → EMField, ∀ k ∈ o.keys, o.get k = .ok (g k) := by
  have : ∀ k ∈ o.keys, ∃ F, o.get k = .ok F := fun k hk => Observer.get_ok h hk
  choose! g hg using this
  exact ⟨g, hg⟩

theorem positions_len (nx ny : Nat) (g : Nat × Nat → Vec) : ((cells nx ny).flatMap (fun c => Particle.comps (g c))).length = nx * ny * 3 := by
  rw [flatMap_len _ _ 3 (fun _ _ => rfl), cells_length]

/-- the complete contents of the file of a screen -/
theorem Screen.writeFile_ok {s : Screen} (hw : s.WF) (hf : (Observer.screen s).Fits) (hp : s.Nx * s.Ny * 3 < 2 ^ 32) (g : Observer.Key → EMField)
    (hg : ∀ k ∈ (Observer.screen s).keys, (Observer.screen s).get k = .ok (g k)) :
    s.writeFile = .ok [
      ⟨"ObservationPosition", [s.Nx, s.Ny, 3], (cells s.Nx s.Ny).flatMap (fun c => Particle.comps (s.CellPosition c.1 c.2)), [("Nx", s.Nx), ("Ny", s.Ny)], []⟩,
      ⟨"Screen", [4, 3], Particle.comps s.Origin ++ Particle.comps s.normal ++ Particle.comps s.dX ++ Particle.comps s.dY,
        [("Nx", s.Nx), ("Ny", s.Ny), ("NOTS", s.NOTS)], [("t0", s.t0), ("dt", s.dt), ("dtx", s.dtx), ("dty", s.dty)]⟩,
      ⟨"ElMagField", [s.Nx, s.Ny, s.NOTS, 6], (s.samples.map g).flatMap EMField.comps, [("NOTS", s.NOTS)], [("t0", s.t0), ("dt", s.dt)]⟩] := by
  have hb : s.getBuffer = .ok ((s.samples.map g).flatMap EMField.comps) := (Observer.getBuffer_fits (o := .screen s) hw hf g hg).2
  have hl := positions_len s.Nx s.Ny (fun c => s.CellPosition c.1 c.2)
  have h1 : s.positionBuffer = .ok ((cells s.Nx s.Ny).flatMap (fun c => Particle.comps (s.CellPosition c.1 c.2))) := by
    unfold Screen.positionBuffer
    rw [Nat.mod_eq_of_lt hp]
    exact fill_exact _ _ hl
  unfold Screen.writeFile
  simp only [h1, bind, Except.bind, pure, Except.pure, hb]
  rw [h5write_exact _ _ _ _ _ (by rw [hl]; simp; ring)]
  rw [h5write_exact _ _ _ _ _ (by simp [Particle.comps])]
  rw [h5write_exact _ _ _ _ _ (by rw [flatMap_len _ _ 6 (fun _ _ => rfl), List.length_map, samples_length]; simp; ring)]

/-- C79: the file of a screen, after any history of the screen, contains under `ElMagField[ix,iy,it,:]` the six
components of the field recorded in that sample, under `ObservationPosition[ix,iy,:]` the position of that cell, and
with the dataset `Screen` the geometry and timing given by the user. -/
theorem C79_screen (position dx dy : Vec) (nx ny : Nat) (t0 dt dtx dty : ℝ) (nots : Nat) (o : Observer)
    (h : (Observer.screen (Screen.new position dx dy nx ny t0 dt dtx dty nots)).After o)
    (hf : 6 * (nx * ny * nots) < 2 ^ 32) (hp : 3 * (nx * ny) < 2 ^ 32) :
    ∃ s f, o = .screen s ∧ s.writeFile = .ok f ∧ f.Consistent ∧ f.map H5Dataset.name = ["ObservationPosition", "Screen", "ElMagField"] ∧
      f.extent "ElMagField" = some [nx, ny, nots, 6] ∧
      (∀ ix iy it F, ix < nx → iy < ny → it < nots → o.get ((ix, iy), it) = .ok F → f.field "ElMagField" [ix, iy, it] F) ∧
      f.extent "ObservationPosition" = some [nx, ny, 3] ∧
      (∀ ix iy, ix < nx → iy < ny → f.vec "ObservationPosition" [ix, iy]
        (position + dx * ((ix : ℝ) - ((nx / 2 : Nat) : ℝ)) + dy * ((iy : ℝ) - ((ny / 2 : Nat) : ℝ)))) ∧
      f.extent "Screen" = some [4, 3] ∧ f.vec "Screen" [0] position ∧ f.vec "Screen" [1] s.normal ∧ f.vec "Screen" [2] dx ∧ f.vec "Screen" [3] dy ∧
      f.intAttr "Screen" "Nx" = some nx ∧ f.intAttr "Screen" "Ny" = some ny ∧ f.intAttr "Screen" "NOTS" = some nots ∧
      f.realAttr "Screen" "t0" = some t0 ∧ f.realAttr "Screen" "dt" = some dt ∧ f.realAttr "Screen" "dtx" = some dtx ∧ f.realAttr "Screen" "dty" = some dty ∧
      f.intAttr "ObservationPosition" "Nx" = some nx ∧ f.intAttr "ObservationPosition" "Ny" = some ny ∧
      f.intAttr "ElMagField" "NOTS" = some nots ∧ f.realAttr "ElMagField" "t0" = some t0 ∧ f.realAttr "ElMagField" "dt" = some dt := by
  obtain ⟨s', e0, _, _, _, _, hpos, _⟩ := C66_grid position dx dy nx ny t0 dt dtx dty nots o h
  obtain ⟨s, rfl, h1, h2, h3, h4, h5, h6, h7, h8, h9, h10, h11, hw⟩ := screen_after h
  injection e0 with e0
  subst e0
  subst h1 h2 h3 h4 h5 h6 h8 h9 h10 h11
  obtain ⟨g, hg⟩ := Observer.values (o := .screen s) hw
  have hfile := Screen.writeFile_ok hw hf (by omega) g hg
  refine ⟨s, _, rfl, hfile, ?_, rfl, rfl, ?_, rfl, ?_, rfl, ?_, ?_, ?_, ?_, rfl, rfl, rfl, rfl, rfl, rfl, rfl, rfl, rfl, rfl, rfl, rfl⟩
  · intro d hd
    simp only [List.mem_cons, List.not_mem_nil, or_false] at hd
    rcases hd with rfl | rfl | rfl
    · show List.length _ = _
      rw [positions_len]; simp; ring
    · simp [Particle.comps]
    · show List.length _ = _
      rw [flatMap_len _ _ 6 (fun _ _ => rfl), List.length_map, samples_length]; simp; ring
  · intro ix iy it F hx hy ht hF
    have hk : ((ix, iy), it) ∈ (Observer.screen s).keys := mem_samples.mpr ⟨hx, hy, ht⟩
    have hF' : F = g ((ix, iy), it) := by
      have := hg _ hk
      rw [hF] at this
      injection this
    rw [hF']
    exact field_of_index (a := ((ix, iy), it)) (g := g) rfl (fun c hc => rowMajor4 _ _ _ _ _ _ _ _ hx hy ht hc) (samples_get hx hy ht) rfl
  · intro ix iy hx hy
    rw [← hpos]
    exact vec_of_index (a := (ix, iy)) (g := fun c : Nat × Nat => s.CellPosition c.1 c.2) rfl (fun c hc => rowMajor3 _ _ _ _ _ _ hx hy hc) (cells_get hx hy) rfl
  all_goals exact ⟨rfl, rfl, rfl⟩

/-- C79: if the number of field components or of position components of a screen cannot be represented with 32 bits
the file is not written: the behaviour is undefined. -/
theorem C79_screen_overflow (position dx dy : Vec) (nx ny : Nat) (t0 dt dtx dty : ℝ) (nots : Nat) (o : Observer)
    (h : (Observer.screen (Screen.new position dx dy nx ny t0 dt dtx dty nots)).After o)
    (hf : 2 ^ 32 ≤ 6 * (nx * ny * nots) ∨ 2 ^ 32 ≤ 3 * (nx * ny)) : ∃ s, o = .screen s ∧ s.writeFile = .error .ub := by
  obtain ⟨s, rfl, h1, h2, h3, h4, h5, h6, h7, h8, h9, h10, h11, hw⟩ := screen_after h
  subst h1 h2 h3
  refine ⟨s, rfl, ?_⟩
  obtain ⟨g, hg⟩ := Observer.values (o := .screen s) hw
  unfold Screen.writeFile
  have hl := positions_len s.Nx s.Ny (fun c => s.CellPosition c.1 c.2)
  by_cases hp : 2 ^ 32 ≤ 3 * (s.Nx * s.Ny)
  · have e : s.positionBuffer = .error .ub := by
      unfold Screen.positionBuffer
      have := Nat.mod_lt (s.Nx * s.Ny * 3) (show 0 < 2 ^ 32 by norm_num)
      exact fill_short _ _ (by rw [hl]; omega)
    rw [e]
    rfl
  · have h1 : s.positionBuffer = .ok ((cells s.Nx s.Ny).flatMap (fun c => Particle.comps (s.CellPosition c.1 c.2))) := by
      unfold Screen.positionBuffer
      rw [Nat.mod_eq_of_lt (by omega)]
      exact fill_exact _ _ hl
    have hb : s.getBuffer = .error .ub := by
      unfold Screen.getBuffer
      have hm : s.samples.mapM (fun i : (Nat × Nat) × Nat => s.getField i.1.1 i.1.2 i.2) = .ok (s.samples.map g) := mapM_ok_map _ _ _ hg
      rw [hm]
      simp only [bind, Except.bind]
      have := Nat.mod_lt (s.Nx * s.Ny * s.NOTS * 6) (show 0 < 2 ^ 32 by norm_num)
      apply fill_short
      rw [flatMap_len _ _ 6 (fun _ _ => rfl), List.length_map, samples_length]
      unfold Screen.getBufferSize
      omega
    simp only [h1, bind, Except.bind, hb]
    rw [h5write_exact _ _ _ _ _ (by rw [hl]; simp; ring)]
    rw [h5write_exact _ _ _ _ _ (by simp [Particle.comps])]

/-! ## Snapshots -/

theorem Snapshot.writeFile_ok {s : Snapshot} (hw : s.WF) (hf : 6 * (s.Nx * s.Ny) < 2 ^ 32) (g : Observer.Key → EMField)
    (hg : ∀ k ∈ (Observer.snapshot s).keys, (Observer.snapshot s).get k = .ok (g k)) (c : List H5Dataset) (hc : s.particleSet = .ok c) :
    s.writeFile = .ok ([
      ⟨"ObservationPosition", [s.Nx, s.Ny, 3], (cells s.Nx s.Ny).flatMap (fun c => Particle.comps (s.CellPosition c.1 c.2)), [("Nx", s.Nx), ("Ny", s.Ny)], []⟩,
      ⟨"ElMagField", [s.Nx, s.Ny, 6], ((cells s.Nx s.Ny).map (fun c => g (c, 0))).flatMap EMField.comps, [], [("t0", s.tObs)]⟩] ++ c) := by
  have hb : s.getBuffer = .ok (((cells s.Nx s.Ny).map (fun c => g (c, 0))).flatMap EMField.comps) := by
    have := (Observer.getBuffer_fits (o := .snapshot s) hw hf g hg).2
    rw [show (Observer.snapshot s).keys = (cells s.Nx s.Ny).map (fun c => (c, 0)) from rfl, List.map_map] at this
    exact this
  have hl := positions_len s.Nx s.Ny (fun c => s.CellPosition c.1 c.2)
  have h1 : s.positionBuffer = .ok ((cells s.Nx s.Ny).flatMap (fun c => Particle.comps (s.CellPosition c.1 c.2))) := by
    unfold Snapshot.positionBuffer
    rw [Nat.mod_eq_of_lt (by omega)]
    exact fill_exact _ _ hl
  unfold Snapshot.writeFile
  simp only [h1, bind, Except.bind, pure, Except.pure, hb, hc]
  rw [h5write_exact _ _ _ _ _ (by rw [hl]; simp; ring)]
  rw [h5write_exact _ _ _ _ _ (by rw [flatMap_len _ _ 6 (fun _ _ => rfl), List.length_map, cells_length]; simp; ring)]

theorem snapshot_after {position dx dy : Vec} {nx ny : Nat} {t : ℝ} {o : Observer}
    (h : (Observer.snapshot (Snapshot.new position dx dy nx ny t)).After o) :
    ∃ s, o = .snapshot s ∧ s.Nx = nx ∧ s.Ny = ny ∧ s.O = position ∧ s.dX = dx ∧ s.dY = dy ∧ s.tObs = t ∧ s.particlesStored = 0 ∧ s.WF := by
  have hb := h.blank (.snapshot _ _ _ _ _ _)
  have hw := (h.reachable (.snapshot _ _ _ _ _ _)).wf
  cases o with
  | snapshot s =>
    have e : ({ s with FieldArray := s.FieldArray.map (List.map (fun _ => 0)) } : Snapshot) = { Snapshot.new position dx dy nx ny t with
      FieldArray := (Snapshot.new position dx dy nx ny t).FieldArray.map (List.map (fun _ => 0)) } := by
      injection hb
    exact ⟨s, rfl, congrArg Snapshot.Nx e, congrArg Snapshot.Ny e, congrArg Snapshot.O e, congrArg Snapshot.dX e, congrArg Snapshot.dY e,
      congrArg Snapshot.tObs e, congrArg Snapshot.particlesStored e, hw⟩
  | screen s => cases hb
  | point s => cases hb
  | mesh s => cases hb

/-- what the file of a snapshot says about fields and positions -/
def SnapshotFile (position dx dy : Vec) (nx ny : Nat) (t : ℝ) (o : Observer) (f : H5File) : Prop :=
  f.Consistent ∧
  f.extent "ElMagField" = some [nx, ny, 6] ∧
  (∀ ix iy F, ix < nx → iy < ny → o.get ((ix, iy), 0) = .ok F → f.field "ElMagField" [ix, iy] F) ∧
  f.extent "ObservationPosition" = some [nx, ny, 3] ∧
  (∀ ix iy, ix < nx → iy < ny → f.vec "ObservationPosition" [ix, iy]
    (position + dx * ((ix : ℝ) - ((nx : ℝ) - 1) / 2) + dy * ((iy : ℝ) - ((ny : ℝ) - 1) / 2))) ∧
  f.intAttr "ObservationPosition" "Nx" = some nx ∧ f.intAttr "ObservationPosition" "Ny" = some ny ∧ f.realAttr "ElMagField" "t0" = some t

theorem snapshotFile_of {s : Snapshot} {position dx dy : Vec} {nx ny : Nat} {t : ℝ} (h1 : s.Nx = nx) (h2 : s.Ny = ny) (h3 : s.O = position) (h4 : s.dX = dx)
    (h5 : s.dY = dy) (h6 : s.tObs = t) (g : Observer.Key → EMField)
    (hg : ∀ k ∈ (Observer.snapshot s).keys, (Observer.snapshot s).get k = .ok (g k)) (c : List H5Dataset) (hc : ∀ d ∈ c, d.data.length = d.dims.prod) :
    SnapshotFile position dx dy nx ny t (.snapshot s) ([
      ⟨"ObservationPosition", [s.Nx, s.Ny, 3], (cells s.Nx s.Ny).flatMap (fun c => Particle.comps (s.CellPosition c.1 c.2)), [("Nx", s.Nx), ("Ny", s.Ny)], []⟩,
      ⟨"ElMagField", [s.Nx, s.Ny, 6], ((cells s.Nx s.Ny).map (fun c => g (c, 0))).flatMap EMField.comps, [], [("t0", s.tObs)]⟩] ++ c) := by
  subst h1 h2 h3 h4 h5 h6
  refine ⟨?_, rfl, ?_, rfl, ?_, rfl, rfl, rfl⟩
  · intro d hd
    simp only [List.cons_append, List.nil_append, List.mem_cons] at hd
    rcases hd with rfl | rfl | hd
    · show List.length _ = _
      rw [positions_len]; simp; ring
    · show List.length _ = _
      rw [flatMap_len _ _ 6 (fun _ _ => rfl), List.length_map, cells_length]; simp; ring
    · exact hc d hd
  · intro ix iy F hx hy hF
    have hk : ((ix, iy), 0) ∈ (Observer.snapshot s).keys := List.mem_map.mpr ⟨(ix, iy), mem_cells.mpr ⟨hx, hy⟩, rfl⟩
    have hF' : F = g ((ix, iy), 0) := by
      have := hg _ hk
      rw [hF] at this
      injection this
    rw [hF']
    exact field_of_index (a := (ix, iy)) (g := fun c : Nat × Nat => g (c, 0)) rfl (fun c hc => rowMajor3 _ _ _ _ _ _ hx hy hc) (cells_get hx hy) rfl
  · intro ix iy hx hy
    have e : s.O + s.dX * ((ix : ℝ) - ((s.Nx : ℝ) - 1) / 2) + s.dY * ((iy : ℝ) - ((s.Ny : ℝ) - 1) / 2) = s.CellPosition ix iy := by
      unfold Snapshot.CellPosition
      ext <;> simp <;> ring
    rw [e]
    exact vec_of_index (a := (ix, iy)) (g := fun c : Nat × Nat => s.CellPosition c.1 c.2) rfl (fun c hc => rowMajor3 _ _ _ _ _ _ hx hy hc) (cells_get hx hy) rfl

/-- C79: the file of a snapshot, after any history of the snapshot, contains under `ElMagField[ix,iy,:]` the recorded
field of that cell, under `ObservationPosition[ix,iy,:]` its position, and the time of the snapshot; there is no other
dataset as long as no particles were stored. -/
theorem C79_snapshot (position dx dy : Vec) (nx ny : Nat) (t : ℝ) (o : Observer)
    (h : (Observer.snapshot (Snapshot.new position dx dy nx ny t)).After o) (hf : 6 * (nx * ny) < 2 ^ 32) :
    ∃ s f, o = .snapshot s ∧ s.writeFile = .ok f ∧ f.map H5Dataset.name = ["ObservationPosition", "ElMagField"] ∧
      SnapshotFile position dx dy nx ny t o f := by
  obtain ⟨s, rfl, h1, h2, h3, h4, h5, h6, h7, hw⟩ := snapshot_after h
  obtain ⟨g, hg⟩ := Observer.values (o := .snapshot s) hw
  refine ⟨s, _, rfl, Snapshot.writeFile_ok hw (by rw [h1, h2]; exact hf) g hg [] ?_, rfl, snapshotFile_of h1 h2 h3 h4 h5 h6 g hg [] (by simp)⟩
  unfold Snapshot.particleSet
  rw [if_neg (by omega)]

/-- C79: if in addition the particles of a beam were stored, the file contains the same information on the fields, and
under `ParticleCoordinates[k,:]` position and momentum of the particles at the time of the snapshot, bunch by bunch. -/
theorem C79_particles (position dx dy : Vec) (nx ny : Nat) (t : ℝ) (s : Snapshot)
    (h : (Observer.snapshot (Snapshot.new position dx dy nx ny t)).After (.snapshot s)) (hf : 6 * (nx * ny) < 2 ^ 32)
    {b : Beam} (hr : b.Reachable) (hc : ∀ i j p, b.Holds i j p → ∃ c, p.CoordinatesAtTime t = .ok c) :
    ∃ n s' f, b.getNOP = .ok n ∧ s.storeParticlePositions b = .ok s' ∧ s'.writeFile = .ok f ∧
      SnapshotFile position dx dy nx ny t (.snapshot s) f ∧
      (n = 0 → f.map H5Dataset.name = ["ObservationPosition", "ElMagField"]) ∧
      (0 < n → f.map H5Dataset.name = ["ObservationPosition", "ElMagField", "ParticleCoordinates"] ∧
        f.extent "ParticleCoordinates" = some [n, 6] ∧ f.intAttr "ParticleCoordinates" "N_particles" = some n ∧
        ∀ i j p x m, b.Holds i j p → p.CoordinatesAtTime t = .ok (x, m) →
          f.field "ParticleCoordinates" [((b.B.take i).map Bunch.getNOP).sum + j] ⟨x, m⟩) := by
  obtain ⟨s0, e0, h1, h2, h3, h4, h5, h6, h7, hw⟩ := snapshot_after h
  injection e0 with e0
  subst e0
  obtain ⟨g, hg⟩ := Observer.values (o := .snapshot s) hw
  subst h6
  obtain ⟨n, s', hn, hs', hst, hlen, hFA, htO, hrow⟩ := (C65_particles hr s).1 hc
  have hgeo : s'.Nx = s.Nx ∧ s'.Ny = s.Ny ∧ s'.O = s.O ∧ s'.dX = s.dX ∧ s'.dY = s.dY := by
    unfold Snapshot.storeParticlePositions at hs'
    rw [hn] at hs'
    simp only [bind, Except.bind] at hs'
    cases hv : b.traverse with
    | error e => rw [hv] at hs'; cases hs'
    | ok ps =>
      rw [hv] at hs'
      simp only at hs'
      cases hx : ps.mapM (fun p : Particle => p.CoordinatesAtTime s.tObs) with
      | error e => rw [hx] at hs'; cases hs'
      | ok xs =>
        rw [hx] at hs'
        simp only at hs'
        cases hb : fillBuffer (6 * n) (xs.flatMap (fun xp : Vec × Vec => Particle.comps xp.1 ++ Particle.comps xp.2)) with
        | error e => rw [hb] at hs'; cases hs'
        | ok buf =>
          rw [hb] at hs'
          simp only [pure, Except.pure, Except.ok.injEq] at hs'
          subst hs'
          exact ⟨rfl, rfl, rfl, rfl, rfl⟩
  obtain ⟨g1, g2, g3, g4, g5⟩ := hgeo
  have hw' : s'.WF := by
    constructor
    · rw [hFA, g1]; exact hw.rows
    · rw [hFA, g2]; exact hw.cols
  have hkeys : (Observer.snapshot s').keys = (Observer.snapshot s).keys := by
    show (cells s'.Nx s'.Ny).map _ = (cells s.Nx s.Ny).map _
    rw [g1, g2]
  have hget : ∀ k, (Observer.snapshot s').get k = (Observer.snapshot s).get k := by
    intro k
    show s'.getField _ _ = s.getField _ _
    unfold Snapshot.getField
    rw [g1, g2, hFA]
  have hg' : ∀ k ∈ (Observer.snapshot s').keys, (Observer.snapshot s').get k = .ok (g k) := by
    intro k hk
    rw [hget]
    exact hg k (hkeys ▸ hk)
  have hSF : ∀ c : List H5Dataset, (∀ d ∈ c, d.data.length = d.dims.prod) → ∀ f,
      f = ([ ⟨"ObservationPosition", [s'.Nx, s'.Ny, 3], (cells s'.Nx s'.Ny).flatMap (fun c => Particle.comps (s'.CellPosition c.1 c.2)), [("Nx", s'.Nx), ("Ny", s'.Ny)], []⟩,
      ⟨"ElMagField", [s'.Nx, s'.Ny, 6], ((cells s'.Nx s'.Ny).map (fun c => g (c, 0))).flatMap EMField.comps, [], [("t0", s'.tObs)]⟩] ++ c) →
      SnapshotFile position dx dy nx ny s.tObs (.snapshot s) f := by
    intro c hc f e
    have := snapshotFile_of (position := position) (dx := dx) (dy := dy) (g1.trans h1) (g2.trans h2) (g3.trans h3) (g4.trans h4) (g5.trans h5) htO g hg' c hc
    unfold SnapshotFile at this ⊢
    rw [e]
    simp only [hget] at this
    exact this
  by_cases h0 : n = 0
  · have hp : s'.particleSet = .ok [] := by
      unfold Snapshot.particleSet
      rw [if_neg (by omega)]
    refine ⟨n, s', _, hn, hs', Snapshot.writeFile_ok hw' (by rw [g1, g2, h1, h2]; exact hf) g hg' [] hp, hSF [] (by simp) _ rfl, fun _ => rfl, fun h => by omega⟩
  · have hp : s'.particleSet = .ok [⟨"ParticleCoordinates", [n, 6], s'.particleBuffer, [("N_particles", n)], []⟩] := by
      unfold Snapshot.particleSet
      rw [if_pos (by omega), hst, h5write_exact _ _ _ _ _ (by rw [hlen]; simp; ring)]
      rfl
    refine ⟨n, s', _, hn, hs', Snapshot.writeFile_ok hw' (by rw [g1, g2, h1, h2]; exact hf) g hg' _ hp, hSF _ ?_ _ rfl, fun h => absurd h h0, fun _ => ⟨rfl, rfl, rfl, ?_⟩⟩
    · intro d hd
      simp only [List.mem_cons, List.not_mem_nil, or_false] at hd
      subst hd
      show s'.particleBuffer.length = _
      rw [hlen]; simp; ring
    · intro i j p x m hh hx
      have hr6 := hrow i j p x m hh hx
      set k := ((b.B.take i).map Bunch.getNOP).sum + j with hk
      have hkn : k < n := by
        by_contra hcon
        have : s'.particleBuffer.length ≤ 6 * k := by omega
        rw [List.drop_eq_nil_of_le this] at hr6
        cases hr6
      have key : ∀ c < 6, H5File.entry ([
          ⟨"ObservationPosition", [s'.Nx, s'.Ny, 3], (cells s'.Nx s'.Ny).flatMap (fun c => Particle.comps (s'.CellPosition c.1 c.2)), [("Nx", s'.Nx), ("Ny", s'.Ny)], []⟩,
          ⟨"ElMagField", [s'.Nx, s'.Ny, 6], ((cells s'.Nx s'.Ny).map (fun c => g (c, 0))).flatMap EMField.comps, [], [("t0", s'.tObs)]⟩] ++
          [⟨"ParticleCoordinates", [n, 6], s'.particleBuffer, [("N_particles", n)], []⟩]) "ParticleCoordinates" ([k] ++ [c]) = [x.x, x.y, x.z, m.x, m.y, m.z][c]? := by
        intro c hc
        show (rowMajor [n, 6] [k, c]).bind (fun k => s'.particleBuffer[k]?) = _
        rw [rowMajor2 _ _ _ _ hkn hc]
        simp only [Option.bind_some]
        rw [← hr6, List.getElem?_take_of_lt hc, List.getElem?_drop, Nat.mul_comm k 6]
      exact ⟨key 0 (by omega), key 1 (by omega), key 2 (by omega), key 3 (by omega), key 4 (by omega), key 5 (by omega)⟩

/-! ## Point observers -/

/-- C79: the file of a point observer has one row for every sample: time and field. -/
theorem C79_point (position : Vec) (t0 dt : ℝ) (nots : Nat) (o : Observer)
    (h : (Observer.point (PointObs.new position t0 dt nots)).After o) (hN : nots < 2 ^ 31) :
    ∃ s f, o = .point s ∧ s.writeFile = .ok f ∧ f.NumberTimeSteps = nots ∧ f.t0 = t0 ∧ f.dt = dt ∧ f.rows.length = nots ∧
      ∀ it F, it < nots → o.get ((0, 0), it) = .ok F → f.rows[it]? = some [t0 + it * dt, F.E.x, F.E.y, F.E.z, F.B.x, F.B.y, F.B.z] := by
  have hb := h.blank (.point _ _ _ _)
  have hw := (h.reachable (.point _ _ _ _)).wf
  obtain ⟨g, hg⟩ := Observer.values hw
  cases o with
  | point s =>
    have e : ({ s with trace := bare s.trace } : PointObs) = { PointObs.new position t0 dt nots with trace := bare (PointObs.new position t0 dt nots).trace } := by
      injection hb
    have et : bare s.trace = bare (FieldTrace.new t0 dt nots) := congrArg PointObs.trace e
    have h1 : s.trace.t0 = t0 := congrArg FieldTrace.t0 et
    have h2 : s.trace.dt = dt := congrArg FieldTrace.dt et
    have h3 : s.trace.N = nots := congrArg FieldTrace.N et
    have hkey : ∀ it < nots, ((0, 0), it) ∈ (Observer.point s).keys := by
      intro it hit
      show _ ∈ (List.range s.trace.N).map _
      exact List.mem_map.mpr ⟨it, by rw [h3]; simpa using hit, rfl⟩
    have hrows : (List.range nots).mapM s.fileRow = .ok ((List.range nots).map (fun it : Nat =>
        [t0 + (it : ℝ) * dt, (g ((0, 0), it)).E.x, (g ((0, 0), it)).E.y, (g ((0, 0), it)).E.z, (g ((0, 0), it)).B.x, (g ((0, 0), it)).B.y, (g ((0, 0), it)).B.z])) := by
      apply mapM_ok_map
      intro it hit
      have hF : s.trace.getField it = .ok (g ((0, 0), it)) := hg _ (hkey it (by simpa using hit))
      unfold PointObs.fileRow
      rw [hF, h1, h2]
      rfl
    refine ⟨s, ⟨nots, t0, dt, (List.range nots).map (fun it : Nat =>
        [t0 + (it : ℝ) * dt, (g ((0, 0), it)).E.x, (g ((0, 0), it)).E.y, (g ((0, 0), it)).E.z, (g ((0, 0), it)).B.x, (g ((0, 0), it)).B.y, (g ((0, 0), it)).B.z])⟩, rfl, ?_, ?_⟩
    · unfold PointObs.writeFile
      rw [h3, Nat.mod_eq_of_lt (by omega)]
      simp only [bind, Except.bind]
      rw [if_neg (by omega), hrows, h1, h2]
      rfl
    · refine ⟨rfl, rfl, rfl, by simp, ?_⟩
      intro it F hit hF
      have := hg _ (hkey it hit)
      rw [hF] at this
      injection this with this
      subst this
      simp [hit]
  | screen s => cases hb
  | snapshot s => cases hb
  | mesh s => cases hb

/-! ## Examples -/

/-- an observer in which one sample has been set -/
theorem after_put {o : Observer} (ho : o.Fresh) {k : Observer.Key} (hk : k ∈ o.keys) (F : EMField) : ∃ o', o.After o' ∧ o'.get k = .ok F := by
  obtain ⟨o1, h1, _, _, _, h4, _⟩ := Observer.put_ok (Observer.Reachable.fresh ho).wf hk F
  exact ⟨o1, .put .refl hk h1, h4⟩

/-- a screen of 3 × 2 cells with four samples in which one sample is not zero: the file contains it at its place -/
example : ∃ s f, s.writeFile = .ok f ∧ (Observer.screen (Screen.new 0 ⟨1, 0, 0⟩ ⟨0, 1, 0⟩ 3 2 0 1 0 0 4)).After (.screen s) ∧
    f.entry "ElMagField" [2, 1, 3, 4] = some 8 ∧ f.entry "ObservationPosition" [2, 0, 1] = some (-1) := by
  obtain ⟨o, ho, hg⟩ := after_put (Observer.Fresh.screen 0 ⟨1, 0, 0⟩ ⟨0, 1, 0⟩ 3 2 0 1 0 0 4) (k := ((2, 1), 3))
    (mem_samples.mpr ⟨by show 2 < 3; omega, by show 1 < 2; omega, by show 3 < 4; omega⟩) ⟨⟨1, 2, 3⟩, ⟨7, 8, 9⟩⟩
  obtain ⟨s, f, rfl, hf, _, _, _, hF, _, hp, _⟩ := C79_screen _ _ _ _ _ _ _ _ _ _ o ho (by norm_num) (by norm_num)
  refine ⟨s, f, hf, ho, (hF 2 1 3 _ (by omega) (by omega) (by omega) hg).2.2.2.2.1, ?_⟩
  have := (hp 2 0 (by omega) (by omega)).2.1
  simpa using this

/-- hypotheses of `C79_screen_overflow` -/
example : ∃ o, (Observer.screen (Screen.new 0 ⟨1, 0, 0⟩ ⟨0, 1, 0⟩ 1000 1000 0 1 0 0 1000)).After o ∧ 2 ^ 32 ≤ 6 * (1000 * 1000 * 1000) := ⟨_, .refl, by norm_num⟩

/-- a snapshot with one non-zero field and the coordinates of a moving particle -/
example : ∃ s b, (Observer.snapshot (Snapshot.new 0 ⟨1, 0, 0⟩ ⟨0, 1, 0⟩ 3 2 1)).After (.snapshot s) ∧ s.getField 2 1 = .ok ⟨⟨1, 2, 3⟩, ⟨7, 8, 9⟩⟩ ∧ Beam.Reachable b ∧
    b.Holds 0 0 (movingParticle 5) ∧ ∀ i j p, b.Holds i j p → ∃ c, p.CoordinatesAtTime 1 = .ok c := by
  obtain ⟨o, ho, hg⟩ := after_put (Observer.Fresh.snapshot 0 ⟨1, 0, 0⟩ ⟨0, 1, 0⟩ 3 2 1) (k := ((2, 1), 0))
    (List.mem_map.mpr ⟨(2, 1), mem_cells.mpr ⟨by show 2 < 3; omega, by show 1 < 2; omega⟩, rfl⟩) ⟨⟨1, 2, 3⟩, ⟨7, 8, 9⟩⟩
  obtain ⟨s, _, rfl, _⟩ := C79_snapshot _ _ _ _ _ _ o ho (by norm_num)
  have hr : (Beam.empty.Add (Bunch.empty.Add (movingParticle 5))).Reachable := .Add _ .empty (.Add _ .empty (movingParticle_reachable 5))
  refine ⟨s, _, ho, hg, hr, ?_, ?_⟩
  · rw [holds_iff (Beam.wf_reachable hr)]
    exact ⟨_, rfl, rfl⟩
  · intro i j p hp
    rw [holds_iff (Beam.wf_reachable hr)] at hp
    obtain ⟨bu, h1, h2⟩ := hp
    have e1 : [Bunch.empty.Add (movingParticle 5)][i]? = some bu := h1
    have hi : i = 0 := by
      have := (List.getElem?_eq_some_iff.mp e1).1
      simpa using this
    subst hi
    have e2 : Bunch.empty.Add (movingParticle 5) = bu := by simpa using e1
    subst e2
    have e3 : [movingParticle 5][j]? = some p := h2
    have hj : j = 0 := by
      have := (List.getElem?_eq_some_iff.mp e3).1
      simpa using this
    subst hj
    have e4 : movingParticle 5 = p := by simpa using e3
    subst e4
    exact ⟨_, movingParticle_coordinates 5⟩

/-- a point observer with a sample that is not zero -/
example : ∃ o, (Observer.point (PointObs.new 0 5 1 7)).After o ∧ o.get ((0, 0), 6) = .ok ⟨⟨1, 2, 3⟩, ⟨7, 8, 9⟩⟩ :=
  after_put (Observer.Fresh.point 0 5 1 7) (List.mem_map.mpr ⟨6, by show 6 ∈ List.range 7; simp, rfl⟩) _

end Teufel
