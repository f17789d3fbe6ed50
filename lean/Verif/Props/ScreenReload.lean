import Verif.Props.ObserverFiles
import Verif.Props.SourceScreen

/-! # C80: the file of a screen used as a source of radiation -/

namespace Teufel
open Vec

theorem asFields_comps (l : List EMField) : asFields (l.flatMap EMField.comps) = l := by
  induction l with
  | nil => rfl
  | cons F l ih =>
    rw [List.flatMap_cons]
    show (⟨⟨F.E.x, F.E.y, F.E.z⟩, ⟨F.B.x, F.B.y, F.B.z⟩⟩ : EMField) :: asFields (l.flatMap EMField.comps) = F :: l
    rw [ih]

/-- the file of a screen as the source of radiation sees it -/
noncomputable def Screen.asSource (s : Screen) (g : Observer.Key → EMField) : ScreenFile :=
  { Nx := some s.Nx, Ny := some s.Ny, NOTS := some s.NOTS, dt := some s.dt, dtx := some s.dtx, dty := some s.dty,
    origin := s.Origin, normal := s.normal, dX := s.dX, dY := s.dY, dims := [s.Nx, s.Ny, s.NOTS, 6], fields := s.samples.map g }

theorem Screen.read_ok {s : Screen} (hw : s.WF) (hf : (Observer.screen s).Fits) (hp : s.Nx * s.Ny * 3 < 2 ^ 32) (g : Observer.Key → EMField)
    (hg : ∀ k ∈ (Observer.screen s).keys, (Observer.screen s).get k = .ok (g k)) :
    ∃ f, s.writeFile = .ok f ∧ ScreenFile.read f = .ok (s.asSource g) := by
  refine ⟨_, Screen.writeFile_ok hw hf hp g hg, ?_⟩
  have : asFields ((s.samples.map g).flatMap EMField.comps) = s.samples.map g := asFields_comps _
  refine Eq.trans (b := .ok { s.asSource g with fields := asFields ((s.samples.map g).flatMap EMField.comps) }) rfl ?_
  rw [this]
  rfl

theorem screen_normal_ne {dx dy : Vec} (hne : cross dx dy ≠ 0) : cross dx dy * (-1 : ℝ) ≠ 0 := by
  intro e
  apply hne
  have e1 := congrArg Vec.x e
  have e2 := congrArg Vec.y e
  have e3 := congrArg Vec.z e
  simp only [mul_x, mul_y, mul_z, zero_x, zero_y, zero_z, mul_neg, mul_one, neg_eq_zero] at e1 e2 e3
  ext <;> assumption

theorem unit_normalize {n : Vec} (h : dot n n = 1) : n.normalize = n := by
  have e : n.norm = 1 := by rw [norm_def, ← dot_self, h, Real.sqrt_one]
  rw [normalize_eq, e]
  ext <;> simp

theorem normalize_scale {v : Vec} (h : v ≠ 0) : v.normalize * v.norm = v := normalize_mul_norm h

/-- the axes of a source screen made from a screen with orthogonal pitch vectors -/
theorem coax_screen {dx dy n : Vec} (hn : dot n n = 1) (h1 : dot n dx = 0) (h2 : dot n dy = 0) (h3 : dot dx dy = 0) (hx : dx ≠ 0) (hy : dy ≠ 0) :
    ScreenAxes.coax n dx dy = .ok ⟨n, dx, dx.norm, dx.normalize, dy, dy.norm, dy.normalize⟩ := by
  have hn0 : n ≠ 0 := by
    intro e
    rw [e] at hn
    simp [dot] at hn
  have z : ∀ v : Vec, v * (0 : ℝ) = 0 := fun v => by ext <;> simp
  have z' : ∀ v : Vec, v - 0 = v := fun v => by ext <;> simp
  have a1 : dx - n * dot dx n = dx := by rw [dot_comm, h1, z, z']
  have a2 : dy - n * dot dy n = dy := by rw [dot_comm, h2, z, z']
  have a3 : dx.normalize * dx.norm = dx := normalize_scale hx
  have a4 : dy - dx * dot dy dx = dy := by rw [dot_comm, h3, z, z']
  have a5 : dy.normalize * dy.norm = dy := normalize_scale hy
  unfold ScreenAxes.coax
  simp only [normalizeE_of_ne hn0, unit_normalize hn, bind, Except.bind, a1, normalizeE_of_ne hx, a3, a2, a4, normalizeE_of_ne hy, a5, pure, Except.pure]

/-- What the user expects of a source screen `src` made at position `p` and time `t` from the file of the screen `s`: it
is accepted, its cells are those of the screen shifted by the difference of the positions, they were recorded at
the times of the screen shifted by the difference of the times, they radiate the transversal part of the recorded
fields, and the field anywhere else has as components the projections of their diffracted radiation (Kirchhoff's
formula) onto the directions of the screen. -/
def Reloaded (s : Screen) (f : H5File) (p : Vec) (t : ℝ) : Prop :=
  ∃ src sf, SourceScreen.open f p t = .ok src ∧ ScreenFile.read f = .ok sf ∧ src.Nx = s.Nx ∧ src.Ny = s.Ny ∧ src.NOTS = s.NOTS ∧
    (∀ ix iy, p + SourceScreen.centre src (ix, iy) = s.CellPosition ix iy + (p - s.Origin)) ∧
    (∀ ix iy, ix < s.Nx → iy < s.Ny → ∃ tr, tr = SourceScreen.recorded sf src (ix, iy) ∧ t + tr.t0 = s.CellTimeZero ix iy + (t - s.t0) ∧ tr.dt = s.dt ∧
      tr.N = s.NOTS ∧ ∀ it F, it < s.NOTS → s.getField ix iy it = .ok F → tr.trace[it]? = some (SourceScreen.transversal s.normal F)) ∧
    src.axes.normal = s.normal ∧ src.axes.ex * s.dX.norm = s.dX ∧ src.axes.ey * s.dY.norm = s.dY ∧
    ∀ τ X, (∀ c, c.1 < s.Nx → c.2 < s.Ny → X - p ≠ SourceScreen.centre src c) → ∃ F, src.asField.field τ X = .ok F ∧
      F.E = ⟨dot (SourceScreen.radiated sf src (τ - t) (X - p)).E src.axes.ex, dot (SourceScreen.radiated sf src (τ - t) (X - p)).E src.axes.ey,
        dot (SourceScreen.radiated sf src (τ - t) (X - p)).E src.axes.normal⟩ ∧
      F.B = ⟨dot (SourceScreen.radiated sf src (τ - t) (X - p)).B src.axes.ex, dot (SourceScreen.radiated sf src (τ - t) (X - p)).B src.axes.ey,
        dot (SourceScreen.radiated sf src (τ - t) (X - p)).B src.axes.normal⟩

/-- C80, proved part: the file written by a screen with orthogonal pitch vectors, after any history, is accepted as a
source of radiation and radiates what was recorded, from where and when it was recorded.
Missing: pitch vectors that are not orthogonal (accepted by the screen), see `C80_full_statement_false`. -/
theorem C80_reload_partial (position dx dy : Vec) (nx ny : Nat) (t0 dt dtx dty : ℝ) (nots : Nat) (o : Observer)
    (h : (Observer.screen (Screen.new position dx dy nx ny t0 dt dtx dty nots)).After o)
    (hne : cross dx dy ≠ 0) (hperp : dot dx dy = 0) (hN : 2 ≤ nots) (hdt : dt ≠ 0) (hsize : nx * ny * nots < 715827883) (p : Vec) (t : ℝ) :
    ∃ s f, o = .screen s ∧ s.writeFile = .ok f ∧ Reloaded s f p t := by
  obtain ⟨s', e0, hn1, hn2, hn3, _⟩ := C66_normal position dx dy nx ny t0 dt dtx dty nots hne o h
  obtain ⟨s, rfl, h1, h2, h3, h4, h5, h6, h7, h8, h9, h10, h11, hw⟩ := screen_after h
  injection e0 with e0
  subst e0
  obtain ⟨g, hg⟩ := Observer.values (o := .screen s) hw
  have hxy : nx * ny ≤ nx * ny * nots := Nat.le_mul_of_pos_right _ (by omega)
  have hF : (Observer.screen s).Fits := by
    show 6 * (s.Nx * s.Ny * s.NOTS) < 2 ^ 32
    rw [h1, h2, h3]; omega
  obtain ⟨f, hf, hr⟩ := Screen.read_ok hw hF (by rw [h1, h2]; omega) g hg
  have hdx0 : dx ≠ 0 := by
    rintro rfl
    apply hne
    ext <;> simp [cross]
  have hdy0 : dy ≠ 0 := by
    rintro rfl
    apply hne
    ext <;> simp [cross]
  have hax := coax_screen hn1 hn2 hn3 hperp hdx0 hdy0
  obtain ⟨src, hs, s1, s2, s3, s4, s5, s6, s7⟩ := C72_accepts_partial (s.asSource g) p t s.Nx s.Ny s.NOTS s.dt _ rfl rfl rfl rfl
    (by show ScreenAxes.coax s.normal s.dX s.dY = _; rw [h5, h6]; exact hax) rfl (by show (s.samples.map g).length = _; rw [List.length_map, samples_length])
    (by omega) (by rw [h9]; exact hdt) (by rw [h1, h2, h3]; exact hsize)
  have hdtx : src.dtx = s.dtx ∧ src.dty = s.dty := by
    have := (SourceScreen.ofFile_ok hs).1
    exact ⟨this.dtx, this.dty⟩
  refine ⟨s, f, rfl, hf, src, s.asSource g, ?_, hr, s1, s2, s3, ?_, ?_, ?_, ?_, ?_, ?_⟩
  · unfold SourceScreen.open
    rw [hr]
    exact hs
  · intro ix iy
    unfold SourceScreen.centre Screen.CellPosition
    rw [s5, s1, s2, h5, h6]
    ext <;> simp <;> ring
  · intro ix iy hx hy
    refine ⟨_, rfl, ?_, s4, s3, ?_⟩
    · unfold SourceScreen.recorded Screen.CellTimeZero
      simp only [hdtx.1, hdtx.2, s1, s2]
      ring
    · intro it F ht hF'
      have hk : ((ix, iy), it) ∈ (Observer.screen s).keys := mem_samples.mpr ⟨hx, hy, ht⟩
      have e : F = g ((ix, iy), it) := by
        have := hg _ hk
        rw [show (Observer.screen s).get ((ix, iy), it) = s.getField ix iy it from rfl, hF'] at this
        injection this
      unfold SourceScreen.recorded
      simp only [s2, s3, s5]
      show (List.map _ (List.take _ (List.drop _ (s.samples.map g))))[it]? = _
      rw [List.getElem?_map, List.getElem?_take_of_lt ht, List.getElem?_drop, List.getElem?_map, samples_get hx hy ht, e]
      rfl
  · rw [s5]
  · rw [s5, h5]; exact normalize_scale hdx0
  · rw [s5, h6]; exact normalize_scale hdy0
  · intro τ X hX
    exact C51_components_partial (s.asSource g) p t src hs τ X (fun c c1 c2 => hX c (by omega) (by omega))

/-- C80: without the condition on the pitch vectors the statement is false: the source screen changes the second pitch
vector, so that its cells are not where the fields were recorded. -/
theorem C80_full_statement_false :
    ¬ (∀ (position dx dy : Vec) (nx ny : Nat) (t0 dt dtx dty : ℝ) (nots : Nat) (o : Observer),
      (Observer.screen (Screen.new position dx dy nx ny t0 dt dtx dty nots)).After o →
      cross dx dy ≠ 0 → 2 ≤ nots → dt ≠ 0 → nx * ny * nots < 715827883 → ∀ (p : Vec) (t : ℝ),
      ∃ s f, o = .screen s ∧ s.writeFile = .ok f ∧ Reloaded s f p t) := by
  intro hall
  obtain ⟨s, f, e, hf, src, sf, ho, hr, n1, n2, _, hc, _, _, _, _, _⟩ := hall 0 ⟨1, 0, 0⟩ ⟨1, 1, 0⟩ 2 2 0 1 0 0 2 _ .refl
    (by intro h; have := congrArg Vec.z h; simp [cross] at this) (by norm_num) (by norm_num) (by norm_num) 0 0
  injection e with e
  have hs : s.dX = ⟨1, 0, 0⟩ ∧ s.dY = ⟨1, 1, 0⟩ ∧ s.Nx = 2 ∧ s.Ny = 2 ∧ s.Origin = 0 := by
    rw [← e]; exact ⟨rfl, rfl, rfl, rfl, rfl⟩
  have hof : SourceScreen.ofFile sf 0 0 = .ok src := by
    unfold SourceScreen.open at ho
    rw [hr] at ho
    exact ho
  have hw : s.WF := by rw [← e]; exact (Observer.Reachable.fresh (Observer.Fresh.screen _ _ _ _ _ _ _ _ _ _)).wf
  obtain ⟨g, hg⟩ := Observer.values (o := .screen s) hw
  obtain ⟨f', hf', hr'⟩ := Screen.read_ok hw (by
    show 6 * (s.Nx * s.Ny * s.NOTS) < 2 ^ 32
    rw [← e]; show 6 * (2 * 2 * 2) < 2 ^ 32; norm_num) (by rw [hs.2.2.1, hs.2.2.2.1]; norm_num) g hg
  rw [hf] at hf'
  injection hf' with hf'
  subst hf'
  rw [hr] at hr'
  injection hr' with hr'
  subst hr'
  have hor := (C50_orthogonal_iff _ 0 0 src hof).mpr (Or.inl (by
    show s.dX.norm = 1
    rw [hs.1, norm_def]; simp [abs2nd]))
  have hd := hor.1
  have c1 := hc 0 1
  have c2 := hc 1 0
  unfold SourceScreen.centre Screen.CellPosition at c1 c2
  rw [n1, n2, hs.2.2.1, hs.2.2.2.1, hs.1, hs.2.1, hs.2.2.2.2] at c1 c2
  have x1 := congrArg Vec.x c1
  have x2 := congrArg Vec.y c1
  have x3 := congrArg Vec.z c1
  have y1 := congrArg Vec.x c2
  have y2 := congrArg Vec.y c2
  have y3 := congrArg Vec.z c2
  norm_num at x1 x2 x3 y1 y2 y3
  unfold dot at hd
  have a1 : src.axes.dX.x = 1 := by linarith
  have b1 : src.axes.dY.x = 1 := by linarith
  have a2 : src.axes.dX.y = 0 := by linarith
  have a3 : src.axes.dX.z = 0 := by linarith
  rw [a1, a2, a3, b1] at hd
  norm_num at hd

/-- hypotheses of `C80_reload_partial`: a screen with orthogonal pitch vectors of different length and a recorded field -/
example : ∃ o, (Observer.screen (Screen.new ⟨0, 0, 5⟩ ⟨1, 0, 0⟩ ⟨0, 2, 0⟩ 3 2 7 1 3 4 4)).After o ∧ o.get ((2, 1), 3) = .ok ⟨⟨1, 2, 3⟩, ⟨7, 8, 9⟩⟩ ∧
    cross (⟨1, 0, 0⟩ : Vec) ⟨0, 2, 0⟩ ≠ 0 ∧ dot (⟨1, 0, 0⟩ : Vec) ⟨0, 2, 0⟩ = 0 := by
  obtain ⟨o, ho, hg⟩ := after_put (Observer.Fresh.screen ⟨0, 0, 5⟩ ⟨1, 0, 0⟩ ⟨0, 2, 0⟩ 3 2 7 1 3 4 4) (k := ((2, 1), 3))
    (mem_samples.mpr ⟨by show 2 < 3; omega, by show 1 < 2; omega, by show 3 < 4; omega⟩) ⟨⟨1, 2, 3⟩, ⟨7, 8, 9⟩⟩
  refine ⟨o, ho, hg, ?_, by simp [dot]⟩
  intro h
  have := congrArg Vec.z h
  simp [cross] at this

end Teufel
