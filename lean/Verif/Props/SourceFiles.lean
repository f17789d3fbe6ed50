import Verif.Model.SourceFiles
import Verif.Props.ScreenReload

/-!
# C102: the files written by a source screen
-/

namespace Teufel
open Vec

namespace SourceScreen

/-- components of the field along the two directions of a screen; the third component is dropped -/
noncomputable def inPlane (ex ey : Vec) (F : EMField) : EMField := ⟨⟨dot F.E ex, dot F.E ey, 0⟩, ⟨dot F.B ex, dot F.B ey, 0⟩⟩

/-- geometry and timing of a source screen `s` placed at `p` in a file `A` -/
def Describes (A : H5File) (s : SourceScreen) (p : Vec) : Prop :=
  A.Consistent ∧ A.map H5Dataset.name = ["Screen", "ElMagField"] ∧ A.extent "ElMagField" = some [s.Nx, s.Ny, s.NOTS, 6] ∧ A.extent "Screen" = some [4, 3] ∧
    A.vec "Screen" [0] p ∧ A.vec "Screen" [1] s.axes.normal ∧ A.vec "Screen" [2] s.axes.dX ∧ A.vec "Screen" [3] s.axes.dY ∧
    A.intAttr "Screen" "Nx" = some s.Nx ∧ A.intAttr "Screen" "Ny" = some s.Ny ∧ A.intAttr "Screen" "NOTS" = some s.NOTS ∧
    A.realAttr "Screen" "t0" = some 0 ∧ A.realAttr "Screen" "dt" = some s.dt ∧ A.realAttr "Screen" "dtx" = some s.dtx ∧ A.realAttr "Screen" "dty" = some s.dty ∧
    A.intAttr "ElMagField" "NOTS" = some s.NOTS ∧ A.realAttr "ElMagField" "t0" = some 0 ∧ A.realAttr "ElMagField" "dt" = some s.dt

private theorem sample_mem {s : SourceScreen} {k : (Nat × Nat) × Nat} (h : k ∈ s.samples) : k.1.1 < s.Nx ∧ k.1.2 < s.Ny ∧ k.2 < s.NOTS := by
  unfold samples at h
  simp only [List.mem_flatMap, List.mem_map, List.mem_range] at h
  obtain ⟨c, hc, it, hit, rfl⟩ := h
  exact ⟨(mem_cells.mp hc).1, (mem_cells.mp hc).2, hit⟩

private theorem sample_get {s : SourceScreen} {ix iy it : Nat} (hx : ix < s.Nx) (hy : iy < s.Ny) (ht : it < s.NOTS) :
    s.samples[(ix * s.Ny + iy) * s.NOTS + it]? = some ((ix, iy), it) := by
  unfold samples
  rw [flatMap_get _ _ s.NOTS (fun a _ => by simp) (ix * s.Ny + iy) (ix, iy) (cells_get hx hy) it ht]
  simp [ht]

private theorem sample_length (s : SourceScreen) : s.samples.length = s.Nx * s.Ny * s.NOTS := by
  unfold samples
  rw [List.length_flatMap]
  simp [cells_length]

/-- the file written for a grid of traces of full length -/
private theorem write_ok {s : SourceScreen} {G : List (List FieldTrace)} (hsize : s.Nx * s.Ny * s.NOTS < 715827883) (g : (Nat × Nat) × Nat → EMField)
    (hg : ∀ c ∈ cells s.Nx s.Ny, ∃ tr, gridAt G c.1 c.2 = .ok tr ∧ ∀ it < s.NOTS, tr.getField it = .ok (g (c, it))) :
    s.WriteField G = .ok [
      ⟨"Screen", [4, 3], Particle.comps s.origin ++ Particle.comps s.axes.normal ++ Particle.comps s.axes.dX ++ Particle.comps s.axes.dY,
        [("Nx", s.Nx), ("Ny", s.Ny), ("NOTS", s.NOTS)], [("t0", 0), ("dt", s.dt), ("dtx", s.dtx), ("dty", s.dty)]⟩,
      ⟨"ElMagField", [s.Nx, s.Ny, s.NOTS, 6], (s.samples.map g).flatMap EMField.comps, [("NOTS", s.NOTS)], [("t0", 0), ("dt", s.dt)]⟩] := by
  have hm : s.samples.mapM (fun k : (Nat × Nat) × Nat => do
      let trace ← gridAt G k.1.1 k.1.2
      trace.getField k.2) = .ok (s.samples.map g) := by
    apply mapM_ok_map
    intro k hk
    obtain ⟨h1, h2, h3⟩ := sample_mem hk
    obtain ⟨tr, e1, e2⟩ := hg k.1 (mem_cells.mpr ⟨h1, h2⟩)
    simp only [e1, bind, Except.bind]
    exact e2 k.2 h3
  have hl : ((s.samples.map g).flatMap EMField.comps).length = s.Nx * s.Ny * s.NOTS * 6 := by
    rw [flatMap_len _ _ 6 (fun _ _ => rfl), List.length_map, sample_length]
  have hb : s.getBuffer G = .ok ((s.samples.map g).flatMap EMField.comps) := by
    unfold getBuffer
    rw [hm]
    simp only [bind, Except.bind]
    apply fill_exact
    rw [hl]
    unfold getBufferSize
    rw [Nat.mod_eq_of_lt (by omega)]
  have z : (0.0 : ℝ) = 0 := by norm_num
  unfold WriteField
  simp only [bind, Except.bind, pure, Except.pure, hb, z]
  rw [h5write_exact _ _ _ _ _ (by simp [Particle.comps])]
  simp only
  rw [h5write_exact _ _ _ _ _ (by rw [hl]; simp; ring)]

private theorem describes {s : SourceScreen} {p : Vec} (hp : s.origin = p) (g : (Nat × Nat) × Nat → EMField) :
    Describes [
      ⟨"Screen", [4, 3], Particle.comps s.origin ++ Particle.comps s.axes.normal ++ Particle.comps s.axes.dX ++ Particle.comps s.axes.dY,
        [("Nx", s.Nx), ("Ny", s.Ny), ("NOTS", s.NOTS)], [("t0", 0), ("dt", s.dt), ("dtx", s.dtx), ("dty", s.dty)]⟩,
      ⟨"ElMagField", [s.Nx, s.Ny, s.NOTS, 6], (s.samples.map g).flatMap EMField.comps, [("NOTS", s.NOTS)], [("t0", 0), ("dt", s.dt)]⟩] s p := by
  subst hp
  refine ⟨?_, rfl, rfl, rfl, ⟨rfl, rfl, rfl⟩, ⟨rfl, rfl, rfl⟩, ⟨rfl, rfl, rfl⟩, ⟨rfl, rfl, rfl⟩, rfl, rfl, rfl, rfl, rfl, rfl, rfl, rfl, rfl, rfl⟩
  intro d hd
  simp only [List.mem_cons, List.not_mem_nil, or_false] at hd
  rcases hd with rfl | rfl
  · simp [Particle.comps]
  · show List.length _ = _
    rw [flatMap_len _ _ 6 (fun _ _ => rfl), List.length_map, sample_length]
    simp
    ring

private theorem comp_transversal {f : ScreenFile} {s : SourceScreen} (hl : Loaded f s) (F : EMField) :
    comp s.axes (transversal s.axes.normal F) = inPlane s.axes.ex s.axes.ey F := by
  obtain ⟨q1, q2, q3, q4, q5⟩ := coax_perp hl.axes
  have n1 : dot s.axes.normal s.axes.ex = 0 := by rw [dot_comm]; exact q4
  have n2 : dot s.axes.normal s.axes.ey = 0 := by rw [dot_comm]; exact q5
  have n3 : dot s.axes.normal s.axes.normal = 1 := by rw [dot_self]; exact q1
  unfold transversal inPlane
  simp only [comp, FieldTrace.transformField, dot_sub_left, dot_mul_left, n1, n2, n3]
  ext <;> simp

/-- the stored traces and their derivatives, sample by sample -/
private theorem traces_of {f : ScreenFile} {s : SourceScreen} (hl : Loaded f s) {c : Nat × Nat} (hc : c ∈ cells s.Nx s.Ny) :
    ∃ tr d, gridAt s.Traces c.1 c.2 = .ok tr ∧ gridAt s.dtTraces c.1 c.2 = .ok d ∧ tr.derivative = .ok d ∧ tr.N = s.NOTS ∧ d.N = s.NOTS ∧
      tr.trace.length = s.NOTS ∧ d.trace.length = s.NOTS ∧ tr.dt = s.dt ∧ 2 ≤ s.NOTS ∧
      ∀ it < s.NOTS, ∃ F, f.fields[(c.1 * s.Ny + c.2) * s.NOTS + it]? = some F ∧ tr.trace[it]? = some (inPlane s.axes.ex s.axes.ey F) := by
  obtain ⟨h1, h2, h3, h4, h5⟩ := hl.traces c hc
  have hd := FieldTrace.derivative_map (transformField_lin s.axes.ex s.axes.ey s.axes.normal) _ _ h5
  have hlen : ((recorded f s c).mapF (comp s.axes)).trace.length = s.NOTS := by
    unfold recorded FieldTrace.mapF
    simp only [List.length_map, List.length_take]
    omega
  refine ⟨_, _, h3, h4, hd, rfl, ?_, hlen, ?_, rfl, h2, ?_⟩
  · have := hd
    unfold FieldTrace.derivative at this
    split at this
    · cases this
    · simp only [Except.ok.injEq] at this
      rw [← this]
      rfl
  · have := hd
    unfold FieldTrace.derivative at this
    split at this
    · cases this
    · simp only [Except.ok.injEq] at this
      rw [← this]
      simp [FieldTrace.mapF, recorded]
  · intro it hit
    rw [List.length_drop] at h1
    have hlt : (c.1 * s.Ny + c.2) * s.NOTS + it < f.fields.length := by omega
    refine ⟨f.fields[(c.1 * s.Ny + c.2) * s.NOTS + it], List.getElem?_eq_getElem hlt, ?_⟩
    unfold recorded FieldTrace.mapF
    simp only [List.getElem?_map, List.getElem?_take_of_lt hit, List.getElem?_drop, List.getElem?_eq_getElem hlt, Option.map_some]
    rw [comp_transversal hl]

/-- value of a trace of the grid -/
private noncomputable def val (G : List (List FieldTrace)) (k : (Nat × Nat) × Nat) : EMField :=
  match gridAt G k.1.1 k.1.2 with
  | .ok tr => (tr.trace[k.2]?).getD 0
  | .error _ => 0

private theorem val_of {G : List (List FieldTrace)} {c : Nat × Nat} {tr : FieldTrace} (h : gridAt G c.1 c.2 = .ok tr) {n : Nat} (hn : tr.N = n) (hl : tr.trace.length = n)
    (it : Nat) (hit : it < n) : tr.getField it = .ok (val G (c, it)) := by
  unfold val FieldTrace.getField
  rw [if_neg (by omega)]
  simp only [h]
  rw [List.getElem?_eq_getElem (by omega)]
  rfl

/-- the file with the traces of the grid -/
private noncomputable def fileOf (s : SourceScreen) (G : List (List FieldTrace)) : H5File :=
  [⟨"Screen", [4, 3], Particle.comps s.origin ++ Particle.comps s.axes.normal ++ Particle.comps s.axes.dX ++ Particle.comps s.axes.dY,
      [("Nx", s.Nx), ("Ny", s.Ny), ("NOTS", s.NOTS)], [("t0", 0), ("dt", s.dt), ("dtx", s.dtx), ("dty", s.dty)]⟩,
    ⟨"ElMagField", [s.Nx, s.Ny, s.NOTS, 6], (s.samples.map (val G)).flatMap EMField.comps, [("NOTS", s.NOTS)], [("t0", 0), ("dt", s.dt)]⟩]

private theorem openIn_ok {creatable : String → Bool} (hc : ∀ n, creatable n = true) {h5 : H5File} {f : ScreenFile} {p : Vec} {t : ℝ} {s : SourceScreen}
    (h : SourceScreen.open h5 p t = .ok s) (hl : Loaded f s) (hsize : s.Nx * s.Ny * s.NOTS < 715827883) :
    SourceScreen.openIn creatable h5 p t =
      .ok (s, [("SourceScreenTraces_DEBUG.h5", fileOf s s.Traces), ("SourceScreenTimeDerivative_DEBUG.h5", fileOf s s.dtTraces)]) := by
  have hA := write_ok (s := s) (G := s.Traces) hsize (val s.Traces) (by
    intro c hc
    obtain ⟨tr, d, e1, e2, e3, e4, e5, e6, e7, e8, e9, e10⟩ := traces_of hl hc
    exact ⟨tr, e1, fun it hit => val_of e1 e4 e6 it hit⟩)
  have hB := write_ok (s := s) (G := s.dtTraces) hsize (val s.dtTraces) (by
    intro c hc
    obtain ⟨tr, d, e1, e2, e3, e4, e5, e6, e7, e8, e9, e10⟩ := traces_of hl hc
    exact ⟨d, e2, fun it hit => val_of e2 e5 e7 it hit⟩)
  unfold openIn
  simp only [h, hc, hA, hB, bind, Except.bind, pure, Except.pure, not_true_eq_false, if_false]
  rfl

private theorem fileOf_field {s : SourceScreen} (G : List (List FieldTrace)) {ix iy it : Nat} (hx : ix < s.Nx) (hy : iy < s.Ny) (ht : it < s.NOTS) :
    (fileOf s G).field "ElMagField" [ix, iy, it] (val G ((ix, iy), it)) :=
  field_of_index (f := fileOf s G) (a := ((ix, iy), it)) (g := val G) rfl (fun c hc => rowMajor4 _ _ _ _ _ _ _ _ hx hy ht hc) (sample_get hx hy ht) rfl

/-- C102: a source screen writes two files with fixed names into the working directory. Both describe its geometry and timing. The first contains the
components of the fields of the input file in the two directions of the screen, the second their time derivatives. -/
theorem C102_debug_files (creatable : String → Bool) (hc : ∀ n, creatable n = true) (h5 : H5File) (f : ScreenFile) (hf : ScreenFile.read h5 = .ok f) (p : Vec) (t : ℝ) (s : SourceScreen)
    (h : SourceScreen.open h5 p t = .ok s) (hsize : s.Nx * s.Ny * s.NOTS < 715827883) :
    ∃ A B, SourceScreen.openIn creatable h5 p t = .ok (s, [("SourceScreenTraces_DEBUG.h5", A), ("SourceScreenTimeDerivative_DEBUG.h5", B)]) ∧
      Describes A s p ∧ Describes B s p ∧
      ∀ ix iy, ix < s.Nx → iy < s.Ny → ∃ F : Nat → EMField, (∀ it < s.NOTS, f.fields[(ix * s.Ny + iy) * s.NOTS + it]? = some (F it)) ∧
        (∀ it < s.NOTS, A.field "ElMagField" [ix, iy, it] (inPlane s.axes.ex s.axes.ey (F it))) ∧
        B.field "ElMagField" [ix, iy, 0] ((inPlane s.axes.ex s.axes.ey (F 1) - inPlane s.axes.ex s.axes.ey (F 0)) / s.dt) ∧
        (∀ it, 0 < it → it + 1 < s.NOTS →
          B.field "ElMagField" [ix, iy, it] ((inPlane s.axes.ex s.axes.ey (F (it + 1)) - inPlane s.axes.ex s.axes.ey (F (it - 1))) / (2 * s.dt))) ∧
        B.field "ElMagField" [ix, iy, s.NOTS - 1]
          ((inPlane s.axes.ex s.axes.ey (F (s.NOTS - 1)) - inPlane s.axes.ex s.axes.ey (F (s.NOTS - 2))) / s.dt) := by
  have hof : SourceScreen.ofFile f p t = .ok s := by
    unfold SourceScreen.open at h
    rw [hf] at h
    exact h
  obtain ⟨hl, ht0, hor⟩ := ofFile_ok hof
  refine ⟨fileOf s s.Traces, fileOf s s.dtTraces, openIn_ok hc h hl hsize, describes hor (val s.Traces), describes hor (val s.dtTraces), ?_⟩
  · intro ix iy hx hy
    obtain ⟨tr, d, e1, e2, e3, e4, e5, e6, e7, e8, e9, e10⟩ := traces_of hl (c := (ix, iy)) (mem_cells.mpr ⟨hx, hy⟩)
    choose! F hF hT using e10
    have fA : ∀ it < s.NOTS, H5File.field _ "ElMagField" [ix, iy, it] (val s.Traces ((ix, iy), it)) := fun it ht => fileOf_field s.Traces hx hy ht
    have fB : ∀ it < s.NOTS, H5File.field _ "ElMagField" [ix, iy, it] (val s.dtTraces ((ix, iy), it)) := fun it ht => fileOf_field s.dtTraces hx hy ht
    have vA : ∀ it < s.NOTS, val s.Traces ((ix, iy), it) = inPlane s.axes.ex s.axes.ey (F it) := by
      intro it hit
      unfold val
      simp only [e1, hT it hit]
      rfl
    have hg : ∀ it < s.NOTS, (tr.trace[it]?).getD 0 = inPlane s.axes.ex s.axes.ey (F it) := fun it hit => by rw [hT it hit]; rfl
    have vB : ∀ it < s.NOTS, val s.dtTraces ((ix, iy), it) =
        if it = 0 then (inPlane s.axes.ex s.axes.ey (F 1) - inPlane s.axes.ex s.axes.ey (F 0)) / s.dt
        else if it = s.NOTS - 1 then (inPlane s.axes.ex s.axes.ey (F (s.NOTS - 1)) - inPlane s.axes.ex s.axes.ey (F (s.NOTS - 2))) / s.dt
        else (inPlane s.axes.ex s.axes.ey (F (it + 1)) - inPlane s.axes.ex s.axes.ey (F (it - 1))) / (2.0 * s.dt) := by
      intro it hit
      unfold val
      simp only [e2]
      unfold FieldTrace.derivative at e3
      rw [if_neg (by omega)] at e3
      simp only [Except.ok.injEq] at e3
      rw [← e3]
      simp only
      rw [List.getElem?_map, List.getElem?_range (by omega)]
      simp only [Option.map_some, Option.getD_some, e4, e8]
      split
      · rw [hg 1 (by omega), hg 0 (by omega)]
      · split
        · rw [hg _ (by omega), hg _ (by omega)]
        · rw [hg _ (by omega), hg _ (by omega)]
    refine ⟨F, hF, ?_, ?_, ?_, ?_⟩
    · intro it hit
      rw [← vA it hit]
      exact fA it hit
    · have := fB 0 (by omega)
      rw [vB 0 (by omega), if_pos rfl] at this
      exact this
    · intro it h1 h2
      have := fB it (by omega)
      rw [vB it (by omega), if_neg (by omega), if_neg (by omega), show (2.0 : ℝ) = 2 by norm_num] at this
      exact this
    · have := fB (s.NOTS - 1) (by omega)
      rw [vB _ (by omega), if_neg (by omega), if_pos rfl] at this
      exact this

/-- C102: where these files cannot be created no source screen can be used. -/
theorem C102_not_creatable (creatable : String → Bool) (h5 : H5File) (p : Vec) (t : ℝ) (s : SourceScreen) (h : SourceScreen.open h5 p t = .ok s)
    (hc : creatable "SourceScreenTraces_DEBUG.h5" = false) : SourceScreen.openIn creatable h5 p t = .error .io := by
  unfold openIn
  simp [h, hc, bind, Except.bind]
  rfl

/-- the file with the traces as a source of radiation sees it -/
private noncomputable def asSource (s : SourceScreen) : ScreenFile :=
  { Nx := some s.Nx, Ny := some s.Ny, NOTS := some s.NOTS, dt := some s.dt, dtx := some s.dtx, dty := some s.dty,
    origin := s.origin, normal := s.axes.normal, dX := s.axes.dX, dY := s.axes.dY, dims := [s.Nx, s.Ny, s.NOTS, 6], fields := s.samples.map (val s.Traces) }

private theorem read_fileOf (s : SourceScreen) : ScreenFile.read (fileOf s s.Traces) = .ok (asSource s) := by
  refine Eq.trans (b := .ok { asSource s with fields := asFields ((s.samples.map (val s.Traces)).flatMap EMField.comps) }) rfl ?_
  rw [asFields_comps]
  rfl

private theorem coax_again {n0 x0 y0 : Vec} {a : ScreenAxes} (h : ScreenAxes.coax n0 x0 y0 = .ok a) (hxy : dot a.ex a.ey = 0) :
    ScreenAxes.coax a.normal a.dX a.dY = .ok a := by
  obtain ⟨h1, h2, h3, hn, hdx, hex, hdX, hdy, hey, hdY⟩ := coax_ok h
  obtain ⟨q1, q2, q3, q4, q5⟩ := coax_perp h
  have ux : a.ex.norm = 1 := by rw [norm_def, q2, Real.sqrt_one]
  have uy : a.ey.norm = 1 := by rw [norm_def, q3, Real.sqrt_one]
  have px : 0 < a.dx := by
    rw [hdx]
    refine norm_pos ?_
    rintro rfl
    apply h2
    ext <;> simp [dot]
  have py : 0 < a.dy := by
    rw [hdy]
    refine norm_pos ?_
    rintro rfl
    apply h3
    ext <;> simp [dot]
  have nx : a.dX.norm = a.dx := by rw [hdX, Vec.norm_mul, ux, abs_of_pos px, one_mul]
  have ny : a.dY.norm = a.dy := by rw [hdY, Vec.norm_mul, uy, abs_of_pos py, one_mul]
  have x0 : a.dX ≠ 0 := by intro e; rw [e, Vec.norm_zero] at nx; linarith
  have y0 : a.dY ≠ 0 := by intro e; rw [e, Vec.norm_zero] at ny; linarith
  rw [coax_screen (by rw [dot_self]; exact q1) (by rw [dot_comm, hdX, dot_mul_left, q4, zero_mul]) (by rw [dot_comm, hdY, dot_mul_left, q5, zero_mul])
    (by rw [hdX, hdY, dot_mul_left, dot_mul_right, hxy]; ring) x0 y0]
  have ex' : a.dX.normalize = a.ex := by
    rw [normalize_eq, nx, hdX]
    ext <;> simp <;> field_simp
  have ey' : a.dY.normalize = a.ey := by
    rw [normalize_eq, ny, hdY]
    ext <;> simp <;> field_simp
  rw [nx, ny, ex', ey']

private theorem inPlane_twice {ex ey : Vec} (hx : ex = ⟨1, 0, 0⟩) (hy : ey = ⟨0, 1, 0⟩) (F : EMField) : inPlane ex ey (inPlane ex ey F) = inPlane ex ey F := by
  subst hx hy
  ext <;> simp [inPlane, dot]

/-- a source screen made from the file with the traces of another one radiates the same field and has the same energy -/
def Reproduces (s' s : SourceScreen) : Prop :=
  (∀ τ X, s'.asField.field τ X = s.asField.field τ X) ∧ s'.totalEnergy = s.totalEnergy

/-- C102, proved part: the file with the traces of a screen whose directions are the axes `x` and `y` can be used as input file in place of the
original one.
Missing: other orientations, see `C102_full_statement_false`. -/
theorem C102_reload_partial (creatable : String → Bool) (hc : ∀ n, creatable n = true) (h5 : H5File) (p : Vec) (t : ℝ) (s : SourceScreen)
    (h : SourceScreen.open h5 p t = .ok s) (hsize : s.Nx * s.Ny * s.NOTS < 715827883) (hNx : 0 < s.Nx) (hNy : 0 < s.Ny)
    (hx : s.axes.ex = ⟨1, 0, 0⟩) (hy : s.axes.ey = ⟨0, 1, 0⟩) :
    ∃ A B s', SourceScreen.openIn creatable h5 p t = .ok (s, [("SourceScreenTraces_DEBUG.h5", A), ("SourceScreenTimeDerivative_DEBUG.h5", B)]) ∧
      SourceScreen.open A p t = .ok s' ∧ Reproduces s' s := by
  have hcell : (0, 0) ∈ cells s.Nx s.Ny := mem_cells.mpr ⟨hNx, hNy⟩
  obtain ⟨f, hf⟩ : ∃ f, ScreenFile.read h5 = .ok f := by
    unfold SourceScreen.open at h
    cases e : ScreenFile.read h5 with
    | ok f => exact ⟨f, rfl⟩
    | error _ => rw [e] at h; cases h
  have hof : SourceScreen.ofFile f p t = .ok s := by
    unfold SourceScreen.open at h
    rw [hf] at h
    exact h
  obtain ⟨hl, ht0, hor⟩ := ofFile_ok hof
  have hax := coax_again hl.axes (by rw [hx, hy]; simp [dot])
  obtain ⟨s', hs', s1, s2, s3, s4, s5, s6, s7⟩ := C72_accepts_partial (asSource s) p t s.Nx s.Ny s.NOTS s.dt s.axes rfl rfl rfl rfl hax rfl
    (by show (s.samples.map _).length = _; rw [List.length_map, sample_length]) (hl.traces _ hcell).2.1
    (hl.dtne (Nat.mul_ne_zero hNx.ne' hNy.ne')) hsize
  obtain ⟨hl', -, -⟩ := ofFile_ok hs'
  have key : ∀ c ∈ cells s.Nx s.Ny, gridAt s'.Traces c.1 c.2 = gridAt s.Traces c.1 c.2 ∧ gridAt s'.dtTraces c.1 c.2 = gridAt s.dtTraces c.1 c.2 := by
    intro c hc
    obtain ⟨tr, d, e1, e2, e3, e4, e5, e6, e7, e8, e9, e10⟩ := traces_of hl hc
    obtain ⟨tr', d', g1, g2, g3, g4, g5, g6, g7, g8, g9, g10⟩ := traces_of hl' (c := c) (by rw [s1, s2]; exact hc)
    have q0 : tr.t0 = tr'.t0 := by
      have a1 := (hl.traces c hc).2.2.1
      have a2 := (hl'.traces c (by rw [s1, s2]; exact hc)).2.2.1
      rw [e1] at a1
      rw [g1] at a2
      injection a1 with a1
      injection a2 with a2
      rw [a1, a2]
      show (recorded f s c).t0 = (recorded (asSource s) s' c).t0
      unfold recorded
      simp only [s1, s2, hl'.dtx, hl'.dty]
      rfl
    have he : tr' = tr := by
      apply FieldTrace.ext
      · exact q0.symm
      · rw [g8, e8, s4]
      · rw [g4, e4, s3]
      · apply List.ext_getElem?
        intro it
        by_cases hit : it < s.NOTS
        · obtain ⟨F, hF, hT⟩ := e10 it hit
          obtain ⟨F', hF', hT'⟩ := g10 it (by rw [s3]; exact hit)
          rw [s2, s3] at hF'
          have hF'' : (s.samples.map (val s.Traces))[(c.1 * s.Ny + c.2) * s.NOTS + it]? = some F' := hF'
          rw [List.getElem?_map, sample_get (mem_cells.mp hc).1 (mem_cells.mp hc).2 hit] at hF''
          have hv : val s.Traces ((c.1, c.2), it) = inPlane s.axes.ex s.axes.ey F := by
            unfold val
            simp only [e1, hT]
            rfl
          simp only [Option.map_some, Option.some.injEq] at hF''
          rw [hT', hT, ← hF'', hv, s5, inPlane_twice hx hy]
        · rw [List.getElem?_eq_none (by omega), List.getElem?_eq_none (by omega)]
    refine ⟨by rw [e1, g1, he], ?_⟩
    rw [he, e3] at g3
    injection g3 with g3
    rw [e2, g2, g3]
  refine ⟨_, _, s', openIn_ok hc h hl hsize, ?_, ?_, ?_⟩
  · unfold SourceScreen.open
    rw [read_fileOf]
    exact hs'
  · intro τ X
    unfold SourceScreen.asField LocalizedField SourceScreen.LocalField
    simp only [ht0, hor, s6, s7, s1, s2, s5]
    congr 1
    apply foldlM_congr_mem
    intro c hc total
    congr 1
    unfold contribution
    rw [(key c hc).1, (key c hc).2, s1, s2, s5]
  · unfold totalEnergy
    rw [s1, s2]
    apply foldlM_congr_mem
    intro c hc total
    rw [(key c hc).1, s5]

/-- an input file with a single cell and a constant field -/
noncomputable def oneCellFile (normal dX dY : Vec) (F : EMField) : H5File :=
  [⟨"Screen", [4, 3], [0, 0, 0] ++ Particle.comps normal ++ Particle.comps dX ++ Particle.comps dY, [("Nx", 1), ("Ny", 1), ("NOTS", 2)], [("dt", 1)]⟩,
    ⟨"ElMagField", [1, 1, 2, 6], F.comps ++ F.comps, [], []⟩]

private theorem read_oneCell (n x y : Vec) (F : EMField) : ScreenFile.read (oneCellFile n x y F) = .ok (oneCell n x y F) := rfl

/-- C102: for other orientations the statement is false. The file contains components along the directions of the screen, and reading it projects them a second
time: for a screen facing `x` the electric field is lost. -/
theorem C102_full_statement_false :
    ¬ (∀ (creatable : String → Bool), (∀ n, creatable n = true) → ∀ (h5 : H5File) (p : Vec) (t : ℝ) (s : SourceScreen),
      SourceScreen.open h5 p t = .ok s → s.Nx * s.Ny * s.NOTS < 715827883 → 0 < s.Nx → 0 < s.Ny →
      ∃ A B s', SourceScreen.openIn creatable h5 p t = .ok (s, [("SourceScreenTraces_DEBUG.h5", A), ("SourceScreenTimeDerivative_DEBUG.h5", B)]) ∧
        SourceScreen.open A p t = .ok s' ∧ Reproduces s' s) := by
  intro hall
  obtain ⟨s, hs, h1, h2, h3, _, hax, _, _⟩ := oneCell_loads _ _ _ ⟨⟨0, 1, 0⟩, ⟨0, 0, 1⟩⟩ _ sideways_axes 0 0
  have hF : transversal ⟨1, 0, 0⟩ (⟨⟨0, 1, 0⟩, ⟨0, 0, 1⟩⟩ : EMField) = ⟨⟨0, 1, 0⟩, ⟨0, 0, 1⟩⟩ := by
    unfold transversal
    ext <;> simp [dot]
  obtain ⟨hrec, hcen, hcells, hrad⟩ := oneCell_radiated _ _ _ _ s 0 0 (by norm_num [abs2nd]) hF hs hax
  have hopen : SourceScreen.open (oneCellFile ⟨1, 0, 0⟩ ⟨0, 1, 0⟩ ⟨0, 0, 1⟩ ⟨⟨0, 1, 0⟩, ⟨0, 0, 1⟩⟩) 0 0 = .ok s := by
    unfold SourceScreen.open
    rw [read_oneCell]
    exact hs
  have hsize : s.Nx * s.Ny * s.NOTS < 715827883 := by rw [h1, h2, h3]; norm_num
  obtain ⟨A, B, s', e1, e2, e3, -⟩ := hall (fun _ => true) (fun _ => rfl) _ 0 0 s hopen hsize (by omega) (by omega)
  obtain ⟨hl, ht0, hor⟩ := ofFile_ok hs
  rw [openIn_ok (fun _ => rfl) hopen hl hsize] at e1
  simp only [Except.ok.injEq, Prod.mk.injEq, List.cons.injEq, and_true, true_and] at e1
  obtain ⟨rfl, rfl⟩ := e1
  -- the file read back
  obtain ⟨r, hr, r1, r2, _, _, rax, _, _⟩ := oneCell_loads _ _ _ ⟨⟨1, 0, 0⟩, ⟨0, 1, 0⟩⟩ _ sideways_axes 0 0
  have hrs : s' = r := by
    have hv : s.samples.map (val s.Traces) = [⟨⟨1, 0, 0⟩, ⟨0, 1, 0⟩⟩, ⟨⟨1, 0, 0⟩, ⟨0, 1, 0⟩⟩] := by
      have hgr := (hl.traces (0, 0) (by rw [hcells]; simp)).2.2.1
      rw [hrec] at hgr
      unfold samples
      rw [hcells, h3]
      show [val s.Traces ((0, 0), 0), val s.Traces ((0, 0), 1)] = _
      have hv : ∀ it < 2, val s.Traces ((0, 0), it) = ⟨⟨1, 0, 0⟩, ⟨0, 1, 0⟩⟩ := by
        intro it hit
        unfold val
        simp only [hgr, FieldTrace.mapF]
        rw [hax]
        have : it = 0 ∨ it = 1 := by omega
        rcases this with rfl | rfl <;> simp [comp, FieldTrace.transformField, dot]
      rw [hv 0 (by omega), hv 1 (by omega)]
    unfold SourceScreen.open at e2
    rw [read_fileOf] at e2
    have e2' : SourceScreen.ofFile (asSource s) 0 0 = .ok s' := e2
    have : SourceScreen.ofFile (asSource s) 0 0 = SourceScreen.ofFile (oneCell ⟨1, 0, 0⟩ ⟨0, 1, 0⟩ ⟨0, 0, 1⟩ ⟨⟨1, 0, 0⟩, ⟨0, 1, 0⟩⟩) 0 0 := by
      have hdtx : s.dtx = 0 := by rw [hl.dtx]; rfl
      have hdty : s.dty = 0 := by rw [hl.dty]; rfl
      have hdt : s.dt = 1 := (Option.some.inj hl.dt).symm
      unfold asSource
      rw [hv, h1, h2, h3, hax, hdtx, hdty, hdt]
      rfl
    rw [this, hr] at e2'
    injection e2' with e2'
    exact e2'.symm
  subst hrs
  have hF' : transversal ⟨1, 0, 0⟩ (⟨⟨1, 0, 0⟩, ⟨0, 1, 0⟩⟩ : EMField) = ⟨⟨0, 0, 0⟩, ⟨0, 1, 0⟩⟩ := by
    unfold transversal
    ext <;> simp [dot]
  obtain ⟨hrec', hcen', hcells', hrad'⟩ := oneCell_radiated _ _ _ _ s' 0 0 (by norm_num [abs2nd]) hF' hr rax
  have hX : ∀ (u : SourceScreen), cells u.Nx u.Ny = [(0, 0)] → centre u (0, 0) = 0 → ∀ c, c.1 < u.Nx → c.2 < u.Ny → (-(⟨1, 0, 0⟩ : Vec)) - 0 ≠ centre u c := by
    intro u hu hu' c c1 c2
    have hc : c ∈ cells u.Nx u.Ny := mem_cells.mpr ⟨c1, c2⟩
    rw [hu] at hc
    simp only [List.mem_singleton] at hc
    rw [hc, hu']
    intro e
    have := congrArg Vec.x e
    norm_num at this
  obtain ⟨F, hF1, hE, _⟩ := C51_components_partial _ _ _ s hs (1 / SpeedOfLight) (-(⟨1, 0, 0⟩ : Vec)) (hX s hcells hcen)
  obtain ⟨F2, hF2, hE2, _⟩ := C51_components_partial _ _ _ s' hr (1 / SpeedOfLight) (-(⟨1, 0, 0⟩ : Vec)) (hX s' hcells' hcen')
  rw [e3, hF1] at hF2
  injection hF2 with hF2
  subst hF2
  rw [sub_zero, sub_zero, hrad] at hE
  rw [sub_zero, sub_zero, hrad'] at hE2
  have k1 : F.E.x = 1 / (4 * Pi) := by rw [hE, hax]; simp [dot]
  have k2 : F.E.x = 0 := by rw [hE2, rax]; simp [dot]
  rw [k1] at k2
  have := Pi_pos
  have : (0 : ℝ) < 1 / (4 * Pi) := by positivity
  linarith

/-- the hypotheses of `C102_debug_files` and `C102_reload_partial` are met by a screen along the axes crossed by a field -/
example : ∃ s, SourceScreen.open (oneCellFile ⟨0, 0, -1⟩ ⟨1, 0, 0⟩ ⟨0, 1, 0⟩ ⟨⟨1, 0, 0⟩, ⟨0, 1, 0⟩⟩) 0 0 = .ok s ∧ s.Nx * s.Ny * s.NOTS < 715827883 ∧
    0 < s.Nx ∧ 0 < s.Ny ∧ s.axes.ex = ⟨1, 0, 0⟩ ∧ s.axes.ey = ⟨0, 1, 0⟩ := by
  obtain ⟨s, hs, h1, h2, h3, _, hax, _, _⟩ := oneCell_loads ⟨0, 0, -1⟩ ⟨1, 0, 0⟩ ⟨0, 1, 0⟩ ⟨⟨1, 0, 0⟩, ⟨0, 1, 0⟩⟩ _
    (coax_orthonormal _ _ _ (by norm_num [abs2nd]) (by norm_num [abs2nd]) (by norm_num [abs2nd]) (by norm_num [dot]) (by norm_num [dot]) (by norm_num [dot])) 0 0
  refine ⟨s, ?_, by rw [h1, h2, h3]; norm_num, by omega, by omega, by rw [hax], by rw [hax]⟩
  unfold SourceScreen.open
  rw [read_oneCell]
  exact hs

end SourceScreen
end Teufel
