import Verif.Lemmas.SourceScreen
import Verif.Lemmas.Additive
import Verif.Lemmas.Observe
import Verif.Props.HybridSerial

/-!
# C50, C51, C72: a recorded screen as a source of radiation
-/

namespace Teufel

open Vec

namespace SourceScreen

theorem foldlM_each {α β : Type} (f : β → α → Except Err β) (l : List α) (b r : β) (h : l.foldlM f b = .ok r) (a : α) (ha : a ∈ l) :
    ∃ x y, f x a = .ok y := by
  induction l generalizing b with
  | nil => simp at ha
  | cons c l ih =>
    rw [List.foldlM_cons] at h
    cases hc : f b c with
    | error e => rw [hc] at h; cases h
    | ok b' =>
      rw [hc] at h
      rcases List.mem_cons.mp ha with e | e
      · subst e; exact ⟨b, b', hc⟩
      · exact ih b' h e

theorem setBuffer_take (s : FieldTrace) (hw : s.WF) (buf : List EMField) (hb : s.N ≤ buf.length) :
    s.setBuffer buf s.N = .ok { s with trace := buf.take s.N } := by
  rw [← s.setBuffer_eq hw (buf.take s.N) (by simp; omega)]
  unfold FieldTrace.setBuffer
  rw [if_neg (by simp), if_neg (by simp)]
  apply foldlM_congr_mem
  intro i hi c
  have hi' : i < s.N := by simpa using hi
  unfold FieldTrace.setFrom
  rw [List.getElem?_take, if_pos hi']

theorem setBuffer_ok {s r : FieldTrace} (hw : s.WF) {buf : List EMField} (h : s.setBuffer buf s.N = .ok r) :
    s.N ≤ buf.length ∧ r = { s with trace := buf.take s.N } := by
  have hl : s.N ≤ buf.length := by
    by_contra hc
    have hc' : buf.length < s.N := by omega
    unfold FieldTrace.setBuffer at h
    rw [if_neg (by simp)] at h
    obtain ⟨x, y, hxy⟩ := foldlM_each _ _ _ _ h buf.length (by simpa using hc')
    unfold FieldTrace.setFrom at hxy
    rw [List.getElem?_eq_none (le_refl _)] at hxy
    cases hxy
  refine ⟨hl, ?_⟩
  rw [setBuffer_take s hw buf hl] at h
  exact (Except.ok.inj h).symm

theorem ez_normalize : (⟨0, 0, 1⟩ : Vec).normalize = ⟨0, 0, 1⟩ := by
  have : (⟨0, 0, 1⟩ : Vec).norm = 1 := by simp [Vec.norm]
  ext <;> simp [this]

theorem local_eq (a : ScreenAxes) (h1 : a.normal.abs2nd = 1) (h2 : dot a.ex a.normal = 0) (h3 : dot a.ey a.normal = 0) (F : EMField) :
    FieldTrace.cancelLong (⟨0, 0, 1⟩ : Vec).normalize (FieldTrace.transformField a.ex a.ey a.normal F)
      = FieldTrace.transformField a.ex a.ey a.normal (transversal a.normal F) := by
  rw [ez_normalize]
  have e1 : dot a.normal a.ex = 0 := by rw [dot_comm]; exact h2
  have e2 : dot a.normal a.ey = 0 := by rw [dot_comm]; exact h3
  unfold FieldTrace.cancelLong FieldTrace.transformField transversal
  have z : ∀ v : Vec, dot (v - a.normal * dot v a.normal) a.normal = 0 := by
    intro v; rw [dot_sub_left, dot_mul_left, dot_self, h1]; ring
  have zx : ∀ v : Vec, dot (v - a.normal * dot v a.normal) a.ex = dot v a.ex := by
    intro v; rw [dot_sub_left, dot_mul_left, e1]; ring
  have zy : ∀ v : Vec, dot (v - a.normal * dot v a.normal) a.ey = dot v a.ey := by
    intro v; rw [dot_sub_left, dot_mul_left, e2]; ring
  simp only [z, zx, zy]
  ext <;> simp [dot]

/-- the components along the axes of the screen -/
noncomputable abbrev comp (a : ScreenAxes) (F : EMField) : EMField := FieldTrace.transformField a.ex a.ey a.normal F

theorem loadCell_ok {a : ScreenAxes} (h1 : a.normal.abs2nd = 1) (h2 : dot a.ex a.normal = 0) (h3 : dot a.ey a.normal = 0)
    {tz dt : ℝ} {NOTS off : Nat} {fields : List EMField} {r : FieldTrace} (h : loadCell a tz dt NOTS fields off = .ok r) :
    NOTS ≤ (fields.drop off).length ∧
    r = FieldTrace.mapF (comp a) ⟨tz, dt, NOTS, ((fields.drop off).take NOTS).map (transversal a.normal)⟩ := by
  unfold loadCell at h
  cases hs : (FieldTrace.new tz dt NOTS).setBuffer (fields.drop off) NOTS with
  | error e => rw [hs] at h; cases h
  | ok tr =>
    rw [hs] at h
    simp only [bind, Except.bind, pure, Except.pure] at h
    have hw : (FieldTrace.new tz dt NOTS).WF := by simp [FieldTrace.WF, FieldTrace.new]
    obtain ⟨hl, htr⟩ := setBuffer_ok hw (buf := fields.drop off) hs
    refine ⟨hl, ?_⟩
    have := Except.ok.inj h
    rw [← this, htr]
    unfold FieldTrace.mapF FieldTrace.transform FieldTrace.cancelLongFields
    simp only [List.map_map, FieldTrace.new, FieldTrace.mk.injEq, true_and]
    apply List.map_congr_left
    intro F _
    exact local_eq a h1 h2 h3 F

theorem loadCell_of_len {a : ScreenAxes} {tz dt : ℝ} {NOTS off : Nat} {fields : List EMField} (hl : NOTS ≤ (fields.drop off).length) :
    ∃ r, loadCell a tz dt NOTS fields off = .ok r ∧ r.N = NOTS ∧ r.WF := by
  have hw : (FieldTrace.new tz dt NOTS).WF := by simp [FieldTrace.WF, FieldTrace.new]
  have hs := setBuffer_take (FieldTrace.new tz dt NOTS) hw (fields.drop off) hl
  unfold loadCell
  have hs' : (FieldTrace.new tz dt NOTS).setBuffer (fields.drop off) NOTS = _ := hs
  rw [hs']
  refine ⟨_, rfl, rfl, ?_⟩
  simp only [FieldTrace.WF, FieldTrace.cancelLongFields, FieldTrace.transform, FieldTrace.new, List.length_map, List.length_take]
  omega

/-- everything known about a screen read from a file -/
structure Loaded (f : ScreenFile) (s : SourceScreen) : Prop where
  nx : f.Nx = some s.Nx
  ny : f.Ny = some s.Ny
  nots : f.NOTS = some s.NOTS
  dt : f.dt = some s.dt
  dtx : s.dtx = f.dtx.getD 0
  dty : s.dty = f.dty.getD 0
  dims : f.dims = [s.Nx, s.Ny, s.NOTS, 6]
  axes : ScreenAxes.coax f.normal f.dX f.dY = .ok s.axes
  dtne : s.Nx * s.Ny ≠ 0 → s.dt ≠ 0
  traces : ∀ c ∈ cells s.Nx s.Ny, s.NOTS ≤ (f.fields.drop ((c.1 * s.Ny + c.2) * s.NOTS)).length ∧ 2 ≤ s.NOTS ∧
    gridAt s.Traces c.1 c.2 = .ok ((recorded f s c).mapF (comp s.axes)) ∧
    gridAt s.dtTraces c.1 c.2 = .ok ((rate (recorded f s c)).mapF (comp s.axes)) ∧ (recorded f s c).derivative = .ok (rate (recorded f s c))

theorem checkDims_ok {a b c : Nat} {d : List Nat} {u : Unit} (h : checkDims a b c d = .ok u) : d = [a, b, c, 6] := by
  unfold checkDims at h
  split at h
  · split_ifs at h with h1 h2 h3 h4
    simp only [ne_eq, not_not] at h1 h2 h3 h4
    subst h1 h2 h3 h4
    rfl
  · cases h

theorem required_ok {α : Type} {o : Option α} {a : α} (h : required o = .ok a) : o = some a := by
  cases o with
  | none => cases h
  | some b => cases h; rfl

theorem ofFile_ok {f : ScreenFile} {p : Vec} {t : ℝ} {s : SourceScreen} (h : ofFile f p t = .ok s) : Loaded f s ∧ s.t0 = t ∧ s.origin = p := by
  unfold ofFile at h
  cases h1 : required f.Nx with
  | error e => simp [h1, bind, Except.bind] at h
  | ok Nx =>
  cases h2 : required f.Ny with
  | error e => simp [h1, h2, bind, Except.bind] at h
  | ok Ny =>
  cases h3 : required f.NOTS with
  | error e => simp [h1, h2, h3, bind, Except.bind] at h
  | ok NOTS =>
  cases h4 : required f.dt with
  | error e => simp [h1, h2, h3, h4, bind, Except.bind] at h
  | ok dt =>
  cases h6 : checkDims Nx Ny NOTS f.dims with
  | error e => simp [h1, h2, h3, h4, h6, bind, Except.bind] at h
  | ok u =>
  simp only [h1, h2, h3, h4, h6, bind, Except.bind, pure, Except.pure, throw, throwThe, MonadExceptOf.throw] at h
  by_cases hb : getBufferSize Nx Ny NOTS < Nx * Ny * NOTS
  · rw [if_pos hb] at h; cases h
  rw [if_neg hb] at h
  cases h5 : ScreenAxes.coax f.normal f.dX f.dY with
  | error e => rw [h5] at h; cases h
  | ok a =>
  rw [h5] at h
  simp only at h
  cases h7 : (List.range Nx).mapM (fun ix : Nat => (List.range Ny).mapM (fun iy : Nat =>
      loadCell a (CellTimeZero (f.dtx.getD 0) (f.dty.getD 0) Nx Ny ix iy) dt NOTS f.fields ((ix * Ny + iy) * NOTS))) with
  | error e => rw [h7] at h; cases h
  | ok tr =>
  rw [h7] at h
  simp only at h
  by_cases hd : dt = 0 ∧ Nx * Ny ≠ 0
  · rw [if_pos hd] at h; cases h
  rw [if_neg hd] at h
  cases h8 : tr.mapM (fun row => row.mapM FieldTrace.derivative) with
  | error e => rw [h8] at h; cases h
  | ok dtr =>
  rw [h8] at h
  simp only at h
  have hs := (Except.ok.inj h).symm
  obtain ⟨p1, _, _, p2, p3⟩ := coax_perp h5
  refine ⟨?_, by rw [hs], by rw [hs]⟩
  subst hs
  refine ⟨required_ok h1, required_ok h2, required_ok h3, required_ok h4, rfl, rfl, checkDims_ok h6, h5, ?_, ?_⟩
  · intro hn hz
    exact hd ⟨hz, hn⟩
  · rintro ⟨ix, iy⟩ hc
    obtain ⟨hx, hy⟩ := mem_cells.mp hc
    simp only at hx hy
    obtain ⟨row, hrow, hget⟩ := mapM_get h7 ix ix (by simp [hx])
    obtain ⟨tr0, htr0, hget0⟩ := mapM_get hrow iy iy (by simp [hy])
    obtain ⟨drow, hdrow, hdget⟩ := mapM_get h8 ix row hget
    obtain ⟨d0, hd0, hdget0⟩ := mapM_get hdrow iy tr0 hget0
    obtain ⟨hl, heq⟩ := loadCell_ok p1 p2 p3 htr0
    dsimp only
    have hrec : ∀ S : SourceScreen, S.Nx = Nx → S.Ny = Ny → S.NOTS = NOTS → S.dt = dt → S.dtx = f.dtx.getD 0 → S.dty = f.dty.getD 0 → S.axes = a →
        tr0 = (recorded f S (ix, iy)).mapF (comp a) := by
      intro S e1 e2 e3 e4 e5 e6 e7
      rw [heq]
      unfold recorded
      rw [e1, e2, e3, e4, e5, e6, e7]
      rfl
    have hr := hrec ⟨t, p, Nx, Ny, NOTS, dt, f.dtx.getD 0, f.dty.getD 0, a, tr, dtr⟩ rfl rfl rfl rfl rfl rfl rfl
    have hder : (recorded f ⟨t, p, Nx, Ny, NOTS, dt, f.dtx.getD 0, f.dty.getD 0, a, tr, dtr⟩ (ix, iy)).derivative
        = .ok (rate (recorded f ⟨t, p, Nx, Ny, NOTS, dt, f.dtx.getD 0, f.dty.getD 0, a, tr, dtr⟩ (ix, iy))) := by
      unfold rate
      cases hq : (recorded f ⟨t, p, Nx, Ny, NOTS, dt, f.dtx.getD 0, f.dty.getD 0, a, tr, dtr⟩ (ix, iy)).derivative with
      | ok d => rfl
      | error e =>
        have := FieldTrace.derivative_err_map (L := comp a) _ e hq
        rw [← hr, hd0] at this
        cases this
    have hdm := FieldTrace.derivative_map (transformField_lin a.ex a.ey a.normal) _ _ hder
    refine ⟨hl, ?_, ?_, ?_, hder⟩
    · by_contra hc2
      have : tr0.derivative = .error .ub := C18_short_trace_full_statement_false tr0 (by rw [heq]; show NOTS < 2; omega)
      rw [this] at hd0; cases hd0
    · unfold gridAt
      rw [hget]
      simp only [hget0]
      rw [hr]
    · unfold gridAt
      rw [hdget]
      simp only [hdget0]
      rw [hr] at hd0
      rw [← hd0]
      exact hdm

open Classical in
/-- the Kirchhoff contribution of one cell -/
noncomputable def term (f : ScreenFile) (s : SourceScreen) (t : ℝ) (X : Vec) (c : Nat × Nat) : EMField :=
  let tr := recorded f s c
  let tret := t - (X - centre s c).norm / SpeedOfLight
  if tr.t0 ≤ tret ∧ tret ≤ tr.t0 + ((tr.N - 1 : Nat) : ℝ) * tr.dt then
    kirchhoff X (centre s c) s.axes.normal (tr.fieldAtTime tret) ((rate tr).fieldAtTime tret) ((rate tr).fieldAtTime tret / SpeedOfLight)
  else 0

theorem contribution_eq {f : ScreenFile} {s : SourceScreen} (hl : Loaded f s) (t : ℝ) (X : Vec) (c : Nat × Nat) (hc : c ∈ cells s.Nx s.Ny) (hX : X ≠ centre s c) :
    s.contribution t X c = .ok (comp s.axes (term f s t X c)) := by
  obtain ⟨_, hN, ht, hd, _⟩ := hl.traces c hc
  have hlin : LinField (comp s.axes) := transformField_lin s.axes.ex s.axes.ey s.axes.normal
  unfold contribution
  rw [ht]
  have hlast : ((recorded f s c).mapF (comp s.axes)).getLastTime = .ok ((recorded f s c).t0 + (((recorded f s c).N - 1 : Nat) : ℝ) * (recorded f s c).dt) := by
    have hN' : ((recorded f s c).mapF (comp s.axes)).N = s.NOTS := rfl
    unfold FieldTrace.getLastTime FieldTrace.getTime
    rw [hN', if_pos (by omega), if_neg (by omega)]
    rfl
  have hp : CellPosition s.axes s.Nx s.Ny c.1 c.2 = centre s c := rfl
  have ht0 : ((recorded f s c).mapF (comp s.axes)).t0 = (recorded f s c).t0 := rfl
  have hsub : X - centre s c ≠ 0 := fun e => hX (sub_eq_zero.mp e)
  have hR : (X - centre s c).norm ≠ 0 := (norm_pos hsub).ne'
  simp only [bind, Except.bind, pure, Except.pure, hlast, hp, ht0]
  unfold term
  dsimp only
  by_cases hw : (recorded f s c).t0 ≤ t - (X - centre s c).norm / SpeedOfLight ∧
      t - (X - centre s c).norm / SpeedOfLight ≤ (recorded f s c).t0 + (((recorded f s c).N - 1 : Nat) : ℝ) * (recorded f s c).dt
  · rw [if_pos hw, if_pos ⟨hw.1, hw.2⟩, hd]
    simp only [if_neg hR]
    rw [FieldTrace.fieldAtTime_map hlin, FieldTrace.fieldAtTime_map hlin, kirchhoff_eq _ _ _ _ _ _ hX]
    congr 1
    rw [hlin.add, hlin.add, hlin.mul, hlin.mul, hlin.mul, hlin.div]
    have hcc := SpeedOfLight_ne
    ext <;> simp <;> field_simp <;> ring
  · rw [if_neg hw, if_neg (fun h => hw ⟨h.1, h.2⟩)]
    rw [show comp s.axes 0 = 0 from hlin.zero]

theorem sumM_pure {α β : Type} [AddCommMonoid β] (f : α → Except Err β) (g : α → β) (l : List α) (h : ∀ a ∈ l, f a = .ok (g a)) : sumM f l = .ok (l.map g).sum := by
  unfold sumM
  rw [mapM_ok_map l f g h]
  rfl

theorem comp_sum {α : Type} (L : EMField → EMField) (hL : LinField L) (g : α → EMField) (l : List α) : (l.map (fun a => L (g a))).sum = L (l.map g).sum := by
  induction l with
  | nil => simpa using hL.zero.symm
  | cons a l ih => simp only [List.map_cons, List.sum_cons]; rw [hL.add, ih]

end SourceScreen

open SourceScreen

/-! ## C50 -/

/-- the grid of a screen: directions of the two axes and of the normal pairwise orthogonal, unit normal, and cells of
the dimensions given in the file -/
def OrthogonalGrid (f : ScreenFile) (s : SourceScreen) : Prop :=
  dot s.axes.dX s.axes.dY = 0 ∧ dot s.axes.dX s.axes.normal = 0 ∧ dot s.axes.dY s.axes.normal = 0 ∧
  s.axes.normal.norm = 1 ∧ s.axes.dX.norm = f.dX.norm ∧ s.axes.dY.norm = f.dY.norm

/-- C50, proved part: both grid directions are perpendicular to the screen normal, which is the unit vector of the
normal given in the file, and the cells have the dimensions given in the file.
Missing: the two grid directions need not be orthogonal, see `C50_orthogonal_iff` and `C50_full_statement_false`. -/
theorem C50_grid_partial (f : ScreenFile) (p : Vec) (t : ℝ) (s : SourceScreen) (h : SourceScreen.ofFile f p t = .ok s) :
    dot s.axes.dX s.axes.normal = 0 ∧ dot s.axes.dY s.axes.normal = 0 ∧
    s.axes.normal.norm = 1 ∧ s.axes.normal * f.normal.norm = f.normal ∧
    s.axes.dX.norm = f.dX.norm ∧ s.axes.dY.norm = f.dY.norm := by
  have hl := (ofFile_ok h).1
  obtain ⟨h1, h2, h3, hn, hdx, hex, hdX, hdy, hey, hdY⟩ := coax_ok hl.axes
  obtain ⟨q1, q2, q3, q4, q5⟩ := coax_perp hl.axes
  have u1 : s.axes.ex.norm = 1 := by rw [norm_def, q2, Real.sqrt_one]
  have u2 : s.axes.ey.norm = 1 := by rw [norm_def, q3, Real.sqrt_one]
  refine ⟨?_, ?_, ?_, ?_, ?_, ?_⟩
  · rw [hdX, dot_mul_left, q4, zero_mul]
  · rw [hdY, dot_mul_left, q5, zero_mul]
  · rw [norm_def, q1, Real.sqrt_one]
  · rw [hn]; exact normalize_mul_norm h1
  · rw [hdX, Vec.norm_mul, u1, hdx, abs_of_nonneg (norm_nonneg _), one_mul]
  · rw [hdY, Vec.norm_mul, u2, hdy, abs_of_nonneg (norm_nonneg _), one_mul]

/-- C50: the two grid directions are orthogonal exactly if the cell width is 1 m or the directions given in the file
are orthogonal after projection onto the plane of the screen. -/
theorem C50_orthogonal_iff (f : ScreenFile) (p : Vec) (t : ℝ) (s : SourceScreen) (h : SourceScreen.ofFile f p t = .ok s) :
    OrthogonalGrid f s ↔ (f.dX.norm = 1 ∨ dot (f.dX - s.axes.normal * dot f.dX s.axes.normal) f.dY = 0) := by
  have hp := C50_grid_partial f p t s h
  have hl := (ofFile_ok h).1
  obtain ⟨h1, h2, h3, hn, hdx, hex, hdX, hdy, hey, hdY⟩ := coax_ok hl.axes
  obtain ⟨q1, q2, q3, q4, q5⟩ := coax_perp hl.axes
  have key : OrthogonalGrid f s ↔ dot s.axes.dX s.axes.dY = 0 := ⟨fun g => g.1, fun g => ⟨g, hp.1, hp.2.1, hp.2.2.1, hp.2.2.2.2.1, hp.2.2.2.2.2⟩⟩
  rw [key]
  have hL : f.dX.norm ≠ 0 := by
    intro e
    apply h2
    rw [norm_eq_zero] at e
    rw [e]; ext <;> simp
  have hM : f.dY.norm ≠ 0 := by
    intro e
    apply h3
    rw [norm_eq_zero] at e
    rw [e]; ext <;> simp [dot]
  have e1 : dot s.axes.normal s.axes.ex = 0 := by rw [dot_comm]; exact q4
  have hpr : (f.dX - s.axes.normal * dot f.dX s.axes.normal).norm ≠ 0 := (norm_pos h2).ne'
  set w := (f.dY - s.axes.normal * dot f.dY s.axes.normal) - s.axes.dX * dot (f.dY - s.axes.normal * dot f.dY s.axes.normal) s.axes.dX with hw
  have hwn : w.norm ≠ 0 := (norm_pos h3).ne'
  have hdotw : dot w s.axes.ex = dot f.dY s.axes.ex * (1 - f.dX.norm ^ 2) := by
    rw [hw, dot_sub_left, dot_mul_left, hdX, dot_mul_left, dot_mul_right, dot_self, q2, dot_sub_left, dot_mul_left, e1, hdx]
    ring
  have hdotX : dot f.dY s.axes.ex = dot (f.dX - s.axes.normal * dot f.dX s.axes.normal) f.dY / (f.dX - s.axes.normal * dot f.dX s.axes.normal).norm := by
    rw [dot_comm, hex, normalize_dot]
  have hfin : dot s.axes.dX s.axes.dY = f.dX.norm * f.dY.norm / w.norm * (dot f.dY s.axes.ex * (1 - f.dX.norm ^ 2)) := by
    rw [hdX, hdY, dot_mul_left, dot_mul_right, dot_comm, hey, normalize_dot, hdotw, hdx, hdy]
    field_simp
  have hnn := norm_nonneg f.dX
  rw [hfin]
  constructor
  · intro e
    have h0 : dot f.dY s.axes.ex * (1 - f.dX.norm ^ 2) = 0 := by
      rcases mul_eq_zero.mp e with e' | e'
      · exfalso
        have : f.dX.norm * f.dY.norm / w.norm ≠ 0 := div_ne_zero (mul_ne_zero hL hM) hwn
        exact this e'
      · exact e'
    rcases mul_eq_zero.mp h0 with e' | e'
    · right
      rw [hdotX] at e'
      rcases div_eq_zero_iff.mp e' with e'' | e''
      · exact e''
      · exact absurd e'' hpr
    · left
      nlinarith
  · rintro (e | e)
    · rw [e]; simp
    · rw [hdotX, e]; simp

/-! ## C72 -/

/-- C72: a file is accepted if it has the four required attributes, a dataset of matching extent with two samples per
cell at least, a time step that is not zero, and non-degenerate directions; up to 715 million fields fit into the buffer.
Missing: files without these further properties, for which the claim is false (`C72_full_statement_false`, `C72_exactly`). -/
theorem C72_accepts_partial (f : ScreenFile) (p : Vec) (t : ℝ) (Nx Ny NOTS : Nat) (dt : ℝ) (a : ScreenAxes)
    (h1 : f.Nx = some Nx) (h2 : f.Ny = some Ny) (h3 : f.NOTS = some NOTS) (h4 : f.dt = some dt)
    (h5 : ScreenAxes.coax f.normal f.dX f.dY = .ok a) (h6 : f.dims = [Nx, Ny, NOTS, 6])
    (h7 : f.fields.length = Nx * Ny * NOTS) (h8 : 2 ≤ NOTS) (h9 : dt ≠ 0) (h10 : Nx * Ny * NOTS < 715827883) :
    ∃ s, SourceScreen.ofFile f p t = .ok s ∧ s.Nx = Nx ∧ s.Ny = Ny ∧ s.NOTS = NOTS ∧ s.dt = dt ∧ s.axes = a ∧ s.t0 = t ∧ s.origin = p := by
  have hbuf : ¬ getBufferSize Nx Ny NOTS < Nx * Ny * NOTS := by
    have e : getBufferSize Nx Ny NOTS = Nx * Ny * NOTS * 6 := by
      unfold getBufferSize
      exact Nat.mod_eq_of_lt (by omega)
    omega
  have hrows : ∀ ix ∈ List.range Nx, ∃ row, (List.range Ny).mapM (fun iy : Nat =>
      loadCell a (CellTimeZero (f.dtx.getD 0) (f.dty.getD 0) Nx Ny ix iy) dt NOTS f.fields ((ix * Ny + iy) * NOTS)) = .ok row := by
    intro ix hix
    apply mapM_exists
    intro iy hiy
    have hx : ix < Nx := by simpa using hix
    have hy : iy < Ny := by simpa using hiy
    have hlen : NOTS ≤ (f.fields.drop ((ix * Ny + iy) * NOTS)).length := by
      rw [List.length_drop, h7]
      have hk : ix * Ny + iy + 1 ≤ Nx * Ny := by nlinarith
      have hk2 : (ix * Ny + iy + 1) * NOTS ≤ Nx * Ny * NOTS := Nat.mul_le_mul_right _ hk
      have hk3 : (ix * Ny + iy + 1) * NOTS = (ix * Ny + iy) * NOTS + NOTS := by ring
      omega
    obtain ⟨r, hr, _⟩ := loadCell_of_len (a := a) (tz := CellTimeZero (f.dtx.getD 0) (f.dty.getD 0) Nx Ny ix iy) (dt := dt) hlen
    exact ⟨r, hr⟩
  obtain ⟨tr, htr⟩ := mapM_exists _ _ hrows
  have hders : ∀ row ∈ tr, ∃ d, row.mapM FieldTrace.derivative = .ok d := by
    intro row hrow
    obtain ⟨_, hh⟩ := mapM_except_length htr
    obtain ⟨ix, _, hix⟩ := hh row hrow
    apply mapM_exists
    intro tr0 h0
    obtain ⟨_, hh2⟩ := mapM_except_length hix
    obtain ⟨iy, _, hiy⟩ := hh2 tr0 h0
    obtain ⟨q1, _, _, q4, q5⟩ := coax_perp h5
    obtain ⟨hl, he⟩ := loadCell_ok q1 q4 q5 hiy
    have hN : tr0.N = NOTS := by rw [he]; rfl
    have hw : tr0.WF := by
      rw [he]
      simp only [FieldTrace.WF, FieldTrace.mapF, List.length_map, List.length_take]
      omega
    obtain ⟨d, hd, _⟩ := C18_derivative tr0 hw (by omega)
    exact ⟨d, hd⟩
  obtain ⟨dtr, hdtr⟩ := mapM_exists _ _ hders
  refine ⟨⟨t, p, Nx, Ny, NOTS, dt, f.dtx.getD 0, f.dty.getD 0, a, tr, dtr⟩, ?_, rfl, rfl, rfl, rfl, rfl, rfl, rfl⟩
  unfold SourceScreen.ofFile
  have g1 : required f.Nx = .ok Nx := by rw [h1]; rfl
  have g2 : required f.Ny = .ok Ny := by rw [h2]; rfl
  have g3 : required f.NOTS = .ok NOTS := by rw [h3]; rfl
  have g4 : required f.dt = .ok dt := by rw [h4]; rfl
  have g6 : checkDims Nx Ny NOTS f.dims = .ok () := by rw [h6]; simp [checkDims]
  simp only [g1, g2, g3, g4, h5, g6, bind, Except.bind, pure, Except.pure]
  rw [if_neg hbuf]
  simp only [htr]
  rw [if_neg (fun hh => h9 hh.1)]
  simp only [hdtr]

/-- C72: a file without one of the required attributes raises an IOexception; so does a dataset of any other extent than
that given by the attributes, whatever directions the file contains. -/
theorem C72_rejects (f : ScreenFile) (p : Vec) (t : ℝ) :
    (f.Nx = none ∨ f.Ny = none ∨ f.NOTS = none ∨ f.dt = none → SourceScreen.ofFile f p t = .error .io) ∧
    (∀ Nx Ny NOTS dt, f.Nx = some Nx → f.Ny = some Ny → f.NOTS = some NOTS → f.dt = some dt →
      f.dims ≠ [Nx, Ny, NOTS, 6] → SourceScreen.ofFile f p t = .error .io) := by
  constructor
  · intro h
    unfold SourceScreen.ofFile
    cases h1 : f.Nx with
    | none => rfl
    | some Nx =>
    cases h2 : f.Ny with
    | none => rfl
    | some Ny =>
    cases h3 : f.NOTS with
    | none => rfl
    | some NOTS =>
    cases h4 : f.dt with
    | none => rfl
    | some dt => simp [h1, h2, h3, h4] at h
  · intro Nx Ny NOTS dt h1 h2 h3 h4 h6
    have hc : checkDims Nx Ny NOTS f.dims = .error .io := by
      unfold checkDims
      split
      · rename_i a b c d heq
        split_ifs with c1 c2 c3 c4
        · rfl
        · rfl
        · rfl
        · rfl
        · exfalso
          simp only [ne_eq, not_not] at c1 c2 c3 c4
          apply h6
          rw [heq, c1, c2, c3, c4]
      · rfl
    unfold SourceScreen.ofFile
    have g1 : required f.Nx = .ok Nx := by rw [h1]; rfl
    have g2 : required f.Ny = .ok Ny := by rw [h2]; rfl
    have g3 : required f.NOTS = .ok NOTS := by rw [h3]; rfl
    have g4 : required f.dt = .ok dt := by rw [h4]; rfl
    simp only [g1, g2, g3, g4, hc, bind, Except.bind]

theorem mapM_each {α β : Type} {f : α → Except Err β} {l : List α} {l' : List β} (h : l.mapM f = .ok l') : ∀ a ∈ l, ∃ b, f a = .ok b := by
  induction l generalizing l' with
  | nil => intro a ha; cases ha
  | cons x l ih =>
    rw [List.mapM_cons] at h
    cases hx : f x with
    | error e => rw [hx] at h; cases h
    | ok b =>
    rw [hx] at h
    cases hl : l.mapM f with
    | error e => simp only [hl, bind, Except.bind] at h; cases h
    | ok bs =>
    intro a ha
    rcases List.mem_cons.mp ha with rfl | ha
    · exact ⟨b, hx⟩
    · exact ih hl a ha

/-- C72: Among the files with all required attributes, a dataset with at least one cell and the announced number of fields (less than 715 million), exactly those are
usable that have the announced extent, two samples per cell at least, a time step that is not zero, and directions from which a frame can be made. -/
theorem C72_exactly (f : ScreenFile) (p : Vec) (t : ℝ) (Nx Ny NOTS : Nat) (dt : ℝ) (h1 : f.Nx = some Nx) (h2 : f.Ny = some Ny) (h3 : f.NOTS = some NOTS)
    (h4 : f.dt = some dt) (hcell : 0 < Nx * Ny) (h7 : f.fields.length = Nx * Ny * NOTS) (h10 : Nx * Ny * NOTS < 715827883) :
    (∃ s, SourceScreen.ofFile f p t = .ok s) ↔
      f.dims = [Nx, Ny, NOTS, 6] ∧ 2 ≤ NOTS ∧ dt ≠ 0 ∧ ∃ a, ScreenAxes.coax f.normal f.dX f.dY = .ok a := by
  constructor
  · rintro ⟨s, hs⟩
    by_cases h6 : f.dims = [Nx, Ny, NOTS, 6]
    swap
    · rw [(C72_rejects f p t).2 Nx Ny NOTS dt h1 h2 h3 h4 h6] at hs
      cases hs
    refine ⟨h6, ?_⟩
    unfold SourceScreen.ofFile at hs
    have g1 : required f.Nx = .ok Nx := by rw [h1]; rfl
    have g2 : required f.Ny = .ok Ny := by rw [h2]; rfl
    have g3 : required f.NOTS = .ok NOTS := by rw [h3]; rfl
    have g4 : required f.dt = .ok dt := by rw [h4]; rfl
    have g6 : checkDims Nx Ny NOTS f.dims = .ok () := by rw [h6]; simp [checkDims]
    have hbuf : ¬ getBufferSize Nx Ny NOTS < Nx * Ny * NOTS := by
      have e : getBufferSize Nx Ny NOTS = Nx * Ny * NOTS * 6 := by
        unfold getBufferSize
        exact Nat.mod_eq_of_lt (by omega)
      omega
    simp only [g1, g2, g3, g4, g6, bind, Except.bind, pure, Except.pure] at hs
    rw [if_neg hbuf] at hs
    cases h5 : ScreenAxes.coax f.normal f.dX f.dY with
    | error e => rw [h5] at hs; cases hs
    | ok a =>
    simp only [h5] at hs
    cases htr : (List.range Nx).mapM (fun ix : Nat => (List.range Ny).mapM (fun iy : Nat =>
      loadCell a (CellTimeZero (f.dtx.getD 0) (f.dty.getD 0) Nx Ny ix iy) dt NOTS f.fields ((ix * Ny + iy) * NOTS))) with
    | error e => rw [htr] at hs; cases hs
    | ok tr =>
    simp only [htr] at hs
    by_cases h9 : dt = 0 ∧ Nx * Ny ≠ 0
    · rw [if_pos h9] at hs
      cases hs
    rw [if_neg h9] at hs
    have h9' : dt ≠ 0 := fun h => h9 ⟨h, by omega⟩
    cases hd : tr.mapM (fun row => row.mapM FieldTrace.derivative) with
    | error e => rw [hd] at hs; cases hs
    | ok dtr =>
    refine ⟨?_, h9', a, rfl⟩
    have hx : 0 < Nx := Nat.pos_of_mul_pos_right hcell
    have hy : 0 < Ny := Nat.pos_of_mul_pos_left hcell
    obtain ⟨hlen, hh⟩ := mapM_except_length htr
    rw [List.length_range] at hlen
    obtain ⟨row, hrow⟩ : ∃ row, row ∈ tr := ⟨tr[0]'(by omega), List.getElem_mem _⟩
    obtain ⟨ix, _, hix⟩ := hh row hrow
    obtain ⟨hlen2, hh2⟩ := mapM_except_length hix
    rw [List.length_range] at hlen2
    obtain ⟨tr0, h0⟩ : ∃ tr0, tr0 ∈ row := ⟨row[0]'(by omega), List.getElem_mem _⟩
    obtain ⟨iy, _, hiy⟩ := hh2 tr0 h0
    obtain ⟨q1, _, _, q4, q5⟩ := coax_perp h5
    obtain ⟨hl, he⟩ := loadCell_ok q1 q4 q5 hiy
    have hN : tr0.N = NOTS := by rw [he]; rfl
    obtain ⟨drow, hdrow⟩ := mapM_each hd row hrow
    obtain ⟨d, hd0⟩ := mapM_each hdrow tr0 h0
    unfold FieldTrace.derivative at hd0
    by_contra hlt
    rw [if_pos (Or.inl (by omega))] at hd0
    cases hd0
  · rintro ⟨h6, h8, h9, a, h5⟩
    obtain ⟨s, hs, _⟩ := C72_accepts_partial f p t Nx Ny NOTS dt a h1 h2 h3 h4 h5 h6 h7 h8 h9 h10
    exact ⟨s, hs⟩

/-- C72 does not hold as stated: a file with one sample per cell has all attributes and the announced extent, but is neither accepted nor rejected:
the time derivative is taken from a sample behind the end of the trace. -/
theorem C72_full_statement_false : ¬ ∀ (f : ScreenFile) (p : Vec) (t : ℝ) (Nx Ny NOTS : Nat) (dt : ℝ), f.Nx = some Nx → f.Ny = some Ny → f.NOTS = some NOTS →
    f.dt = some dt → f.dims = [Nx, Ny, NOTS, 6] → f.fields.length = Nx * Ny * NOTS → ∃ s, SourceScreen.ofFile f p t = .ok s := by
  intro H
  have h := H ⟨some 1, some 1, some 1, some 1, none, none, 0, ⟨0, 0, 1⟩, ⟨1, 0, 0⟩, ⟨0, 1, 0⟩, [1, 1, 1, 6], [0]⟩ 0 0 1 1 1 1 rfl rfl rfl rfl rfl rfl
  rw [C72_exactly _ 0 0 1 1 1 1 rfl rfl rfl rfl (by norm_num) rfl (by norm_num)] at h
  omega

/-! ## C51 -/

theorem SourceScreen.fieldAtTime_perp (n : Vec) (tr : FieldTrace) (h : ∀ F ∈ tr.trace, dot F.E n = 0 ∧ dot F.B n = 0) (t : ℝ) :
    dot (tr.fieldAtTime t).E n = 0 ∧ dot (tr.fieldAtTime t).B n = 0 := by
  have hs : ∀ i, dot (tr.sampleOrZero i).E n = 0 ∧ dot (tr.sampleOrZero i).B n = 0 := by
    intro i
    unfold FieldTrace.sampleOrZero
    split_ifs
    · cases hg : tr.trace[i.toNat]? with
      | none => simp
      | some F => exact h F (List.mem_of_getElem? hg)
    · simp
  unfold FieldTrace.fieldAtTime
  simp only [EMField.add_E, EMField.add_B, EMField.mul_E, EMField.mul_B, dot_add_left, dot_mul_left, (hs _).1, (hs _).2]
  simp

theorem SourceScreen.derivative_perp (n : Vec) (tr d : FieldTrace) (h : ∀ F ∈ tr.trace, dot F.E n = 0 ∧ dot F.B n = 0) (hd : tr.derivative = .ok d) :
    ∀ F ∈ d.trace, dot F.E n = 0 ∧ dot F.B n = 0 := by
  have hs : ∀ i : Nat, dot ((tr.trace[i]?).getD 0).E n = 0 ∧ dot ((tr.trace[i]?).getD 0).B n = 0 := by
    intro i
    cases hg : tr.trace[i]? with
    | none => simp
    | some F => exact h F (List.mem_of_getElem? hg)
  unfold FieldTrace.derivative at hd
  split_ifs at hd
  have := Except.ok.inj hd
  subst this
  intro F hF
  simp only [List.mem_map] at hF
  obtain ⟨i, _, rfl⟩ := hF
  split_ifs <;> simp [dot_div_left, dot_sub_left, hs]

theorem SourceScreen.recorded_perp (f : ScreenFile) (s : SourceScreen) (c : Nat × Nat) (h1 : s.axes.normal.abs2nd = 1) :
    ∀ F ∈ (recorded f s c).trace, dot F.E s.axes.normal = 0 ∧ dot F.B s.axes.normal = 0 := by
  intro F hF
  unfold recorded at hF
  simp only [List.mem_map] at hF
  obtain ⟨G, _, rfl⟩ := hF
  unfold transversal
  constructor <;> (simp only [dot_sub_left, dot_mul_left, dot_self, h1]; ring)

theorem SourceScreen.radiated_perp {f : ScreenFile} {s : SourceScreen} (hl : Loaded f s) (t : ℝ) (X : Vec) (hX : ∀ c ∈ cells s.Nx s.Ny, X ≠ centre s c) :
    dot (radiated f s t X).E s.axes.normal = 0 ∧ dot (radiated f s t X).B s.axes.normal = 0 := by
  obtain ⟨q1, q2, q3, q4, q5⟩ := coax_perp hl.axes
  have ht : ∀ c ∈ cells s.Nx s.Ny, dot (term f s t X c).E s.axes.normal = 0 ∧ dot (term f s t X c).B s.axes.normal = 0 := by
    intro c hc
    obtain ⟨_, _, _, _, hd⟩ := hl.traces c hc
    have hr := recorded_perp f s c q1
    have hp := derivative_perp _ _ _ hr hd
    have e1 := fieldAtTime_perp _ _ hr (t - (X - centre s c).norm / SpeedOfLight)
    have e2 := fieldAtTime_perp _ _ hp (t - (X - centre s c).norm / SpeedOfLight)
    unfold term
    dsimp only
    split_ifs
    · rw [kirchhoff_eq _ _ _ _ _ _ (hX c hc)]
      simp only [EMField.add_E, EMField.add_B, EMField.mul_E, EMField.mul_B, EMField.div_E, EMField.div_B, dot_add_left, dot_mul_left, dot_div_left, e1.1, e1.2, e2.1, e2.2]
      simp
    · simp
  have hsum : ∀ l : List (Nat × Nat), (∀ c ∈ l, c ∈ cells s.Nx s.Ny) → dot (l.map (term f s t X)).sum.E s.axes.normal = 0 ∧ dot (l.map (term f s t X)).sum.B s.axes.normal = 0 := by
    intro l
    induction l with
    | nil => intro _; simp
    | cons c l ih =>
      intro h
      have h1 := ht c (h c (by simp))
      have h2 := ih (fun x hx => h x (by simp [hx]))
      simp only [List.map_cons, List.sum_cons, EMField.add_E, EMField.add_B, dot_add_left, h1.1, h1.2, h2.1, h2.2]
      simp
  have := hsum (cells s.Nx s.Ny) (fun _ h => h)
  have e : radiated f s t X = ((cells s.Nx s.Ny).map (term f s t X)).sum * (s.axes.dx * s.axes.dy / (4 * Pi)) := rfl
  rw [e]
  simp only [EMField.mul_E, EMField.mul_B, dot_mul_left, this.1, this.2]
  simp

theorem SourceScreen.poynting_comp (f : ScreenFile) (s : SourceScreen) (c : Nat × Nat) (h1 : s.axes.normal.abs2nd = 1) :
    ((recorded f s c).mapF (comp s.axes)).poynting = ⟨0, 0, dot (recorded f s c).poynting (cross s.axes.ex s.axes.ey)⟩ := by
  have hr := recorded_perp f s c h1
  rw [FieldTrace.poynting_eq, FieldTrace.poynting_eq]
  unfold FieldTrace.mapF
  dsimp only
  generalize (recorded f s c).dt = dt
  have key : ∀ l : List EMField, (∀ F ∈ l, dot F.E s.axes.normal = 0 ∧ dot F.B s.axes.normal = 0) →
      ((l.map (comp s.axes)).map (fun F => cross F.E F.B / MuNull)).sum = ⟨0, 0, dot (l.map (fun F => cross F.E F.B / MuNull)).sum (cross s.axes.ex s.axes.ey)⟩ := by
    intro l
    induction l with
    | nil => intro _; ext <;> simp
    | cons F l ih =>
      intro h
      have hF := h F (by simp)
      have ih' := ih (fun x hx => h x (by simp [hx]))
      simp only [List.map_cons, List.sum_cons]
      rw [ih']
      ext
      · simp [comp, FieldTrace.transformField, hF.1, hF.2]
      · simp [comp, FieldTrace.transformField, hF.1, hF.2]
      · simp [comp, FieldTrace.transformField, dot]; ring
  rw [key _ hr]
  ext
  · simp
  · simp
  · simp [dot]; ring

/-- C51, proved part: the field reported by a source screen has as its components the projections of the diffracted
radiation of the recorded fields (Kirchhoff's formula, in the frame of the file, shifted to the given position and time)
onto the three directions `ex`, `ey` and `n` of the screen.
Missing: these are the laboratory components only if the directions `ex` and `ey` are the laboratory axes, see
`C51_aligned` and `C51_full_statement_false`. -/
theorem C51_components_partial (f : ScreenFile) (p : Vec) (time : ℝ) (s : SourceScreen) (h : SourceScreen.ofFile f p time = .ok s) (t : ℝ) (X : Vec)
    (hX : ∀ c, c.1 < s.Nx → c.2 < s.Ny → X - p ≠ centre s c) :
    ∃ F, s.asField.field t X = .ok F ∧
      F.E = ⟨dot (radiated f s (t - time) (X - p)).E s.axes.ex, dot (radiated f s (t - time) (X - p)).E s.axes.ey, dot (radiated f s (t - time) (X - p)).E s.axes.normal⟩ ∧
      F.B = ⟨dot (radiated f s (t - time) (X - p)).B s.axes.ex, dot (radiated f s (t - time) (X - p)).B s.axes.ey, dot (radiated f s (t - time) (X - p)).B s.axes.normal⟩ := by
  obtain ⟨hl, ht0, hor⟩ := ofFile_ok h
  have hlin : LinField (comp s.axes) := transformField_lin s.axes.ex s.axes.ey s.axes.normal
  refine ⟨comp s.axes (radiated f s (t - time) (X - p)), ?_, rfl, rfl⟩
  unfold SourceScreen.asField LocalizedField SourceScreen.LocalField
  simp only [ht0, hor]
  rw [foldlM_sumM]
  rw [sumM_pure _ (fun c => comp s.axes (term f s (t - time) (X - p) c)) _ (fun c hc => contribution_eq hl _ _ c hc (hX c (mem_cells.mp hc).1 (mem_cells.mp hc).2))]
  rw [comp_sum _ hlin]
  simp only [Except.map, bind, Except.bind, pure, Except.pure, zero_add]
  congr 1
  unfold radiated
  rw [show comp s.axes _ = _ from hlin.mul _ _]
  have : (fun c => term f s (t - time) (X - p) c) = term f s (t - time) (X - p) := rfl
  have hpi := Pi_pos.ne'
  have e : ∀ (F : EMField) (u v w : ℝ), F * u * v / w = F * (u * v / w) := by
    intro F u v w
    ext <;> simp <;> ring
  rw [e]
  rfl

/-- C51: for a screen whose grid directions are the laboratory axes (recorded with the documented orientation for
radiation in the direction `z`) the field is that of Kirchhoff's formula in the laboratory frame. -/
theorem C51_aligned (f : ScreenFile) (p : Vec) (time : ℝ) (s : SourceScreen) (h : SourceScreen.ofFile f p time = .ok s)
    (hx : s.axes.ex = ⟨1, 0, 0⟩) (hy : s.axes.ey = ⟨0, 1, 0⟩) (t : ℝ) (X : Vec)
    (hX : ∀ c, c.1 < s.Nx → c.2 < s.Ny → X - p ≠ centre s c) :
    ∃ F, s.asField.field t X = .ok F ∧ F.E.x = (radiated f s (t - time) (X - p)).E.x ∧ F.E.y = (radiated f s (t - time) (X - p)).E.y ∧
      F.B.x = (radiated f s (t - time) (X - p)).B.x ∧ F.B.y = (radiated f s (t - time) (X - p)).B.y ∧ F.E.z = 0 ∧ F.B.z = 0 ∧
      (radiated f s (t - time) (X - p)).E.z = 0 ∧ (radiated f s (t - time) (X - p)).B.z = 0 := by
  obtain ⟨F, hF, hE, hB⟩ := C51_components_partial f p time s h t X hX
  have hz := radiated_perp (ofFile_ok h).1 (t - time) (X - p) (fun c hc => hX c (mem_cells.mp hc).1 (mem_cells.mp hc).2)
  have hn : s.axes.normal.x = 0 ∧ s.axes.normal.y = 0 ∧ s.axes.normal.z ≠ 0 := by
    obtain ⟨q1, q2, q3, q4, q5⟩ := coax_perp (ofFile_ok h).1.axes
    rw [hx] at q4; rw [hy] at q5
    have a1 : s.axes.normal.x = 0 := by simpa [dot] using q4
    have a2 : s.axes.normal.y = 0 := by simpa [dot] using q5
    refine ⟨a1, a2, fun e => ?_⟩
    unfold abs2nd at q1
    rw [a1, a2, e] at q1
    norm_num at q1
  have ez : ∀ v : Vec, dot v s.axes.normal = 0 → v.z = 0 := by
    intro v hv
    unfold dot at hv
    rw [hn.1, hn.2.1] at hv
    have : v.z * s.axes.normal.z = 0 := by linarith
    exact (mul_eq_zero.mp this).resolve_right hn.2.2
  refine ⟨F, hF, ?_, ?_, ?_, ?_, ?_, ?_, ez _ hz.1, ez _ hz.2⟩
  · rw [hE, hx]; simp [dot]
  · rw [hE, hy]; simp [dot]
  · rw [hB, hx]; simp [dot]
  · rw [hB, hy]; simp [dot]
  · rw [hE]; exact hz.1
  · rw [hB]; exact hz.2

/-- C51 (energy), proved part: with the documented orientation, `(ex, ey, -n)` right-handed, the reported energy is the
energy that crosses the screen against its normal multiplied by minus the `z` component of the normal: it is right for
screens with the normal `(0,0,-1)`.  Missing: any other orientation, see `C51_energy_full_statement_false`. -/
theorem C51_energy_partial (f : ScreenFile) (p : Vec) (time : ℝ) (s : SourceScreen) (h : SourceScreen.ofFile f p time = .ok s)
    (hor : cross s.axes.ex s.axes.ey = -s.axes.normal) :
    s.totalEnergy = .ok (-s.axes.normal.z * energy f s) ∧
    (s.axes.normal = ⟨0, 0, -1⟩ → s.totalEnergy = .ok (energy f s)) := by
  have key : s.totalEnergy = .ok (-s.axes.normal.z * energy f s) := by
    have hg := C50_grid_partial f p time s h
    have hl := (ofFile_ok h).1
    obtain ⟨_, _, _, _, hdx, _, _, hdy, _, _⟩ := coax_ok hl.axes
    obtain ⟨q1, q2, q3, q4, q5⟩ := coax_perp hl.axes
    unfold SourceScreen.totalEnergy
    rw [foldlM_congr_mem _ _ (fun (total : ℝ) (c : Nat × Nat) => ((.ok (s.axes.normal.z * (dot (recorded f s c).poynting s.axes.normal * (s.axes.dx * s.axes.dy))) : Except Err ℝ)).map
      (fun x => total + x))]
    · rw [foldlM_sumM, sumM_pure _ (fun c => s.axes.normal.z * (dot (recorded f s c).poynting s.axes.normal * (s.axes.dx * s.axes.dy))) _ (fun _ _ => rfl)]
      simp only [Except.map, zero_add]
      congr 1
      unfold energy
      generalize cells s.Nx s.Ny = l
      induction l with
      | nil => simp
      | cons c l ih => simp only [List.map_cons, List.sum_cons]; rw [ih]; ring
    · intro c hc total
      obtain ⟨_, _, ht, _, _⟩ := hl.traces c hc
      rw [ht]
      simp only [Except.map]
      congr 1
      rw [poynting_comp f s c q1, hor, hg.2.2.2.2.1, hg.2.2.2.2.2, ← hdx, ← hdy, dot_neg_right]
      unfold dot
      simp
      ring
  refine ⟨key, ?_⟩
  intro hn
  rw [key, hn]
  norm_num

/-! ## Examples -/

/-- a file with a single cell and two equal samples -/
noncomputable def oneCell (normal dX dY : Vec) (F : EMField) : ScreenFile :=
  { Nx := some 1, Ny := some 1, NOTS := some 2, dt := some 1, dtx := none, dty := none, origin := 0, normal := normal, dX := dX, dY := dY,
    dims := [1, 1, 2, 6], fields := [F, F] }

theorem oneCell_loads (normal dX dY : Vec) (F : EMField) (a : ScreenAxes) (h : ScreenAxes.coax normal dX dY = .ok a) (p : Vec) (t : ℝ) :
    ∃ s, SourceScreen.ofFile (oneCell normal dX dY F) p t = .ok s ∧ s.Nx = 1 ∧ s.Ny = 1 ∧ s.NOTS = 2 ∧ s.dt = 1 ∧ s.axes = a ∧ s.t0 = t ∧ s.origin = p :=
  C72_accepts_partial (oneCell normal dX dY F) p t 1 1 2 1 a rfl rfl rfl rfl h rfl rfl (by norm_num) (by norm_num) (by norm_num)

theorem normalize_unit {v : Vec} (h : v.abs2nd = 1) : v.normalize = v ∧ v.norm = 1 ∧ v ≠ 0 := by
  have hn : v.norm = 1 := by rw [norm_def, h, Real.sqrt_one]
  refine ⟨?_, hn, ?_⟩
  · ext <;> simp [hn]
  · rintro rfl
    simp [abs2nd] at h

/-- orthonormal directions are kept -/
theorem coax_orthonormal (n x y : Vec) (h1 : n.abs2nd = 1) (h2 : x.abs2nd = 1) (h3 : y.abs2nd = 1) (h4 : dot x n = 0) (h5 : dot y n = 0) (h6 : dot y x = 0) :
    ScreenAxes.coax n x y = .ok ⟨n, x, 1, x, y, 1, y⟩ := by
  obtain ⟨a1, a2, a3⟩ := normalize_unit h1
  obtain ⟨b1, b2, b3⟩ := normalize_unit h2
  obtain ⟨c1, c2, c3⟩ := normalize_unit h3
  have e1 : x - n * dot x n = x := by rw [h4]; ext <;> simp
  have e2 : y - n * dot y n = y := by rw [h5]; ext <;> simp
  have e3 : x * (1 : ℝ) = x := mul_one' x
  have e4 : y * (1 : ℝ) = y := mul_one' y
  have e5 : y - x * dot y x = y := by rw [h6]; ext <;> simp
  unfold ScreenAxes.coax
  simp only [normalizeE_of_ne a3, a1, bind, Except.bind, pure, Except.pure, e1, normalizeE_of_ne b3, b1, b2, e2, e3, e5, normalizeE_of_ne c3, c1, c2, e4]

/-- C50: the grid directions are not always orthogonal: cells 2 m wide with the second direction at 45 degrees. -/
theorem C50_full_statement_false :
    ¬ (∀ (f : ScreenFile) (p : Vec) (t : ℝ) (s : SourceScreen), SourceScreen.ofFile f p t = .ok s → OrthogonalGrid f s) := by
  intro hall
  have hu : (⟨0, 0, 1⟩ : Vec).abs2nd = 1 := by norm_num [abs2nd]
  obtain ⟨n1, n2, n3⟩ := normalize_unit hu
  have hx : (⟨2, 0, 0⟩ : Vec).norm = 2 := by
    unfold Vec.norm
    rw [show (2 : ℝ) * 2 + 0 * 0 + 0 * 0 = 2 ^ 2 by norm_num]
    exact Real.sqrt_sq (by norm_num)
  have hp : (⟨2, 0, 0⟩ : Vec) - (⟨0, 0, 1⟩ : Vec) * dot (⟨2, 0, 0⟩ : Vec) ⟨0, 0, 1⟩ = ⟨2, 0, 0⟩ := by ext <;> norm_num [dot]
  have hq : (⟨1, 1, 0⟩ : Vec) - (⟨0, 0, 1⟩ : Vec) * dot (⟨1, 1, 0⟩ : Vec) ⟨0, 0, 1⟩ = ⟨1, 1, 0⟩ := by ext <;> norm_num [dot]
  obtain ⟨a, ha⟩ : ∃ a, ScreenAxes.coax ⟨0, 0, 1⟩ ⟨2, 0, 0⟩ ⟨1, 1, 0⟩ = .ok a := by
    apply coax_of_ne n3
    · rw [n1, hp]
      intro e; have := congrArg Vec.x e; norm_num at this
    · rw [n1, hp, hq]
      intro e
      have := congrArg Vec.y e
      simp at this
  obtain ⟨s, hs, _, _, _, _, hax, _, _⟩ := oneCell_loads _ _ _ 0 a ha 0 0
  have hno := (C50_orthogonal_iff _ _ _ _ hs).mp (hall _ _ _ _ hs)
  have hn : s.axes.normal = ⟨0, 0, 1⟩ := by
    rw [hax, (coax_ok ha).2.2.2.1, n1]
  rcases hno with e | e
  · have : (⟨2, 0, 0⟩ : Vec).norm = 1 := e
    rw [hx] at this; norm_num at this
  · rw [hn] at e
    have e' : dot ((⟨2, 0, 0⟩ : Vec) - (⟨0, 0, 1⟩ : Vec) * dot (⟨2, 0, 0⟩ : Vec) ⟨0, 0, 1⟩) (⟨1, 1, 0⟩ : Vec) = 0 := e
    rw [hp] at e'
    norm_num [dot] at e'

/-- a screen with normal along `x`, crossed by a field with `E` along `y` and `B` along `z` -/
noncomputable def sidewaysFile : ScreenFile := oneCell ⟨1, 0, 0⟩ ⟨0, 1, 0⟩ ⟨0, 0, 1⟩ ⟨⟨0, 1, 0⟩, ⟨0, 0, 1⟩⟩

theorem sideways_axes : ScreenAxes.coax ⟨1, 0, 0⟩ ⟨0, 1, 0⟩ ⟨0, 0, 1⟩ = .ok ⟨⟨1, 0, 0⟩, ⟨0, 1, 0⟩, 1, ⟨0, 1, 0⟩, ⟨0, 0, 1⟩, 1, ⟨0, 0, 1⟩⟩ :=
  coax_orthonormal _ _ _ (by norm_num [abs2nd]) (by norm_num [abs2nd]) (by norm_num [abs2nd]) (by norm_num [dot]) (by norm_num [dot]) (by norm_num [dot])

/-- radiated field of a single cell with constant recorded field, one meter in front of the screen -/
theorem oneCell_radiated (n x y : Vec) (F : EMField) {G : EMField} (s : SourceScreen) (p : Vec) (t : ℝ) (hn : n.abs2nd = 1) (hF : transversal n F = G)
    (hs : SourceScreen.ofFile (oneCell n x y F) p t = .ok s) (hax : s.axes = ⟨n, x, 1, x, y, 1, y⟩) :
    recorded (oneCell n x y F) s (0, 0) = ⟨0, 1, 2, [G, G]⟩ ∧ centre s (0, 0) = 0 ∧ cells s.Nx s.Ny = [(0, 0)] ∧
    radiated (oneCell n x y F) s (1 / SpeedOfLight) (-n) = G * (1 / (4 * Pi)) := by
  obtain ⟨hl, _, _⟩ := ofFile_ok hs
  have h1 : s.Nx = 1 := (Option.some.inj hl.nx).symm
  have h2 : s.Ny = 1 := (Option.some.inj hl.ny).symm
  have h3 : s.NOTS = 2 := (Option.some.inj hl.nots).symm
  have h4 : s.dt = 1 := (Option.some.inj hl.dt).symm
  have h5 : s.dtx = 0 := by rw [hl.dtx]; rfl
  have h6 : s.dty = 0 := by rw [hl.dty]; rfl
  have hrec : recorded (oneCell n x y F) s (0, 0) = ⟨0, 1, 2, [G, G]⟩ := by
    unfold recorded
    rw [h1, h2, h3, h4, h5, h6, hax]
    simp [oneCell, hF]
  have hcen : centre s (0, 0) = 0 := by
    unfold centre
    rw [h1, h2]
    ext <;> simp
  have hcells : cells s.Nx s.Ny = [(0, 0)] := by rw [h1, h2]; rfl
  refine ⟨hrec, hcen, hcells, ?_⟩
  have hd : (recorded (oneCell n x y F) s (0, 0)).derivative = .ok ⟨0, 1, 2, [0, 0]⟩ := by
    rw [hrec]
    unfold FieldTrace.derivative
    simp [List.range_succ]
    ext <;> simp
  have hrate : rate (recorded (oneCell n x y F) s (0, 0)) = ⟨0, 1, 2, [0, 0]⟩ := by unfold rate; rw [hd]
  have hnn : (-n : Vec).norm = 1 := by rw [Vec.norm_neg, norm_def, hn, Real.sqrt_one]
  have hne : (-n : Vec) ≠ 0 := by
    intro e; rw [e, Vec.norm_zero] at hnn; norm_num at hnn
  unfold radiated
  rw [hcells]
  simp only [List.map_cons, List.map_nil, List.sum_cons, List.sum_nil, add_zero, hcen, sub_zero, hrate]
  rw [hrec, hnn]
  have hf : (FieldTrace.mk 0 1 2 [G, G]).fieldAtTime 0 = G := by
    unfold FieldTrace.fieldAtTime FieldTrace.sampleOrZero
    ext <;> norm_num
  have hz : (FieldTrace.mk 0 1 2 [0, 0]).fieldAtTime 0 = 0 := by
    unfold FieldTrace.fieldAtTime FieldTrace.sampleOrZero
    ext <;> norm_num
  rw [if_pos (by constructor <;> simp), sub_self, hf, hz, hax]
  rw [kirchhoff_eq _ _ _ _ _ _ hne]
  simp only [sub_zero, hnn, dot_neg_left, dot_self, hn]
  ext <;> simp

/-- C51: the components are not those of the laboratory frame for every orientation of the screen. -/
theorem C51_full_statement_false :
    ¬ (∀ (f : ScreenFile) (p : Vec) (time : ℝ) (s : SourceScreen), SourceScreen.ofFile f p time = .ok s → ∀ (t : ℝ) (X : Vec) (F : EMField),
      s.asField.field t X = .ok F → F = radiated f s (t - time) (X - p)) := by
  intro hall
  obtain ⟨s, hs, h1, h2, _, _, hax, _, _⟩ := oneCell_loads _ _ _ ⟨⟨0, 1, 0⟩, ⟨0, 0, 1⟩⟩ _ sideways_axes 0 0
  have hF : transversal ⟨1, 0, 0⟩ (⟨⟨0, 1, 0⟩, ⟨0, 0, 1⟩⟩ : EMField) = ⟨⟨0, 1, 0⟩, ⟨0, 0, 1⟩⟩ := by
    unfold transversal
    ext <;> simp [dot]
  obtain ⟨_, hcen, hcells, hrad⟩ := oneCell_radiated _ _ _ _ s 0 0 (by norm_num [abs2nd]) hF hs hax
  have hX : ∀ c, c.1 < s.Nx → c.2 < s.Ny → (-(⟨1, 0, 0⟩ : Vec)) - 0 ≠ centre s c := by
    intro c c1 c2
    have hc : c ∈ cells s.Nx s.Ny := mem_cells.mpr ⟨c1, c2⟩
    rw [hcells] at hc
    simp only [List.mem_singleton] at hc
    rw [hc, hcen]
    intro e
    have := congrArg Vec.x e
    norm_num at this
  obtain ⟨F, hF1, hE, _⟩ := C51_components_partial _ _ _ s hs (1 / SpeedOfLight) (-(⟨1, 0, 0⟩ : Vec)) hX
  have hh := hall _ _ _ s hs _ _ F hF1
  rw [sub_zero, sub_zero, hrad] at hE hh
  have e1 : F.E.x = 1 / (4 * Pi) := by rw [hE, hax]; simp [dot]
  have e2 : F.E.x = 0 := by rw [hh]; simp
  rw [e1] at e2
  have := Pi_pos
  have : (0 : ℝ) < 1 / (4 * Pi) := by positivity
  linarith

/-- C51 (energy): the reported energy depends on the orientation: a flow along the normal of a screen facing `x` is
reported as zero. -/
theorem C51_energy_full_statement_false :
    ¬ (∀ (f : ScreenFile) (p : Vec) (time : ℝ) (s : SourceScreen) (e : ℝ), SourceScreen.ofFile f p time = .ok s → s.totalEnergy = .ok e → e = energy f s) := by
  intro hall
  obtain ⟨s, hs, h1, h2, _, _, hax, _, _⟩ := oneCell_loads _ _ _ ⟨⟨0, 1, 0⟩, ⟨0, 0, 1⟩⟩ _ sideways_axes 0 0
  have hF : transversal ⟨1, 0, 0⟩ (⟨⟨0, 1, 0⟩, ⟨0, 0, 1⟩⟩ : EMField) = ⟨⟨0, 1, 0⟩, ⟨0, 0, 1⟩⟩ := by
    unfold transversal
    ext <;> simp [dot]
  obtain ⟨hrec, hcen, hcells, hrad⟩ := oneCell_radiated _ _ _ _ s 0 0 (by norm_num [abs2nd]) hF hs hax
  have hl := (ofFile_ok hs).1
  have hT : s.totalEnergy = .ok 0 := by
    unfold SourceScreen.totalEnergy
    rw [hcells]
    obtain ⟨_, _, ht, _, _⟩ := hl.traces (0, 0) (by rw [hcells]; simp)
    have ht' : gridAt s.Traces 0 0 = _ := ht
    simp only [List.foldlM_cons, List.foldlM_nil, ht', Except.map, bind, Except.bind, pure, Except.pure]
    rw [poynting_comp _ s (0, 0) (by rw [hax]; norm_num [abs2nd]), hax]
    simp [dot]
  have hE := hall _ _ _ s 0 hs hT
  unfold energy at hE
  rw [hcells] at hE
  simp only [List.map_cons, List.map_nil, List.sum_cons, List.sum_nil] at hE
  rw [hrec, hax, FieldTrace.poynting_eq] at hE
  have := MuNull_pos
  simp [dot] at hE
  have h3 : (0 : ℝ) < MuNull⁻¹ + MuNull⁻¹ := by positivity
  linarith

/-- the hypotheses of the theorems on C50, C51 and C72 are met -/
example : ∃ s, SourceScreen.ofFile sidewaysFile 0 0 = .ok s ∧ s.axes.ex = ⟨0, 1, 0⟩ := by
  obtain ⟨s, hs, _, _, _, _, hax, _, _⟩ := oneCell_loads _ _ _ ⟨⟨0, 1, 0⟩, ⟨0, 0, 1⟩⟩ _ sideways_axes 0 0
  exact ⟨s, hs, by rw [hax]⟩

/-- a screen as documented for radiation along `z`: its axes are `x`, `y` and `-z`, so that `C51_aligned` and
`C51_energy_partial` apply, and its field does not vanish -/
example : ∃ s, SourceScreen.ofFile (oneCell ⟨0, 0, -1⟩ ⟨1, 0, 0⟩ ⟨0, 1, 0⟩ ⟨⟨1, 0, 0⟩, ⟨0, 1, 0⟩⟩) 0 0 = .ok s ∧
    s.axes.ex = ⟨1, 0, 0⟩ ∧ s.axes.ey = ⟨0, 1, 0⟩ ∧ cross s.axes.ex s.axes.ey = -s.axes.normal ∧
    (radiated (oneCell ⟨0, 0, -1⟩ ⟨1, 0, 0⟩ ⟨0, 1, 0⟩ ⟨⟨1, 0, 0⟩, ⟨0, 1, 0⟩⟩) s (1 / SpeedOfLight) (-(⟨0, 0, -1⟩ : Vec))).E.x = 1 / (4 * Pi) ∧
    (∀ c, c.1 < s.Nx → c.2 < s.Ny → (-(⟨0, 0, -1⟩ : Vec)) - 0 ≠ centre s c) := by
  have hc : ScreenAxes.coax ⟨0, 0, -1⟩ ⟨1, 0, 0⟩ ⟨0, 1, 0⟩ = .ok ⟨⟨0, 0, -1⟩, ⟨1, 0, 0⟩, 1, ⟨1, 0, 0⟩, ⟨0, 1, 0⟩, 1, ⟨0, 1, 0⟩⟩ :=
    coax_orthonormal _ _ _ (by norm_num [abs2nd]) (by norm_num [abs2nd]) (by norm_num [abs2nd]) (by norm_num [dot]) (by norm_num [dot]) (by norm_num [dot])
  obtain ⟨s, hs, _, _, _, _, hax, _, _⟩ := oneCell_loads _ _ _ ⟨⟨1, 0, 0⟩, ⟨0, 1, 0⟩⟩ _ hc 0 0
  have hF : transversal ⟨0, 0, -1⟩ (⟨⟨1, 0, 0⟩, ⟨0, 1, 0⟩⟩ : EMField) = ⟨⟨1, 0, 0⟩, ⟨0, 1, 0⟩⟩ := by
    unfold transversal
    ext <;> simp [dot]
  obtain ⟨_, hcen, hcells, hrad⟩ := oneCell_radiated _ _ _ _ s 0 0 (by norm_num [abs2nd]) hF hs hax
  refine ⟨s, hs, by rw [hax], by rw [hax], by rw [hax]; ext <;> simp, by rw [hrad]; simp, ?_⟩
  intro c c1 c2
  have hm : c ∈ cells s.Nx s.Ny := mem_cells.mpr ⟨c1, c2⟩
  rw [hcells] at hm
  simp only [List.mem_singleton] at hm
  rw [hm, hcen]
  intro e
  have := congrArg Vec.z e
  norm_num at this

end Teufel
