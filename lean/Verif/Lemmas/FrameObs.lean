import Verif.Lemmas.FrameRun

/-! Bunches, beams and observers in another coordinate system -/

namespace Teufel
open Vec Particle
namespace Frame
variable (F : Frame)

/-! ### loops -/

/-- the outcome of a loop over objects -/
def mapRes {α : Type} (g : α → α) : Except (Err × α) α → Except (Err × α) α
  | .ok q => .ok (g q)
  | .error (e, q) => .error (e, g q)

theorem forEach_map {α : Type} (g : α → α) (f f' : α → Except (Err × α) α) (h : ∀ a, f' (g a) = mapRes g (f a)) :
    ∀ (n : Nat) (l : List α), forEach f' n (l.map g) = mapRes (List.map g) (forEach f n l)
  | 0, l => rfl
  | _ + 1, [] => rfl
  | n + 1, a :: l => by
    rw [List.map_cons]
    unfold forEach
    rw [h, forEach_map g f f' h n l]
    cases f a with
    | error e => rfl
    | ok q =>
      cases forEach f n l with
      | error e => rfl
      | ok qs => rfl

theorem visited_map {α β : Type} (g : α → β) (n : Nat) (l : List α) : visited n (l.map g) = (visited n l).map (List.map g) := by
  unfold visited
  rw [List.length_map]
  split
  · simp [Except.map, List.map_take]
  · rfl

theorem outcome_eq (r : PRes) : F.outcome r = mapRes F.particle r := by rcases r with ⟨e, q⟩ | q <;> rfl

theorem bunch_wrap (b : Bunch) (r : Except (Err × List Particle) (List Particle)) :
    (F.bunch b).wrap (mapRes (List.map F.particle) r) = mapRes F.bunch (b.wrap r) := by rcases r with ⟨e, q⟩ | q <;> rfl

theorem bunch_init (b : Bunch) (dt : ℝ) {f f' : FieldFn} (h : F.SameField f f') : (F.bunch b).InitVay dt f' = mapRes F.bunch (b.InitVay dt f) := by
  show (F.bunch b).wrap (forEach (fun p => p.InitVay dt f') b.NOP (b.P.map F.particle)) = _
  rw [forEach_map F.particle (fun p => p.InitVay dt f) (fun p => p.InitVay dt f') (fun p => by rw [init_frame F p dt h, outcome_eq]), bunch_wrap]
  rfl

theorem bunch_step (b : Bunch) {f f' : FieldFn} (h : F.SameField f f') : (F.bunch b).StepVay f' = mapRes F.bunch (b.StepVay f) := by
  show (F.bunch b).wrap (forEach (fun p => p.StepVay f') b.NOP (b.P.map F.particle)) = _
  rw [forEach_map F.particle (fun p => p.StepVay f) (fun p => p.StepVay f') (fun p => by rw [step_outcome F p h, outcome_eq]), bunch_wrap]
  rfl

theorem beam_wrap (b : Beam) (r : Except (Err × List Bunch) (List Bunch)) :
    (F.beam b).wrap (mapRes (List.map F.bunch) r) = mapRes F.beam (b.wrap r) := by rcases r with ⟨e, q⟩ | q <;> rfl

theorem beam_init (b : Beam) {f f' : FieldFn} (h : F.SameField f f') : (F.beam b).InitVay f' = mapRes F.beam (b.InitVay f) := by
  show (F.beam { b with NOTS := 0 }).wrap (forEach (fun bu => bu.InitVay b.dt f') b.NOB (b.B.map F.bunch)) = _
  rw [forEach_map F.bunch (fun bu => bu.InitVay b.dt f) (fun bu => bu.InitVay b.dt f') (fun bu => bunch_init F bu b.dt h), beam_wrap]
  rfl

theorem beam_step (b : Beam) {f f' : FieldFn} (h : F.SameField f f') : (F.beam b).StepVay f' = mapRes F.beam (b.StepVay f) := by
  show (F.beam b).wrap (forEach (fun bu => bu.StepVay f') b.NOB (b.B.map F.bunch)) = _
  rw [forEach_map F.bunch (fun bu => bu.StepVay f) (fun bu => bu.StepVay f') (fun bu => bunch_step F bu h), beam_wrap]
  rfl

theorem beam_setup (b : Beam) {f f' : FieldFn} (h : F.SameField f f') : (F.beam b).setupTracking f' = mapRes F.beam (b.setupTracking f) := by
  unfold Beam.setupTracking
  have ht : (F.beam b).tracker = b.tracker := rfl
  rw [ht]
  cases b.tracker with
  | none => rfl
  | euler => rfl
  | vay => exact beam_init F b h

theorem beam_doStep (b : Beam) {f f' : FieldFn} (h : F.SameField f f') : (F.beam b).doStep f' = mapRes F.beam (b.doStep f) := by
  rcases b with ⟨NOB, B, NOTS, dt, tr⟩
  cases tr with
  | none => rfl
  | euler => rfl
  | vay => exact beam_step F ⟨NOB, B, NOTS + 1, dt, .vay⟩ h

/-! ### recording -/

theorem foldlM_obj {α β : Type} (gα : α → α) (gβ : β → β) (f f' : β → α → Except Err β) (h : ∀ t a, f' (gβ t) (gα a) = (f t a).map gβ) :
    ∀ (l : List α) (t : β), (l.map gα).foldlM f' (gβ t) = (l.foldlM f t).map gβ
  | [], t => rfl
  | a :: l, t => by
    rw [List.map_cons, List.foldlM_cons, List.foldlM_cons, h]
    cases f t a with
    | error e => rfl
    | ok t' => exact foldlM_obj gα gβ f f' h l t'

theorem foldlM_idx {α β : Type} (gβ : β → β) (f f' : β → α → Except Err β) (h : ∀ t a, f' (gβ t) a = (f t a).map gβ) (l : List α) (t : β) :
    l.foldlM f' (gβ t) = (l.foldlM f t).map gβ := by
  have := foldlM_obj (α := α) id gβ f f' h l t
  rwa [List.map_id] at this

theorem bunch_integrate (b : Bunch) (X : Vec) (tr : FieldTrace) :
    (F.bunch b).integrateFieldTrace (F.place X) (F.trace tr) = (b.integrateFieldTrace X tr).map F.trace := by
  unfold Bunch.integrateFieldTrace
  show ((visited b.NOP (b.P.map F.particle)).bind _) = _
  rw [visited_map]
  cases visited b.NOP b.P with
  | error e => rfl
  | ok ps => exact foldlM_obj F.particle F.trace _ _ (fun t p => integrate_frame F p X t) ps tr

theorem beam_integrate (b : Beam) (X : Vec) (tr : FieldTrace) :
    (F.beam b).integrateFieldTrace (F.place X) (F.trace tr) = (b.integrateFieldTrace X tr).map F.trace := by
  unfold Beam.integrateFieldTrace
  show ((visited b.NOB (b.B.map F.bunch)).bind _) = _
  rw [visited_map]
  cases visited b.NOB b.B with
  | error e => rfl
  | ok ps => exact foldlM_obj F.bunch F.trace _ _ (fun t p => bunch_integrate F p X t) ps tr

theorem record_frame {f f' : FieldFn} (h : F.SameField f f') (time time' : Nat → Except Err ℝ) (ht : ∀ i, time' i = (time i).map (· + F.τ)) (X : Vec) (n : Nat)
    (tr : FieldTrace) : recordField f' time' (F.place X) n (F.trace tr) = (recordField f time X n tr).map F.trace := by
  unfold recordField
  apply foldlM_idx
  intro t i
  rw [ht]
  cases time i with
  | error e => rfl
  | ok s =>
    show (f' (s + F.τ) (F.place X)).bind _ = _
    rw [h]
    cases hf : f s X with
    | error e => simp only [bind, Except.bind, hf, Except.map]
    | ok EB => simp only [bind, Except.bind, hf, Except.map, addAt_frame F t i EB]

theorem gridAt_map {α β : Type} (g : α → β) (G : List (List α)) (ix iy : Nat) : gridAt (G.map (List.map g)) ix iy = (gridAt G ix iy).map g := by
  unfold gridAt
  rw [List.getElem?_map]
  cases G[ix]? with
  | none => rfl
  | some row =>
    simp only [Option.map_some, List.getElem?_map]
    cases row[iy]? <;> rfl

theorem gridSet_map {α β : Type} (g : α → β) (G : List (List α)) (ix iy : Nat) (a : α) :
    gridSet (G.map (List.map g)) ix iy (g a) = (gridSet G ix iy a).map (List.map g) := by
  unfold gridSet
  rw [List.getElem?_map]
  cases G[ix]? with
  | none => rfl
  | some row => simp [List.map_set]

theorem getTime_frame (tr : FieldTrace) (i : Nat) : (F.trace tr).getTime i = (tr.getTime i).map (· + F.τ) := by
  unfold FieldTrace.getTime
  have h1 : (F.trace tr).N = tr.N := rfl
  rw [h1]
  split
  · rfl
  · simp [trace, Except.map]; ring

theorem point_integrate (s : PointObs) {src src' : RadSource} (h : F.SameSource src src') :
    (F.point s).integrate src' = (s.integrate src).map F.point := by
  have key : ∀ r r' : Except Err FieldTrace, r' = r.map F.trace → (r'.bind fun tr => .ok { F.point s with trace := tr }) = (r.bind fun tr => .ok { s with trace := tr }).map F.point := by
    rintro r _ rfl
    cases r <;> rfl
  unfold PointObs.integrate
  cases h with
  | beam b => exact key _ _ (beam_integrate F b s.Pos s.trace)
  | bunch b => exact key _ _ (bunch_integrate F b s.Pos s.trace)
  | lattice h => exact key _ _ (record_frame F h _ _ (getTime_frame F s.trace) s.Pos s.trace.N s.trace)

theorem place_affine (x u v : Vec) (k l : ℝ) : F.place (x + u * k + v * l) = F.place x + F.dir u * k + F.dir v * l := by
  rw [place_add, place_add, dir_mul, dir_mul]

theorem screen_pos (s : Screen) (ix iy : Nat) : (F.screen s).CellPosition ix iy = F.place (s.CellPosition ix iy) := by
  unfold Screen.CellPosition
  rw [place_affine]
  rfl

theorem screen_time (s : Screen) (ix iy : Nat) : (F.screen s).CellTimeZero ix iy = s.CellTimeZero ix iy + F.τ := by
  unfold Screen.CellTimeZero
  simp only [screen]
  ring

theorem screen_task (s : Screen) {src src' : RadSource} (h : F.SameSource src src') (c : Nat × Nat) (tr : FieldTrace) :
    (F.screen s).cellTask src' c (F.trace tr) = (s.cellTask src c tr).map F.trace := by
  unfold Screen.cellTask
  rw [screen_pos]
  cases h with
  | beam b => exact beam_integrate F b _ tr
  | bunch b => exact bunch_integrate F b _ tr
  | lattice h =>
    refine record_frame F h _ _ (fun i => ?_) _ _ tr
    rw [screen_time]
    show Except.ok _ = Except.ok _
    congr 1
    show s.CellTimeZero c.1 c.2 + F.τ + (i : ℝ) * s.dt = s.CellTimeZero c.1 c.2 + (i : ℝ) * s.dt + F.τ
    ring

theorem screen_integrate (s : Screen) {src src' : RadSource} (h : F.SameSource src src') :
    (F.screen s).integrate src' = (s.integrate src).map F.screen := by
  have key : (cells s.Nx s.Ny).foldlM ((F.screen s).updateCell src') (s.Traces.map (List.map F.trace))
      = ((cells s.Nx s.Ny).foldlM (s.updateCell src) s.Traces).map (List.map (List.map F.trace)) := by
    apply foldlM_idx (List.map (List.map F.trace))
    intro g c
    unfold Screen.updateCell
    rw [gridAt_map]
    cases gridAt g c.1 c.2 with
    | error e => rfl
    | ok tr =>
      show ((F.screen s).cellTask src' c (F.trace tr)).bind _ = Except.map _ ((s.cellTask src c tr).bind _)
      rw [screen_task F s h]
      cases s.cellTask src c tr with
      | error e => rfl
      | ok t => exact congrArg Except.ok (gridSet_map F.trace g c.1 c.2 t)
  unfold Screen.integrate
  show ((cells s.Nx s.Ny).foldlM ((F.screen s).updateCell src') (s.Traces.map (List.map F.trace))).bind _ = _
  rw [key]
  cases (cells s.Nx s.Ny).foldlM (s.updateCell src) s.Traces <;> rfl

theorem at'_map {α β : Type} (g : α → β) (l : List α) (i : Nat) : MeshObs.at' (l.map g) i = (MeshObs.at' l i).map g := by
  unfold MeshObs.at'
  rw [List.getElem?_map]
  cases l[i]? <;> rfl

theorem mesh_integrate (s : MeshObs) {src src' : RadSource} (h : F.SameSource src src') :
    (F.mesh s).integrate src' = (s.integrate src).map F.mesh := by
  have task : ∀ i tr, (F.mesh s).cellTask src' i (F.trace tr) = (s.cellTask src i tr).map F.trace := by
    intro i tr
    unfold MeshObs.cellTask
    show (MeshObs.at' (s.points.map F.place) i).bind _ = _
    rw [at'_map]
    cases MeshObs.at' s.points i with
    | error e => rfl
    | ok X =>
      cases h with
      | beam b => exact beam_integrate F b X tr
      | bunch b => exact bunch_integrate F b X tr
      | lattice h => exact record_frame F h _ _ (getTime_frame F tr) X s.Nt tr
  have key : (List.range s.Np).foldlM ((F.mesh s).updateCell src') (s.A.map F.trace) = ((List.range s.Np).foldlM (s.updateCell src) s.A).map (List.map F.trace) := by
    apply foldlM_idx (List.map F.trace)
    intro g i
    unfold MeshObs.updateCell
    rw [at'_map]
    cases MeshObs.at' g i with
    | error e => rfl
    | ok tr =>
      show ((F.mesh s).cellTask src' i (F.trace tr)).bind _ = Except.map _ ((s.cellTask src i tr).bind _)
      rw [task]
      cases s.cellTask src i tr with
      | error e => rfl
      | ok t => exact congrArg Except.ok (List.map_set ..).symm
  unfold MeshObs.integrate
  show ((List.range s.Np).foldlM ((F.mesh s).updateCell src') (s.A.map F.trace)).bind _ = _
  rw [key]
  cases (List.range s.Np).foldlM (s.updateCell src) s.A <;> rfl

/-! ### snapshots -/

/-- a source point in the new system -/
noncomputable def source (F : Frame) (s : Particle.Source) : Particle.Source :=
  ⟨s.T + F.τ, F.place s.X, F.dir s.beta, F.dir s.betaPrime, s.gamma2⟩

theorem extrapolate_frame (h0 : F.τ = 0) (X0 P0 : Vec) (t : ℝ) (obs : Vec) :
    Particle.extrapolate (F.place X0) (F.dir P0) (t + F.τ) (F.place obs) = F.source (Particle.extrapolate X0 P0 t obs) := by
  simp only [Particle.extrapolate, source, h0, add_zero]
  rw [place_sub, dir_abs2nd, ← dir_div, ← dir_div, dir_dot, dir_dot, dir_dot, ← dir_mul, ← dir_mul, ← place_add, dir_zero]

theorem place_lerp (x y : Vec) (k : ℝ) : F.place (x * (1 - k) + y * k) = F.place x * (1 - k) + F.place y * k := by
  unfold place; rw [dir_add, dir_mul, dir_mul]; ext <;> simp <;> ring
theorem dir_lerp (x y : Vec) (k : ℝ) : F.dir (x * (1 - k) + y * k) = F.dir x * (1 - k) + F.dir y * k := by
  rw [dir_add, dir_mul, dir_mul]

theorem mismatch_frame (t1 t2 : ℝ) (X1 X2 : Vec) (t : ℝ) (obs : Vec) :
    Particle.mismatch (t1 + F.τ) (t2 + F.τ) (F.place X1) (F.place X2) (t + F.τ) (F.place obs) = Particle.mismatch t1 t2 X1 X2 t obs := by
  funext k
  unfold Particle.mismatch
  rw [← place_lerp, place_sub, dir_norm]
  ring

theorem interpolate_frame (p : Particle) (i j : Nat) (t : ℝ) (obs : Vec) :
    (F.particle p).interpolate i j (t + F.τ) (F.place obs) = (p.interpolate i j t obs).map (fun r => (F.source r.1, r.2)) := by
  unfold Particle.interpolate
  have h1 : (F.particle p).Time = p.Time.map (· + F.τ) := rfl
  have h2 : (F.particle p).X = p.X.map F.place := rfl
  have h3 : (F.particle p).P = p.P.map F.dir := rfl
  have h4 : (F.particle p).A = p.A.map F.dir := rfl
  simp only [h1, h2, h3, h4, vecAt_map]
  cases vecAt p.Time i with
  | error e => rfl
  | ok t1 =>
  cases vecAt p.Time j with
  | error e => rfl
  | ok t2 =>
  cases vecAt p.X i with
  | error e => rfl
  | ok X1 =>
  cases vecAt p.X j with
  | error e => rfl
  | ok X2 =>
  cases vecAt p.P i with
  | error e => rfl
  | ok P1 =>
  cases vecAt p.P j with
  | error e => rfl
  | ok P2 =>
  cases vecAt p.A i with
  | error e => rfl
  | ok A1 =>
  cases vecAt p.A j with
  | error e => rfl
  | ok A2 =>
  have d1 : ∀ s r : ℝ, t + F.τ - (s + F.τ + r) = t - (s + r) := fun s r => by ring
  have d2 : t2 + F.τ - (t1 + F.τ) = t2 - t1 := by ring
  simp only [Except.map, bind, Except.bind, place_sub, dir_norm, mismatch_frame, d1, d2]
  split
  · rfl
  split
  · rfl
  generalize Particle.secant _ _ _ _ _ = r
  rcases r with e | ⟨k, dk, n⟩
  · rfl
  · simp only [pure, Except.pure, source, place_lerp, dir_lerp, dir_div]
    rw [← dir_lerp, dir_abs2nd, dir_lerp]
    have e : ∀ u : ℝ, (t1 + F.τ) * (1 - u) + (t2 + F.τ) * u = t1 * (1 - u) + t2 * u + F.τ := fun u => by ring
    rw [e]

theorem bisect_congr (f g : Nat → Except Err Bool) (h : ∀ i, f i = g i) (a b : Nat) : Particle.bisect f a b = Particle.bisect g a b := by
  rw [funext h]

theorem field_at_frame (p : Particle) (t : ℝ) (obs : Vec) (h0 : F.τ = 0 ∨ ∀ T, p.RetardedTime 0 obs = .ok T → T < t) :
    (F.particle p).RetardedFieldAt (t + F.τ) (F.place obs) = (p.RetardedFieldAt t obs).map F.field := by
  unfold Particle.RetardedFieldAt
  have hN : (F.particle p).NP = p.NP := rfl
  have hQ : (F.particle p).Charge = p.Charge := rfl
  have h1 : (F.particle p).Time = p.Time.map (· + F.τ) := rfl
  have h2 : (F.particle p).X = p.X.map F.place := rfl
  have h3 : (F.particle p).P = p.P.map F.dir := rfl
  simp only [hN, hQ, h1, h2, h3, vecAt_map]
  split
  · rfl
  rename_i hn
  cases hX : vecAt p.X 0 with
  | error e => rfl
  | ok X0 =>
  cases hT : vecAt p.Time 0 with
  | error e => rfl
  | ok T0 =>
  cases vecAt p.P 0 with
  | error e => rfl
  | ok P0 =>
  cases vecAt p.X (p.NP - 1) with
  | error e => rfl
  | ok XL =>
  cases vecAt p.Time (p.NP - 1) with
  | error e => rfl
  | ok TL =>
  have d1 : ∀ s r : ℝ, t + F.τ - (s + F.τ + r) = t - (s + r) := fun s r => by ring
  simp only [Except.map, bind, Except.bind, place_sub, dir_norm, d1]
  split
  · split
    · rename_i h5
      rcases h0 with h0 | h0
      · rw [extrapolate_frame F h0]
        simp only [source, place_sub, dir_norm, lwField_frame]
        split <;> rfl
      · exfalso
        have := h0 (T0 + Vec.norm (obs - X0) / SpeedOfLight) (by
          have hn' : (0 : Int) ≥ 0 ∧ (0 : Int) < p.NP := ⟨le_refl _, by omega⟩
          unfold Particle.RetardedTime Particle.TrajTime Particle.TrajPoint
          rw [if_pos hn', if_pos hn']
          show ((vecAt p.Time 0).bind fun t => (vecAt p.X 0).bind _) = _
          rw [hT, hX]; rfl)
        linarith
    · rw [bisect_congr _ (fun i => match vecAt p.X i with
            | .error e => .error e
            | .ok x => match vecAt p.Time i with
              | .error e => .error e
              | .ok s => .ok (decide (t - (s + Vec.norm (obs - x) / SpeedOfLight) > 0))) (fun i => ?_)]
      · conv_rhs => rw [bisect_congr _ (fun i => match vecAt p.X i with
            | .error e => .error e
            | .ok x => match vecAt p.Time i with
              | .error e => .error e
              | .ok s => .ok (decide (t - (s + Vec.norm (obs - x) / SpeedOfLight) > 0))) (fun i => by
                cases vecAt p.X i with
                | error e => rfl
                | ok x => cases vecAt p.Time i <;> rfl)]
        generalize Particle.bisect _ 0 (p.NP - 1) = r
        cases r with
        | error e => rfl
        | ok ij =>
          simp only [interpolate_frame]
          cases p.interpolate ij.1 ij.2 t obs with
          | error e => rfl
          | ok src =>
            simp only [Except.map, source, place_sub, dir_norm, lwField_frame]
            split <;> rfl
      · cases vecAt p.X i with
        | error e => rfl
        | ok x =>
          cases vecAt p.Time i with
          | error e => rfl
          | ok s => simp only [pure, Except.pure, place_sub, dir_norm, d1]
  · simp [field_zero]

theorem bunch_field (b : Bunch) (t : ℝ) (X : Vec) (h0 : F.τ = 0 ∨ ∀ p ∈ b.P, ∀ T, p.RetardedTime 0 X = .ok T → T < t) :
    (F.bunch b).RetardedField (t + F.τ) (F.place X) = (b.RetardedField t X).map F.field := by
  unfold Bunch.RetardedField
  show ((visited b.NOP (b.P.map F.particle)).bind _) = _
  rw [visited_map]
  cases hv : visited b.NOP b.P with
  | error e => rfl
  | ok ps =>
    have hs : ∀ p ∈ ps, F.τ = 0 ∨ ∀ T, p.RetardedTime 0 X = .ok T → T < t := by
      intro p hp
      rcases h0 with h0 | h0
      · exact Or.inl h0
      · refine Or.inr (h0 p ?_)
        unfold visited at hv
        split at hv
        · cases hv; exact List.mem_of_mem_take hp
        · cases hv
    show (ps.map F.particle).foldlM (fun (s : EMField) (p : Particle) => (p.RetardedFieldAt (t + F.τ) (F.place X)).map (fun f => s + f)) 0
      = (ps.foldlM (fun (s : EMField) (p : Particle) => (p.RetardedFieldAt t X).map (fun f => s + f)) 0).map F.field
    rw [← field_zero F]
    conv_rhs => rw [field_zero F]
    generalize (0 : EMField) = s
    clear hv
    induction ps generalizing s with
    | nil => rfl
    | cons p ps ih =>
      rw [List.map_cons, List.foldlM_cons, List.foldlM_cons, field_at_frame F p t X (hs p (List.mem_cons_self ..))]
      cases p.RetardedFieldAt t X with
      | error e => rfl
      | ok f =>
        show List.foldlM _ (F.field s + F.field f) _ = Except.map _ (List.foldlM _ (s + f) _)
        rw [← field_add]
        exact ih (fun q hq => hs q (List.mem_cons_of_mem _ hq)) (s + f)

theorem beam_field (b : Beam) (t : ℝ) (X : Vec) (h0 : F.τ = 0 ∨ ∀ bu ∈ b.B, ∀ p ∈ bu.P, ∀ T, p.RetardedTime 0 X = .ok T → T < t) :
    (F.beam b).RetardedField (t + F.τ) (F.place X) = (b.RetardedField t X).map F.field := by
  unfold Beam.RetardedField
  show ((visited b.NOB (b.B.map F.bunch)).bind _) = _
  rw [visited_map]
  cases hv : visited b.NOB b.B with
  | error e => rfl
  | ok ps =>
    have hs : ∀ bu ∈ ps, F.τ = 0 ∨ ∀ p ∈ bu.P, ∀ T, p.RetardedTime 0 X = .ok T → T < t := by
      intro p hp
      rcases h0 with h0 | h0
      · exact Or.inl h0
      · refine Or.inr (h0 p ?_)
        unfold visited at hv
        split at hv
        · cases hv; exact List.mem_of_mem_take hp
        · cases hv
    show (ps.map F.bunch).foldlM (fun (s : EMField) (bu : Bunch) => (bu.RetardedField (t + F.τ) (F.place X)).map (fun f => s + f)) 0
      = (ps.foldlM (fun (s : EMField) (bu : Bunch) => (bu.RetardedField t X).map (fun f => s + f)) 0).map F.field
    rw [← field_zero F]
    conv_rhs => rw [field_zero F]
    generalize (0 : EMField) = s
    clear hv
    induction ps generalizing s with
    | nil => rfl
    | cons p ps ih =>
      rw [List.map_cons, List.foldlM_cons, List.foldlM_cons, bunch_field F p t X (hs p (List.mem_cons_self ..))]
      cases p.RetardedField t X with
      | error e => rfl
      | ok f =>
        show List.foldlM _ (F.field s + F.field f) _ = Except.map _ (List.foldlM _ (s + f) _)
        rw [← field_add]
        exact ih (fun q hq => hs q (List.mem_cons_of_mem _ hq)) (s + f)

theorem snapshot_pos (s : Snapshot) (ix iy : Nat) : (F.snapshot s).CellPosition ix iy = F.place (s.CellPosition ix iy) := by
  unfold Snapshot.CellPosition
  rw [place_affine]
  rfl

theorem snapshot_integrate (s : Snapshot) {src src' : RadSource} (h : F.SameSource src src') (h0 : F.τ = 0 ∨ ∀ ix iy, Arrived s.tObs (s.CellPosition ix iy) src) :
    (F.snapshot s).integrate src' = (s.integrate src).map F.snapshot := by
  have task : ∀ c, (F.snapshot s).cellTask src' c = (s.cellTask src c).map F.field := by
    intro c
    unfold Snapshot.cellTask
    rw [snapshot_pos]
    have h1 : F.τ = 0 ∨ Arrived s.tObs (s.CellPosition c.1 c.2) src := h0.imp id (fun h => h c.1 c.2)
    cases h with
    | beam b => exact beam_field F b _ _ h1
    | bunch b => exact bunch_field F b _ _ h1
    | lattice h => exact h _ _
  have key : (cells s.Nx s.Ny).foldlM ((F.snapshot s).updateCell src') (s.FieldArray.map (List.map F.field))
      = ((cells s.Nx s.Ny).foldlM (s.updateCell src) s.FieldArray).map (List.map (List.map F.field)) := by
    apply foldlM_idx (List.map (List.map F.field))
    intro g c
    unfold Snapshot.updateCell
    rw [gridAt_map]
    cases gridAt g c.1 c.2 with
    | error e => rfl
    | ok tr =>
      show ((F.snapshot s).cellTask src' c).bind _ = Except.map _ ((s.cellTask src c).bind _)
      rw [task]
      cases s.cellTask src c with
      | error e => rfl
      | ok t => exact congrArg Except.ok (gridSet_map F.field g c.1 c.2 t)
  unfold Snapshot.integrate
  show ((cells s.Nx s.Ny).foldlM ((F.snapshot s).updateCell src') (s.FieldArray.map (List.map F.field))).bind _ = _
  rw [key]
  cases (cells s.Nx s.Ny).foldlM (s.updateCell src) s.FieldArray <;> rfl

theorem snapshot_new (O dx dy : Vec) (nx ny : Nat) (t : ℝ) :
    Snapshot.new (F.place O) (F.dir dx) (F.dir dy) nx ny (t + F.τ) = F.snapshot (Snapshot.new O dx dy nx ny t) := by
  simp [Snapshot.new, snapshot, field_zero]

/-! ### construction -/

theorem trace_new (t0 dt : ℝ) (n : Nat) : FieldTrace.new (t0 + F.τ) dt n = F.trace (FieldTrace.new t0 dt n) := by
  simp [FieldTrace.new, trace, field_zero]

theorem normalize_hand (v : Vec) : normalize (v * F.hand) = normalize v * F.hand := by
  have hh := F.hand_sq
  have : Vec.norm (v * F.hand) = Vec.norm v := by
    rw [norm_def, norm_def]
    congr 1
    simp only [abs2nd, mul_x, mul_y, mul_z]
    linear_combination (v.x * v.x + v.y * v.y + v.z * v.z) * hh
  rw [normalize_eq, normalize_eq, this]
  ext <;> simp <;> ring

theorem screen_new (O dx dy : Vec) (nx ny : Nat) (t0 dt dtx dty : ℝ) (n : Nat) :
    Screen.new (F.place O) (F.dir dx) (F.dir dy) nx ny (t0 + F.τ) dt dtx dty n = F.screen (Screen.new O dx dy nx ny t0 dt dtx dty n) := by
  have hn : normalize (cross (F.dir dx) (F.dir dy) * (-1 : ℝ)) = F.dir (normalize (cross dx dy * (-1 : ℝ))) * F.hand := by
    rw [← dir_normalize, ← normalize_hand, dir_cross, dir_mul]
    congr 1
    ext <;> simp
  unfold Screen.new
  simp only [screen, hn, List.map_map]
  congr 1
  apply List.map_congr_left
  intro ix _
  show _ = List.map F.trace (List.map _ _)
  rw [List.map_map]
  apply List.map_congr_left
  intro iy _
  show _ = F.trace _
  rw [← trace_new]
  congr 1
  unfold Screen.CellTimeZero
  simp only
  ring

theorem point_new (O : Vec) (t0 dt : ℝ) (n : Nat) : PointObs.new (F.place O) (t0 + F.τ) dt n = F.point (PointObs.new O t0 dt n) := by
  simp [PointObs.new, point, trace_new]

theorem mesh_new (pts : List Vec) (t0s : List ℝ) (dt : ℝ) (n : Nat) :
    MeshObs.new (pts.map F.place) (t0s.map (· + F.τ)) dt n = F.mesh (MeshObs.new pts t0s dt n) := by
  simp [MeshObs.new, mesh, trace_new]

end Frame
end Teufel
