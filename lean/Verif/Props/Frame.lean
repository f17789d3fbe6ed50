import Verif.Lemmas.FrameObs
import Verif.Props.Convergence

/-!
# C97, C98: the results do not depend on the choice of the coordinate system

`Spec/Frame.lean` says what particles, fields and observers look like in another cartesian system (other origin, other directions of the axes, right or left
handed, other zero of time).
-/

namespace Teufel
open Vec Particle
namespace Frame

/-! ### C97 -/

/-- C97, what the new description of a particle means: its charge and its number of points are the same, and each stored point is the old one in the new system -/
theorem C97_reading (F : Frame) (p : Particle) (i : Int) :
    (F.particle p).getNP = p.getNP ∧ (F.particle p).getCharge = p.getCharge ∧
    (F.particle p).TrajTime i = (p.TrajTime i).map (· + F.τ) ∧ (F.particle p).TrajPoint i = (p.TrajPoint i).map F.place ∧
    (F.particle p).TrajMomentum i = (p.TrajMomentum i).map F.dir ∧ (F.particle p).TrajAccel i = (p.TrajAccel i).map F.dir :=
  ⟨rfl, rfl, time_frame F p i, point_frame F p i, momentum_frame F p i, accel_frame F p i⟩

/-- C97, tracking of a particle: in the new system the same motion is found, and the same exceptions occur -/
theorem C97_particle (F : Frame) (p : Particle) (dt : ℝ) {f f' : FieldFn} (h0 : F.SameField f f') {fs fs' : List FieldFn} (h : List.Forall₂ F.SameField fs fs') :
    (∀ q r, p.InitVay dt f = .ok q → q.steps fs = .ok r →
      (F.particle p).InitVay dt f' = .ok (F.particle q) ∧ (F.particle q).steps fs' = .ok (F.particle r)) ∧
    (∀ e q, p.InitVay dt f = .error (e, q) → (F.particle p).InitVay dt f' = .error (e, F.particle q)) ∧
    (∀ q e r, p.InitVay dt f = .ok q → q.steps fs = .error (e, r) → (F.particle q).steps fs' = .error (e, F.particle r)) := by
  refine ⟨fun q r h1 h2 => ⟨?_, ?_⟩, fun e q h1 => ?_, fun q e r _ h2 => ?_⟩
  · rw [init_frame F p dt h0, h1]; rfl
  · rw [steps_frame F h, h2]; rfl
  · rw [init_frame F p dt h0, h1]; rfl
  · rw [steps_frame F h, h2]; rfl

/-- C97, tracking of a beam -/
theorem C97_beam (F : Frame) (b : Beam) {f f' : FieldFn} (h0 : F.SameField f f') {fs fs' : List FieldFn} (h : List.Forall₂ F.SameField fs fs') :
    (∀ q r, b.setupTracking f = .ok q → fs.foldlM (fun b f => b.doStep f) q = .ok r →
      (F.beam b).setupTracking f' = .ok (F.beam q) ∧ fs'.foldlM (fun b f => b.doStep f) (F.beam q) = .ok (F.beam r)) ∧
    (∀ e q, b.setupTracking f = .error (e, q) → (F.beam b).setupTracking f' = .error (e, F.beam q)) ∧
    (∀ q e r, b.setupTracking f = .ok q → fs.foldlM (fun b f => b.doStep f) q = .error (e, r) →
      fs'.foldlM (fun b f => b.doStep f) (F.beam q) = .error (e, F.beam r)) := by
  have key : ∀ q : Beam, fs'.foldlM (fun b f => b.doStep f) (F.beam q) = mapRes F.beam (fs.foldlM (fun b f => b.doStep f) q) := by
    induction h with
    | nil => intro q; rfl
    | cons hf _ ih =>
      intro q
      rw [List.foldlM_cons, List.foldlM_cons, beam_doStep F q hf]
      generalize Beam.doStep q _ = r
      rcases r with ⟨e, r⟩ | r
      · rfl
      · exact ih r
  refine ⟨fun q r h1 h2 => ⟨?_, ?_⟩, fun e q h1 => ?_, fun q e r _ h2 => ?_⟩
  · rw [beam_setup F b h0, h1]; rfl
  · rw [key, h2]; rfl
  · rw [beam_setup F b h0, h1]; rfl
  · rw [key, h2]; rfl

/-- C97, emission: the arrival time of the signal of a trajectory point and its field at an observer -/
theorem C97_signal (F : Frame) (p : Particle) (i : Int) (obs : Vec) :
    (F.particle p).RetardedTime i (F.place obs) = (p.RetardedTime i obs).map (· + F.τ) ∧
    (F.particle p).RetardedFieldIdx i (F.place obs) = (p.RetardedFieldIdx i obs).map F.field :=
  ⟨retardedTime_frame F p i obs, retardedField_frame F p i obs⟩

theorem getField_frame (F : Frame) (tr : FieldTrace) (i : Nat) : (F.trace tr).getField i = (tr.getField i).map F.field := by
  unfold FieldTrace.getField
  have h1 : (F.trace tr).N = tr.N := rfl
  have h2 : (F.trace tr).trace = tr.trace.map F.field := rfl
  rw [h1, h2, List.getElem?_map]
  split
  · rfl
  · cases tr.trace[i]? <;> rfl

/-- C97, recording at a point: an observer placed at the same point, whose clock starts at the same moment, records the same field -/
theorem C97_point (F : Frame) (O : Vec) (t0 dt : ℝ) (n : Nat) {src src' : RadSource} (h : F.SameSource src src') :
    (∀ s, (PointObs.new O t0 dt n).integrate src = .ok s → ∃ s', (PointObs.new (F.place O) (t0 + F.τ) dt n).integrate src' = .ok s' ∧
      ∀ it, s'.trace.getField it = (s.trace.getField it).map F.field) ∧
    (∀ e, (PointObs.new O t0 dt n).integrate src = .error e → (PointObs.new (F.place O) (t0 + F.τ) dt n).integrate src' = .error e) := by
  rw [point_new, point_integrate F _ h]
  refine ⟨fun s hs => ⟨F.point s, by rw [hs]; rfl, fun it => getField_frame F s.trace it⟩, fun e he => by rw [he]; rfl⟩

/-- C97, recording on a screen whose position, pitches and start times are the same -/
theorem C97_screen (F : Frame) (O dx dy : Vec) (nx ny : Nat) (t0 dt dtx dty : ℝ) (n : Nat) {src src' : RadSource} (h : F.SameSource src src') :
    (∀ s, (Screen.new O dx dy nx ny t0 dt dtx dty n).integrate src = .ok s →
      ∃ s', (Screen.new (F.place O) (F.dir dx) (F.dir dy) nx ny (t0 + F.τ) dt dtx dty n).integrate src' = .ok s' ∧
        ∀ ix iy it, s'.getField ix iy it = (s.getField ix iy it).map F.field) ∧
    (∀ e, (Screen.new O dx dy nx ny t0 dt dtx dty n).integrate src = .error e →
      (Screen.new (F.place O) (F.dir dx) (F.dir dy) nx ny (t0 + F.τ) dt dtx dty n).integrate src' = .error e) := by
  rw [screen_new, screen_integrate F _ h]
  refine ⟨fun s hs => ⟨F.screen s, by rw [hs]; rfl, fun ix iy it => ?_⟩, fun e he => by rw [he]; rfl⟩
  unfold Screen.getField
  show (if ix < s.Nx ∧ iy < s.Ny ∧ it < s.NOTS then (gridAt (s.Traces.map (List.map F.trace)) ix iy).bind _ else _) = _
  rw [gridAt_map]
  split
  · cases gridAt s.Traces ix iy with
    | error e => rfl
    | ok tr => exact getField_frame F tr it
  · rfl

theorem mapM_frame (F : Frame) (tr : FieldTrace) : ∀ l : List Nat, l.mapM (F.trace tr).getField = (l.mapM tr.getField).map (List.map F.field)
  | [] => rfl
  | i :: l => by
    rw [List.mapM_cons, List.mapM_cons, getField_frame, mapM_frame F tr l]
    cases tr.getField i with
    | error e => rfl
    | ok f =>
      cases l.mapM tr.getField with
      | error e => rfl
      | ok fs => rfl

/-- C97, recording on a meshed screen with the same cells and start times -/
theorem C97_mesh (F : Frame) (points : List Vec) (t0s : List ℝ) (dt : ℝ) (n : Nat) {src src' : RadSource} (h : F.SameSource src src') :
    (∀ s, (MeshObs.new points t0s dt n).integrate src = .ok s →
      ∃ s', (MeshObs.new (points.map F.place) (t0s.map (· + F.τ)) dt n).integrate src' = .ok s' ∧
        ∀ i, s'.cellFields i = (s.cellFields i).map (List.map F.field)) ∧
    (∀ e, (MeshObs.new points t0s dt n).integrate src = .error e →
      (MeshObs.new (points.map F.place) (t0s.map (· + F.τ)) dt n).integrate src' = .error e) := by
  rw [mesh_new, mesh_integrate F _ h]
  refine ⟨fun s hs => ⟨F.mesh s, by rw [hs]; rfl, fun i => ?_⟩, fun e he => by rw [he]; rfl⟩
  unfold MeshObs.cellFields
  show (MeshObs.at' (s.A.map F.trace) i).bind _ = _
  rw [at'_map]
  cases MeshObs.at' s.A i with
  | error e => rfl
  | ok tr =>
    show (List.range tr.N).mapM (F.trace tr).getField = Except.map _ ((List.range tr.N).mapM tr.getField)
    exact mapM_frame F tr _

/-! ### examples of changes of the system -/

/-- the same axes and origin, another zero of time -/
noncomputable def later (τ : ℝ) : Frame := ⟨⟨1, 0, 0⟩, ⟨0, 1, 0⟩, ⟨0, 0, 1⟩, 0, τ, by simp [dot], by simp [dot], by simp [dot], by simp [dot], by simp [dot], by simp [dot]⟩

/-- the axes x and z exchanged, the origin and the zero of time moved: a left-handed system -/
noncomputable def swapped : Frame :=
  ⟨⟨0, 0, 1⟩, ⟨0, 1, 0⟩, ⟨1, 0, 0⟩, ⟨1, 2, 3⟩, 5, by simp [dot], by simp [dot], by simp [dot], by simp [dot], by simp [dot], by simp [dot]⟩

/-- non-vacuity: a left-handed system, in which the vertical magnetic field changes its sign; the electron of C92 -/
example : swapped.hand = -1 ∧ swapped.SameField circleField (fun _ _ => .ok ⟨0, ⟨0, -1, 0⟩⟩) ∧ swapped.place ⟨1, 0, 0⟩ = ⟨1, 2, 4⟩ ∧
    ∃ p q r : Particle, p.Reachable ∧ p.InitVay 1 circleField = .ok q ∧ q.steps [circleField] = .ok r := by
  have hh : swapped.hand = -1 := by simp [swapped, hand, dot, cross]
  refine ⟨hh, ?_, ?_, ?_⟩
  · intro t x
    show Except.ok _ = Except.ok _
    congr 1
    simp only [field, hh]
    ext <;> simp [dir, swapped]
  · simp only [place, dir, swapped]
    ext <;> simp; norm_num
  · obtain ⟨q, hq⟩ : ∃ q, (POp.exec Particle.default (.init 0 (circleX 0) (circleP 0) 0)).InitVay 1 circleField = .ok q := by
      simp [POp.exec, POp.result, Particle.initTrajectory, Particle.default, Particle.new, Particle.InitVay, circleField]
    exact ⟨_, q, _, ⟨_, [.init 0 (circleX 0) (circleP 0) 0], Or.inr (Or.inr (Or.inl rfl)), rfl⟩, hq, rfl⟩

/-! ### C98 -/

/-- C98, part: the field of a snapshot does not depend on the origin, the directions of the axes and their handedness; and it does not depend on the zero of
time either at the points where, and at the time when, the first signal of every particle has arrived.  Missing: the zero of time, before that. -/
theorem C98_snapshot_partial (F : Frame) (O dx dy : Vec) (nx ny : Nat) (t : ℝ) {src src' : RadSource} (h : F.SameSource src src')
    (h0 : F.τ = 0 ∨ ∀ ix iy, Arrived t ((Snapshot.new O dx dy nx ny t).CellPosition ix iy) src) :
    (∀ s, (Snapshot.new O dx dy nx ny t).integrate src = .ok s →
      ∃ s', (Snapshot.new (F.place O) (F.dir dx) (F.dir dy) nx ny (t + F.τ)).integrate src' = .ok s' ∧
        ∀ ix iy, s'.getField ix iy = (s.getField ix iy).map F.field) ∧
    (∀ e, (Snapshot.new O dx dy nx ny t).integrate src = .error e →
      (Snapshot.new (F.place O) (F.dir dx) (F.dir dy) nx ny (t + F.τ)).integrate src' = .error e) := by
  rw [snapshot_new, snapshot_integrate F _ h h0]
  refine ⟨fun s hs => ⟨F.snapshot s, by rw [hs]; rfl, fun ix iy => ?_⟩, fun e he => by rw [he]; rfl⟩
  unfold Snapshot.getField
  show (if ix < s.Nx ∧ iy < s.Ny then gridAt (s.FieldArray.map (List.map F.field)) ix iy else _) = _
  rw [gridAt_map]
  split <;> rfl

/-- C98, part: the field of a single particle at a given time -/
theorem C98_particle_partial (F : Frame) (p : Particle) (t : ℝ) (obs : Vec) (h0 : F.τ = 0 ∨ ∀ T, p.RetardedTime 0 obs = .ok T → T < t) :
    (F.particle p).RetardedFieldAt (t + F.τ) (F.place obs) = (p.RetardedFieldAt t obs).map F.field := field_at_frame F p t obs h0

/-- a charge moving with 3/5 of the speed of light on the z axis, known at one time only -/
noncomputable def coasting (τ : ℝ) : Particle := POp.exec Particle.default (.init τ 0 ⟨0, 0, 3 / 4⟩ 0)

theorem coasting_source (t : ℝ) (u : ℝ) (hu : 0 ≤ u) (hsq : (t - 3 / 5) * (t - 3 / 5) - 16 / 25 * (t * t - 1) = u * u) :
    Particle.extrapolate 0 ⟨0, 0, 3 / 4⟩ t ⟨0, 0, SpeedOfLight⟩ =
      ⟨(t - 3 / 5 - u) / (16 / 25), ⟨0, 0, 3 / 5 * SpeedOfLight * ((t - 3 / 5 - u) / (16 / 25))⟩, ⟨0, 0, 3 / 5⟩, 0, 25 / 16⟩ := by
  have hc := SpeedOfLight_pos.ne'
  have e1 : (⟨0, 0, 3 / 4⟩ : Vec).abs2nd + 1 = 25 / 16 := by simp [abs2nd]; norm_num
  have e2 : Real.sqrt (25 / 16) = 5 / 4 := by
    rw [show (25 / 16 : ℝ) = (5 / 4) * (5 / 4) by norm_num]; exact Real.sqrt_mul_self (by norm_num)
  have e3 : (⟨0, 0, 3 / 4⟩ : Vec) / (5 / 4 : ℝ) = ⟨0, 0, 3 / 5⟩ := by ext <;> simp; norm_num
  have e4 : ((⟨0, 0, SpeedOfLight⟩ : Vec) - 0) / SpeedOfLight = ⟨0, 0, 1⟩ := by ext <;> simp [hc]
  have e5 : dot (⟨0, 0, 3 / 5⟩ : Vec) ⟨0, 0, 1⟩ = 3 / 5 := by simp [dot]
  have e6 : dot (⟨0, 0, 3 / 5⟩ : Vec) ⟨0, 0, 3 / 5⟩ = 9 / 25 := by simp [dot]; norm_num
  have e7 : dot (⟨0, 0, 1⟩ : Vec) ⟨0, 0, 1⟩ = 1 := by simp [dot]
  have e8 : (1 : ℝ) - 9 / 25 = 16 / 25 := by norm_num
  simp only [Particle.extrapolate, e1, e2, e3, e4, e5, e6, e7, e8, hsq, Real.sqrt_mul_self hu]
  congr 1
  ext <;> simp

theorem coasting_field (p : Particle) (τ t u : ℝ) (hNP : p.NP = 1) (hQ : p.Charge = -1) (h1 : p.Time = [τ]) (h2 : p.X = [0]) (h3 : p.P = [⟨0, 0, 3 / 4⟩]) (hu : 0 ≤ u) (hsq : (t - 3 / 5) * (t - 3 / 5) - 16 / 25 * (t * t - 1) = u * u) (ht : t - (τ + 1) ≤ 0)
    (k : ℝ) (hk : k = 1 - 3 / 5 * ((t - 3 / 5 - u) / (16 / 25))) (hk0 : 0 < k) :
    ∃ f, p.RetardedFieldAt t ⟨0, 0, SpeedOfLight⟩ = .ok f ∧
      f.E.z = -1 * ElementaryCharge / (4 * Pi * EpsNull) * (4 / (SpeedOfLight * SpeedOfLight * (k * k))) := by
  have hc := SpeedOfLight_pos
  have n1 : Vec.norm ((⟨0, 0, SpeedOfLight⟩ : Vec) - 0) = SpeedOfLight := by
    rw [norm_def]; simp [abs2nd, Real.sqrt_mul_self hc.le]
  have r : (⟨0, 0, SpeedOfLight⟩ : Vec) - ⟨0, 0, 3 / 5 * SpeedOfLight * ((t - 3 / 5 - u) / (16 / 25))⟩ = ⟨0, 0, SpeedOfLight * k⟩ := by
    rw [hk]; ext <;> simp; ring
  have n2 : Vec.norm (⟨0, 0, SpeedOfLight * k⟩ : Vec) = SpeedOfLight * k := by
    rw [norm_def]; simp only [abs2nd]; rw [mul_zero, zero_add, zero_add, Real.sqrt_mul_self (by positivity)]
  have hne : SpeedOfLight * k ≠ 0 := by positivity
  have hN : normalize (⟨0, 0, SpeedOfLight * k⟩ : Vec) = ⟨0, 0, 1⟩ := by
    rw [normalize_eq, n2]; ext <;> simp [hne]
  have ht1 : t - (τ + SpeedOfLight / SpeedOfLight) ≤ 0 := by rw [div_self hc.ne']; exact ht
  refine ⟨Particle.lwField (-1) ⟨0, 0, 3 / 5 * SpeedOfLight * ((t - 3 / 5 - u) / (16 / 25))⟩ ⟨0, 0, 3 / 5⟩ 0 (25 / 16) ⟨0, 0, SpeedOfLight⟩, ?_, ?_⟩
  · unfold Particle.RetardedFieldAt
    rw [hNP, hQ, h1, h2, h3]
    simp only [Particle.vecAt, bind, Except.bind, List.getElem?_cons_zero, lt_irrefl, if_false, Nat.sub_self, n1, ht1, if_true, coasting_source t u hu hsq]
    rw [r, n2, if_neg hne]
  · simp only [Particle.lwField, r, n2, hN]
    simp [cross, dot]
    field_simp
    norm_num
    try ring

/-- non-vacuity: the signal of this charge arrives at the observer after one second, it is observed after two seconds -/
example : Arrived 2 ⟨0, 0, SpeedOfLight⟩ (.bunch ⟨1, [coasting 0]⟩) ∧ swapped.SameSource (.bunch ⟨1, [coasting 0]⟩) (.bunch (swapped.bunch ⟨1, [coasting 0]⟩)) := by
  refine ⟨?_, .bunch _⟩
  intro p hp T hT
  rw [List.mem_singleton] at hp
  subst hp
  have e : (coasting 0).RetardedTime 0 ⟨0, 0, SpeedOfLight⟩ = .ok (0 + Vec.norm ((⟨0, 0, SpeedOfLight⟩ : Vec) - 0) / SpeedOfLight) := rfl
  rw [e] at hT
  have hn : Vec.norm ((⟨0, 0, SpeedOfLight⟩ : Vec) - 0) = SpeedOfLight := by
    rw [norm_def]; simp [abs2nd, Real.sqrt_mul_self SpeedOfLight_pos.le]
  rw [hn, div_self SpeedOfLight_pos.ne'] at hT
  have := Except.ok.inj hT
  linarith

/-- C98, the full statement fails: a snapshot taken before the first signal arrives depends on the choice of the zero of time.  The charge of the example is
at the origin at time 0 and is observed at the same time from the distance which light covers in one second; shifting the zero of time by one second changes
the field by a factor of more than six. -/
theorem C98_full_statement_false :
    ¬ ∀ (F : Frame) (p : Particle), p.Reachable → ∀ t obs, (F.particle p).RetardedFieldAt (t + F.τ) (F.place obs) = (p.RetardedFieldAt t obs).map F.field := by
  intro h
  have hr : (coasting 0).Reachable := ⟨_, [.init 0 0 ⟨0, 0, 3 / 4⟩ 0], Or.inr (Or.inr (Or.inl rfl)), rfl⟩
  have key := h (later 1) (coasting 0) hr 0 ⟨0, 0, SpeedOfLight⟩
  have d0 : (later 1).dir ⟨0, 0, 3 / 4⟩ = ⟨0, 0, 3 / 4⟩ := by simp only [dir, later]; ext <;> simp
  have p0 : (later 1).place 0 = 0 := by simp only [place, dir, later]; ext <;> simp
  have e1 : (later 1).place ⟨0, 0, SpeedOfLight⟩ = ⟨0, 0, SpeedOfLight⟩ := by simp only [place, dir, later]; ext <;> simp
  obtain ⟨f, hf, ef⟩ := coasting_field (coasting 0) 0 0 1 rfl rfl rfl rfl rfl (by norm_num) (by norm_num) (by norm_num) (5 / 2) (by norm_num) (by norm_num)
  obtain ⟨g, hg, eg⟩ := coasting_field ((later 1).particle (coasting 0)) 1 1 (2 / 5) rfl rfl
    (by show [0 + (1 : ℝ)] = [1]; rw [zero_add]) (by show [(later 1).place 0] = [0]; rw [p0]) (by show [(later 1).dir ⟨0, 0, 3 / 4⟩] = _; rw [d0])
    (by norm_num) (by norm_num) (by norm_num) 1 (by norm_num) (by norm_num)
  rw [hf, e1, show (0 : ℝ) + (later 1).τ = 1 by simp [later], hg] at key
  have hz := congrArg (fun F => F.E.z) (Except.ok.inj key)
  have e2 : ((later 1).field f).E.z = f.E.z := by simp [field, dir, later]
  simp only [e2, ef, eg] at hz
  have hc := SpeedOfLight_pos
  have hs : -1 * ElementaryCharge / (4 * Pi * EpsNull) ≠ 0 := by
    have := ElementaryCharge_pos; have := EpsNull_pos; have := Real.pi_pos
    unfold Pi
    apply div_ne_zero
    · linarith
    · positivity
  have := mul_left_cancel₀ hs hz
  field_simp at this
  norm_num at this

end Frame
end Teufel
