import Verif.Lemmas.Frame
import Verif.Lemmas.VayRun
import Verif.Model.Retarded

/-!
Tracking and recording in another coordinate system
-/

namespace Teufel
open Vec Particle
namespace Frame
variable (F : Frame)

/-! ### single steps -/

theorem vayGamma_frame (qmt2 : ℝ) (P E B : Vec) : Particle.vayGamma qmt2 (F.dir P) (F.dir E) (F.dir B * F.hand) = Particle.vayGamma qmt2 P E B := by
  have hh := F.hand_sq
  have e1 : F.dir P + F.dir E / SpeedOfLight * qmt2 = F.dir (P + E / SpeedOfLight * qmt2) := by rw [dir_add, dir_mul, dir_div]
  have e2 : F.dir B * F.hand * qmt2 = F.dir (B * qmt2) * F.hand := by rw [dir_mul]; ext <;> simp <;> ring
  have e3 : ∀ u v, dot (F.dir u) (F.dir v * F.hand) = dot u v * F.hand := by
    intro u v; rw [← F.dir_dot u v]; simp only [dot, mul_x, mul_y, mul_z]; ring
  have e4 : ∀ v, (F.dir v * F.hand).abs2nd = v.abs2nd := by
    intro v
    have : (F.dir v * F.hand).abs2nd = (F.dir v).abs2nd * (F.hand * F.hand) := by simp only [abs2nd, mul_x, mul_y, mul_z]; ring
    rw [this, hh, dir_abs2nd, mul_one]
  simp only [Particle.vayGamma]
  rw [e1, e2, e3, e4, dir_abs2nd]
  have e5 : ∀ u : ℝ, u * F.hand * (u * F.hand) = u * u := fun u => by linear_combination u * u * hh
  rw [e5]

theorem vayMomentum_frame (qmt2 : ℝ) (P E B : Vec) :
    Particle.vayMomentum qmt2 (F.dir P) (F.dir E) (F.dir B * F.hand) = F.dir (Particle.vayMomentum qmt2 P E B) := by
  have hh := F.hand_sq
  have e1 : F.dir P + F.dir E / SpeedOfLight * qmt2 = F.dir (P + E / SpeedOfLight * qmt2) := by rw [dir_add, dir_mul, dir_div]
  have e2 : ∀ g : ℝ, F.dir B * F.hand * qmt2 / g = F.dir (B * qmt2 / g) * F.hand := by intro g; rw [dir_div, dir_mul]; ext <;> simp <;> ring
  have e4 : ∀ v, (F.dir v * F.hand).abs2nd = v.abs2nd := by
    intro v
    have : (F.dir v * F.hand).abs2nd = (F.dir v).abs2nd * (F.hand * F.hand) := by simp only [abs2nd, mul_x, mul_y, mul_z]; ring
    rw [this, hh, dir_abs2nd, mul_one]
  simp only [Particle.vayMomentum]
  rw [vayGamma_frame, e1, e2, e4]
  generalize P + E / SpeedOfLight * qmt2 = u
  generalize B * qmt2 / Particle.vayGamma qmt2 P E B = w
  rw [dir_div, dir_add, dir_add, dir_mul]
  have e5 : ∀ u v, F.dir v * F.hand * dot (F.dir u) (F.dir v * F.hand) = F.dir v * dot u v := by
    intro u v
    rw [← F.dir_dot u v]
    have : dot (F.dir u) (F.dir v * F.hand) = dot (F.dir u) (F.dir v) * F.hand := by simp only [dot, mul_x, mul_y, mul_z]; ring
    rw [this]
    ext <;> simp only [mul_x, mul_y, mul_z]
    · linear_combination (F.dir v).x * dot (F.dir u) (F.dir v) * hh
    · linear_combination (F.dir v).y * dot (F.dir u) (F.dir v) * hh
    · linear_combination (F.dir v).z * dot (F.dir u) (F.dir v) * hh
  have e6 : ∀ u v, cross (F.dir u) (F.dir v * F.hand) = F.dir (cross u v) := by
    intro u v
    have : cross (F.dir u) (F.dir v * F.hand) = cross (F.dir u) (F.dir v) * F.hand := by ext <;> simp only [cross, mul_x, mul_y, mul_z] <;> ring
    rw [this, dir_cross]
    ext <;> simp only [mul_x, mul_y, mul_z]
    · linear_combination (F.dir (cross u v)).x * hh
    · linear_combination (F.dir (cross u v)).y * hh
    · linear_combination (F.dir (cross u v)).z * hh
  rw [e5, e6]

theorem cross_axial (u v : Vec) : cross (F.dir u) (F.dir v * F.hand) = F.dir (cross u v) := by
  have hh := F.hand_sq
  have : cross (F.dir u) (F.dir v * F.hand) = cross (F.dir u) (F.dir v) * F.hand := by ext <;> simp only [cross, mul_x, mul_y, mul_z] <;> ring
  rw [this, dir_cross]
  ext <;> simp only [mul_x, mul_y, mul_z]
  · linear_combination (F.dir (cross u v)).x * hh
  · linear_combination (F.dir (cross u v)).y * hh
  · linear_combination (F.dir (cross u v)).z * hh

theorem vayAccel_frame (qm : ℝ) (P E B : Vec) : Particle.vayAccel qm (F.dir P) (F.dir E) (F.dir B * F.hand) = F.dir (Particle.vayAccel qm P E B) := by
  simp only [Particle.vayAccel]
  rw [dir_abs2nd, ← dir_div, cross_axial, ← dir_div, ← dir_add, ← dir_mul]

theorem place_add (x v : Vec) : F.place (x + v) = F.place x + F.dir v := by unfold place; rw [dir_add]; ext <;> simp <;> ring

theorem step_frame (p : Particle) {f f' : FieldFn} (h : F.SameField f f') :
    (F.particle p).StepVay f' = match p.StepVay f with
      | .ok q => .ok (F.particle q)
      | .error (e, q) => .error (e, F.particle q) := by
  have hx : (F.particle p).XCur + (F.particle p).VYp / (F.particle p).VYgamma * SpeedOfLight * (F.particle p).dt
      = F.place (p.XCur + p.VYp / p.VYgamma * SpeedOfLight * p.dt) := by
    simp only [particle]
    rw [place_add, dir_mul, dir_mul, dir_div]
  have ht : (F.particle p).tCur + (F.particle p).dt = p.tCur + p.dt + F.τ := by simp only [particle]; ring
  simp only [Particle.StepVay]
  rw [hx, ht, h]
  cases hf : f (p.tCur + p.dt) (p.XCur + p.VYp / p.VYgamma * SpeedOfLight * p.dt) with
  | error e => rfl
  | ok EB =>
    simp only [Except.map]
    have hP : (F.particle p).VYp + ((F.field EB).E / SpeedOfLight + cross ((F.particle p).VYp / (F.particle p).VYgamma) (F.field EB).B) * (F.particle p).qmt2
        = F.dir (p.VYp + (EB.E / SpeedOfLight + cross (p.VYp / p.VYgamma) EB.B) * p.qmt2) := by
      simp only [particle, field]
      rw [dir_add, dir_mul, dir_add, dir_div, ← cross_axial, dir_div]
    rw [hP]
    simp only [field, particle, Particle.storeTrajectoryPoint, vayAccel_frame, vayGamma_frame, vayMomentum_frame, List.map_append, List.map_cons, List.map_nil]

theorem map_getLast? {α β : Type} (g : α → β) (l : List α) : (l.map g).getLast? = l.getLast?.map g := by simp

/-- the outcome of a tracking call in the new system -/
noncomputable def outcome (F : Frame) : PRes → PRes
  | .ok q => .ok (F.particle q)
  | .error (e, q) => .error (e, F.particle q)

theorem init_frame (p : Particle) (dt : ℝ) {f f' : FieldFn} (h : F.SameField f f') : (F.particle p).InitVay dt f' = F.outcome (p.InitVay dt f) := by
  have hN : (F.particle p).NP = p.NP := rfl
  have hM : (F.particle p).Mass = p.Mass := rfl
  have hQ : (F.particle p).Charge = p.Charge := rfl
  have hT : (F.particle p).Time.getLast? = p.Time.getLast?.map (· + F.τ) := map_getLast? _ _
  have hX : (F.particle p).X.getLast? = p.X.getLast?.map F.place := map_getLast? _ _
  have hP : (F.particle p).P.getLast? = p.P.getLast?.map F.dir := map_getLast? _ _
  unfold Particle.InitVay
  rw [hN, hM, hQ, hT, hX, hP]
  split
  · rfl
  split
  · rfl
  cases p.Time.getLast? with
  | none => rfl
  | some t =>
    cases p.X.getLast? with
    | none => rfl
    | some x =>
      cases p.P.getLast? with
      | none => rfl
      | some pm =>
        simp only [Option.map_some, h t x]
        cases f t x with
        | error e => rfl
        | ok EB =>
          simp only [Except.map, field, vayAccel_frame, vayGamma_frame, vayMomentum_frame]
          have hA : (F.particle p).A = [] ↔ p.A = [] := by simp [particle]
          by_cases ha : p.A = []
          · rw [if_pos ha, if_pos (hA.mpr ha)]; rfl
          · rw [if_neg ha, if_neg (fun h => ha (hA.mp h))]
            simp [outcome, particle, List.map_dropLast]

theorem step_outcome (p : Particle) {f f' : FieldFn} (h : F.SameField f f') : (F.particle p).StepVay f' = F.outcome (p.StepVay f) := by
  rw [step_frame F p h]
  cases p.StepVay f with
  | ok q => rfl
  | error e => rfl

theorem steps_frame : ∀ {fs fs' : List FieldFn}, List.Forall₂ F.SameField fs fs' → ∀ p : Particle, (F.particle p).steps fs' = F.outcome (p.steps fs)
  | _, _, .nil, p => rfl
  | _, _, .cons (l₁ := l1) (l₂ := l2) (a := f) (b := f') h hs, p => by
    have ih := steps_frame hs
    unfold Particle.steps at ih ⊢
    rw [List.foldlM_cons, List.foldlM_cons, step_outcome F p h]
    cases hq : p.StepVay f with
    | error e => rfl
    | ok q => exact ih q

/-! ### reading the trajectory -/

theorem vecAt_map {α β : Type} (g : α → β) (l : List α) (i : Nat) : vecAt (l.map g) i = (vecAt l i).map g := by
  unfold vecAt
  rw [List.getElem?_map]
  cases l[i]? <;> rfl

theorem time_frame (p : Particle) (i : Int) : (F.particle p).TrajTime i = (p.TrajTime i).map (· + F.τ) := by
  show (if i ≥ 0 ∧ i < p.NP then vecAt (p.Time.map (· + F.τ)) i.toNat else .error .io) = _
  unfold Particle.TrajTime
  split
  · exact vecAt_map _ _ _
  · rfl
theorem point_frame (p : Particle) (i : Int) : (F.particle p).TrajPoint i = (p.TrajPoint i).map F.place := by
  show (if i ≥ 0 ∧ i < p.NP then vecAt (p.X.map F.place) i.toNat else .error .io) = _
  unfold Particle.TrajPoint
  split
  · exact vecAt_map _ _ _
  · rfl
theorem momentum_frame (p : Particle) (i : Int) : (F.particle p).TrajMomentum i = (p.TrajMomentum i).map F.dir := by
  show (if i ≥ 0 ∧ i < p.NP then vecAt (p.P.map F.dir) i.toNat else .error .io) = _
  unfold Particle.TrajMomentum
  split
  · exact vecAt_map _ _ _
  · rfl
theorem accel_frame (p : Particle) (i : Int) : (F.particle p).TrajAccel i = (p.TrajAccel i).map F.dir := by
  show (if i ≥ 0 ∧ i < p.NP then vecAt (p.A.map F.dir) i.toNat else .error .io) = _
  unfold Particle.TrajAccel
  split
  · exact vecAt_map _ _ _
  · rfl

theorem place_sub (x y : Vec) : F.place x - F.place y = F.dir (x - y) := by unfold place; rw [dir_sub]; ext <;> simp

theorem retardedTime_frame (p : Particle) (i : Int) (obs : Vec) : (F.particle p).RetardedTime i (F.place obs) = (p.RetardedTime i obs).map (· + F.τ) := by
  unfold Particle.RetardedTime
  rw [time_frame, point_frame]
  cases p.TrajTime i with
  | error e => rfl
  | ok t =>
    cases p.TrajPoint i with
    | error e => rfl
    | ok x =>
      show Except.ok (t + F.τ + Vec.norm (F.place obs - F.place x) / SpeedOfLight) = Except.ok (t + Vec.norm (obs - x) / SpeedOfLight + F.τ)
      rw [place_sub, dir_norm]; congr 1; ring

theorem dir_normalize (v : Vec) : normalize (F.dir v) = F.dir (normalize v) := by rw [normalize_eq, normalize_eq, dir_norm, dir_div]

theorem dir_cross_cross (u v w : Vec) : cross (F.dir u) (cross (F.dir v) (F.dir w)) = F.dir (cross u (cross v w)) := by rw [dir_cross, cross_axial]

theorem lwField_frame (q : ℝ) (x b bp : Vec) (g2 : ℝ) (obs : Vec) :
    Particle.lwField q (F.place x) (F.dir b) (F.dir bp) g2 (F.place obs) = F.field (Particle.lwField q x b bp g2 obs) := by
  simp only [Particle.lwField, field]
  rw [place_sub, dir_norm, dir_normalize, dir_dot, ← dir_sub, dir_cross_cross, ← dir_div, ← dir_div, ← dir_add, ← dir_mul]
  congr 1
  rw [dir_cross, dir_div]
  ext <;> simp <;> ring

theorem retardedField_frame (p : Particle) (i : Int) (obs : Vec) : (F.particle p).RetardedFieldIdx i (F.place obs) = (p.RetardedFieldIdx i obs).map F.field := by
  unfold Particle.RetardedFieldIdx
  rw [point_frame, momentum_frame, accel_frame]
  cases p.TrajPoint i with
  | error e => rfl
  | ok x =>
    cases p.TrajMomentum i with
    | error e => rfl
    | ok m =>
      cases p.TrajAccel i with
      | error e => rfl
      | ok a =>
        show (if Vec.norm (F.place obs - F.place x) = 0 then Except.error Err.nan
          else .ok (Particle.lwField p.Charge (F.place x) (F.dir m / Real.sqrt ((F.dir m).abs2nd + 1)) (F.dir a / Real.sqrt ((F.dir m).abs2nd + 1)) ((F.dir m).abs2nd + 1) (F.place obs)))
          = Except.map F.field (if Vec.norm (obs - x) = 0 then Except.error Err.nan
          else .ok (Particle.lwField p.Charge x (m / Real.sqrt (m.abs2nd + 1)) (a / Real.sqrt (m.abs2nd + 1)) (m.abs2nd + 1) obs))
        rw [place_sub, dir_norm, dir_abs2nd]
        split
        · rfl
        · rw [← dir_div, ← dir_div, lwField_frame]; rfl

/-! ### recording -/

theorem field_add (f g : EMField) : F.field (f + g) = F.field f + F.field g := by
  unfold field; ext <;> simp [dir_add] <;> ring
theorem field_mul (f : EMField) (k : ℝ) : F.field (f * k) = F.field f * k := by
  unfold field; ext <;> simp [dir_mul] <;> ring
theorem field_zero : F.field 0 = 0 := by
  unfold field; ext <;> simp [dir_zero]

theorem linField_frame (f1 f2 : EMField) (t1 t2 t : ℝ) :
    Particle.linField (F.field f1) (F.field f2) (t1 + F.τ) (t2 + F.τ) (t + F.τ) = F.field (Particle.linField f1 f2 t1 t2 t) := by
  unfold Particle.linField
  rw [field_add, field_mul, field_mul, add_sub_add_right_eq_sub, add_sub_add_right_eq_sub, add_sub_add_right_eq_sub]

theorem stepAdds_frame (t0 dt : ℝ) (n : Nat) (ts1 ts2 : ℝ) (f1 f2 : EMField) :
    Particle.stepAdds (t0 + F.τ) dt n (ts1 + F.τ) (ts2 + F.τ) (F.field f1) (F.field f2)
      = (Particle.stepAdds t0 dt n ts1 ts2 f1 f2).map (List.map fun a => (a.1, F.field a.2)) := by
  have c1 : (ts1 + F.τ ≤ t0 + F.τ - dt * 0.5) = (ts1 ≤ t0 - dt * 0.5) := by
    apply propext; constructor <;> intro h <;> linarith
  have hl : ∀ t t' : ℝ, t' = t + F.τ → Particle.linField (F.field f1) (F.field f2) (ts1 + F.τ) (ts2 + F.τ) t' = F.field (Particle.linField f1 f2 ts1 ts2 t) := by
    rintro t _ rfl; exact F.linField_frame f1 f2 ts1 ts2 t
  have e1 : ∀ idx : ℤ, Particle.linField (F.field f1) (F.field f2) (ts1 + F.τ) (ts2 + F.τ) (t0 + F.τ + idx * dt) = F.field (Particle.linField f1 f2 ts1 ts2 (t0 + idx * dt)) :=
    fun idx => hl _ _ (by ring)
  have e2 : ∀ idx : ℤ, Particle.linField (F.field f1) (F.field f2) (ts1 + F.τ) (ts2 + F.τ) (t0 + F.τ + (idx - 0.5) * dt) = F.field (Particle.linField f1 f2 ts1 ts2 (t0 + (idx - 0.5) * dt)) :=
    fun idx => hl _ _ (by ring)
  have e3 : ∀ idx : ℤ, Particle.linField (F.field f1) (F.field f2) (ts1 + F.τ) (ts2 + F.τ) (t0 + F.τ + (idx + 0.5) * dt) = F.field (Particle.linField f1 f2 ts1 ts2 (t0 + (idx + 0.5) * dt)) :=
    fun idx => hl _ _ (by ring)
  have d1 : ∀ s : ℝ, s + F.τ - (t0 + F.τ) = s - t0 := fun s => by ring
  have d2 : ∀ u s : ℝ, s + F.τ - (t0 + F.τ + u) = s - (t0 + u) := fun u s => by ring
  have d3 : ∀ u s : ℝ, t0 + F.τ + u - (s + F.τ) = t0 + u - s := fun u s => by ring
  have d4 : ts2 + F.τ - (ts1 + F.τ) = ts2 - ts1 := by ring
  simp only [Particle.stepAdds, c1, e1, e2, e3, d1, d2, d3, d4]
  split_ifs <;> simp [Except.map, field_add, field_mul]

theorem addAt_frame (tr : FieldTrace) (i : Nat) (f : EMField) : (F.trace tr).addAt i (F.field f) = (tr.addAt i f).map F.trace := by
  unfold FieldTrace.addAt
  have hN : (F.trace tr).N = tr.N := rfl
  have hT : (F.trace tr).trace = tr.trace.map F.field := rfl
  rw [hN, hT, List.getElem?_map]
  split
  · rfl
  · cases hg : tr.trace[i]? with
    | none => rfl
    | some g => simp [Except.map, trace, List.map_set, field_add]

theorem addInt_frame (tr : FieldTrace) (i : Int) (f : EMField) : Particle.addInt (F.trace tr) i (F.field f) = (Particle.addInt tr i f).map F.trace := by
  unfold Particle.addInt
  split
  · rfl
  · exact addAt_frame F tr _ f

theorem adds_frame : ∀ (l : List (Int × EMField)) (tr : FieldTrace),
    (l.map fun a => (a.1, F.field a.2)).foldlM (fun tr a => Particle.addInt tr a.1 a.2) (F.trace tr) = (l.foldlM (fun tr a => Particle.addInt tr a.1 a.2) tr).map F.trace
  | [], tr => rfl
  | a :: l, tr => by
    rw [List.map_cons, List.foldlM_cons, List.foldlM_cons, addInt_frame]
    cases Particle.addInt tr a.1 a.2 with
    | error e => rfl
    | ok t => exact adds_frame l t

theorem foldlM_trace {α : Type} (g g' : FieldTrace → α → Except Err FieldTrace) (h : ∀ tr a, g' (F.trace tr) a = (g tr a).map F.trace) :
    ∀ (l : List α) (tr : FieldTrace), l.foldlM g' (F.trace tr) = (l.foldlM g tr).map F.trace
  | [], tr => rfl
  | a :: l, tr => by
    rw [List.foldlM_cons, List.foldlM_cons, h]
    cases g tr a with
    | error e => rfl
    | ok t => exact foldlM_trace g g' h l t

theorem integrate_frame (p : Particle) (obs : Vec) (tr : FieldTrace) :
    (F.particle p).integrateFieldTrace (F.place obs) (F.trace tr) = (p.integrateFieldTrace obs tr).map F.trace := by
  unfold Particle.integrateFieldTrace
  have h1 : (F.trace tr).N = tr.N := rfl
  have h2 : (F.trace tr).t0 = tr.t0 + F.τ := rfl
  have h3 : (F.trace tr).dt = tr.dt := rfl
  have h4 : (F.particle p).NP = p.NP := rfl
  simp only [h1, h2, h3, h4]
  split
  · rfl
  split
  · rfl
  split
  · rfl
  generalize List.range (p.NP - 1) = l
  generalize tr.t0 = t0
  generalize tr.dt = dt
  generalize tr.N = n
  apply foldlM_trace F
  intro tr k
  rw [retardedTime_frame, retardedTime_frame, retardedField_frame, retardedField_frame]
  cases p.RetardedTime (k : Nat) obs with
  | error e => rfl
  | ok ts1 =>
    cases p.RetardedTime (k + 1 : Nat) obs with
    | error e => rfl
    | ok ts2 =>
      have c : (ts2 + F.τ > t0 + F.τ - dt * 0.5 ∧ ts1 + F.τ < t0 + F.τ + dt * ((n : ℝ) - 0.5)) = (ts2 > t0 - dt * 0.5 ∧ ts1 < t0 + dt * ((n : ℝ) - 0.5)) := by
        apply propext; constructor <;> rintro ⟨h, h'⟩ <;> constructor <;> linarith
      simp only [Except.map, bind, Except.bind, c]
      split
      · cases p.RetardedFieldIdx (k : Nat) obs with
        | error e => rfl
        | ok f1 =>
          cases p.RetardedFieldIdx (k + 1 : Nat) obs with
          | error e => rfl
          | ok f2 =>
            simp only [stepAdds_frame]
            cases Particle.stepAdds t0 dt n ts1 ts2 f1 f2 with
            | error e => rfl
            | ok adds => exact adds_frame F adds tr
      · rfl

end Frame
end Teufel
