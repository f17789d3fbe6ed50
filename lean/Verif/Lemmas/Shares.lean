import Verif.Spec.Shares
import Verif.Spec.Observers
import Verif.Spec.Coupled
import Verif.Lemmas.FEL
import Verif.Lemmas.Coupled
import Verif.Lemmas.FrameObs

/-! # Charge and mass scaled together -/

namespace Teufel
open Vec
namespace Particle

variable (k : ℝ)

/-! ### tracking -/

/-- the outcome of a tracking call for the scaled particle -/
noncomputable def outcomeWeigh (k : ℝ) : PRes → PRes
  | .ok q => .ok (q.weigh k)
  | .error (e, q) => .error (e, q.weigh k)

theorem step_weigh (p : Particle) (f : FieldFn) : (p.weigh k).StepVay f = outcomeWeigh k (p.StepVay f) := by
  simp only [StepVay, weigh]
  cases f (p.tCur + p.dt) (p.XCur + p.VYp / p.VYgamma * SpeedOfLight * p.dt) with
  | error e => rfl
  | ok EB => rfl

theorem init_weigh (hk : k ≠ 0) (p : Particle) (dt : ℝ) (f : FieldFn) : (p.weigh k).InitVay dt f = outcomeWeigh k (p.InitVay dt f) := by
  have hq : k * p.Charge / (k * p.Mass) = p.Charge / p.Mass := mul_div_mul_left _ _ hk
  have hm : (k * p.Mass = 0) = (p.Mass = 0) := by simp [hk]
  unfold InitVay
  simp only [weigh, hq, hm]
  split
  · rfl
  split
  · rfl
  cases p.Time.getLast? with
  | none => rfl
  | some t =>
  cases p.X.getLast? with
  | none => rfl
  | some x =>
  cases p.P.getLast? with
  | none => rfl
  | some pm =>
    simp only
    cases f t x with
    | error e => rfl
    | ok EB =>
      simp only
      split <;> rfl

theorem steps_weigh (fs : List FieldFn) : ∀ p : Particle, (p.weigh k).steps fs = outcomeWeigh k (p.steps fs) := by
  induction fs with
  | nil => intro p; rfl
  | cons f fs ih =>
    intro p
    unfold steps at ih ⊢
    rw [List.foldlM_cons, List.foldlM_cons, step_weigh]
    rcases p.StepVay f with ⟨e, q⟩ | q
    · rfl
    · exact ih q

theorem drop_weigh (r : PRes) : dropState (outcomeWeigh k r) = (dropState r).map (weigh k) := by
  rcases r with ⟨e, q⟩ | q <;> rfl

theorem initTrajectory_weigh (p : Particle) (t : ℝ) (x m a : Vec) : (p.weigh k).initTrajectory t x m a = (p.initTrajectory t x m a).weigh k := rfl

/-! ### radiation -/

theorem lwField_weigh (q : ℝ) (x b bp : Vec) (g2 : ℝ) (obs : Vec) : lwField (k * q) x b bp g2 obs = lwField q x b bp g2 obs * k := by
  unfold lwField
  ext <;> simp [cross] <;> ring

theorem retardedTime_weigh (p : Particle) (i : Int) (obs : Vec) : (p.weigh k).RetardedTime i obs = p.RetardedTime i obs := rfl

theorem retardedField_weigh (p : Particle) (i : Int) (obs : Vec) : (p.weigh k).RetardedFieldIdx i obs = (p.RetardedFieldIdx i obs).map (fun F : EMField => F * k) := by
  unfold RetardedFieldIdx
  have h1 : (p.weigh k).TrajPoint i = p.TrajPoint i := rfl
  have h2 : (p.weigh k).TrajMomentum i = p.TrajMomentum i := rfl
  have h3 : (p.weigh k).TrajAccel i = p.TrajAccel i := rfl
  have h4 : (p.weigh k).Charge = k * p.Charge := rfl
  rw [h1, h2, h3, h4]
  cases p.TrajPoint i with
  | error e => rfl
  | ok x =>
  cases p.TrajMomentum i with
  | error e => rfl
  | ok m =>
  cases p.TrajAccel i with
  | error e => rfl
  | ok a =>
    simp only [bind, Except.bind, lwField_weigh]
    split <;> rfl

theorem fieldAt_weigh (p : Particle) (t : ℝ) (obs : Vec) : (p.weigh k).RetardedFieldAt t obs = (p.RetardedFieldAt t obs).map (fun F : EMField => F * k) := by
  unfold RetardedFieldAt
  have h1 : (p.weigh k).NP = p.NP := rfl
  have h2 : (p.weigh k).X = p.X := rfl
  have h3 : (p.weigh k).Time = p.Time := rfl
  have h5 : (p.weigh k).P = p.P := rfl
  have h4 : (p.weigh k).Charge = k * p.Charge := rfl
  have h6 : ∀ i j, (p.weigh k).interpolate i j t obs = p.interpolate i j t obs := fun _ _ => rfl
  simp only [h1, h2, h3, h4, h5, h6, lwField_weigh]
  split
  · rfl
  cases vecAt p.X 0 with
  | error e => rfl
  | ok X0 =>
  cases vecAt p.Time 0 with
  | error e => rfl
  | ok T0 =>
  cases vecAt p.P 0 with
  | error e => rfl
  | ok P0 =>
  cases vecAt p.X (p.NP - 1) with
  | error e => rfl
  | ok XL =>
  cases vecAt p.Time (p.NP - 1) with
  | error e => rfl
  | ok TL =>
  simp only [bind, Except.bind]
  split
  · split
    · split <;> rfl
    · generalize bisect _ 0 (p.NP - 1) = r
      cases r with
      | error e => rfl
      | ok v =>
        simp only
        cases p.interpolate v.1 v.2 t obs with
        | error e => rfl
        | ok s =>
          simp only [Except.map]
          split <;> rfl
  · simp only [Except.map]
    congr 1
    ext <;> simp

/-- the trace of a scaled field -/
noncomputable def scaled (tr : FieldTrace) : FieldTrace := { tr with trace := tr.trace.map (fun F : EMField => F * k) }

theorem linField_weigh (f1 f2 : EMField) (t1 t2 t : ℝ) : linField (f1 * k) (f2 * k) t1 t2 t = linField f1 f2 t1 t2 t * k := by
  unfold linField
  ext <;> simp <;> ring

theorem add_weigh (f g : EMField) : f * k + g * k = (f + g) * k := by ext <;> simp <;> ring

theorem mul_weigh (f : EMField) (a : ℝ) : f * k * a = f * a * k := by ext <;> simp <;> ring

theorem stepAdds_weigh (t0 dt : ℝ) (n : Nat) (ts1 ts2 : ℝ) (f1 f2 : EMField) :
    stepAdds t0 dt n ts1 ts2 (f1 * k) (f2 * k) = (stepAdds t0 dt n ts1 ts2 f1 f2).map (List.map fun a : Int × EMField => ((a.1, a.2 * k) : Int × EMField)) := by
  simp only [stepAdds, linField_weigh, add_weigh k, mul_weigh k]
  split_ifs <;> simp [Except.map]

theorem addAt_weigh (tr : FieldTrace) (i : Nat) (f : EMField) : (scaled k tr).addAt i (f * k) = (tr.addAt i f).map (scaled k) := by
  unfold FieldTrace.addAt
  have hN : (scaled k tr).N = tr.N := rfl
  have hT : (scaled k tr).trace = tr.trace.map (fun F : EMField => F * k) := rfl
  rw [hN, hT, List.getElem?_map]
  split
  · rfl
  · cases hg : tr.trace[i]? with
    | none => rfl
    | some g => simp [Except.map, scaled, List.map_set, add_weigh]

theorem addInt_weigh (tr : FieldTrace) (i : Int) (f : EMField) : addInt (scaled k tr) i (f * k) = (addInt tr i f).map (scaled k) := by
  unfold addInt
  split
  · rfl
  · exact addAt_weigh k tr _ f

theorem foldlM_scaled {α β : Type} (φ : β → α) (g : FieldTrace → β → Except Err FieldTrace) (g' : FieldTrace → α → Except Err FieldTrace)
    (h : ∀ tr a, g' (scaled k tr) (φ a) = (g tr a).map (scaled k)) : ∀ (l : List β) (tr : FieldTrace), (l.map φ).foldlM g' (scaled k tr) = (l.foldlM g tr).map (scaled k)
  | [], tr => rfl
  | a :: l, tr => by
    rw [List.map_cons, List.foldlM_cons, List.foldlM_cons, h]
    cases g tr a with
    | error e => rfl
    | ok t => exact foldlM_scaled φ g g' h l t

theorem integrate_weigh (p : Particle) (obs : Vec) (tr : FieldTrace) : (p.weigh k).integrateFieldTrace obs (scaled k tr) = (p.integrateFieldTrace obs tr).map (scaled k) := by
  unfold integrateFieldTrace
  have h1 : (scaled k tr).N = tr.N := rfl
  have h2 : (scaled k tr).t0 = tr.t0 := rfl
  have h3 : (scaled k tr).dt = tr.dt := rfl
  have h4 : (p.weigh k).NP = p.NP := rfl
  simp only [h1, h2, h3, h4]
  split
  · rfl
  split
  · rfl
  split
  · rfl
  generalize tr.t0 = t0
  generalize tr.dt = dt
  generalize tr.N = n
  have e := foldlM_scaled k (id : Nat → Nat) (g := fun tr step => do
      let ts1 ← p.RetardedTime (step : Nat) obs
      let ts2 ← p.RetardedTime (step + 1 : Nat) obs
      if ts2 > t0 - dt * 0.5 ∧ ts1 < t0 + dt * ((n : ℝ) - 0.5) then do
        let f1 ← p.RetardedFieldIdx (step : Nat) obs
        let f2 ← p.RetardedFieldIdx (step + 1 : Nat) obs
        let adds ← stepAdds t0 dt n ts1 ts2 f1 f2
        adds.foldlM (fun tr a => addInt tr a.1 a.2) tr
      else .ok tr) (g' := fun tr step => do
      let ts1 ← (p.weigh k).RetardedTime (step : Nat) obs
      let ts2 ← (p.weigh k).RetardedTime (step + 1 : Nat) obs
      if ts2 > t0 - dt * 0.5 ∧ ts1 < t0 + dt * ((n : ℝ) - 0.5) then do
        let f1 ← (p.weigh k).RetardedFieldIdx (step : Nat) obs
        let f2 ← (p.weigh k).RetardedFieldIdx (step + 1 : Nat) obs
        let adds ← stepAdds t0 dt n ts1 ts2 f1 f2
        adds.foldlM (fun tr a => addInt tr a.1 a.2) tr
      else .ok tr) ?_ (List.range (p.NP - 1)) tr
  · rw [List.map_id] at e
    exact e
  intro tr i
  simp only [id, retardedTime_weigh, retardedField_weigh]
  cases p.RetardedTime (i : Nat) obs with
  | error e => rfl
  | ok ts1 =>
  cases p.RetardedTime (i + 1 : Nat) obs with
  | error e => rfl
  | ok ts2 =>
    simp only [bind, Except.bind]
    split
    · cases p.RetardedFieldIdx (i : Nat) obs with
      | error e => rfl
      | ok f1 =>
      cases p.RetardedFieldIdx (i + 1 : Nat) obs with
      | error e => rfl
      | ok f2 =>
        simp only [Except.map]
        rw [stepAdds_weigh]
        cases stepAdds t0 dt n ts1 ts2 f1 f2 with
        | error e => rfl
        | ok l => exact foldlM_scaled k (fun a : Int × EMField => ((a.1, a.2 * k) : Int × EMField)) _ _ (fun tr a => addInt_weigh k tr a.1 a.2) l tr
    · rfl

theorem new_scaled (t0 dt : ℝ) (n : Nat) : FieldTrace.new t0 dt n = scaled k (FieldTrace.new t0 dt n) := by
  unfold scaled FieldTrace.new
  simp only [List.map_replicate]
  congr 2
  ext <;> simp

theorem getField_scaled (tr : FieldTrace) (i : Nat) : (scaled k tr).getField i = (tr.getField i).map (fun F : EMField => F * k) := by
  unfold FieldTrace.getField
  have hN : (scaled k tr).N = tr.N := rfl
  have hT : (scaled k tr).trace = tr.trace.map (fun F : EMField => F * k) := rfl
  rw [hN, hT, List.getElem?_map]
  split
  · rfl
  · cases tr.trace[i]? <;> rfl

theorem record_weigh (p : Particle) (obs : Vec) (t0 dt : ℝ) (n i : Nat) :
    ((p.weigh k).integrateFieldTrace obs (FieldTrace.new t0 dt n)).bind (fun tr => tr.getField i)
      = ((p.integrateFieldTrace obs (FieldTrace.new t0 dt n)).bind (fun tr => tr.getField i)).map (fun F : EMField => F * k) := by
  conv_lhs => rw [new_scaled k, integrate_weigh]
  cases p.integrateFieldTrace obs (FieldTrace.new t0 dt n) with
  | error e => rfl
  | ok tr => exact getField_scaled k tr i

end Particle

theorem sample_weigh (k : ℝ) (o : Observer) (key : Observer.Key) (p : Particle) : o.particleSample key (p.weigh k) = (o.particleSample key p).map (fun F : EMField => F * k) := by
  cases o with
  | screen s => exact Particle.record_weigh k p _ _ _ _ _
  | snapshot s => exact Particle.fieldAt_weigh k p _ _
  | point s => exact Particle.record_weigh k p _ _ _ _ _
  | mesh s =>
    unfold Observer.particleSample
    simp only
    cases MeshObs.at' s.points key.1.1 with
    | error e => rfl
    | ok pos =>
    cases MeshObs.at' s.A key.1.1 with
    | error e => rfl
    | ok tr0 => exact Particle.record_weigh k p _ _ _ _ _

/-! ### deposition -/

namespace FEL

/-- the weight of cell `n` in the loop over the cells `l` -/
noncomputable def cellWeight (ds dz : ℝ) (l : List Int) (n : Nat) : ℝ :=
  (l.map (fun i : Int => if i.toNat = n then Real.exp (-(dz - i * ds) ^ 2 / (2 * (2 * ds) ^ 2)) / (2 * Real.sqrt (2 * Pi)) else 0)).sum

theorem cells_ok (ds dz jx : ℝ) : ∀ (l : List Int) (J : List ℝ), (∀ i ∈ l, 0 ≤ i ∧ i.toNat < J.length) →
    ∃ J', l.foldlM (depositCell ds dz jx) J = .ok J' ∧ J'.length = J.length ∧ ∀ n < J.length, fval J' n = fval J n + jx * cellWeight ds dz l n
  | [], J, _ => ⟨J, rfl, rfl, fun n _ => by simp [cellWeight]⟩
  | i :: l, J, h => by
    obtain ⟨h0, h1⟩ := h i (by simp)
    obtain ⟨n, rfl⟩ : ∃ n : Nat, i = n := ⟨i.toNat, by omega⟩
    rw [Int.toNat_natCast] at h1
    have e : depositCell ds dz jx J (n : Int) = .ok (J.set n (fval J n + jx * Real.exp (-(dz - ((n : Int) : ℝ) * ds) ^ 2 / (2 * (2 * ds) ^ 2)) / (2 * Real.sqrt (2 * Pi)))) := by
      unfold depositCell
      rw [cellAt_ok h1]
      simp only [bind, Except.bind]
      unfold cellPut
      rw [Int.toNat_natCast, if_pos ⟨h0, h1⟩]
    rw [List.foldlM_cons, e]
    obtain ⟨J', a, b, c⟩ := cells_ok ds dz jx l (J.set n (fval J n + jx * Real.exp (-(dz - ((n : Int) : ℝ) * ds) ^ 2 / (2 * (2 * ds) ^ 2)) / (2 * Real.sqrt (2 * Pi)))) (fun i hi => by rw [List.length_set]; exact h i (by simp [hi]))
    refine ⟨J', a, by rw [b, List.length_set], fun j hj => ?_⟩
    rw [c j (by rw [List.length_set]; exact hj), fval_set h1]
    unfold cellWeight
    rw [List.map_cons, List.sum_cons, Int.toNat_natCast]
    by_cases hjn : j = n
    · rw [if_pos hjn, if_pos hjn.symm, hjn]
      ring
    · rw [if_neg hjn, if_neg (Ne.symm hjn)]
      ring

theorem cells_error (ds dz jx : ℝ) : ∀ (l : List Int) (J J' : List ℝ), l.foldlM (depositCell ds dz jx) J = .ok J' → ∀ i ∈ l, 0 ≤ i ∧ i.toNat < J.length
  | [], J, _, _ => by simp
  | i :: l, J, J', h => by
    rw [List.foldlM_cons] at h
    cases h1 : depositCell ds dz jx J i with
    | error e => rw [h1] at h; cases h
    | ok J1 =>
      rw [h1] at h
      have ih := cells_error ds dz jx l J1 J' h
      unfold depositCell at h1
      cases h2 : cellAt J i with
      | error e => rw [h2] at h1; cases h1
      | ok x =>
        rw [h2] at h1
        simp only [bind, Except.bind] at h1
        unfold cellPut at h1
        split at h1
        · rename_i hi
          cases h1
          rw [List.length_set] at ih
          intro j hj
          rcases List.mem_cons.mp hj with rfl | hj
          · exact hi
          · exact ih j hj
        · cases h1

/-- particles sharing a charge deposit together what the particle deposits -/
theorem cells_shared (ds dz jx : ℝ) (l : List Int) : ∀ (ks : List ℝ) (J J' : List ℝ), l.foldlM (depositCell ds dz (jx * ks.sum)) J = .ok J' →
    ks.foldlM (fun J k => l.foldlM (depositCell ds dz (jx * k)) J) J = .ok J'
  | [], J, J', h => by
    have hv := cells_error ds dz _ l J J' h
    obtain ⟨J1, a, b, c⟩ := cells_ok ds dz (jx * ([] : List ℝ).sum) l J hv
    rw [a] at h
    injection h with h
    subst h
    show Except.ok J = _
    congr 1
    refine fval_ext b.symm fun i hi => ?_
    rw [c i hi]
    simp
  | k :: ks, J, J', h => by
    have hv := cells_error ds dz _ l J J' h
    obtain ⟨J0, a0, b0, c0⟩ := cells_ok ds dz (jx * (k :: ks).sum) l J hv
    obtain ⟨J1, a1, b1, c1⟩ := cells_ok ds dz (jx * k) l J hv
    obtain ⟨J2, a2, b2, c2⟩ := cells_ok ds dz (jx * ks.sum) l J1 (fun i hi => by rw [b1]; exact hv i hi)
    rw [a0] at h
    injection h with h
    subst h
    rw [List.foldlM_cons, a1]
    refine cells_shared ds dz jx l ks J1 J0 ?_
    rw [a2]
    congr 1
    refine fval_ext (by rw [b2, b1, b0]) fun i hi => ?_
    rw [b2, b1] at hi
    rw [c2 i (by rw [b1]; exact hi), c1 i hi, c0 i hi, List.sum_cons]
    ring

theorem deposit_shared {f : FEL} {p : Particle} {qs : List Particle} (h : Shared p qs) {J J' : List ℝ} (hd : f.deposit J p = .ok J') : qs.foldlM f.deposit J = .ok J' := by
  obtain ⟨ks, _, hsum, rfl⟩ := h
  unfold deposit at hd
  by_cases c1 : 1 / 4 * f.dt < |p.tCur - f.time|
  · rw [if_pos c1] at hd; cases hd
  rw [if_neg c1] at hd
  by_cases c2 : dot (f.head - p.XCur) f.prop < 0 ∨ dot (f.head - p.XCur) f.prop > f.N * f.ds
  · rw [if_pos c2] at hd; cases hd
  rw [if_neg c2] at hd
  by_cases c3 : f.zR = 0 ∨ f.w0 = 0 ∨ f.ds = 0
  · rw [if_pos c3] at hd; cases hd
  rw [if_neg c3] at hd
  cases hc : toInt32 (crint (dot (f.head - p.XCur) f.prop / f.ds)) with
  | error e => rw [hc] at hd; cases hd
  | ok center =>
    rw [hc] at hd
    simp only [pure, Except.pure, bind, Except.bind] at hd
    rw [List.foldlM_map]
    have e : ∀ k J, f.deposit J (p.weigh k) = (intLoop (if center - 10 < 0 then 0 else center - 10) (if center + 11 > f.N then (f.N : Int) else center + 11)).foldlM
        (depositCell f.ds (dot (f.head - p.XCur) f.prop)
          (dot (p.ACur / Real.sqrt (p.PCur.abs2nd + 1)) f.ex * p.getCharge / f.modeArea / f.dt * MuNull * SpeedOfLight * SpeedOfLight * k)) J := by
      intro k J
      unfold deposit
      have w1 : (p.weigh k).tCur = p.tCur := rfl
      have w2 : (p.weigh k).XCur = p.XCur := rfl
      have w3 : (p.weigh k).PCur = p.PCur := rfl
      have w4 : (p.weigh k).ACur = p.ACur := rfl
      have w5 : (p.weigh k).getCharge = k * p.getCharge := by unfold Particle.getCharge Particle.weigh; ring
      rw [w1, w2, w3, w4, w5, if_neg c1, if_neg c2, if_neg c3, hc]
      simp only [pure, Except.pure, bind, Except.bind]
      congr 2
      ring
    simp only [e]
    refine cells_shared _ _ _ _ ks J J' ?_
    rw [hsum, mul_one]
    exact hd

theorem deposit_divided {f : FEL} {ps qs : List Particle} (h : Divided ps qs) : ∀ {J J' : List ℝ}, ps.foldlM f.deposit J = .ok J' → qs.foldlM f.deposit J = .ok J' := by
  induction h with
  | nil => exact fun h => h
  | @cons p part ps qs h1 _ ih =>
    intro J J' hd
    rw [List.foldlM_cons] at hd
    cases h2 : f.deposit J p with
    | error e => rw [h2] at hd; cases hd
    | ok J1 =>
      rw [h2] at hd
      rw [List.foldlM_append, deposit_shared h1 h2]
      exact ih hd

theorem step_divided {dt : ℝ} {n : Int} {ps qs : List Particle} (h : Divided ps qs) {f f' : FEL} (hs : FEL.step (oneBunch dt n ps) f = .ok f') : FEL.step (oneBunch dt n qs) f = .ok f' := by
  unfold step at hs ⊢
  rw [oneBunch_visits] at hs ⊢
  have hn : ∀ l, (oneBunch dt n l).NOTS = n := fun _ => rfl
  rw [hn] at hs ⊢
  split at hs
  · cases hs
  rename_i c
  rw [if_neg c]
  simp only [bind, Except.bind] at hs ⊢
  cases hJ : ps.foldlM f.deposit (List.replicate f.N 0) with
  | error e => rw [hJ] at hs; cases hs
  | ok J =>
    rw [deposit_divided h hJ]
    rw [hJ] at hs
    exact hs

end FEL

/-! ### lists of particles -/

theorem mapM_shared {g : Particle → Except Err Particle} (hg : ∀ k ≠ 0, ∀ p, g (p.weigh k) = (g p).map (Particle.weigh k)) {p q : Particle} {part : List Particle}
    (h : Shared p part) (hq : g p = .ok q) : ∃ part', part.mapM g = .ok part' ∧ Shared q part' := by
  obtain ⟨ks, h0, hs, rfl⟩ := h
  refine ⟨ks.map (fun k => q.weigh k), ?_, ks, h0, hs, rfl⟩
  clear hs
  induction ks with
  | nil => rfl
  | cons k ks ih =>
    rw [List.map_cons, List.mapM_cons, hg k (h0 k (by simp)), hq, ih (fun k hk => h0 k (by simp [hk]))]
    rfl

theorem mapM_append_ok {α β : Type} {g : α → Except Err β} {a b : List α} {x y : List β} (h1 : a.mapM g = .ok x) (h2 : b.mapM g = .ok y) : (a ++ b).mapM g = .ok (x ++ y) := by
  rw [List.mapM_append, h1, h2]
  rfl

theorem mapM_divided {g : Particle → Except Err Particle} (hg : ∀ k ≠ 0, ∀ p, g (p.weigh k) = (g p).map (Particle.weigh k)) {ps qs : List Particle} (h : Divided ps qs) :
    ∀ {ps' : List Particle}, ps.mapM g = .ok ps' → ∃ qs', qs.mapM g = .ok qs' ∧ Divided ps' qs' := by
  induction h with
  | nil => intro ps' h; cases h; exact ⟨[], rfl, .nil⟩
  | cons h1 _ ih =>
    intro ps' h
    rw [mapM_forall₂] at h
    cases h with
    | cons h2 h3 =>
      obtain ⟨part', a, b⟩ := mapM_shared hg h1 h2
      obtain ⟨qs', c, d⟩ := ih (mapM_forall₂.mpr h3)
      exact ⟨_, mapM_append_ok a c, .cons b d⟩

theorem sum_shared {o : Observer} {key : Observer.Key} {p : Particle} {F : EMField} (hp : o.particleSample key p = .ok F) (ks : List ℝ) :
    ∃ Gs, (ks.map (fun k => p.weigh k)).mapM (o.particleSample key) = .ok Gs ∧ Gs.sum = F * ks.sum := by
  induction ks with
  | nil => exact ⟨[], rfl, by ext <;> simp⟩
  | cons k ks ih =>
    obtain ⟨Gs, a, b⟩ := ih
    refine ⟨F * k :: Gs, ?_, ?_⟩
    · rw [List.map_cons, List.mapM_cons, sample_weigh, hp, a]
      rfl
    · rw [List.sum_cons, b, List.sum_cons]
      ext <;> simp <;> ring

theorem sum_divided {o : Observer} {key : Observer.Key} {ps qs : List Particle} (h : Divided ps qs) : ∀ {Fs : List EMField}, ps.mapM (o.particleSample key) = .ok Fs →
    ∃ Gs, qs.mapM (o.particleSample key) = .ok Gs ∧ Gs.sum = Fs.sum := by
  induction h with
  | nil => intro Fs h; exact ⟨Fs, h, rfl⟩
  | cons h1 _ ih =>
    intro Fs h
    rw [mapM_forall₂] at h
    cases h with
    | cons h2 h3 =>
      obtain ⟨ks, _, hs, rfl⟩ := h1
      obtain ⟨G1, a, b⟩ := sum_shared h2 ks
      obtain ⟨G2, c, d⟩ := ih (mapM_forall₂.mpr h3)
      refine ⟨_, mapM_append_ok a c, ?_⟩
      rw [List.sum_append, List.sum_cons, b, d, hs]
      congr 1
      ext <;> simp

end Teufel
