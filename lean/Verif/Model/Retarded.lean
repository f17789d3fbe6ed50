import Verif.Model.Particle

/-!
# Charged particles: interpolation, retarded fields, field recording

Models `src/particle.cpp:514-867`.
Floating point divisions that would divide by zero (inf/NaN in C++) stop the model with `Err.nan`.
-/

namespace Teufel
open Vec
namespace Particle

/-- the bisection loops of src/particle.cpp:530-542 and :667-683: `early i` decides whether the lower end
moves up to the midpoint. -/
def bisect (early : Nat → Except Err Bool) (i1 i2 : Nat) : Except Err (Nat × Nat) :=
  if i2 - i1 > 1 then
    match early ((i2 + i1) / 2) with
    | .ok true => bisect early ((i2 + i1) / 2) i2
    | .ok false => bisect early i1 ((i2 + i1) / 2)
    | .error e => .error e
  else .ok (i1, i2)
termination_by i2 - i1

open Classical in
/-- `CoordinatesAtTime`, src/particle.cpp:514-558: position and momentum written to the two output
arguments -/
noncomputable def CoordinatesAtTime (p : Particle) (time : ℝ) : Except Err (Vec × Vec) :=
  if p.NP < 1 then .ok (0, 0)
  else do
    let t1 ← vecAt p.Time 0
    let t2 ← vecAt p.Time (p.NP - 1)
    if time ≥ t1 ∧ time ≤ t2 then
      let (i1, i2) ← bisect (fun i => (vecAt p.Time i).map (fun t => decide (t < time))) 0 (p.NP - 1)
      let t1 ← vecAt p.Time i1
      let t2 ← vecAt p.Time i2
      let x1 ← vecAt p.X i1
      let p1 ← vecAt p.P i1
      if i2 = i1 then .ok (x1, p1)
      else do
        let x2 ← vecAt p.X i2
        let p2 ← vecAt p.P i2
        if t2 - t1 = 0 then .error .nan
        else
          let frac := (time - t1) / (t2 - t1)
          .ok (x1 * (1 - frac) + x2 * frac, p1 * (1 - frac) + p2 * frac)
    else .ok (0, 0)

/-- `RetardedTime`, src/particle.cpp:560-568 -/
noncomputable def RetardedTime (p : Particle) (index : Int) (obs : Vec) : Except Err ℝ := do
  let t ← p.TrajTime index
  let x ← p.TrajPoint index
  return t + Vec.norm (obs - x) / SpeedOfLight

/-- the Liénard-Wiechert evaluation common to both field methods, src/particle.cpp:581-595 = 753-766.
`charge` in units of the elementary charge. -/
noncomputable def lwField (charge : ℝ) (sourceX beta betaPrime : Vec) (gamma2 : ℝ) (obs : Vec) : EMField :=
  let RVec := obs - sourceX
  let R := Vec.norm RVec
  let N := normalize RVec
  let scale := charge * ElementaryCharge / (4 * Pi * EpsNull)
  let bn3rd := (1 - dot beta N) ^ 3
  let EField : Vec := (N - beta) / (R * R * bn3rd * gamma2)
  let EField : Vec := EField + cross N (cross (N - beta) betaPrime) / (R * bn3rd * SpeedOfLight)
  let EField : Vec := EField * scale
  ⟨EField, cross N EField / SpeedOfLight⟩

open Classical in
/-- `RetardedField(index,ObservationPoint)`, src/particle.cpp:570-596.
An observer at the position of the source is a division by zero. -/
noncomputable def RetardedFieldIdx (p : Particle) (index : Int) (obs : Vec) : Except Err EMField := do
  let x ← p.TrajPoint index
  let m ← p.TrajMomentum index
  let a ← p.TrajAccel index
  let gamma2 := m.abs2nd + 1
  let gamma := Real.sqrt gamma2
  if Vec.norm (obs - x) = 0 then .error .nan
  else .ok (lwField p.Charge x (m / gamma) (a / gamma) gamma2 obs)

/-- the source point on the (extrapolated or interpolated) trajectory; src/particle.cpp:612-769 -/
structure Source where
  T : ℝ
  X : Vec
  beta : Vec
  betaPrime : Vec
  gamma2 : ℝ

/-- the back-extrapolation branch, src/particle.cpp:644-659.  Note `t0 = obs_time` (line 652): the time of
the first trajectory point does not enter. -/
noncomputable def extrapolate (X0 P0 : Vec) (obs_time : ℝ) (obs : Vec) : Source :=
  let Rc := (obs - X0) / SpeedOfLight
  let gamma2 := P0.abs2nd + 1
  let beta := P0 / Real.sqrt gamma2
  let t0 := obs_time
  let bR := dot beta Rc
  let bb := dot beta beta
  let RR := dot Rc Rc
  let T := (t0 - bR - Real.sqrt ((t0 - bR) * (t0 - bR) - (1 - bb) * (t0 * t0 - RR))) / (1 - bb)
  { T := T, X := X0 + beta * SpeedOfLight * T, beta := beta, betaPrime := 0, gamma2 := gamma2 }

open Classical in
/-- the refinement loop, src/particle.cpp:709-726.  `g frac` is the light-cone mismatch `dt` of the
interpolated source point; the first argument is `10 - number_ref`. -/
noncomputable def secant (g : ℝ → ℝ) : Nat → ℝ → ℝ → ℝ → Except Err (ℝ × ℝ × Nat)
  | 0, frac, _, dfrac => .ok (frac, dfrac, 0)
  | n + 1, frac, dt, dfrac =>
    if |dfrac| > 1e-5 then
      let frac' := frac - dfrac
      let dt' := g frac'
      let dtdfrac := -(dt' - dt) / dfrac
      if dtdfrac = 0 then .error .nan
      else secant g n frac' dt' (dt' / dtdfrac)
    else .ok (frac, dfrac, n + 1)

/-- the light-cone mismatch of the linearly interpolated source point, src/particle.cpp:696-700 -/
noncomputable def mismatch (t1 t2 : ℝ) (X1 X2 : Vec) (obs_time : ℝ) (obs : Vec) (frac : ℝ) : ℝ :=
  t1 * (1 - frac) + t2 * frac + Vec.norm (obs - (X1 * (1 - frac) + X2 * frac)) / SpeedOfLight - obs_time

open Classical in
/-- interpolation and refinement within one trajectory step, src/particle.cpp:684-749.
Returns the source point and the number of unused iterations (zero: "no convergence"). -/
noncomputable def interpolate (p : Particle) (i1 i2 : Nat) (obs_time : ℝ) (obs : Vec) : Except Err (Source × Nat) := do
  let t1 ← vecAt p.Time i1
  let t2 ← vecAt p.Time i2
  let X1 ← vecAt p.X i1
  let X2 ← vecAt p.X i2
  let P1 ← vecAt p.P i1
  let P2 ← vecAt p.P i2
  let A1 ← vecAt p.A i1
  let A2 ← vecAt p.A i2
  let r1 := Vec.norm (obs - X1)
  let r2 := Vec.norm (obs - X2)
  let e1 := obs_time - (t1 + r1 / SpeedOfLight)
  let e2 := obs_time - (t2 + r2 / SpeedOfLight)
  if e1 - e2 = 0 then .error .nan else
  let frac := e1 / (e1 - e2)
  let g := mismatch t1 t2 X1 X2 obs_time obs
  let dt := g frac
  let dtdfrac := (t2 - t1) + (r2 - r1) / SpeedOfLight
  if dtdfrac = 0 then .error .nan else do
  let (frac, dfrac, left) ← secant g 9 frac dt (dt / dtdfrac)
  let frac := frac - dfrac
  let m := P1 * (1 - frac) + P2 * frac
  let gamma2 := m.abs2nd + 1
  let gamma := Real.sqrt gamma2
  return ({ T := t1 * (1 - frac) + t2 * frac
            X := X1 * (1 - frac) + X2 * frac
            beta := m / gamma
            betaPrime := (A1 * (1 - frac) + A2 * frac) / gamma
            gamma2 := gamma2 }, left)

open Classical in
/-- `RetardedField(obs_time,obs_pos)`, src/particle.cpp:612-769.
In the bisection the code keeps the mismatch values of the current end points in `t1`,`t2`; the model
recomputes them from the end points (same expressions, src/particle.cpp:620,625,672). -/
noncomputable def RetardedFieldAt (p : Particle) (obs_time : ℝ) (obs : Vec) : Except Err EMField :=
  if p.NP < 1 then .error .range
  else do
    let X0 ← vecAt p.X 0
    let T0 ← vecAt p.Time 0
    let P0 ← vecAt p.P 0
    let XL ← vecAt p.X (p.NP - 1)
    let TL ← vecAt p.Time (p.NP - 1)
    let t1 := obs_time - (T0 + Vec.norm (obs - X0) / SpeedOfLight)
    let t2 := obs_time - (TL + Vec.norm (obs - XL) / SpeedOfLight)
    if t2 ≤ 0 then
      let src ←
        if t1 ≤ 0 then Except.ok (extrapolate X0 P0 obs_time obs)
        else do
          let (i1, i2) ← bisect (fun i => do
            let x ← vecAt p.X i
            let t ← vecAt p.Time i
            return decide (obs_time - (t + Vec.norm (obs - x) / SpeedOfLight) > 0)) 0 (p.NP - 1)
          (interpolate p i1 i2 obs_time obs).map (·.1)
      if Vec.norm (obs - src.X) = 0 then .error .nan
      else .ok (lwField p.Charge src.X src.beta src.betaPrime src.gamma2 obs)
    else .ok 0

/-- C `round()`: nearest integer, halves away from zero, then conversion to `int`, src/particle.cpp:805, 831, 833.
Simplification: no overflow of the conversion. -/
noncomputable def cround (x : ℝ) : Int := if 0 ≤ x then ⌊x + 1 / 2⌋ else ⌈x - 1 / 2⌉

/-- linear interpolation of the observed field at time `t`, as in src/particle.cpp:812,820,845,852,859 -/
noncomputable def linField (f1 f2 : EMField) (ts1 ts2 t : ℝ) : EMField :=
  f1 * ((ts2 - t) / (ts2 - ts1)) + f2 * ((t - ts1) / (ts2 - ts1))

/-- indices `a, a+1, ..., b-1` of a loop `for (int idx=a; idx<b; idx++)`; src/particle.cpp:771-868 -/
def irange (a b : Int) : List Int := (List.range (b - a).toNat).map (fun k : Nat => a + (k : Int))

open Classical in
/-- the additions made for one trajectory step, src/particle.cpp:799-864, in program order -/
noncomputable def stepAdds (t0 dt : ℝ) (nots : Nat) (ts1 ts2 : ℝ) (f1 f2 : EMField) : Except Err (List (Int × EMField)) :=
  let tmin := t0 - dt * 0.5
  let dts := ts2 - ts1
  let full := fun (idx : Int) => (idx, linField f1 f2 ts1 ts2 (t0 + idx * dt))
  let last := fun (idx2 : Int) =>
    let t_start := t0 + (idx2 - 0.5) * dt
    (idx2, (linField f1 f2 ts1 ts2 t_start + f2) * (0.5 : ℝ) * ((ts2 - t_start) / dt))
  if ts1 ≤ tmin then
    let idx2 := cround ((ts2 - t0) / dt)
    let idx2 := if idx2 > nots then (nots : Int) else idx2
    if dts = 0 then .error .nan
    else .ok ((irange 0 idx2).map full ++ (if idx2 < nots then [last idx2] else []))
  else
    let idx1 := cround ((ts1 - t0) / dt)
    let idx2 := cround ((ts2 - t0) / dt)
    let idx2 := if idx2 > nots then (nots : Int) else idx2
    if idx1 = idx2 then .ok [(idx1, (f1 + f2) * (0.5 : ℝ) * (dts / dt))]
    else if dts = 0 then .error .nan
    else
      let t_end := t0 + (idx1 + 0.5) * dt
      .ok ([(idx1, (f1 + linField f1 f2 ts1 ts2 t_end) * (0.5 : ℝ) * ((t_end - ts1) / dt))] ++
        (irange (idx1 + 1) idx2).map full ++ (if idx2 < nots then [last idx2] else []))

/-- `trace->add(idx,field)` with an `int` index: a negative index becomes a huge `size_t` and is rejected,
src/fieldtrace.cpp:185-190 -/
noncomputable def addInt (tr : FieldTrace) (idx : Int) (f : EMField) : Except Err FieldTrace :=
  if idx < 0 then .error .io else tr.addAt idx.toNat f

open Classical in
/-- `integrateFieldTrace`, src/particle.cpp:771-867.  A trace with `dt = 0` is a division by zero. -/
noncomputable def integrateFieldTrace (p : Particle) (obs : Vec) (trace : FieldTrace) : Except Err FieldTrace :=
  let t0 := trace.t0
  let dt := trace.dt
  let nots := trace.N
  if nots < 2 then .ok trace
  else if p.NP < 2 then .ok trace
  else if dt = 0 then .error .nan
  else
    let tmin := t0 - dt * 0.5
    let tmax := t0 + dt * ((nots : ℝ) - 0.5)
    (List.range (p.NP - 1)).foldlM (fun tr step => do
      let ts1 ← p.RetardedTime (step : Nat) obs
      let ts2 ← p.RetardedTime (step + 1 : Nat) obs
      if ts2 > tmin ∧ ts1 < tmax then do
        let f1 ← p.RetardedFieldIdx (step : Nat) obs
        let f2 ← p.RetardedFieldIdx (step + 1 : Nat) obs
        let adds ← stepAdds t0 dt nots ts1 ts2 f1 f2
        adds.foldlM (fun tr a => addInt tr a.1 a.2) tr
      else .ok tr) trace

end Particle
end Teufel
