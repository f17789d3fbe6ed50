import Verif.Model.FieldTrace

/-!
# Charged particles: trajectory storage, Vay tracking

Models `src/particle.cpp:28-512` / `src/particle.h`.
Integer widths: `NP` and `Npre` are C `int`s; the model uses unbounded integers.
-/

namespace Teufel

open Vec

/-- class `ChargedParticle`, data members, src/particle.h:380-446 -/
@[ext] structure Particle where
  NP : Nat
  Npre : Int
  Charge : ℝ
  Mass : ℝ
  tCur : ℝ
  XCur : Vec
  PCur : Vec
  ACur : Vec
  ECur : Vec
  BCur : Vec
  Time : List ℝ
  X : List Vec
  P : List Vec
  A : List Vec
  dt : ℝ
  qm : ℝ
  qmt2 : ℝ
  VYp : Vec
  VYgamma : ℝ

/-- Result of a mutating method: the new object, or the exception together with the object as it was
left when the exception was thrown.  src/particle.cpp:286-512. -/
abbrev PRes := Except (Err × Particle) Particle

namespace Particle

/-- constructor `ChargedParticle(charge,mass)`, src/particle.cpp:46-62.
`E_current`, `B_current`, `VY_p_i1` are default constructed vectors, i.e. zero (src/vector.cpp:26-31).
`qm` is meaningless for `mass = 0`; every use of it is preceded by `InitVay`, which recomputes it. -/
noncomputable def new (charge mass : ℝ) : Particle :=
  { NP := 0, Npre := 0, Charge := charge, Mass := mass
    tCur := 0, XCur := 0, PCur := 0, ACur := 0, ECur := 0, BCur := 0
    Time := [], X := [], P := [], A := []
    dt := 0, qm := charge / mass * InvRestMass, qmt2 := 0, VYp := 0, VYgamma := 1 }

/-- default constructor, src/particle.cpp:28-44 -/
noncomputable def default : Particle := new (-1) 1

/-- `preAllocate`, src/particle.cpp:184-192. Memory reservation itself is not modelled. -/
def preAllocate (p : Particle) (nTraj : Int) : Particle := { p with Npre := nTraj }

/-- constructor `ChargedParticle(charge,mass,nTraj)`, src/particle.cpp:64-81 -/
noncomputable def newPre (charge mass : ℝ) (nTraj : Int) : Particle := (new charge mass).preAllocate nTraj

/-- copy constructor, src/particle.cpp:83-107.  The current fields are not copied. -/
noncomputable def copy (o : Particle) : Particle :=
  { o with
    Time := if o.NP > 0 then o.Time else []
    X := if o.NP > 0 then o.X else []
    P := if o.NP > 0 then o.P else []
    A := if o.NP > 0 then o.A else []
    ECur := 0, BCur := 0 }

/-- `clearTrajectory`, src/particle.cpp:173-182 -/
def clearTrajectory (p : Particle) : Particle := { p with NP := 0, Time := [], X := [], P := [], A := [] }

/-- `initTrajectory`, src/particle.cpp:326-341 -/
def initTrajectory (p : Particle) (t : ℝ) (x pm a : Vec) : Particle :=
  { p with NP := 1, tCur := t, XCur := x, PCur := pm, ACur := a
           Time := [t], X := [x], P := [pm], A := [a] }

/-- `setCurrentPoint`, src/particle.cpp:444-450 -/
def setCurrentPoint (p : Particle) (t : ℝ) (x pm a : Vec) : Particle :=
  { p with tCur := t, XCur := x, PCur := pm, ACur := a }

/-- `storeTrajectoryPoint`, src/particle.cpp:452-460 -/
def storeTrajectoryPoint (p : Particle) (t : ℝ) (x pm a : Vec) : Particle :=
  { p with Time := p.Time ++ [t], X := p.X ++ [x], P := p.P ++ [pm], A := p.A ++ [a], NP := p.NP + 1 }

/-- checked access used by the four accessors below; reading a `std::vector` outside its size is
undefined behaviour; src/particle.cpp:286-324 -/
def vecAt {α} (l : List α) (i : Nat) : Except Err α :=
  match l[i]? with
  | some a => .ok a
  | none => .error .ub

/-- `TrajTime`, src/particle.cpp:286-294 -/
def TrajTime (p : Particle) (step : Int) : Except Err ℝ :=
  if step ≥ 0 ∧ step < p.NP then vecAt p.Time step.toNat else .error .io

/-- `TrajPoint`, src/particle.cpp:296-304 -/
def TrajPoint (p : Particle) (step : Int) : Except Err Vec :=
  if step ≥ 0 ∧ step < p.NP then vecAt p.X step.toNat else .error .io

/-- `TrajMomentum`, src/particle.cpp:306-314 -/
def TrajMomentum (p : Particle) (step : Int) : Except Err Vec :=
  if step ≥ 0 ∧ step < p.NP then vecAt p.P step.toNat else .error .io

/-- `TrajAccel`, src/particle.cpp:316-324 -/
def TrajAccel (p : Particle) (step : Int) : Except Err Vec :=
  if step ≥ 0 ∧ step < p.NP then vecAt p.A step.toNat else .error .io

/-- `getNP`, src/particle.h:113 -/
def getNP (p : Particle) : Nat := p.NP

/-- `getCharge`, src/particle.h:119: charge in Coulomb -/
noncomputable def getCharge (p : Particle) : ℝ := p.Charge * ElementaryCharge

/-- the loop `for (int i=0; i<NP-1; i++)` of `Shift` and `Mirror` applied to one vector,
src/particle.cpp:346-350,369-383.  The last stored entry (index `NP-1`) is *not* visited. -/
def mapButLast {α} (n : Nat) (f : α → α) (l : List α) : List α :=
  l.mapIdx (fun i x => if i + 1 < n then f x else x)

/-- `Shift`, src/particle.cpp:343-354 -/
noncomputable def Shift (p : Particle) (delta : Vec) (f_charge : ℝ) : PRes :=
  if p.NP ≤ p.X.length + 1 then
    .ok { p with
      XCur := p.XCur + delta
      X := mapButLast p.NP (· + delta) p.X
      Charge := p.Charge * f_charge, qm := p.qm * f_charge, qmt2 := p.qmt2 * f_charge }
  else .error (.ub, p)

/-- reflection of a position as coded in src/particle.cpp:361-362,372-374 (`n` already normalised) -/
noncomputable def mirrorPoint (origin n x : Vec) : Vec := x + (n * dot (origin - x) n) * (2.0 : ℝ)

/-- reflection of a momentum or acceleration as coded in src/particle.cpp:364-368,376-382 -/
noncomputable def mirrorDir (n v : Vec) : Vec := v - (n * dot v n) * (2.0 : ℝ)

/-- `Mirror`, src/particle.cpp:356-387.  `VY_p_i1` is not touched by the code. -/
noncomputable def Mirror (p : Particle) (origin normal : Vec) (f_charge : ℝ) : PRes :=
  let n := normal.normalize
  if p.NP ≤ p.X.length + 1 ∧ p.NP ≤ p.P.length + 1 ∧ p.NP ≤ p.A.length + 1 then
    .ok { p with
      XCur := mirrorPoint origin n p.XCur
      PCur := mirrorDir n p.PCur
      ACur := mirrorDir n p.ACur
      X := mapButLast p.NP (mirrorPoint origin n) p.X
      P := mapButLast p.NP (mirrorDir n) p.P
      A := mapButLast p.NP (mirrorDir n) p.A
      Charge := p.Charge * f_charge, qm := p.qm * f_charge, qmt2 := p.qmt2 * f_charge }
  else .error (.ub, p)

/-- the "second half-step" common to `InitVay` and `StepVay`: from the momentum `P` at the centre of
the step to momentum and relativistic factor at its end, src/particle.cpp:427-437 = 499-509 -/
noncomputable def vayGamma (qmt2 : ℝ) (P E B : Vec) : ℝ :=
  let p' := P + E / SpeedOfLight * qmt2
  let gamma2' := p'.abs2nd + 1.0
  let tau := B * qmt2
  let u := dot p' tau
  let tau2 := tau.abs2nd
  let sigma := gamma2' - tau2
  Real.sqrt (0.5 * (sigma + Real.sqrt (sigma * sigma + 4.0 * (tau2 + u * u))))

/-- eq. (12) in src/particle.cpp:435-437 = 507-509 -/
noncomputable def vayMomentum (qmt2 : ℝ) (P E B : Vec) : Vec :=
  let p' := P + E / SpeedOfLight * qmt2
  let tau := B * qmt2
  let t := tau / vayGamma qmt2 P E B
  (p' + t * dot p' t + cross p' t) / (1 + t.abs2nd)

/-- acceleration, src/particle.cpp:438-440 = 494-496 -/
noncomputable def vayAccel (qm : ℝ) (P E B : Vec) : Vec :=
  let beta_h := P / Real.sqrt (P.abs2nd + 1.0)
  (cross beta_h B + E / SpeedOfLight) * qm

open Classical in
/-- `InitVay`, src/particle.cpp:407-442.  `back()` of an empty vector is undefined behaviour.
For a particle of mass zero the code divides by zero and carries on with inf/NaN; the model stops
with `Err.nan`. -/
noncomputable def InitVay (p : Particle) (tstep : ℝ) (field : FieldFn) : PRes :=
  if p.NP < 1 then .error (.range, p)
  else if p.Mass = 0 then .error (.nan, p)
  else
    let qm := p.Charge / p.Mass * InvRestMass
    let qmt2 := qm * 0.5 * tstep
    match p.Time.getLast?, p.X.getLast?, p.P.getLast? with
    | some t, some x, some pm =>
      let p1 := { p with dt := tstep, qm := qm, qmt2 := qmt2, tCur := t, XCur := x, PCur := pm }
      match field t x with
      | .error e => .error (e, p1)
      | .ok EB =>
        let a := vayAccel qm pm EB.E EB.B
        let p2 := { p1 with
          ECur := EB.E, BCur := EB.B
          VYgamma := vayGamma qmt2 pm EB.E EB.B
          VYp := vayMomentum qmt2 pm EB.E EB.B
          ACur := a }
        if p.A = [] then .error (.ub, p2) else .ok { p2 with A := p.A.dropLast ++ [a] }
    | _, _, _ => .error (.ub, p)

/-- `StepVay`, src/particle.cpp:479-512 -/
noncomputable def StepVay (p : Particle) (field : FieldFn) : PRes :=
  let beta_i := p.VYp / p.VYgamma
  let t := p.tCur + p.dt
  let x := p.XCur + beta_i * SpeedOfLight * p.dt
  let p1 := { p with tCur := t, XCur := x }
  match field t x with
  | .error e => .error (e, p1)
  | .ok EB =>
    let P := p.VYp + (EB.E / SpeedOfLight + cross beta_i EB.B) * p.qmt2
    let a := vayAccel p.qm P EB.E EB.B
    .ok (({ p1 with
      ECur := EB.E, BCur := EB.B, PCur := P, ACur := a
      VYgamma := vayGamma p.qmt2 P EB.E EB.B
      VYp := vayMomentum p.qmt2 P EB.E EB.B } : Particle).storeTrajectoryPoint t x P a)

/-- a tracking run: `StepVay` once for every field of the list (the field may change from step to
step, as the radiation field of the FEL interaction does); stops at the first exception.
Models the repeated calls in src/bunch.cpp:480-486, src/beam.cpp:152-158, src/teufel_hybrid.cpp:513-517. -/
noncomputable def steps (p : Particle) (fields : List FieldFn) : PRes :=
  fields.foldlM (fun p f => p.StepVay f) p

/-- the three components in storage order; src/particle.cpp:194-284 -/
def comps (v : Vec) : List ℝ := [v.x, v.y, v.z]

/-- `serialize`, src/particle.cpp:194-226: the values written to the buffer, in order.
`back()` of an empty vector is undefined behaviour. -/
noncomputable def serialize (p : Particle) : Except Err (List ℝ) :=
  if p.NP > 0 then
    match p.Time.getLast?, p.X.getLast?, p.P.getLast?, p.A.getLast? with
    | some t, some x, some pm, some a => .ok ([p.Charge, p.Mass, t] ++ comps x ++ comps pm ++ comps a)
    | _, _, _, _ => .error .ub
  else .ok [p.Charge, p.Mass, 0, 0, 0, 0, 0, 0, 0, 0, 0, 0]

/-- constructor from a 12-double buffer, src/particle.cpp:109-127.
Reading a buffer with fewer than 12 entries is undefined behaviour. -/
noncomputable def fromBuffer (buf : List ℝ) : Except Err Particle :=
  match buf with
  | q :: m :: t :: x :: y :: z :: px :: py :: pz :: ax :: ay :: az :: _ =>
    .ok ((new q m).initTrajectory t ⟨x, y, z⟩ ⟨px, py, pz⟩ ⟨ax, ay, az⟩)
  | _ => .error .ub

/-- `TrajBufSize`, src/particle.cpp:228-231 -/
def TrajBufSize (p : Particle) : Nat := 9 + 10 * p.NP

/-- one trajectory point as written by `serializeTraj`, src/particle.cpp:248-260 -/
def trajRecord (p : Particle) (n : Nat) : Except Err (List ℝ) := do
  let t ← vecAt p.Time n
  let x ← vecAt p.X n
  let pm ← vecAt p.P n
  let a ← vecAt p.A n
  return [t] ++ comps x ++ comps pm ++ comps a

/-- `serializeTraj`, src/particle.cpp:233-262: the values written to the buffer, in order -/
noncomputable def serializeTraj (p : Particle) : Except Err (List ℝ) := do
  let recs ← (List.range p.NP).mapM p.trajRecord
  return [p.Charge, p.Mass, p.dt, p.qm, p.qmt2] ++ comps p.VYp ++ [p.VYgamma] ++ recs.flatten

/-- the reading loop of the trajectory constructor, src/particle.cpp:145-162 -/
def readTraj (p : Particle) : Nat → List ℝ → Except Err Particle
  | 0, _ => .ok p
  | n + 1, t :: x :: y :: z :: px :: py :: pz :: ax :: ay :: az :: rest =>
    readTraj (p.storeTrajectoryPoint t ⟨x, y, z⟩ ⟨px, py, pz⟩ ⟨ax, ay, az⟩) n rest
  | _ + 1, _ => .error .ub

/-- constructor from a complete trajectory, src/particle.cpp:129-167.
`junk` is the indeterminate value of `Npre`, which the constructor does not set for `nPre <= 0`.
A negative `nTraj` behaves as zero. `back()` of the empty vectors is undefined behaviour. -/
noncomputable def fromTraj (junk : Int) (buf : List ℝ) (nTraj nPre : Int) : Except Err Particle :=
  match buf with
  | q :: m :: dt :: qm :: qmt2 :: vx :: vy :: vz :: g :: rest => do
    let p0 : Particle := { new q m with
      dt := dt, qm := qm, qmt2 := qmt2, VYp := ⟨vx, vy, vz⟩, VYgamma := g
      Npre := if nPre > 0 then nPre else junk }
    let p1 ← readTraj p0 nTraj.toNat rest
    match p1.Time.getLast?, p1.X.getLast?, p1.P.getLast?, p1.A.getLast? with
    | some t, some x, some pm, some a => .ok { p1 with tCur := t, XCur := x, PCur := pm, ACur := a }
    | _, _, _, _ => .error .ub
  | _ => .error .ub

/-- `bufferProbe`, src/particle.cpp:264-284: the 16 values written -/
def bufferProbe (p : Particle) : List ℝ :=
  [p.tCur] ++ comps p.XCur ++ comps p.PCur ++ comps p.ACur ++ comps p.ECur ++ comps p.BCur

end Particle

end Teufel
