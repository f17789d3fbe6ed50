import Verif.Model.Particle

/-!
# Tracking with rounded numbers

The Vay tracker of Model/Particle a second time, with every result of an arithmetic operation rounded by a function `rnd` (see Spec/Rounding).
With `rnd = id` the definitions agree with Model/Particle (`Rounded.InitVay_id`, `Rounded.StepVay_id`).  The constants 299792458, 175882002500, 0.5,
1 and 4 are exact as `double`.  Square roots of negative numbers and divisions by zero are the outcome `Err.nan`; the C++ program would go on with NaN or inf.

Simplification: as in Model/Rounded there are no fused multiply-add instructions, no overflow and no underflow.
-/

namespace Teufel
open Vec

namespace Rounded

/-- `Vector::operator+`, `operator+=`, src/vector.cpp:50-65 -/
noncomputable def vadd (rnd : ℝ → ℝ) (a b : Vec) : Vec := ⟨rnd (a.x + b.x), rnd (a.y + b.y), rnd (a.z + b.z)⟩

/-- `Vector::operator*`, src/vector.cpp:93-100 -/
noncomputable def vmul (rnd : ℝ → ℝ) (a : Vec) (k : ℝ) : Vec := ⟨rnd (a.x * k), rnd (a.y * k), rnd (a.z * k)⟩

/-- `Vector::operator/`, src/vector.cpp:110-117 -/
noncomputable def vdiv (rnd : ℝ → ℝ) (a : Vec) (k : ℝ) : Vec := ⟨rnd (a.x / k), rnd (a.y / k), rnd (a.z / k)⟩

/-- `dot`, src/vector.cpp:153-160 -/
noncomputable def rdot (rnd : ℝ → ℝ) (a b : Vec) : ℝ := rnd (rnd (rnd (a.x * b.x) + rnd (a.y * b.y)) + rnd (a.z * b.z))

/-- `Vector::abs2nd`, src/vector.cpp:132-135 -/
noncomputable def rabs2nd (rnd : ℝ → ℝ) (a : Vec) : ℝ := rnd (rnd (rnd (a.x * a.x) + rnd (a.y * a.y)) + rnd (a.z * a.z))

/-- `cross`, src/vector.cpp:162-170 -/
noncomputable def rcross (rnd : ℝ → ℝ) (a b : Vec) : Vec :=
  ⟨rnd (rnd (a.y * b.z) - rnd (a.z * b.y)), rnd (rnd (a.z * b.x) - rnd (a.x * b.z)), rnd (rnd (a.x * b.y) - rnd (a.y * b.x))⟩

/-- momentum after the electric part of the half step, src/particle.cpp:427 = 499 -/
noncomputable def vayPrime (rnd : ℝ → ℝ) (qmt2 : ℝ) (P E : Vec) : Vec := vadd rnd P (vmul rnd (vdiv rnd E SpeedOfLight) qmt2)

/-- `sigma`, src/particle.cpp:428-432 = 500-504 -/
noncomputable def vaySigma (rnd : ℝ → ℝ) (qmt2 : ℝ) (P E B : Vec) : ℝ :=
  rnd (rnd (rabs2nd rnd (vayPrime rnd qmt2 P E) + 1.0) - rabs2nd rnd (vmul rnd B qmt2))

/-- the argument of the inner root of eq. (11), src/particle.cpp:434 = 506 -/
noncomputable def vayDisc (rnd : ℝ → ℝ) (qmt2 : ℝ) (P E B : Vec) : ℝ :=
  let sigma := vaySigma rnd qmt2 P E B
  let tau := vmul rnd B qmt2
  let u := rdot rnd (vayPrime rnd qmt2 P E) tau
  rnd (rnd (sigma * sigma) + rnd (4.0 * rnd (rabs2nd rnd tau + rnd (u * u))))

/-- the argument of the outer root of eq. (11), src/particle.cpp:434 = 506 -/
noncomputable def vayGamma2 (rnd : ℝ → ℝ) (qmt2 : ℝ) (P E B : Vec) : ℝ :=
  rnd (0.5 * rnd (vaySigma rnd qmt2 P E B + rnd (Real.sqrt (vayDisc rnd qmt2 P E B))))

/-- eq. (11), src/particle.cpp:434 = 506 -/
noncomputable def vayGamma (rnd : ℝ → ℝ) (qmt2 : ℝ) (P E B : Vec) : ℝ := rnd (Real.sqrt (vayGamma2 rnd qmt2 P E B))

/-- `t`, src/particle.cpp:435 = 507 -/
noncomputable def vayT (rnd : ℝ → ℝ) (qmt2 : ℝ) (P E B : Vec) : Vec := vdiv rnd (vmul rnd B qmt2) (vayGamma rnd qmt2 P E B)

/-- the denominator of eq. (12), src/particle.cpp:437 = 509 -/
noncomputable def vayDen (rnd : ℝ → ℝ) (qmt2 : ℝ) (P E B : Vec) : ℝ := rnd (1 + rabs2nd rnd (vayT rnd qmt2 P E B))

/-- eq. (12), src/particle.cpp:437 = 509 -/
noncomputable def vayMomentum (rnd : ℝ → ℝ) (qmt2 : ℝ) (P E B : Vec) : Vec :=
  let p' := vayPrime rnd qmt2 P E
  let t := vayT rnd qmt2 P E B
  vdiv rnd (vadd rnd (vadd rnd p' (vmul rnd t (rdot rnd p' t))) (rcross rnd p' t)) (vayDen rnd qmt2 P E B)

/-- the argument of the root in `gamma_h`, src/particle.cpp:438 = 494 -/
noncomputable def vayH2 (rnd : ℝ → ℝ) (P : Vec) : ℝ := rnd (rabs2nd rnd P + 1.0)

/-- acceleration, src/particle.cpp:438-440 = 494-496 -/
noncomputable def vayAccel (rnd : ℝ → ℝ) (qm : ℝ) (P E B : Vec) : Vec :=
  vmul rnd (vadd rnd (rcross rnd (vdiv rnd P (rnd (Real.sqrt (vayH2 rnd P)))) B) (vdiv rnd E SpeedOfLight)) qm

/-- no root of a negative number and no division by zero in the half step; src/particle.cpp:479-512 -/
def VayDefined (rnd : ℝ → ℝ) (qmt2 : ℝ) (P E B : Vec) : Prop :=
  0 ≤ vayDisc rnd qmt2 P E B ∧ 0 ≤ vayGamma2 rnd qmt2 P E B ∧ vayGamma rnd qmt2 P E B ≠ 0 ∧ vayDen rnd qmt2 P E B ≠ 0 ∧
    0 ≤ vayH2 rnd P ∧ rnd (Real.sqrt (vayH2 rnd P)) ≠ 0

open Classical in
/-- `InitVay`, src/particle.cpp:407-442 -/
noncomputable def InitVay (rnd : ℝ → ℝ) (p : Particle) (tstep : ℝ) (field : FieldFn) : PRes :=
  if p.NP < 1 then .error (.range, p)
  else if p.Mass = 0 then .error (.nan, p)
  else
    let qm := rnd (rnd (p.Charge / p.Mass) * InvRestMass)
    let qmt2 := rnd (rnd (qm * 0.5) * tstep)
    match p.Time.getLast?, p.X.getLast?, p.P.getLast? with
    | some t, some x, some pm =>
      let p1 := { p with dt := tstep, qm := qm, qmt2 := qmt2, tCur := t, XCur := x, PCur := pm }
      match field t x with
      | .error e => .error (e, p1)
      | .ok EB =>
        let a := vayAccel rnd qm pm EB.E EB.B
        let p2 := { p1 with
          ECur := EB.E, BCur := EB.B
          VYgamma := vayGamma rnd qmt2 pm EB.E EB.B
          VYp := vayMomentum rnd qmt2 pm EB.E EB.B
          ACur := a }
        if ¬ VayDefined rnd qmt2 pm EB.E EB.B then .error (.nan, p2)
        else if p.A = [] then .error (.ub, p2) else .ok { p2 with A := p.A.dropLast ++ [a] }
    | _, _, _ => .error (.ub, p)

open Classical in
/-- `StepVay`, src/particle.cpp:479-512 -/
noncomputable def StepVay (rnd : ℝ → ℝ) (p : Particle) (field : FieldFn) : PRes :=
  if p.VYgamma = 0 then .error (.nan, p)
  else
    let beta_i := vdiv rnd p.VYp p.VYgamma
    let t := rnd (p.tCur + p.dt)
    let x := vadd rnd p.XCur (vmul rnd (vmul rnd beta_i SpeedOfLight) p.dt)
    let p1 := { p with tCur := t, XCur := x }
    match field t x with
    | .error e => .error (e, p1)
    | .ok EB =>
      let P := vadd rnd p.VYp (vmul rnd (vadd rnd (vdiv rnd EB.E SpeedOfLight) (rcross rnd beta_i EB.B)) p.qmt2)
      let a := vayAccel rnd p.qm P EB.E EB.B
      let p2 := { p1 with
        ECur := EB.E, BCur := EB.B, PCur := P, ACur := a
        VYgamma := vayGamma rnd p.qmt2 P EB.E EB.B
        VYp := vayMomentum rnd p.qmt2 P EB.E EB.B }
      if ¬ VayDefined rnd p.qmt2 P EB.E EB.B then .error (.nan, p2) else .ok (p2.storeTrajectoryPoint t x P a)

/-- a tracking run, see `Particle.steps`; src/beam.cpp:124-157, src/bunch.cpp:480-486 -/
noncomputable def steps (rnd : ℝ → ℝ) (p : Particle) (fields : List FieldFn) : PRes :=
  fields.foldlM (fun p f => StepVay rnd p f) p

end Rounded
end Teufel
