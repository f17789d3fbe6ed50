import Verif.Spec.Radiation
import Verif.Spec.Observers

/-!
# The exact motion of the particles of a beam

What the particles of the beam of a run do according to the equations of motion, and how the samples of an observer are taken.
-/

namespace Teufel
open Vec

/-- the exact motion of a charged particle -/
structure Charge where
  /-- ratio of charge and mass (C/kg) -/
  qm : ℝ
  /-- charge (Coulomb) -/
  q : ℝ
  /-- position -/
  x : ℝ → Vec
  /-- momentum in units of m c -/
  p : ℝ → Vec
  /-- time of the start -/
  t0 : ℝ

/-- it obeys the equation of motion in the given field for the time `T`; the field near its path is Lipschitz continuous -/
structure Charge.Moves (c : Charge) (field : FieldFn) (T : ℝ) : Prop where
  motion : Motion c.qm field c.x c.p c.t0 T
  smooth : Smooth c.p
  tame : ∃ r L Bm, 0 < r ∧ 0 ≤ L ∧ TameNear field c.x c.t0 T r L Bm

/-- there is no electric field on its path -/
def Charge.NoElectric (c : Charge) (field : FieldFn) (T : ℝ) : Prop :=
  ∀ t, c.t0 ≤ t → t ≤ c.t0 + T → ∀ EB, field t (c.x t) = .ok EB → EB.E = 0

/-- a particle starting in this motion: same charge and ratio of charge and mass, and its time, position and momentum are those at the start -/
structure Charge.Starts (c : Charge) (a : Particle) : Prop where
  mass : a.Mass ≠ 0
  qm : a.Charge / a.Mass * InvRestMass = c.qm
  q : a.Charge * ElementaryCharge = c.q
  time : a.tCur = c.t0
  position : a.XCur = c.x c.t0
  momentum : a.PCur = c.p c.t0

/-- the time over which the sample `k` is averaged, and the number of samples of its trace; a snapshot has no traces -/
noncomputable def Observer.sampling (o : Observer) (k : Observer.Key) : Except Err (ℝ × Nat) :=
  match o with
  | .screen s => .ok (s.dt, s.NOTS)
  | .snapshot _ => .error .io
  | .point s => .ok (s.trace.dt, s.trace.N)
  | .mesh s => do
    let tr ← MeshObs.at' s.A k.1.1
    return (tr.dt, s.Nt)

end Teufel
