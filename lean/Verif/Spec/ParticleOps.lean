import Verif.Model.Particle

/-! Histories of operations on a particle -/

namespace Teufel

/-- the public mutating operations on a particle -/
inductive POp
  | init (t : ℝ) (x p a : Vec)
  | setCurrent (t : ℝ) (x p a : Vec)
  | store (t : ℝ) (x p a : Vec)
  | clear
  | preAllocate (n : Int)
  | shift (d : Vec) (f : ℝ)
  | mirror (o n : Vec) (f : ℝ)
  | initVay (dt : ℝ) (field : FieldFn)
  | stepVay (field : FieldFn)
  | copy

/-- the object after an operation: exceptions leave the object in the state it had when the exception
was thrown, and the caller carries on with it -/
noncomputable def POp.result (p : Particle) : POp → PRes
  | .init t x pm a => .ok (p.initTrajectory t x pm a)
  | .setCurrent t x pm a => .ok (p.setCurrentPoint t x pm a)
  | .store t x pm a => .ok (p.storeTrajectoryPoint t x pm a)
  | .clear => .ok p.clearTrajectory
  | .preAllocate n => .ok (p.preAllocate n)
  | .shift d f => p.Shift d f
  | .mirror o n f => p.Mirror o n f
  | .initVay dt field => p.InitVay dt field
  | .stepVay field => p.StepVay field
  | .copy => .ok p.copy

/-- state after the operation, whatever its outcome -/
noncomputable def POp.exec (p : Particle) (o : POp) : Particle :=
  match o.result p with
  | .ok p' => p'
  | .error (_, p') => p'

/-- the exception raised, if any -/
noncomputable def POp.raised (p : Particle) (o : POp) : Option Err :=
  match o.result p with
  | .ok _ => none
  | .error (e, _) => some e

/-- a particle as a constructor leaves it: one of the four data-less constructors, or a constructor
restoring a message received from another node -/
def Particle.Fresh (p : Particle) : Prop :=
  (∃ q m, p = Particle.new q m) ∨ (∃ q m n, p = Particle.newPre q m n) ∨ p = Particle.default ∨
  (∃ buf, Particle.fromBuffer buf = .ok p) ∨ (∃ junk buf nTraj nPre, Particle.fromTraj junk buf nTraj nPre = .ok p)

/-- every particle a program can hold: constructed, then any history of public operations, including
operations that raised an exception -/
def Particle.Reachable (p : Particle) : Prop :=
  ∃ start : Particle, ∃ ops : List POp, start.Fresh ∧ p = ops.foldl POp.exec start

end Teufel
