import Verif.Model.Beam
import Verif.Spec.ParticleOps

/-! Histories of operations on bunches and beams -/

namespace Teufel

/-- the documented record of one particle in a probe buffer (src/particle.h:184-190): time, position, momentum,
acceleration, electric and magnetic field -/
def Particle.probeRecord (p : Particle) : List ℝ :=
  [p.tCur, p.XCur.x, p.XCur.y, p.XCur.z, p.PCur.x, p.PCur.y, p.PCur.z, p.ACur.x, p.ACur.y, p.ACur.z,
   p.ECur.x, p.ECur.y, p.ECur.z, p.BCur.x, p.BCur.y, p.BCur.z]

/-- the object after an operation, whether or not it raised an exception -/
def Outcome {α : Type} (r : Except (Err × α) α) (b : α) : Prop := r = .ok b ∨ ∃ e, e ≠ Err.ub ∧ r = .error (e, b)

/-- every bunch a program can hold: made by a constructor, then any history of public operations, including
those that raised an exception -/
inductive Bunch.Reachable : Bunch → Prop
  | empty : Reachable .empty
  | ofCount (N : Nat) (q m : ℝ) : Reachable (.ofCount N q m)
  | copy {b b' : Bunch} : Reachable b → b.copy = .ok b' → Reachable b'
  | ofDist {b : Bunch} (d : Distribution) (t : ℝ) (x p : Vec) (q m : ℝ) : Bunch.ofDist d t x p q m = .ok b → Reachable b
  | Add {b : Bunch} (p : Particle) : Reachable b → p.Reachable → Reachable (b.Add p)
  | replace {b b' : Bunch} (i : Int) (p : Particle) : Reachable b → p.Reachable → b.replaceParticle i p = .ok b' → Reachable b'
  | corr {b b' : Bunch} (i j : Int) (f : ℝ) : Reachable b → Outcome (b.addCorrelation i j f) b' → Reachable b'
  | clear {b b' : Bunch} : Reachable b → Outcome b.clearTrajectories b' → Reachable b'
  | preAllocate {b b' : Bunch} (n : Int) : Reachable b → Outcome (b.preAllocate n) b' → Reachable b'
  | initVay {b b' : Bunch} (dt : ℝ) (f : FieldFn) : Reachable b → Outcome (b.InitVay dt f) b' → Reachable b'
  | stepVay {b b' : Bunch} (f : FieldFn) : Reachable b → Outcome (b.StepVay f) b' → Reachable b'
  | setStep {b b' : Bunch} (buf rest : List ℝ) : Reachable b → b.setStepFromBuffer buf = .ok (b', rest) → Reachable b'

/-- every beam a program can hold -/
inductive Beam.Reachable : Beam → Prop
  | empty : Reachable .empty
  | Add {b : Beam} (bu : Bunch) : Reachable b → bu.Reachable → Reachable (b.Add bu)
  | clear {b : Beam} : Reachable b → Reachable b.clear
  | clearTrajectories {b b' : Beam} : Reachable b → Outcome b.clearTrajectories b' → Reachable b'
  | preAllocate {b b' : Beam} (n : Int) : Reachable b → Outcome (b.preAllocate n) b' → Reachable b'
  | setTimeStep {b : Beam} (dt : ℝ) : Reachable b → Reachable { b with dt := dt }
  | setTracking {b : Beam} (t : Tracker) : Reachable b → Reachable { b with tracker := t }
  | setNOTS {b : Beam} (n : Int) : Reachable b → Reachable { b with NOTS := n }
  | setup {b b' : Beam} (f : FieldFn) : Reachable b → Outcome (b.setupTracking f) b' → Reachable b'
  | doStep {b b' : Beam} (f : FieldFn) : Reachable b → Outcome (b.doStep f) b' → Reachable b'
  | setStep {b b' : Beam} (buf : List ℝ) : Reachable b → b.setStepFromBuffer buf = .ok b' → Reachable b'

end Teufel
