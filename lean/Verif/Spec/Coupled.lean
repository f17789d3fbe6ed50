import Verif.Model.Program

/-! # Specification: particles and interactions advance together

The simulation without nodes, buffers, master beams and output: one list of particles and one list of FEL interactions. -/

namespace Teufel

/-- the field felt by the particles: the sum of the field of the lattice and of the fields of the interactions -/
noncomputable def Coupled.field (ext : Lattice) (s : List FEL) : FieldFn := fun t X => do
  let F ← Lattice.field ext t X
  let Gs ← s.mapM (fun f : FEL => f.Field t X)
  return F + Gs.sum

/-- The particles `ps` and the interactions `s` after `k` time steps of length `dt`.  Every particle moves in the field which
lattice and interactions have at the beginning of the step; then every interaction advances with the particles at
their new positions. -/
noncomputable def Coupled.after (ext : Lattice) (dt : ℝ) (ps : List Particle) (s : List FEL) : Nat → Except Err (List Particle × List FEL)
  | 0 => do
    let qs ← ps.mapM (fun p : Particle => dropState ((p.initTrajectory p.tCur p.XCur p.PCur p.ACur).InitVay dt (field ext s)))
    let s' ← s.mapM (FEL.init ⟨1, [⟨qs.length, qs⟩], 0, dt, .vay⟩)
    return (qs, s')
  | k + 1 => do
    let before ← after ext dt ps s k
    let qs ← before.1.mapM (fun p : Particle => dropState (p.StepVay (field ext before.2)))
    let s' ← before.2.mapM (FEL.step ⟨1, [⟨qs.length, qs⟩], k + 1, dt, .vay⟩)
    return (qs, s')

/-- the part of a list of all particles which belongs to bunch `b` of the beam `m` -/
def Coupled.bunch (m : Beam) (b : Nat) (ps : List Particle) : List Particle :=
  (ps.drop ((m.B.take b).map (fun bu : Bunch => bu.P.length)).sum).take ((m.B[b]?.map (fun bu : Bunch => bu.P.length)).getD 0)

/-- `q` and `p` are in the same state: charge and mass, time, position, momentum and acceleration -/
structure SameState (q p : Particle) : Prop where
  charge : q.Charge = p.Charge
  mass : q.Mass = p.Mass
  t : q.tCur = p.tCur
  X : q.XCur = p.XCur
  P : q.PCur = p.PCur
  A : q.ACur = p.ACur

end Teufel
