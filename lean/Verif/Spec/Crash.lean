import Verif.Spec.Coupled
import Verif.Model.Program

/-! # Specification: the particles during a step

Particles are written to files between their own step and the step of the interactions. -/

namespace Teufel

/-- The particles after `k` time steps, when the interactions have advanced `k-1` times only. -/
noncomputable def Coupled.particles (ext : Lattice) (dt : ℝ) (ps : List Particle) (s : List FEL) : Nat → Except Err (List Particle)
  | 0 => ps.mapM (fun p : Particle => dropState ((p.initTrajectory p.tCur p.XCur p.PCur p.ACur).InitVay dt (field ext s)))
  | k + 1 => do
    let before ← after ext dt ps s k
    before.1.mapM (fun p : Particle => dropState (p.StepVay (field ext before.2)))

/-- `d` is what a watch point `x` writes of the particles `bs`: positions and momenta in the order of the particles (HDF5), or rows with time,
position, momentum, Lorentz factor and slopes (SDDS).  Nothing is said about the total charge in the SDDS file. -/
def ShowsBeam (x : Watch) (bs : List Particle) (d : WatchData) : Prop :=
  (x.type = .hdf5 → d = .hdf5 bs.length (bs.flatMap (fun b => [b.XCur.x, b.XCur.y, b.XCur.z, b.PCur.x, b.PCur.y, b.PCur.z]))) ∧
  (x.type = .sdds → ∃ charge rows, d = .sdds bs.length charge rows ∧
    List.Forall₂ (fun (b : Particle) (row : SddsRow) => row.t = b.tCur ∧ row.x = b.XCur.x ∧ row.y = b.XCur.y ∧ row.z = b.XCur.z ∧
      row.px = b.PCur.x ∧ row.py = b.PCur.y ∧ row.pz = b.PCur.z ∧ row.p ^ 2 = b.PCur.x ^ 2 + b.PCur.y ^ 2 + b.PCur.z ^ 2 ∧ 0 ≤ row.p ∧
      row.gamma ^ 2 = 1 + row.p ^ 2 ∧ 1 ≤ row.gamma ∧
      (b.PCur.z ≠ 0 → row.xp = .ok (b.PCur.x / b.PCur.z) ∧ row.yp = .ok (b.PCur.y / b.PCur.z)) ∧ (b.PCur.z = 0 → row.xp = .error .nan ∧ row.yp = .error .nan)) bs rows)

/-- `f` is the complete and correct file of the watch point `x`: it shows the particles after the step of `x` -/
def WatchFileOf (ext : Lattice) (dt : ℝ) (ps : List Particle) (s : List FEL) (x : Watch) (f : OutFile) : Prop :=
  0 ≤ x.step ∧ ∃ d bs, f = ⟨x.filename, .watch d⟩ ∧ Coupled.particles ext dt ps s x.step.toNat = .ok bs ∧ ShowsBeam x bs d

end Teufel
