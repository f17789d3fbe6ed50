import Verif.Model.Elements

/-!
# Fields without jumps
-/

namespace Teufel
open Vec

/-- The field is defined everywhere.  In every bounded region of space and time it changes at most in proportion to the distance. -/
def RegularField (field : FieldFn) : Prop :=
  ∀ R : ℝ, ∃ L : ℝ, ∀ (t t' : ℝ) (X X' : Vec), |t| ≤ R → |t'| ≤ R → X.norm ≤ R → X'.norm ≤ R →
    ∃ F F' : EMField, field t X = .ok F ∧ field t' X' = .ok F' ∧
      (F'.E - F.E).norm ≤ L * (|t' - t| + (X' - X).norm) ∧ (F'.B - F.B).norm ≤ L * (|t' - t| + (X' - X).norm)

/-- The lattice elements whose fields have no jumps, at any place and time: all but hard-edge dipoles.  Ramps of undulators may have kinks.
Undulators need a positive period or number of periods; transition lengths, wavelengths, Rayleigh lengths and packet lengths must not vanish. -/
inductive Jumpless : GeneralField → Prop
  | homogeneous (E B : Vec) : Jumpless (HomogeneousField E B)
  | planar (u : PlanarUndulator) (t0 : ℝ) (origin : Vec) : 0 ≤ u.LambdaU ∨ 0 ≤ u.NPeriods → Jumpless (LocalizedField u.LocalField t0 origin)
  | gradient (u : TransverseGradientUndulator) (t0 : ℝ) (origin : Vec) : 0 ≤ u.LambdaU ∨ 0 ≤ u.NPeriods → Jumpless (LocalizedField u.LocalField t0 origin)
  | softEdge (d : SoftEdgeDipole) (t0 : ℝ) (origin : Vec) : d.t_1 ≠ 0 → d.t_2 ≠ 0 → Jumpless (LocalizedField d.LocalField t0 origin)
  | wave (lambda : ℝ) (A : ℂ) (zR t0 : ℝ) (origin : Vec) : 0 < lambda * zR → Jumpless (LocalizedField (GaussianWave.Setup lambda A zR).LocalField t0 origin)
  | packet (lambda : ℝ) (A : ℂ) (zR tau t0 : ℝ) (origin : Vec) : 0 < lambda * zR → tau ≠ 0 →
      Jumpless (LocalizedField ((GaussianWave.Setup lambda A zR).PacketField tau) t0 origin)

end Teufel
