import Verif.Model.Particle

/-!
# Mirror images and exchange of the sign of charge

A `Mirror` changes the signs of some of the coordinates and, if `e = -1`, the sign of all charges and fields.
-/

namespace Teufel

/-- the signs of the coordinates and of the charges -/
structure Mirror where
  sx : ℝ
  sy : ℝ
  sz : ℝ
  e : ℝ
  hx : sx = 1 ∨ sx = -1
  hy : sy = 1 ∨ sy = -1
  hz : sz = 1 ∨ sz = -1
  he : e = 1 ∨ e = -1

namespace Mirror

/-- the mirror image of a position, velocity, momentum or electric field -/
noncomputable def vec (S : Mirror) (v : Vec) : Vec := ⟨S.sx * v.x, S.sy * v.y, S.sz * v.z⟩

/-- the mirror image of a magnetic field: the components along a reversed axis stay, the others change -/
noncomputable def axial (S : Mirror) (v : Vec) : Vec := ⟨S.sy * S.sz * v.x, S.sx * S.sz * v.y, S.sx * S.sy * v.z⟩

/-- the mirror image of a field -/
noncomputable def field (S : Mirror) (f : FieldFn) : FieldFn := fun t X => (f t (S.vec X)).map fun F => ⟨S.vec F.E * S.e, S.axial F.B * S.e⟩

/-- the mirror image of a particle and of its trajectory -/
noncomputable def particle (S : Mirror) (p : Particle) : Particle :=
  { p with
    Charge := S.e * p.Charge
    XCur := S.vec p.XCur, PCur := S.vec p.PCur, ACur := S.vec p.ACur, ECur := S.vec p.ECur * S.e, BCur := S.axial p.BCur * S.e
    X := p.X.map S.vec, P := p.P.map S.vec, A := p.A.map S.vec
    qm := S.e * p.qm, qmt2 := S.e * p.qmt2, VYp := S.vec p.VYp }

/-- the mirror image of the outcome of a tracking call -/
noncomputable def outcome (S : Mirror) : Except (Err × Particle) Particle → Except (Err × Particle) Particle
  | .ok p => .ok (S.particle p)
  | .error (e, p) => .error (e, S.particle p)

end Mirror
end Teufel
