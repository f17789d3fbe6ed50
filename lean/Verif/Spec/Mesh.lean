import Verif.Model.Mesh

/-!
# Specification: triangulated surfaces
-/

namespace Teufel

open Vec

namespace Mesh

/-- the cell `ip` is the triangle with the corners `a`, `b`, `c` -/
def Corners (m : Mesh) (ip : Nat) (a b c : Vec) : Prop :=
  ∃ t : Tri, m.triangles[ip]? = some t ∧ 0 ≤ t.p1 ∧ 0 ≤ t.p2 ∧ 0 ≤ t.p3 ∧
    m.corners[t.p1.toNat]? = some a ∧ m.corners[t.p2.toNat]? = some b ∧ m.corners[t.p3.toNat]? = some c

/-- every cell refers to existing corner points -/
def Valid (m : Mesh) : Prop := ∀ ip < m.Np, ∃ a b c, m.Corners ip a b c

/-- three vectors that form a right-handed cartesian system -/
def RightHanded (ex ey ez : Vec) : Prop :=
  dot ex ex = 1 ∧ dot ey ey = 1 ∧ dot ez ez = 1 ∧ dot ex ey = 0 ∧ dot ey ez = 0 ∧ dot ez ex = 0 ∧ cross ex ey = ez

/-- the cell `ip` has a right-handed local frame -/
def Framed (g : MeshGeometry) (ip : Nat) (xi eta n : Vec) : Prop :=
  g.xi[ip]? = some (.ok xi) ∧ g.eta[ip]? = some (.ok eta) ∧ g.normal[ip]? = some (.ok n) ∧ RightHanded xi eta n

/-- two cells have a common corner -/
def Touch (m : Mesh) (i j : Nat) : Prop :=
  ∃ t u : Tri, m.triangles[i]? = some t ∧ m.triangles[j]? = some u ∧
    ∃ k : Int, (k = t.p1 ∨ k = t.p2 ∨ k = t.p3) ∧ (k = u.p1 ∨ k = u.p2 ∨ k = u.p3)

/-- energy that passes the triangle `a`, `b`, `c` in the direction of `(b-a)×(c-a)` for the energy flow density `S` -/
noncomputable def through (S a b c : Vec) : ℝ := dot S (cross (b - a) (c - a)) / 2

/-- all traces have the sampling of the mesh -/
def WellSampled (m : Mesh) : Prop :=
  m.corners.length = m.Ncp ∧ m.points.length = m.Np ∧ m.triangles.length = m.Np ∧ m.A.length = m.Np ∧
    ∀ tr ∈ m.A, tr.WF ∧ tr.N = m.Nt ∧ tr.dt = m.dt

end Mesh

end Teufel
