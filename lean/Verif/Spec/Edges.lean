import Verif.Spec.Motion
import Verif.Spec.Regular

/-!
# Beam lines with hard-edge dipoles, and the exact motion in them

A face is a plane, given by one of its points and a normal.  The field of a hard-edge dipole jumps at its two faces.
-/

namespace Teufel
open Vec

/-- the faces of a lattice element at which its field may jump -/
inductive Faced : GeneralField → List (Vec × Vec) → Prop
  | jumpless {e : GeneralField} : Jumpless e → Faced e []
  | hardEdge (d : HardEdgeDipole) (t0 : ℝ) (origin : Vec) :
      Faced (LocalizedField d.LocalField t0 origin) [(d.p_1 + origin, d.n_1), (d.p_2 + origin, d.n_2)]

/-- the faces of all elements of a lattice -/
inductive LatticeFaces : Lattice → List (Vec × Vec) → Prop
  | nil : LatticeFaces [] []
  | cons {e : GeneralField} {l : Lattice} {fs gs : List (Vec × Vec)} : Faced e fs → LatticeFaces l gs → LatticeFaces (e :: l) (fs ++ gs)

/-- the point lies on the plane of the face -/
def OnFace (X : Vec) (f : Vec × Vec) : Prop := dot (X - f.1) f.2 = 0

/-- The relativistic motion in a field which jumps at the given faces.  The position obeys dx/dt = β c all the time, the momentum is continuous and obeys
dp/dt = q/(m c) (E + β c × B) while the particle is on none of the faces, and the particle never moves within a face. -/
structure EdgeMotion (qm : ℝ) (field : FieldFn) (faces : List (Vec × Vec)) (x p : ℝ → Vec) (t0 T : ℝ) : Prop where
  position : ∀ t, t0 ≤ t → t ≤ t0 + T → HasVelocity x (velOf (p t) * SpeedOfLight) t
  continuous : ContinuousOn (fun t => (p t).x) (Set.Icc t0 (t0 + T)) ∧ ContinuousOn (fun t => (p t).y) (Set.Icc t0 (t0 + T)) ∧
    ContinuousOn (fun t => (p t).z) (Set.Icc t0 (t0 + T))
  momentum : ∀ t, t0 ≤ t → t ≤ t0 + T → (∀ f ∈ faces, ¬ OnFace (x t) f) → ∃ EB, field t (x t) = .ok EB ∧
    HasVelocity p ((EB.E + cross (velOf (p t) * SpeedOfLight) EB.B) * (qm / SpeedOfLight)) t
  crossing : ∀ t, t0 ≤ t → t ≤ t0 + T → ∀ f ∈ faces, OnFace (x t) f → dot (velOf (p t)) f.2 ≠ 0

end Teufel
