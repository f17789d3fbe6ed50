import Verif.Model.Retarded

/-!
# Planes

A plane is given by one of its points and a normal vector.
-/

namespace Teufel
open Vec

/-- a plane in space -/
structure Plane where
  point : Vec
  normal : Vec

namespace Plane

/-- a position in the plane -/
def Has (π : Plane) (x : Vec) : Prop := dot (x - π.point) π.normal = 0

/-- a direction along the plane -/
def Along (π : Plane) (v : Vec) : Prop := dot v π.normal = 0

/-- an electromagnetic field whose electric part is along the plane and whose magnetic part is perpendicular to it -/
def Polarised (π : Plane) (f : EMField) : Prop := π.Along f.E ∧ cross f.B π.normal = 0

/-- in the plane, the external field is of this kind -/
def Guides (π : Plane) (f : FieldFn) : Prop := ∀ t x EB, π.Has x → f t x = .ok EB → π.Polarised EB

/-- the plane of a machine built on a table: y = 0 -/
noncomputable def horizontal : Plane := ⟨0, ⟨0, 1, 0⟩⟩

end Plane
end Teufel
