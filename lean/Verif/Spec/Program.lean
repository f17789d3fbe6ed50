import Verif.Model.Program
import Verif.Spec.Observers
import Verif.Spec.ObserverFiles

/-!
# Specification of the program as a whole
-/

namespace Teufel

/-- two outcomes are the same: both are errors, or both are results and equal -/
def Agree {α : Type} (r r' : Except Err α) : Prop :=
  match r, r' with
  | .ok a, .ok b => a = b
  | .error _, .error _ => True
  | _, _ => False

/-- the file `d`, written for an observer like `o`, contains the field `F` for the sample `k`, which is at the place `X`: the row of a
table with time and field (without the place), elements of the arrays `ElMagField` and `ObservationPosition`, or elements of the lists of
fields and positions of a mesh (the samples of one cell follow each other) -/
def Shows (o : Observer) (d : FileData) (k : Observer.Key) (X : Vec) (F : EMField) : Prop :=
  match o, d with
  | .point s, .point f => f.rows[k.2]? = some [s.trace.t0 + k.2 * s.trace.dt, F.E.x, F.E.y, F.E.z, F.B.x, F.B.y, F.B.z]
  | .screen _, .hdf5 f => f.field "ElMagField" [k.1.1, k.1.2, k.2] F ∧ f.vec "ObservationPosition" [k.1.1, k.1.2] X
  | .snapshot _, .hdf5 f => f.field "ElMagField" [k.1.1, k.1.2] F ∧ f.vec "ObservationPosition" [k.1.1, k.1.2] X
  | .mesh s, .mesh f => f.field.bind (fun l => l[k.1.1 * s.Nt + k.2]?) = some F ∧ f.points[k.1.1]? = some X
  | _, _ => False

end Teufel
