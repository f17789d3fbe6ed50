import Verif.Model.Basic
import Verif.Model.Observers

/-!
# Sums of contributions

Vocabulary for C116.
-/

namespace Teufel

/-- what the particles `ps` contribute to component `k` (0, 1, 2 for the electric, 3, 4, 5 for the magnetic field) of sample
`i` of a trace; `c p` lists the contributions of the particle `p`, with the index of the sample they belong to -/
def contributions {α} (c : α → List (Int × EMField)) (ps : List α) (i k : Nat) : List ℝ :=
  ((ps.flatMap c).filter (fun a => a.1 = (i : Int))).map (fun a => a.2.comps.getD k 0)

end Teufel
