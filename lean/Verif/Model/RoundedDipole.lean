import Verif.Model.RoundedElements

/-!
# Hard-edge dipoles with rounded numbers
-/

namespace Teufel
open Vec

namespace Rounded

open Classical in
/-- `HardEdgeDipole::LocalField`, src/dipole.cpp:108-118, with the rounded `operator-` and `dot` of src/vector.cpp:67-74 and 153-160 -/
noncomputable def hardEdgeField (rnd : ℝ → ℝ) (d : HardEdgeDipole) : FieldFn := fun _ X =>
  let d1 := rdot rnd (vsub rnd X d.p_1) d.n_1
  let d2 := rdot rnd (vsub rnd X d.p_2) d.n_2
  .ok ⟨0, if d1 < 0 ∧ d2 < 0 then d.B_val else 0⟩

end Rounded
end Teufel
