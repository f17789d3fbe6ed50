import Verif.Model.Fields

/-!
# Reversal of time

If the course of time is reversed charges stay what they are, velocities, currents and with them magnetic fields change their sign.
-/

namespace Teufel
open Vec

/-- the field as it is seen when time runs backwards -/
noncomputable def EMField.reversed (F : EMField) : EMField := ⟨F.E, -F.B⟩

/-- At every place the field `g` shows from the time `s` on what `f` shows if it is followed from the time `t` into the past. -/
def Rewound (f : FieldFn) (t : ℝ) (g : FieldFn) (s : ℝ) : Prop :=
  ∀ d x, g (s + d) x = (f (t - d) x).map EMField.reversed

end Teufel
