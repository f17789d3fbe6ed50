import Verif.Model.Fields
import Mathlib.MeasureTheory.Integral.IntervalIntegral.Basic

/-!
# The field of a charge in uniform motion

Coulomb's law in the rest frame of the charge, transformed to the laboratory frame by a Lorentz boost.
-/

namespace Teufel
open Vec

/-- Coulomb's law: electric field of the charge `q` (Coulomb) at rest, at the distance vector `r` -/
noncomputable def coulomb (q : ℝ) (r : Vec) : Vec := r * (q / (4 * Real.pi * EpsNull) / Vec.norm r ^ 3)

/-- Lorentz factor of the velocity `b` (units of c) -/
noncomputable def lorentz (b : Vec) : ℝ := 1 / Real.sqrt (1 - b.abs2nd)

/-- Distance vector in the rest frame of a charge with the velocity `b` of a point which in the laboratory frame has the distance vector `r` from the
present position of the charge: the component along `b` is longer by the Lorentz factor. -/
noncomputable def restFrame (b r : Vec) : Vec := r + b * (dot b r * (lorentz b ^ 2 / (1 + lorentz b)))

/-- Lorentz transformation of a purely electric field `E` in a frame that moves with the velocity `b` to the laboratory frame -/
noncomputable def boost (b E : Vec) : EMField :=
  ⟨E * lorentz b - b * (dot b E * (lorentz b ^ 2 / (1 + lorentz b))), cross b E * (lorentz b / SpeedOfLight)⟩

/-- field of the charge `q` moving uniformly with the velocity `b`, at the distance vector `r` from its present position -/
noncomputable def boosted (q : ℝ) (b r : Vec) : EMField := boost b (coulomb q (restFrame b r))

/-- directions in spherical coordinates about the axis `ez` -/
noncomputable def direction (ex ey ez : Vec) (θ φ : ℝ) : Vec := ex * (Real.sin θ * Real.cos φ) + ey * (Real.sin θ * Real.sin φ) + ez * Real.cos θ

/-- flux of the electric field through the sphere of the given radius -/
noncomputable def sphereFlux (E : Vec → Vec) (centre ex ey ez : Vec) (radius : ℝ) : ℝ :=
  ∫ φ in (0 : ℝ)..(2 * Real.pi), ∫ θ in (0 : ℝ)..Real.pi,
    dot (E (centre + direction ex ey ez θ φ * radius)) (direction ex ey ez θ φ) * (radius ^ 2 * Real.sin θ)

end Teufel
