import Verif.Model.Fields

/-! Specification of the Liénard-Wiechert field (textbook form), independent of the code model. -/

namespace Teufel
open Vec

/-- Electric field at `obs` of a point charge `q` (in Coulomb) which at the retarded time is at `x`, has
velocity `c β` and `dβ/dt = β'`:
`E = q/(4π ε₀) [ (n-β)/(γ² (1-n·β)³ R²) + n × ((n-β) × β') / (c (1-n·β)³ R) ]`, with `γ² = 1/(1-β²)`. -/
noncomputable def LWE (q : ℝ) (x beta betaDot obs : Vec) : Vec :=
  let R := Vec.norm (obs - x)
  let n : Vec := (obs - x) / R
  let k := 1 - dot n beta
  ((n - beta) * ((1 - dot beta beta) / (k ^ 3 * R ^ 2)) +
    cross n (cross (n - beta) betaDot) * (1 / (SpeedOfLight * k ^ 3 * R))) * (q / (4 * Real.pi * EpsNull))

/-- the electromagnetic field: `B = n × E / c` -/
noncomputable def LW (q : ℝ) (x beta betaDot obs : Vec) : EMField :=
  ⟨LWE q x beta betaDot obs, cross ((obs - x) / Vec.norm (obs - x)) (LWE q x beta betaDot obs) / SpeedOfLight⟩

/-- velocity in units of c for the momentum `p = βγ` -/
noncomputable def betaOf (p : Vec) : Vec := p / Real.sqrt (1 + Vec.norm p ^ 2)

/-- time derivative of the velocity (in units of c) for momentum `p = βγ` and its time derivative `a`:
`dβ/dt = (a - β (β·a)) / γ` (see `betaDotOf_is_derivative`) -/
noncomputable def betaDotOf (p a : Vec) : Vec :=
  (a - betaOf p * dot (betaOf p) a) / Real.sqrt (1 + Vec.norm p ^ 2)

end Teufel
