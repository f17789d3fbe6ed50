import Verif.Model.Retarded

/-!
# Macro-particles representing the same charge

A macro-particle stands for many electrons moving together.  It may be replaced by several macro-particles which share its charge and its mass.
-/

namespace Teufel

/-- a macro-particle in the same state with `k` times the charge and `k` times the mass -/
noncomputable def Particle.weigh (k : ℝ) (p : Particle) : Particle := { p with Charge := k * p.Charge, Mass := k * p.Mass }

/-- the macro-particles `qs` are in the state of `p` and share its charge and mass -/
def Shared (p : Particle) (qs : List Particle) : Prop := ∃ ks : List ℝ, (∀ k ∈ ks, k ≠ 0) ∧ ks.sum = 1 ∧ qs = ks.map (fun k => p.weigh k)

/-- `qs` is obtained from `ps` by replacing every macro-particle by others sharing its charge and mass -/
inductive Divided : List Particle → List Particle → Prop
  | nil : Divided [] []
  | cons {p : Particle} {part ps qs : List Particle} : Shared p part → Divided ps qs → Divided (p :: ps) (part ++ qs)

end Teufel
