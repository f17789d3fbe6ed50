import Verif.Model.Parser
import Verif.Spec.Observers

/-! # Specification: runs of different length -/

namespace Teufel

/-- the input files differ in the number of time steps only, which is the attribute `n` of `<tracking>` -/
def OtherSteps (doc doc' : Xml) : Prop :=
  ∃ root root', doc.child "teufel" = some root ∧ doc'.child "teufel" = some root' ∧
    List.Forall₂ (fun c c' : Xml => c' = c ∨ (c.name = "tracking" ∧ c'.name = "tracking" ∧ c'.children = c.children ∧ ∀ a, a ≠ "n" → c'.attr a = c.attr a)) root.children root'.children

/-- length of the time interval over which a sample is averaged; snapshots are not averaged -/
noncomputable def Observer.sampleStep (o : Observer) (k : Observer.Key) : Option ℝ :=
  match o with
  | .screen s => some s.dt
  | .snapshot _ => none
  | .point s => some s.trace.dt
  | .mesh s => (s.A[k.1.1]?).map FieldTrace.dt

end Teufel
