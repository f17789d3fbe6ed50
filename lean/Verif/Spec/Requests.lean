import Verif.Model.Parser

/-!
# Input files with fewer requests for output

`Fewer doc' doc`: the document `doc'` is obtained from `doc` by removing requests for output - observers, watch points, the probe and the logs of bunches and
particles - and nothing else.
-/

namespace Teufel
namespace Input

/-- `new` is obtained from `old` by leaving out some of the nodes with the property `drop` -/
inductive Thinned (drop : Xml → Prop) : List Xml → List Xml → Prop
  | nil : Thinned drop [] []
  | keep (x : Xml) {new old : List Xml} : Thinned drop new old → Thinned drop (x :: new) (x :: old)
  | skip (x : Xml) {new old : List Xml} : drop x → Thinned drop new old → Thinned drop new (x :: old)

/-- a request for the parameters or the trajectories of the particles of a beam entry -/
def isLog (x : Xml) : Prop := x.name = "log" ∨ x.name = "trajectories"

/-- an entry of the beam section without its requests for logs, or unchanged -/
def FewerLogs (e' e : Xml) : Prop :=
  e'.name = e.name ∧ e'.attrs = e.attrs ∧ ∃ log traj : Bool, e'.children = e.children.filter (fun c => (log || c.name != "log") && (traj || c.name != "trajectories"))

/-- a watch point -/
def isWatch (x : Xml) : Prop := x.name = "watch" ∨ x.name = "watch-sdds"

/-- an observer that contains no definitions of variables -/
def isObserver (x : Xml) : Prop := x.name ≠ "calc" ∧ ∀ c ∈ x.children, c.name ≠ "calc"

/-- a section of the input file with fewer requests -/
def FewerIn (s' s : Xml) : Prop :=
  s'.name = s.name ∧ s'.attrs = s.attrs ∧
    (if s.name = "beam" then ∃ probe : Bool, List.Forall₂ FewerLogs s'.children (s.children.filter (fun c => probe || c.name != "probe"))
     else if s.name = "tracking" then Thinned isWatch s'.children s.children
     else if s.name = "observer" then Thinned isObserver s'.children s.children
     else s' = s)

/-- an input file with fewer requests -/
def Fewer (doc' doc : Xml) : Prop :=
  ∃ root' root, doc'.child "teufel" = some root' ∧ doc.child "teufel" = some root ∧ List.Forall₂ FewerIn root'.children root.children

end Input
end Teufel
