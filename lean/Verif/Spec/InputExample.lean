import Verif.Spec.Input

/-!
# An input file used in examples
-/

namespace Teufel
namespace Input

/-- a calculator knowing variables, one sum of products and two numbers; no files on disk -/
noncomputable def exampleLib : Lib where
  eval env s := if s = "1" then some 1 else if s = "2" then some 2 else if s = "2*a" then (env "a").map (2 * ·) else env s
  nameOk s := s != "_c"
  asInt s := if s = "3" then 3 else 0
  uniform _ _ := 1/2
  normal _ _ _ := 0
  sdds _ := none
  screen _ := none
  mesh _ := none

/-- a definition -/
def defn (n e : String) : Xml := .node "calc" [("var", n), ("eq", e)] []

/-- an undulator and a background field -/
def exLattice : List Xml :=
  [defn "a" "1",
   .node "undulator" [("type", "planar")]
     [.node "position" [("x", "a")] [], .node "field" [("B", "a"), ("period", "2*a"), ("N", "3")] []],
   .node "background" [] [.node "B" [("x", "1"), ("y", "a")] []]]

/-- a particle and a bunch with a logger -/
def exBeam : List Xml :=
  [.node "particle" [("gamma", "2"), ("charge", "1"), ("cmr", "1")]
     [.node "position" [] [], .node "momentum" [("z", "1")] []],
   .node "bunch" [("gamma", "2"), ("charge", "1"), ("cmr", "1"), ("n", "3")]
     [.node "position" [] [], .node "momentum" [("z", "1")] [], .node "log" [("file", "bunch.log")] []],
   .node "probe" [("file", "probe.log")] []]

/-- the tracking section -/
def exTracking : Xml :=
  .node "tracking" [("method", "Vay"), ("delta_t", "1"), ("n", "2")] [defn "a" "2*a", .node "watch" [("step", "1"), ("file", "watch.h5")] []]

/-- an observation point and a snapshot of the fields of the lattice -/
def exObservers : List Xml :=
  [.node "point" [("file", "point.h5")] [.node "position" [("z", "a")] [], .node "time" [("t0", "0"), ("dt", "1"), ("n", "3")] []],
   .node "snapshot" [("file", "snap.h5"), ("source", "lattice")]
     [.node "time" [("t0", "a")] [], .node "position" [] [], .node "hpitch" [("x", "1"), ("n", "3")] [], .node "vpitch" [("y", "1"), ("n", "3")] []]]

/-- the whole document -/
def exDoc : Xml :=
  .node "" [] [.node "teufel" [] [.node "lattice" [] exLattice, .node "beam" [] exBeam, exTracking, .node "observer" [] exObservers]]

end Input
end Teufel
