import Verif.Model.SDDS
import Verif.Model.Elements
import Verif.Model.FEL1D
import Verif.Model.SourceScreen
import Verif.Model.Mesh

/-!
# The input parser

Models `src/parser.cpp` and the constructors reading XML nodes in `src/undulator.cpp`, `src/wave.cpp`, `src/dipole.cpp`
and `src/fel1d.cpp`.

The XML document is the tree built by pugixml; the libraries used (the calculator muParser, the conversion of
attributes to integers by pugixml, the random number generators, the files found on disk) are parameters
(`Lib`).  Console output is not modelled.
-/

namespace Teufel
open Vec

/-- a node of the XML document with name, attributes and children (text nodes have an empty name); the document loaded by src/teufel_hybrid.cpp:160-187 -/
inductive Xml where
  | node (name : String) (attrs : List (String × String)) (children : List Xml)

namespace Xml

/-- `name()`; used in src/parser.cpp:108 -/
def name : Xml → String
  | node n _ _ => n

/-- the attributes in file order; used in src/parser.cpp:61-65 -/
def attrs : Xml → List (String × String)
  | node _ a _ => a

/-- the children in file order; used in src/parser.cpp:105 -/
def children : Xml → List Xml
  | node _ _ c => c

/-- `attribute(name)`: the first attribute of that name, `none` is the empty handle; used in src/parser.cpp:61-65 -/
def attr (x : Xml) (n : String) : Option String := x.attrs.lookup n

/-- `attribute(name).value()`: empty for the empty handle; used in src/parser.cpp:61-65 -/
def value (x : Xml) (n : String) : String := (x.attr n).getD ""

/-- `child(name)`: the first child of that name, `none` is the empty handle; used in src/parser.cpp:155 -/
def child (x : Xml) (n : String) : Option Xml := x.children.find? (fun c => c.name == n)

end Xml

/-- the constants known to the calculator; src/parser.cpp:43-54 -/
abbrev Env := String → Option ℝ

/-- The libraries.  `eval` is `SetExpr` followed by `Eval`, `none` an exception; simplification: an expression whose value is not a
finite number is not covered.  `nameOk` tells whether `DefineConst` accepts the name.  `asInt` is `as_int()` of an
attribute.  `uniform k i` and `normal k d i` are the random numbers drawn for the `k`-th bunch.  The last three give the files on
disk.  As used in src/parser.cpp:61-150. -/
structure Lib where
  eval : Env → String → Option ℝ
  nameOk : String → Bool
  asInt : String → Int
  uniform : Nat → Nat → ℝ
  normal : Nat → Nat → Nat → ℝ
  sdds : String → Option SddsFile
  screen : String → Option ScreenFile
  mesh : String → Option MeshFile

/-- an empty handle leads to an `IOexception`; as in src/parser.cpp:157-159 -/
def need {α : Type} : Option α → Except Err α
  | none => .error .io
  | some a => .ok a

namespace Lib
variable (L : Lib)

/-- `parseCalc`, src/parser.cpp:61-101 (printing is left out, it has no effect on the calculator's constants) -/
noncomputable def parseCalc (env : Env) (node : Xml) : Env :=
  if node.value "var" = "" then env
  else match L.eval env (node.value "eq") with
    | none => env
    | some v => if L.nameOk (node.value "var") then Function.update env (node.value "var") (some v) else env

/-- `parseCalcChildren`, src/parser.cpp:103-111 -/
noncomputable def parseCalcChildren (env : Env) (node : Xml) : Env :=
  node.children.foldl (fun e c => if c.name = "calc" then L.parseCalc e c else e) env

/-- `parseDouble(node.attribute(a))`, src/parser.cpp:113-130 -/
noncomputable def num (env : Env) (node : Xml) (a : String) : ℝ := (L.eval env (node.value a)).getD 0

/-- `Vector(x,y,z)` from the attributes of a node, e.g. src/parser.cpp:219-223 -/
noncomputable def vec (env : Env) (node : Xml) : Vec := ⟨L.num env node "x", L.num env node "y", L.num env node "z"⟩

/-- `parseInt(node.attribute(a))`, src/parser.cpp:133-150: the conversion to `int` is undefined for large numbers -/
noncomputable def int (env : Env) (node : Xml) (a : String) : Except Err Int :=
  match L.eval env (node.value a) with
  | none => .ok 0
  | some v => toInt32 (crint v)

/-- `int(parseDouble(...))`, src/parser.cpp:450 -/
noncomputable def trunc (env : Env) (node : Xml) (a : String) : Except Err Int :=
  toInt32 (if 0 ≤ L.num env node a then ⌊L.num env node a⌋ else ⌈L.num env node a⌉)

/-- `if (att) v = parseDouble(att)` with initial value 0, e.g. src/parser.cpp:396-397 -/
noncomputable def opt (env : Env) (node : Xml) (a : String) : ℝ :=
  match node.attr a with
  | none => 0
  | some _ => L.num env node a

/-- `attribute(a).as_int(d)`, and `int v = d; if (att) v = att.as_int()`; src/parser.cpp:357-358, 372, 488-489 -/
def intOr (node : Xml) (a : String) (d : Int) : Int :=
  match node.attr a with
  | none => d
  | some s => L.asInt s

/-- the constants defined by the constructor, src/parser.cpp:46-51; `PlanckH`, src/global.h:40 -/
noncomputable def predefined : Env := fun n =>
  if n = "_c" then some SpeedOfLight
  else if n = "_e" then some ElementaryCharge
  else if n = "_h" then some 6.62607015e-34
  else if n = "_mec2" then some mecsquared
  else if n = "_eps0" then some EpsNull
  else if n = "_pi" then some Pi
  else none

/-- constructor of the parser, src/parser.cpp:40-54 -/
noncomputable def start (root : Xml) : Env := L.parseCalcChildren predefined root

/-! ## Lattice -/

/-- constructor of `PlanarUndulator` from the input, src/undulator.cpp:39-64 -/
noncomputable def planarUndulator (env : Env) (el : Xml) : Except Err (Env × GeneralField) := do
  let env := L.parseCalcChildren env el
  let position ← need (el.child "position")
  let field ← need (el.child "field")
  return (env, LocalizedField (PlanarUndulator.Setup (L.num env field "B") (L.num env field "period") (L.intOr field "N" 0)).LocalField
    0 (L.vec env position))

/-- constructor of `TransverseGradientUndulator` from the input, src/undulator.cpp:140-169 -/
noncomputable def gradientUndulator (env : Env) (el : Xml) : Except Err (Env × GeneralField) := do
  let env := L.parseCalcChildren env el
  let position ← need (el.child "position")
  let field ← need (el.child "field")
  return (env, LocalizedField (TransverseGradientUndulator.Setup (L.num env field "B") (L.num env field "kx") (L.opt env field "modulation")
    (L.num env field "period") (L.intOr field "N" 0)).LocalField 0 (L.vec env position))

/-- constructor of `GaussianWave` from the input, src/wave.cpp:39-65 -/
noncomputable def gaussianWave (env : Env) (el : Xml) : Except Err GeneralField := do
  let position ← need (el.child "position")
  let field ← need (el.child "field")
  return LocalizedField (GaussianWave.Setup (L.num env field "lambda") ⟨L.num env field "ReA", L.num env field "ImA"⟩ (L.num env field "rayleigh")).LocalField
    0 (L.vec env position)

/-- constructor of `GaussianWavePacket` from the input, src/wave.cpp:118-146 -/
noncomputable def wavePacket (env : Env) (el : Xml) : Except Err GeneralField := do
  let position ← need (el.child "position")
  let field ← need (el.child "field")
  return LocalizedField ((GaussianWave.Setup (L.num env field "lambda") ⟨L.num env field "ReA", L.num env field "ImA"⟩ (L.num env field "rayleigh")).PacketField
    (L.num env field "tau")) (L.num env position "t") (L.vec env position)

/-- constructor of `HardEdgeDipole` from the input, src/dipole.cpp:47-105 -/
noncomputable def hardEdgeDipole (env : Env) (el : Xml) : Except Err (Env × GeneralField) := do
  let env := L.parseCalcChildren env el
  let B ← need (el.child "B")
  let p1 ← need (el.child "p1")
  let n1 ← need (el.child "n1")
  let p2 ← need (el.child "p2")
  let n2 ← need (el.child "n2")
  return (env, LocalizedField (HardEdgeDipole.mk (L.vec env B) (L.vec env p1) (L.vec env n1) (L.vec env p2) (L.vec env n2)).LocalField 0 0)

/-- constructor of `SoftEdgeDipole` from the input, src/dipole.cpp:147-214 -/
noncomputable def softEdgeDipole (env : Env) (el : Xml) : Except Err (Env × GeneralField) := do
  let env := L.parseCalcChildren env el
  let B ← need (el.child "B")
  let p1 ← need (el.child "p1")
  let n1 ← need (el.child "n1")
  let p2 ← need (el.child "p2")
  let n2 ← need (el.child "n2")
  let tr ← need (el.child "transition")
  return (env, LocalizedField (SoftEdgeDipole.mk (L.vec env B) (L.vec env p1) (L.vec env n1) (L.num env tr "l1")
    (L.vec env p2) (L.vec env n2) (L.num env tr "l2")).LocalField 0 0)

/-- an object which holds numbers that are not finite; as built by src/parser.cpp:168-290 from values of 113-130 -/
def poisonedField : GeneralField := { isExternal := true, field := fun _ _ => .error .nan }

/-- an object constructed in spite of invalid numbers stays in use; all other errors are exceptions; as in src/parser.cpp:168-290 -/
def orPoisoned {α : Type} (bad : α) : Except Err α → Except Err α
  | .error .nan => .ok bad
  | r => r

/-- `<screen>` in the lattice, src/parser.cpp:206-227.  The file is opened after the document has been checked; a file
that cannot be opened raises an `IOexception`, src/source_screen.cpp:54. -/
noncomputable def sourceScreen (env : Env) (el : Xml) : Except Err GeneralField := do
  let fn ← need (el.attr "file")
  let position ← need (el.child "position")
  let file ← need (L.screen fn)
  orPoisoned poisonedField ((SourceScreen.ofFile file (L.vec env position) (L.num env position "t")).map SourceScreen.asField)

/-- an optional vector, zero if it is missing, src/parser.cpp:259-274 -/
noncomputable def optVec (env : Env) (node : Option Xml) : Vec :=
  match node with
  | none => 0
  | some n => L.vec env n

/-- one element of the lattice other than `<calc>`, src/parser.cpp:168-281: the calculator afterwards and the new
element -/
noncomputable def latticeElement (env : Env) (el : Xml) : Except Err (Env × GeneralField) :=
  let env := L.parseCalcChildren env el
  if el.name = "undulator" then
    if el.value "type" = "planar" then L.planarUndulator env el
    else if el.value "type" = "transverse gradient" then L.gradientUndulator env el
    else .error .io
  else if el.name = "wave" then
    if el.value "type" = "gaussian" then (L.gaussianWave env el).map (fun f => (env, f))
    else if el.value "type" = "packet" then (L.wavePacket env el).map (fun f => (env, f))
    else .error .io
  else if el.name = "screen" then (L.sourceScreen env el).map (fun f => (env, f))
  else if el.name = "dipole" then
    if el.value "type" = "hard edge" then L.hardEdgeDipole env el
    else if el.value "type" = "soft edge" then L.softEdgeDipole env el
    else .error .io
  else if el.name = "background" then .ok (env, HomogeneousField (L.optVec env (el.child "E")) (L.optVec env (el.child "B")))
  else .error .io

/-- state of the loop of `parseLattice`: the calculator, the lattice and `count`; src/parser.cpp:152-295 -/
structure LatticeState where
  env : Env
  lattice : Lattice
  count : Int

/-- one iteration of the loop of `parseLattice`, src/parser.cpp:161-292 -/
noncomputable def latticeStep (s : LatticeState) (el : Xml) : Except Err LatticeState :=
  if el.name = "calc" then .ok { s with env := L.parseCalc s.env el }
  else (L.latticeElement s.env el).map (fun r => ⟨r.1, s.lattice.addElement r.2, s.count + 1⟩)

/-- `parseLattice`, src/parser.cpp:152-295 -/
noncomputable def parseLattice (root : Xml) (env : Env) (lattice : Lattice) : Except Err LatticeState := do
  let node ← need (root.child "lattice")
  node.children.foldlM L.latticeStep ⟨env, lattice, 0⟩

/-! ## Beam -/

/-- a logger requested for a bunch; `bunch` is its number; src/parser.cpp:350-366, 480-515, 575-595 -/
inductive LogSpec where
  /-- `ParameterLogger<Bunch>` -/
  | param (bunch : Nat) (file : String) (step : Int) (bunching : Option ℝ)
  /-- `TrajectoryLogger<Bunch>` -/
  | traj (bunch : Nat) (file : String) (step : Int) (number : Int)

/-- `ProbeInfo`, src/global.h -/
structure ProbeSpec where
  file : String
  step : Int
  number : Int

/-- `sqrt(gamma*gamma-1.0)`, src/parser.cpp:314: not a number for `gamma` between -1 and 1 -/
noncomputable def betaGamma (gamma : ℝ) : Except Err ℝ :=
  if gamma * gamma - 1 < 0 then .error .nan else .ok (Real.sqrt (gamma * gamma - 1))

/-- charge and mass of a particle: `charge/cmr` is not finite for `cmr = 0`, the charge-to-mass ratio computed by the
particle (src/particle.cpp) is 0/0 for a vanishing charge -/
noncomputable def chargeMass (charge cmr : ℝ) : Except Err (ℝ × ℝ) :=
  if cmr = 0 ∨ charge = 0 then .error .nan else .ok (charge, charge / cmr)

/-- the bunch with the single particle of a `<particle>` entry, src/parser.cpp:312-350 -/
noncomputable def singleParticle (gamma charge cmr t0 : ℝ) (pos dir : Vec) : Except Err Bunch := do
  let bg ← betaGamma gamma
  let (q, m) ← chargeMass (charge / ElementaryCharge) cmr
  let mom ← normalizeE dir
  return Bunch.empty.Add ((Particle.new q m).initTrajectory t0 pos (mom * bg) 0)

/-- a logger for the parameters of a bunch, src/parser.cpp:352-362, 476-494, 567-584; the attribute `bunching-freq` is ignored for
single particles -/
noncomputable def parseLog (env : Env) (entry : Xml) (bunch : Nat) (freq : Bool) : Except Err (List LogSpec) :=
  match entry.child "log" with
  | none => .ok []
  | some node => do
    let fn ← need (node.attr "file")
    let bf := if freq then (node.attr "bunching-freq").map (fun _ => L.num env node "bunching-freq") else none
    return [.param bunch fn (L.intOr node "step" 1) bf]

/-- a logger for the trajectories of a bunch, src/parser.cpp:496-510 -/
def parseTraj (entry : Xml) (bunch : Nat) : Except Err (List LogSpec) :=
  match entry.child "trajectories" with
  | none => .ok []
  | some node => do
    let fn ← need (node.attr "file")
    return [.traj bunch fn (L.intOr node "step" 1) (L.intOr node "particles" 1000000)]

/-- one child of `<correlations>`, src/parser.cpp:439-469, 530-561 -/
noncomputable def correlation (env : Env) (cn : Xml) : Except Err (Int × Int × ℝ) :=
  if cn.name = "linear" then do
    let _ ← need (cn.attr "indep")
    let ind ← L.trunc env cn "indep"
    let _ ← need (cn.attr "dep")
    let dep ← L.trunc env cn "dep"
    let _ ← need (cn.attr "factor")
    return (ind, dep, L.num env cn "factor")
  else .error .io

/-- the `<correlations>` of an entry, src/parser.cpp:433-472, 525-564: the calculator afterwards and the correlations in
file order.  (In the program each of them is applied before the next one is parsed.) -/
noncomputable def parseCorrelations (env : Env) (entry : Xml) : Except Err (Env × List (Int × Int × ℝ)) :=
  match entry.child "correlations" with
  | none => .ok (env, [])
  | some node => do
    let env := L.parseCalcChildren env node
    let cs ← node.children.mapM (L.correlation env)
    return (env, cs)

/-- state of the loop of `parseBeam`: the calculator, the bunches of the beam (an error for a bunch of which some numbers are not finite), the
loggers and the probe; src/parser.cpp:297-616 -/
structure BeamState where
  env : Env
  bunches : List (Except Err Bunch)
  logs : List LogSpec
  probe : Option ProbeSpec
  count : Int

/-- an optional number from an optional node; src/parser.cpp:322-346, 376-420 -/
noncomputable def optNum (env : Env) (node : Option Xml) (a : String) : ℝ :=
  match node with
  | none => 0
  | some n => L.num env n a

/-- calculations in an optional node; src/parser.cpp:376-420 -/
noncomputable def optCalc (env : Env) (node : Option Xml) : Env :=
  match node with
  | none => env
  | some n => L.parseCalcChildren env n

/-- `<particle>` entry, src/parser.cpp:312-366.  The attributes are evaluated before the definitions inside the entry. -/
noncomputable def particleEntry (s : BeamState) (entry : Xml) : Except Err BeamState := do
  let env := L.parseCalcChildren s.env entry
  let pos ← need (entry.child "position")
  let dir ← need (entry.child "momentum")
  let log ← L.parseLog env entry s.bunches.length false
  return ⟨env, s.bunches ++ [singleParticle (L.num s.env entry "gamma") (L.num s.env entry "charge") (L.num s.env entry "cmr")
      (L.optNum env (entry.child "time") "t0") (L.vec env pos) (L.vec env dir)],
    s.logs ++ log, s.probe, s.count + 1⟩

/-- widths of the distributions of a bunch; src/parser.cpp:376-440 -/
structure Widths where
  x : ℝ
  y : ℝ
  z : ℝ
  zft : ℝ
  xp : ℝ
  yp : ℝ
  delta : ℝ

/-- the coordinates generated for a bunch, src/parser.cpp:420-432, 464: Gaussian random numbers are
`width * standard normal number` (libstdc++) -/
noncomputable def distribution (k n : Nat) (bg : ℝ) (w : Widths) (cs : List (Int × Int × ℝ)) : Except Err Distribution := do
  let d ← Distribution.generateGaussian (fun i => w.x * L.normal k 0 i) (Distribution.new (L.uniform k) 6 n) 0
  let d ← Distribution.generateGaussian (fun i => w.y * L.normal k 1 i) d 1
  let d ← if w.zft ≠ 0 then d.scale 2 w.zft
    else if w.z ≠ 0 then Distribution.generateGaussian (fun i => w.z * L.normal k 2 i) d 2
    else d.scale 2 0
  let d ← Distribution.generateGaussian (fun i => bg * w.xp * L.normal k 3 i) d 3
  let d ← Distribution.generateGaussian (fun i => bg * w.yp * L.normal k 4 i) d 4
  let d ← Distribution.generateGaussian (fun i => bg * w.delta * L.normal k 5 i) d 5
  cs.foldlM (fun (d : Distribution) c => d.addCorrelation c.1 c.2.1 c.2.2) d

/-- the bunch of a `<bunch>` entry, src/parser.cpp:368-474.  Without particles the invalid numbers have no effect. -/
noncomputable def makeBunch (k n : Nat) (gamma charge cmr t0 : ℝ) (pos dir0 : Vec) (w : Widths) (cs : List (Int × Int × ℝ)) : Except Err Bunch :=
  if n = 0 then .ok Bunch.empty
  else do
    let bg ← betaGamma gamma
    let (q, m) ← chargeMass (charge / ElementaryCharge) cmr
    let dir ← normalizeE dir0
    let d ← L.distribution k n bg w cs
    Bunch.ofDist d t0 pos (dir * bg) (q / n) (m / n)

/-- `<bunch>` entry, src/parser.cpp:368-515.  A negative number of particles fails in `new`. -/
noncomputable def bunchEntry (s : BeamState) (entry : Xml) : Except Err BeamState := do
  let env := L.parseCalcChildren s.env entry
  let env := L.optCalc env (entry.child "time")
  let t0 := L.optNum env (entry.child "time") "t0"
  let pos ← need (entry.child "position")
  let env := L.parseCalcChildren env pos
  let x := L.vec env pos
  let xrms := L.opt env pos "xrms"
  let yrms := L.opt env pos "yrms"
  let zrms := L.opt env pos "zrms"
  let zft := L.opt env pos "zft"
  let mom ← need (entry.child "momentum")
  let env := L.parseCalcChildren env mom
  let w : Widths := ⟨xrms, yrms, zrms, zft, L.opt env mom "xrms", L.opt env mom "yrms", L.opt env mom "delta"⟩
  let dir := L.vec env mom
  if L.intOr entry "n" 1 < 0 then throw .range
  let (env, cs) ← L.parseCorrelations env entry
  let log ← L.parseLog env entry s.bunches.length true
  let traj ← L.parseTraj entry s.bunches.length
  return ⟨env, s.bunches ++ [L.makeBunch s.bunches.length (L.intOr entry "n" 1).toNat (L.num s.env entry "gamma") (L.num s.env entry "charge")
      (L.num s.env entry "cmr") t0 x dir w cs],
    s.logs ++ log ++ traj, s.probe, s.count + 1⟩

/-- result of a method that may leave through an exception, without the state then reached; src/parser.cpp:440-475, 540-575 -/
def plain {α : Type} : Except (Err × α) α → Except Err α
  | .ok a => .ok a
  | .error e => .error e.1

/-- the bunch of an `<SDDS>` entry, src/parser.cpp:521-564.  Normalising a null vector yields a vector which is not finite; this is left to
the constructor of the bunch (`Vec.normalize 0 = 0` in the model). -/
noncomputable def sddsBunch (file : String) (dir : Vec) (cs : List (Int × Int × ℝ)) : Except Err Bunch := do
  let b ← Bunch.ofSDDS (L.sdds file) dir.normalize
  cs.foldlM (fun (b : Bunch) c => plain (b.addCorrelation c.1 c.2.1 c.2.2)) b

/-- `<SDDS>` entry, src/parser.cpp:516-588.  Definitions directly inside the entry are not read. -/
noncomputable def sddsEntryNode (s : BeamState) (entry : Xml) : Except Err BeamState := do
  let fn ← need (entry.attr "file")
  let env := L.optCalc s.env (entry.child "dir")
  let dir := match entry.child "dir" with
    | none => ⟨0, 0, 1⟩
    | some node => L.vec env node
  let (env, cs) ← L.parseCorrelations env entry
  let log ← L.parseLog env entry s.bunches.length true
  return ⟨env, s.bunches ++ [L.sddsBunch fn dir cs], s.logs ++ log, s.probe, s.count + 1⟩

/-- `<probe>` entry, src/parser.cpp:589-602 -/
def probeEntry (s : BeamState) (entry : Xml) : Except Err BeamState := do
  let fn ← need (entry.attr "file")
  return { s with probe := some ⟨fn, L.intOr entry "step" 1, L.intOr entry "number" 1⟩ }

/-- one iteration of the loop of `parseBeam`, src/parser.cpp:306-605 -/
noncomputable def beamStep (s : BeamState) (entry : Xml) : Except Err BeamState :=
  if entry.name = "calc" then .ok { s with env := L.parseCalc s.env entry }
  else if entry.name = "particle" then L.particleEntry s entry
  else if entry.name = "bunch" then L.bunchEntry s entry
  else if entry.name = "SDDS" then L.sddsEntryNode s entry
  else if entry.name = "probe" then L.probeEntry s entry
  else .error .io

/-- `parseBeam`, src/parser.cpp:297-608, for an empty beam.  Simplification: what goes wrong inside the constructor of a bunch
(undefined behaviour for defective SDDS files) appears in the result instead of ending the program. -/
noncomputable def parseBeam (root : Xml) (env : Env) : Except Err BeamState := do
  let node ← need (root.child "beam")
  node.children.foldlM L.beamStep ⟨env, [], [], none, 0⟩

/-! ## Tracking -/

/-- state of the loop of `parseTracking`; src/parser.cpp:618-689 -/
structure TrackState where
  env : Env
  watches : List Watch
  interactions : List (Except Err FEL)

/-- what the tracking section sets; src/parser.cpp:618-689 -/
structure Tracking where
  timeStep : ℝ
  NOTS : Int
  state : TrackState

/-- the data `FEL_1D` reads from its node, src/fel1d.cpp:59-135; `N` has been converted before -/
noncomputable def felInput (env : Env) (node : Xml) (N : Option Int) : FEL.Input where
  N := N
  position := (node.child "position").map (L.vec env)
  prop := (node.child "prop").map (L.vec env)
  pol := (node.child "pol").map (L.vec env)
  log := (node.child "log").map (fun l => ((l.attr "file").isSome, (l.attr "step").map L.asInt))
  mode := (node.child "mode").map (fun m => (L.num env m "zR", L.num env m "w0", L.num env m "zwaist"))
  seed := (node.child "seed").map (fun m => ⟨L.num env m "E0", L.num env m "lambda", L.num env m "tau", L.num env m "tstart"⟩)

/-- an interaction of which some numbers are not finite stays in use; src/parser.cpp:653-660 -/
def keepPoisoned {α : Type} : Except Err α → Except Err (Except Err α)
  | .error .nan => .ok (.error .nan)
  | .error e => .error e
  | .ok a => .ok (.ok a)

/-- the attribute `N` of `<fel1d>`, src/fel1d.cpp:59-63 -/
noncomputable def cellCount (env : Env) (child : Xml) : Except Err (Option Int) :=
  match child.attr "N" with
  | none => .ok none
  | some _ => (L.int env child "N").map some

/-- `<fel1d>`, src/parser.cpp:644-652; the time step is evaluated once more -/
noncomputable def felEntry (track : Xml) (s : TrackState) (child : Xml) : Except Err TrackState := do
  let env := L.parseCalcChildren s.env child
  let N ← L.cellCount env child
  let f ← keepPoisoned (FEL.ofInput (L.num env track "delta_t") (L.felInput env child N))
  return ⟨env, s.watches, s.interactions ++ [f]⟩

/-- `<watch>` and `<watch-sdds>`, src/parser.cpp:653-684 -/
noncomputable def watchEntry (type : WatchType) (s : TrackState) (child : Xml) : Except Err TrackState := do
  let _ ← need (child.attr "step")
  let n ← L.int s.env child "step"
  let fn ← need (child.attr "file")
  return { s with watches := s.watches ++ [⟨n, fn, type⟩] }

/-- one iteration of the loop of `parseTracking`, src/parser.cpp:638-687 -/
noncomputable def trackStep (track : Xml) (s : TrackState) (child : Xml) : Except Err TrackState :=
  if child.name = "calc" then .ok { s with env := L.parseCalc s.env child }
  else if child.name = "fel1d" then L.felEntry track s child
  else if child.name = "watch" then L.watchEntry .hdf5 s child
  else if child.name = "watch-sdds" then L.watchEntry .sdds s child
  else .error .io

/-- `parseTracking`, src/parser.cpp:610-689 -/
noncomputable def parseTracking (root : Xml) (env : Env) : Except Err Tracking := do
  let track ← need (root.child "tracking")
  if track.value "method" ≠ "Vay" then throw .io
  let _ ← need (track.attr "delta_t")
  let _ ← need (track.attr "n")
  let n ← L.int env track "n"
  let s ← track.children.foldlM (L.trackStep track) ⟨env, [], []⟩
  return ⟨L.num env track "delta_t", n, s⟩

/-! ## Observers -/

/-- `setSourceType`; src/observer.h:58 -/
inductive SourceType where
  | beam
  | lattice
  deriving DecidableEq, Repr

/-- an observer with its source and output file; src/parser.cpp:691-972 -/
structure ObserverSpec where
  observer : Observer
  source : SourceType
  file : String

/-- the attribute `source`, e.g. src/parser.cpp:743-780 -/
def source (obs : Xml) : Except Err SourceType :=
  match obs.attr "source" with
  | none => .ok .beam
  | some s => if s = "beam" then .ok .beam else if s = "lattice" then .ok .lattice else .error .io

/-- a number of points given to a constructor expecting an unsigned number: a negative one becomes a huge
number of points which cannot be allocated; src/parser.cpp:749-778, 840-870, 940-965 -/
def points (n : Int) : Except Err Nat := if n < 0 then .error .range else .ok n.toNat

/-- `<snapshot>`, src/parser.cpp:705-783 -/
noncomputable def snapshotEntry (env : Env) (obs : Xml) : Except Err ObserverSpec := do
  let fn ← need (obs.attr "file")
  let tnode ← need (obs.child "time")
  let posnode ← need (obs.child "position")
  let hnode ← need (obs.child "hpitch")
  let nh ← need (hnode.attr "n")
  let vnode ← need (obs.child "vpitch")
  let nv ← need (vnode.attr "n")
  let src ← source obs
  let nx ← points (L.asInt nh)
  let ny ← points (L.asInt nv)
  return ⟨.snapshot (Snapshot.new (L.vec env posnode) (L.vec env hnode) (L.vec env vnode) nx ny (L.num env tnode "t0")), src, fn⟩

/-- `<screen>`, src/parser.cpp:784-873 -/
noncomputable def screenEntry (env : Env) (obs : Xml) : Except Err ObserverSpec := do
  let fn ← need (obs.attr "file")
  let posnode ← need (obs.child "position")
  let hnode ← need (obs.child "hpitch")
  let nh ← need (hnode.attr "n")
  let vnode ← need (obs.child "vpitch")
  let nv ← need (vnode.attr "n")
  let tnode ← need (obs.child "time")
  let nt ← need (tnode.attr "n")
  let src ← source obs
  let nx ← points (L.asInt nh)
  let ny ← points (L.asInt nv)
  let n ← points (L.asInt nt)
  return ⟨.screen (Screen.new (L.vec env posnode) (L.vec env hnode) (L.vec env vnode) nx ny (L.num env tnode "t0") (L.num env tnode "dt")
    (L.opt env hnode "dt") (L.opt env vnode "dt") n), src, fn⟩

/-- `<mesh>`, src/parser.cpp:874-917.  The input file is also the name of the output file. -/
noncomputable def meshEntry (obs : Xml) : Except Err ObserverSpec := do
  let fn ← need (obs.attr "file")
  let src ← source obs
  let file ← need (L.mesh fn)
  let m ← Mesh.ofFile file
  let _ ← m.init
  return ⟨.mesh m.zero.toObs, src, fn⟩

/-- `<point>`, src/parser.cpp:918-966 -/
noncomputable def pointEntry (env : Env) (obs : Xml) : Except Err ObserverSpec := do
  let fn ← need (obs.attr "file")
  let posnode ← need (obs.child "position")
  let tnode ← need (obs.child "time")
  let nt ← need (tnode.attr "n")
  let src ← source obs
  let n ← points (L.asInt nt)
  return ⟨.point (PointObs.new (L.vec env posnode) (L.num env tnode "t0") (L.num env tnode "dt") n), src, fn⟩

/-- an observer other than `<calc>`; `env` contains the definitions inside the entry; src/parser.cpp:698-970 -/
noncomputable def observerEntry (env : Env) (obs : Xml) : Except Err ObserverSpec :=
  if obs.name = "snapshot" then L.snapshotEntry env obs
  else if obs.name = "screen" then L.screenEntry env obs
  else if obs.name = "mesh" then L.meshEntry obs
  else if obs.name = "point" then L.pointEntry env obs
  else .error .io

/-- state of the loop of `parseObservers`; src/parser.cpp:691-972 -/
structure ObserverState where
  env : Env
  observers : List ObserverSpec

/-- one iteration of the loop of `parseObservers`, src/parser.cpp:700-969 -/
noncomputable def observerStep (s : ObserverState) (obs : Xml) : Except Err ObserverState :=
  if obs.name = "calc" then .ok { s with env := L.parseCalc s.env obs }
  else (L.observerEntry (L.parseCalcChildren s.env obs) obs).map (fun o => ⟨L.parseCalcChildren s.env obs, s.observers ++ [o]⟩)

/-- `parseObservers`, src/parser.cpp:691-972, for an empty list -/
noncomputable def parseObservers (root : Xml) (env : Env) : Except Err ObserverState := do
  let node ← need (root.child "observer")
  node.children.foldlM L.observerStep ⟨env, []⟩

/-! ## The whole document -/

/-- what the program takes from the input file; src/teufel_hybrid.cpp:194-285 -/
structure Parsed where
  lattice : LatticeState
  beam : BeamState
  tracking : Tracking
  observers : ObserverState

/-- the parsing phase of the program, src/teufel_hybrid.cpp:184-274; `doc` is the document node -/
noncomputable def parse (doc : Xml) : Except Err Parsed := do
  let root ← need (doc.child "teufel")
  let lattice ← L.parseLattice root (L.start root) []
  let beam ← L.parseBeam root lattice.env
  let tracking ← L.parseTracking root beam.env
  let observers ← L.parseObservers root tracking.state.env
  return ⟨lattice, beam, tracking, observers⟩

end Lib
end Teufel
