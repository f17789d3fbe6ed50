import Verif.Model.Parser

/-!
# What an input file means

The grammar of the input file as tables, the effect of definitions, and what the entries of the sections stand for.
-/

namespace Teufel
namespace Input

/-! ## Definitions -/

/-- the definitions written directly inside a node: variable and equation -/
def definitions (el : Xml) : List (String × String) :=
  (el.children.filter (fun c => c.name == "calc")).map (fun c => (c.value "var", c.value "eq"))

/-- the constants known after one more definition.  Without a name, with a name the calculator does not accept or with an
equation that cannot be evaluated it has no effect. -/
noncomputable def defined (L : Lib) (env : Env) (d : String × String) : Env := fun n =>
  match L.eval env d.2 with
  | some v => if n = d.1 ∧ d.1 ≠ "" ∧ L.nameOk d.1 = true then some v else env n
  | none => env n

/-- the constants known after a sequence of definitions -/
noncomputable def after (L : Lib) (env : Env) (ds : List (String × String)) : Env := ds.foldl (defined L) env

/-! ## Grammar -/

/-- One kind of element.  `kind`: attribute and the value it has to have; `attrs`: mandatory attributes; `choices`:
optional attributes with the possible values; `parts`: mandatory children with their mandatory attributes; `options`:
optional children with their mandatory attributes; `lists`: optional children that may only contain nodes of the given
name having the given attributes. -/
structure Rule where
  tag : String
  kind : Option (String × String) := none
  attrs : List String := []
  choices : List (String × List String) := []
  parts : List (String × List String) := []
  options : List (String × List String) := []
  lists : List (String × String × List String) := []

/-- the node has all these attributes -/
def HasAttrs (x : Xml) (as : List String) : Prop := ∀ a ∈ as, ∃ v, x.attr a = some v

/-- an element of the kind described by the rule -/
structure Rule.Fits (r : Rule) (el : Xml) : Prop where
  tag : el.name = r.tag
  kind : ∀ k ∈ r.kind, el.attr k.1 = some k.2
  attrs : HasAttrs el r.attrs
  choices : ∀ c ∈ r.choices, ∀ v, el.attr c.1 = some v → v ∈ c.2
  parts : ∀ p ∈ r.parts, ∃ c, el.child p.1 = some c ∧ HasAttrs c p.2
  options : ∀ p ∈ r.options, ∀ c, el.child p.1 = some c → HasAttrs c p.2
  lists : ∀ p ∈ r.lists, ∀ c, el.child p.1 = some c → ∀ d ∈ c.children, d.name = p.2.1 ∧ HasAttrs d p.2.2

/-- an element of a known kind with its mandatory parts -/
def Conforms (rules : List Rule) (el : Xml) : Prop := ∃ r ∈ rules, r.Fits el

/-- elements of `<lattice>` -/
def latticeRules : List Rule :=
  [{ tag := "undulator", kind := some ("type", "planar"), parts := [("position", []), ("field", [])] },
   { tag := "undulator", kind := some ("type", "transverse gradient"), parts := [("position", []), ("field", [])] },
   { tag := "wave", kind := some ("type", "gaussian"), parts := [("position", []), ("field", [])] },
   { tag := "wave", kind := some ("type", "packet"), parts := [("position", []), ("field", [])] },
   { tag := "screen", attrs := ["file"], parts := [("position", [])] },
   { tag := "dipole", kind := some ("type", "hard edge"), parts := [("B", []), ("p1", []), ("n1", []), ("p2", []), ("n2", [])] },
   { tag := "dipole", kind := some ("type", "soft edge"),
     parts := [("B", []), ("p1", []), ("n1", []), ("p2", []), ("n2", []), ("transition", [])] },
   { tag := "background" }]

/-- entries of `<beam>` -/
def beamRules : List Rule :=
  [{ tag := "particle", parts := [("position", []), ("momentum", [])], options := [("log", ["file"])] },
   { tag := "bunch", parts := [("position", []), ("momentum", [])], options := [("log", ["file"]), ("trajectories", ["file"])],
     lists := [("correlations", "linear", ["indep", "dep", "factor"])] },
   { tag := "SDDS", attrs := ["file"], options := [("log", ["file"])],
     lists := [("correlations", "linear", ["indep", "dep", "factor"])] },
   { tag := "probe", attrs := ["file"] }]

/-- entries of `<tracking>` -/
def trackingRules : List Rule :=
  [{ tag := "fel1d", attrs := ["N"], parts := [("position", []), ("prop", []), ("pol", []), ("mode", [])], options := [("log", ["file"])] },
   { tag := "watch", attrs := ["step", "file"] },
   { tag := "watch-sdds", attrs := ["step", "file"] }]

/-- entries of `<observer>` -/
def observerRules : List Rule :=
  [{ tag := "snapshot", attrs := ["file"], choices := [("source", ["beam", "lattice"])],
     parts := [("time", []), ("position", []), ("hpitch", ["n"]), ("vpitch", ["n"])] },
   { tag := "screen", attrs := ["file"], choices := [("source", ["beam", "lattice"])],
     parts := [("time", ["n"]), ("position", []), ("hpitch", ["n"]), ("vpitch", ["n"])] },
   { tag := "mesh", attrs := ["file"], choices := [("source", ["beam", "lattice"])] },
   { tag := "point", attrs := ["file"], choices := [("source", ["beam", "lattice"])],
     parts := [("time", ["n"]), ("position", [])] }]

/-! ## Lattice -/

/-- the definitions that take effect when an element of the lattice is read -/
def latticeHistory (el : Xml) : List (String × String) :=
  if el.name = "undulator" ∨ el.name = "dipole" then definitions el ++ definitions el else definitions el

/-- the field source an element of the lattice stands for, if the constants are `env` -/
inductive Source (L : Lib) (env : Env) (el : Xml) : GeneralField → Prop
  | planar {p f : Xml} : el.name = "undulator" → el.attr "type" = some "planar" →
      el.child "position" = some p → el.child "field" = some f →
      Source L env el (LocalizedField
        (PlanarUndulator.Setup (L.num env f "B") (L.num env f "period") (L.intOr f "N" 0)).LocalField 0 (L.vec env p))
  | gradient {p f : Xml} : el.name = "undulator" → el.attr "type" = some "transverse gradient" →
      el.child "position" = some p → el.child "field" = some f →
      Source L env el (LocalizedField
        (TransverseGradientUndulator.Setup (L.num env f "B") (L.num env f "kx") (L.opt env f "modulation") (L.num env f "period") (L.intOr f "N" 0)).LocalField
        0 (L.vec env p))
  | gaussian {p f : Xml} : el.name = "wave" → el.attr "type" = some "gaussian" →
      el.child "position" = some p → el.child "field" = some f →
      Source L env el (LocalizedField
        (GaussianWave.Setup (L.num env f "lambda") ⟨L.num env f "ReA", L.num env f "ImA"⟩ (L.num env f "rayleigh")).LocalField 0 (L.vec env p))
  | packet {p f : Xml} : el.name = "wave" → el.attr "type" = some "packet" →
      el.child "position" = some p → el.child "field" = some f →
      Source L env el (LocalizedField
        ((GaussianWave.Setup (L.num env f "lambda") ⟨L.num env f "ReA", L.num env f "ImA"⟩ (L.num env f "rayleigh")).PacketField (L.num env f "tau"))
        (L.num env p "t") (L.vec env p))
  | screen {p : Xml} {fn : String} {file : ScreenFile} {s : SourceScreen} : el.name = "screen" → el.attr "file" = some fn →
      el.child "position" = some p → L.screen fn = some file →
      SourceScreen.ofFile file (L.vec env p) (L.num env p "t") = .ok s → Source L env el s.asField
  | invalidScreen {p : Xml} {fn : String} {file : ScreenFile} : el.name = "screen" → el.attr "file" = some fn →
      el.child "position" = some p → L.screen fn = some file →
      SourceScreen.ofFile file (L.vec env p) (L.num env p "t") = .error .nan → Source L env el ⟨true, fun _ _ => .error .nan⟩
  | hardEdge {B p1 n1 p2 n2 : Xml} : el.name = "dipole" → el.attr "type" = some "hard edge" →
      el.child "B" = some B → el.child "p1" = some p1 → el.child "n1" = some n1 → el.child "p2" = some p2 → el.child "n2" = some n2 →
      Source L env el (LocalizedField
        (HardEdgeDipole.mk (L.vec env B) (L.vec env p1) (L.vec env n1) (L.vec env p2) (L.vec env n2)).LocalField 0 0)
  | softEdge {B p1 n1 p2 n2 t : Xml} : el.name = "dipole" → el.attr "type" = some "soft edge" →
      el.child "B" = some B → el.child "p1" = some p1 → el.child "n1" = some n1 → el.child "p2" = some p2 → el.child "n2" = some n2 →
      el.child "transition" = some t →
      Source L env el (LocalizedField
        (SoftEdgeDipole.mk (L.vec env B) (L.vec env p1) (L.vec env n1) (L.num env t "l1") (L.vec env p2) (L.vec env n2) (L.num env t "l2")).LocalField
        0 0)
  | background : el.name = "background" →
      Source L env el (HomogeneousField (((el.child "E").map (L.vec env)).getD 0) (((el.child "B").map (L.vec env)).getD 0))

/-- Reading a list of lattice elements from top to bottom: the constants before, the elements, the constants afterwards
and the field sources created. -/
inductive ReadsLattice (L : Lib) : Env → List Xml → Env → List GeneralField → Prop
  | done {env} : ReadsLattice L env [] env []
  | definition {env env' el els fs} : el.name = "calc" → ReadsLattice L (defined L env (el.value "var", el.value "eq")) els env' fs →
      ReadsLattice L env (el :: els) env' fs
  | element {env env' el els f fs} : el.name ≠ "calc" → Source L (after L env (latticeHistory el)) el f →
      ReadsLattice L (after L env (latticeHistory el)) els env' fs → ReadsLattice L env (el :: els) env' (f :: fs)

/-- the files of all screens in the list exist and can be loaded -/
def ScreensReadable (L : Lib) (els : List Xml) : Prop :=
  ∀ el ∈ els, el.name = "screen" → ∀ fn, el.attr "file" = some fn → ∃ file, L.screen fn = some file ∧
    ∀ pos t e, SourceScreen.ofFile file pos t = .error e → e = .nan

/-- the number of elements in a section, definitions not counted -/
def elementCount (els : List Xml) : Nat := (els.filter (fun c => c.name != "calc")).length

/-! ## Beam -/

/-- the constants known after the definitions inside an optional child -/
noncomputable def afterChild (L : Lib) (env : Env) (el : Xml) (n : String) : Env :=
  match el.child n with
  | none => env
  | some c => after L env (definitions c)

/-- the logger requested by an optional `<log>` -/
inductive Logs (L : Lib) (env : Env) (entry : Xml) (bunch : Nat) (freq : Bool) : List Lib.LogSpec → Prop
  | absent : entry.child "log" = none → Logs L env entry bunch freq []
  | present {n : Xml} {fn : String} : entry.child "log" = some n → n.attr "file" = some fn →
      Logs L env entry bunch freq [.param bunch fn (L.intOr n "step" 1)
        (if freq ∧ n.attr "bunching-freq" ≠ none then some (L.num env n "bunching-freq") else none)]

/-- the logger requested by an optional `<trajectories>` -/
inductive Trajs (L : Lib) (entry : Xml) (bunch : Nat) : List Lib.LogSpec → Prop
  | absent : entry.child "trajectories" = none → Trajs L entry bunch []
  | present {n : Xml} {fn : String} : entry.child "trajectories" = some n → n.attr "file" = some fn →
      Trajs L entry bunch [.traj bunch fn (L.intOr n "step" 1) (L.intOr n "particles" 1000000)]

/-- a linear correlation: two coordinate numbers and a factor -/
inductive Correlation (L : Lib) (env : Env) (d : Xml) : Int × Int × ℝ → Prop
  | linear {i j : Int} : d.name = "linear" → HasAttrs d ["indep", "dep", "factor"] →
      L.trunc env d "indep" = .ok i → L.trunc env d "dep" = .ok j → Correlation L env d (i, j, L.num env d "factor")

/-- the correlations of an entry in file order; there are no definitions between them -/
inductive Correlations (L : Lib) (env : Env) (entry : Xml) : List (Int × Int × ℝ) → Prop
  | absent : entry.child "correlations" = none → Correlations L env entry []
  | present {n : Xml} {cs : List (Int × Int × ℝ)} : entry.child "correlations" = some n →
      List.Forall₂ (Correlation L env) n.children cs → Correlations L env entry cs

/-- what one entry of `<beam>` stands for: constants afterwards, bunches, loggers and probes; `k` is the number of bunches before -/
inductive ReadsEntry (L : Lib) (env : Env) (k : Nat) (entry : Xml) :
    Env → List (Except Err Bunch) → List Lib.LogSpec → List Lib.ProbeSpec → Prop
  | particle {pos mom : Xml} {log : List Lib.LogSpec} {env1 : Env} : entry.name = "particle" →
      env1 = after L env (definitions entry) → entry.child "position" = some pos → entry.child "momentum" = some mom →
      Logs L env1 entry k false log →
      ReadsEntry L env k entry env1
        [Lib.singleParticle (L.num env entry "gamma") (L.num env entry "charge") (L.num env entry "cmr")
          (((entry.child "time").map (fun n => L.num env1 n "t0")).getD 0) (L.vec env1 pos) (L.vec env1 mom)] log []
  | bunch {pos mom : Xml} {log traj : List Lib.LogSpec} {env1 env2 env3 : Env} {cs : List (Int × Int × ℝ)} {n : Nat} : entry.name = "bunch" →
      env1 = afterChild L (after L env (definitions entry)) entry "time" →
      entry.child "position" = some pos → env2 = after L env1 (definitions pos) →
      entry.child "momentum" = some mom → env3 = after L env2 (definitions mom) →
      L.intOr entry "n" 1 = n → Correlations L env3 entry cs → Logs L env3 entry k true log → Trajs L entry k traj →
      ReadsEntry L env k entry env3
        [L.makeBunch k n (L.num env entry "gamma") (L.num env entry "charge") (L.num env entry "cmr")
          (((entry.child "time").map (fun n => L.num env1 n "t0")).getD 0) (L.vec env2 pos) (L.vec env3 mom)
          { x := L.opt env2 pos "xrms", y := L.opt env2 pos "yrms", z := L.opt env2 pos "zrms", zft := L.opt env2 pos "zft",
            xp := L.opt env3 mom "xrms", yp := L.opt env3 mom "yrms", delta := L.opt env3 mom "delta" } cs] (log ++ traj) []
  | sdds {fn : String} {log : List Lib.LogSpec} {env1 : Env} {cs : List (Int × Int × ℝ)} : entry.name = "SDDS" → entry.attr "file" = some fn →
      env1 = afterChild L env entry "dir" → Correlations L env1 entry cs → Logs L env1 entry k true log →
      ReadsEntry L env k entry env1 [L.sddsBunch fn (((entry.child "dir").map (L.vec env1)).getD ⟨0, 0, 1⟩) cs] log []
  | probe {fn : String} : entry.name = "probe" → entry.attr "file" = some fn →
      ReadsEntry L env k entry env [] [] [⟨fn, L.intOr entry "step" 1, L.intOr entry "number" 1⟩]

/-- Reading a list of beam entries from top to bottom.  `k` is the number of bunches that exist already. -/
inductive ReadsBeam (L : Lib) : Env → Nat → List Xml → Env → List (Except Err Bunch) → List Lib.LogSpec → List Lib.ProbeSpec → Prop
  | done {env k} : ReadsBeam L env k [] env [] [] []
  | definition {env k env' el els bs ls ps} : el.name = "calc" →
      ReadsBeam L (defined L env (el.value "var", el.value "eq")) k els env' bs ls ps → ReadsBeam L env k (el :: els) env' bs ls ps
  | entry {env k env1 env' el els bs1 ls1 ps1 bs ls ps} : el.name ≠ "calc" → ReadsEntry L env k el env1 bs1 ls1 ps1 →
      ReadsBeam L env1 (k + bs1.length) els env' bs ls ps → ReadsBeam L env k (el :: els) env' (bs1 ++ bs) (ls1 ++ ls) (ps1 ++ ps)

/-- the numbers in a beam entry are in the range of the program: no negative number of particles, coordinate numbers in the range of `int` -/
def Representable (L : Lib) (el : Xml) : Prop :=
  (el.name = "bunch" → 0 ≤ L.intOr el "n" 1) ∧
  ∀ c, el.child "correlations" = some c → ∀ d ∈ c.children, ∀ env, ∀ a ∈ ["indep", "dep"], ∃ i, L.trunc env d a = .ok i

/-! ## Tracking -/

/-- Reading a list of entries of `<tracking>` from top to bottom: constants before and after, watch points and interactions.  `track` is
the node of the section. -/
inductive ReadsTracking (L : Lib) (track : Xml) : Env → List Xml → Env → List Watch → List (Except Err FEL) → Prop
  | done {env} : ReadsTracking L track env [] env [] []
  | definition {env env' el els ws fs} : el.name = "calc" →
      ReadsTracking L track (defined L env (el.value "var", el.value "eq")) els env' ws fs → ReadsTracking L track env (el :: els) env' ws fs
  | watch {env env' el els ws fs} {n : Int} {v fn : String} : el.name = "watch" → el.attr "step" = some v → L.int env el "step" = .ok n →
      el.attr "file" = some fn → ReadsTracking L track env els env' ws fs → ReadsTracking L track env (el :: els) env' (⟨n, fn, .hdf5⟩ :: ws) fs
  | watchSdds {env env' el els ws fs} {n : Int} {v fn : String} : el.name = "watch-sdds" → el.attr "step" = some v → L.int env el "step" = .ok n →
      el.attr "file" = some fn → ReadsTracking L track env els env' ws fs → ReadsTracking L track env (el :: els) env' (⟨n, fn, .sdds⟩ :: ws) fs
  | fel {env env1 env' el els ws fs} {N : Int} {v : String} {pos prop pol mode : Xml} {r : Except Err FEL} : el.name = "fel1d" →
      env1 = after L env (definitions el) → el.attr "N" = some v → L.int env1 el "N" = .ok N → 0 ≤ N →
      el.child "position" = some pos → el.child "prop" = some prop → el.child "pol" = some pol → el.child "mode" = some mode →
      (∀ c, el.child "log" = some c → HasAttrs c ["file"]) →
      r = FEL.ofInput (L.num env1 track "delta_t")
        { N := some N, position := some (L.vec env1 pos), prop := some (L.vec env1 prop), pol := some (L.vec env1 pol)
          log := (el.child "log").map (fun l => (true, (l.attr "step").map L.asInt))
          mode := some (L.num env1 mode "zR", L.num env1 mode "w0", L.num env1 mode "zwaist")
          seed := (el.child "seed").map (fun m => { E0 := L.num env1 m "E0", lambda := L.num env1 m "lambda", tau := L.num env1 m "tau",
                                                    tstart := L.num env1 m "tstart" }) } →
      ReadsTracking L track env1 els env' ws fs → ReadsTracking L track env (el :: els) env' ws (r :: fs)

/-- the numbers in an entry of `<tracking>` are in the range of `int`, numbers of cells are not negative -/
def TrackRepresentable (L : Lib) (el : Xml) : Prop :=
  (∀ env, ∃ n, L.int env el "step" = .ok n) ∧ ∀ env, ∃ n, L.int env el "N" = .ok n ∧ 0 ≤ n

/-! ## Observers -/

/-- the source named by the optional attribute `source` -/
inductive NamedSource (obs : Xml) : Lib.SourceType → Prop
  | default : obs.attr "source" = none → NamedSource obs .beam
  | beam : obs.attr "source" = some "beam" → NamedSource obs .beam
  | lattice : obs.attr "source" = some "lattice" → NamedSource obs .lattice

/-- the observer an entry of `<observer>` stands for, if the constants are `env` -/
inductive Observes (L : Lib) (env : Env) (obs : Xml) : Lib.ObserverSpec → Prop
  | snapshot {t p h v : Xml} {fn sh sv : String} {nx ny : Nat} {src} : obs.name = "snapshot" → obs.attr "file" = some fn →
      obs.child "time" = some t → obs.child "position" = some p → obs.child "hpitch" = some h → obs.child "vpitch" = some v →
      h.attr "n" = some sh → L.asInt sh = nx → v.attr "n" = some sv → L.asInt sv = ny → NamedSource obs src →
      Observes L env obs ⟨.snapshot (Snapshot.new (L.vec env p) (L.vec env h) (L.vec env v) nx ny (L.num env t "t0")), src, fn⟩
  | screen {t p h v : Xml} {fn sh sv st : String} {nx ny n : Nat} {src} : obs.name = "screen" → obs.attr "file" = some fn →
      obs.child "time" = some t → obs.child "position" = some p → obs.child "hpitch" = some h → obs.child "vpitch" = some v →
      h.attr "n" = some sh → L.asInt sh = nx → v.attr "n" = some sv → L.asInt sv = ny → t.attr "n" = some st → L.asInt st = n →
      NamedSource obs src →
      Observes L env obs ⟨.screen (Screen.new (L.vec env p) (L.vec env h) (L.vec env v) nx ny (L.num env t "t0") (L.num env t "dt")
        (L.opt env h "dt") (L.opt env v "dt") n), src, fn⟩
  | mesh {fn : String} {file : MeshFile} {m : Mesh} {g : MeshGeometry} {src} : obs.name = "mesh" → obs.attr "file" = some fn →
      L.mesh fn = some file → Mesh.ofFile file = .ok m → m.init = .ok g → NamedSource obs src →
      Observes L env obs ⟨.mesh m.zero.toObs, src, fn⟩
  | point {t p : Xml} {fn st : String} {n : Nat} {src} : obs.name = "point" → obs.attr "file" = some fn →
      obs.child "time" = some t → obs.child "position" = some p → t.attr "n" = some st → L.asInt st = n → NamedSource obs src →
      Observes L env obs ⟨.point (PointObs.new (L.vec env p) (L.num env t "t0") (L.num env t "dt") n), src, fn⟩

/-- Reading a list of entries of `<observer>` from top to bottom -/
inductive ReadsObservers (L : Lib) : Env → List Xml → Env → List Lib.ObserverSpec → Prop
  | done {env} : ReadsObservers L env [] env []
  | definition {env env' el els os} : el.name = "calc" → ReadsObservers L (defined L env (el.value "var", el.value "eq")) els env' os →
      ReadsObservers L env (el :: els) env' os
  | observer {env env' el els o os} : el.name ≠ "calc" → Observes L (after L env (definitions el)) el o →
      ReadsObservers L (after L env (definitions el)) els env' os → ReadsObservers L env (el :: els) env' (o :: os)

/-- the numbers of points are not negative, and the file of a mesh can be loaded -/
def ObserverRepresentable (L : Lib) (el : Xml) : Prop :=
  (∀ n ∈ ["hpitch", "vpitch", "time"], ∀ c v, el.child n = some c → c.attr "n" = some v → 0 ≤ L.asInt v) ∧
  (el.name = "mesh" → ∀ fn, el.attr "file" = some fn → ∃ file m g, L.mesh fn = some file ∧ Mesh.ofFile file = .ok m ∧ m.init = .ok g)

/-! ## The order of definitions -/

/-- the definitions inside an optional child -/
def childDefinitions (el : Xml) (n : String) : List (String × String) :=
  match el.child n with
  | none => []
  | some c => definitions c

/-- the definitions that take effect when an entry of `<beam>` is read -/
def beamHistory (el : Xml) : List (String × String) :=
  if el.name = "particle" then definitions el
  else if el.name = "bunch" then
    definitions el ++ childDefinitions el "time" ++ childDefinitions el "position" ++ childDefinitions el "momentum"
  else if el.name = "SDDS" then childDefinitions el "dir"
  else []

/-- the definitions that take effect when an entry of `<tracking>` is read -/
def trackingHistory (el : Xml) : List (String × String) := if el.name = "fel1d" then definitions el else []

/-- the definitions that take effect when a section is read; `inside` tells those inside an entry -/
def history (inside : Xml → List (String × String)) (els : List Xml) : List (String × String) :=
  els.flatMap (fun el => if el.name = "calc" then [(el.value "var", el.value "eq")] else inside el)

/-- the definition gives a value to its variable -/
def Effective (L : Lib) (env : Env) (d : String × String) (v : ℝ) : Prop := d.1 ≠ "" ∧ L.nameOk d.1 = true ∧ L.eval env d.2 = some v

end Input
end Teufel
