import Verif.Props.ProgramHistory
import Verif.Props.InputBunch
import Verif.Props.InputBeam

/-!
# C86: inputs which run to completion
-/

namespace Teufel
open Vec Input

theorem mapM_exists_prop {α β} (f : α → Except Err β) (P : β → Prop) (l : List α) (h : ∀ a ∈ l, ∃ b, f a = .ok b ∧ P b) : ∃ l', l.mapM f = .ok l' ∧ ∀ b ∈ l', P b := by
  induction l with
  | nil => exact ⟨[], rfl, by simp⟩
  | cons a l ih =>
    obtain ⟨b, hb, hP⟩ := h a (by simp)
    obtain ⟨l', hl, hP'⟩ := ih (fun x hx => h x (by simp [hx]))
    exact ⟨b :: l', by rw [List.mapM_cons, hb, hl]; rfl, by simpa using ⟨hP, hP'⟩⟩

/-- a logger of one of `n` bunches -/
def Logger.Usable (n : Nat) : Logger → Prop
  | .param b L => b < n ∧ 1 ≤ L.stepsize
  | .traj b L => b < n ∧ 1 ≤ L.stepsize
  | .probe _ => False

theorem Logger.usable_update (junk : Nat → ℝ) (fuel : Nat) {m : Beam} (h : m.WF) (t : Beam) (l : Logger) (hl : l.Usable m.B.length) :
    ∃ l', l.update junk fuel m t = .ok l' ∧ l'.Usable m.B.length := by
  cases l with
  | param b L =>
    obtain ⟨L', h1, h2⟩ := param_update_ok junk fuel t hl.1 L
    exact ⟨_, h1, hl.1, by rw [h2]; exact hl.2⟩
  | traj b L =>
    obtain ⟨L', h1, h2⟩ := traj_update_ok junk fuel h t hl.1 L
    exact ⟨_, h1, hl.1, by rw [h2]; exact hl.2⟩
  | probe L => exact hl.elim

theorem Logger.usable_maybe (junk : Nat → ℝ) (fuel k : Nat) {m : Beam} (h : m.WF) (t : Beam) (l : Logger) (hl : l.Usable m.B.length) :
    ∃ l', l.maybe junk fuel k m t = .ok l' ∧ l'.Usable m.B.length := by
  have hst : l.stepsize ≠ 0 := by
    cases l with
    | param b L => have := hl.2; show L.stepsize ≠ 0; omega
    | traj b L => have := hl.2; show L.stepsize ≠ 0; omega
    | probe L => exact hl.elim
  unfold Logger.maybe logRequested
  rw [if_neg hst]
  simp only [bind, Except.bind, pure, Except.pure]
  by_cases hd : k % l.stepsize = 0
  · simp only [hd, decide_true, if_true]
    exact Logger.usable_update junk fuel h t l hl
  · simp only [hd, decide_false, Bool.false_eq_true, if_false]
    exact ⟨l, rfl, hl⟩

namespace Lib

/-- the bunch of a log -/
def LogSpec.bunch : LogSpec → Nat
  | .param b _ _ _ => b
  | .traj b _ _ _ => b

theorem parseLog_bunch {L : Lib} {env : Env} {e : Xml} {n : Nat} {fr : Bool} {l : List LogSpec} (h : L.parseLog env e n fr = .ok l) : ∀ s ∈ l, s.bunch = n := by
  unfold parseLog at h
  split at h
  · injection h with h; subst h; simp
  · simp only [bind, Except.bind, pure, Except.pure] at h
    split at h
    · cases h
    · injection h with h; subst h; simp [LogSpec.bunch]

theorem parseTraj_bunch {L : Lib} {e : Xml} {n : Nat} {l : List LogSpec} (h : L.parseTraj e n = .ok l) : ∀ s ∈ l, s.bunch = n := by
  unfold parseTraj at h
  split at h
  · injection h with h; subst h; simp
  · simp only [bind, Except.bind, pure, Except.pure] at h
    split at h
    · cases h
    · injection h with h; subst h; simp [LogSpec.bunch]

/-- every log refers to a bunch of the beam -/
theorem beamStep_logs {L : Lib} {s s' : BeamState} {e : Xml} (h : L.beamStep s e = .ok s') (hs : ∀ l ∈ s.logs, l.bunch < s.bunches.length) :
    ∀ l ∈ s'.logs, l.bunch < s'.bunches.length := by
  unfold beamStep at h
  split_ifs at h
  · injection h with h; subst h; exact hs
  · unfold particleEntry at h
    simp only [bind, Except.bind, pure, Except.pure] at h
    split at h
    · cases h
    split at h
    · cases h
    split at h
    · cases h
    next log hlog =>
    injection h with h; subst h
    intro l hl
    simp only [List.mem_append] at hl
    simp only [List.length_append, List.length_singleton]
    rcases hl with hl | hl
    · have := hs l hl; omega
    · have := parseLog_bunch hlog l hl; omega
  · unfold bunchEntry at h
    simp only [bind, Except.bind, pure, Except.pure] at h
    split at h
    · cases h
    split at h
    · cases h
    split at h
    · cases h
    split at h
    · cases h
    split at h
    · cases h
    next log hlog =>
    split at h
    · cases h
    next traj htraj =>
    injection h with h; subst h
    intro l hl
    simp only [List.mem_append] at hl
    simp only [List.length_append, List.length_singleton]
    rcases hl with (hl | hl) | hl
    · have := hs l hl; omega
    · have := parseLog_bunch hlog l hl; omega
    · have := parseTraj_bunch htraj l hl; omega
  · unfold sddsEntryNode at h
    simp only [bind, Except.bind, pure, Except.pure] at h
    split at h
    · cases h
    split at h
    · cases h
    split at h
    · cases h
    next log hlog =>
    injection h with h; subst h
    intro l hl
    simp only [List.mem_append] at hl
    simp only [List.length_append, List.length_singleton]
    rcases hl with hl | hl
    · have := hs l hl; omega
    · have := parseLog_bunch hlog l hl; omega
  · unfold probeEntry at h
    simp only [bind, Except.bind, pure, Except.pure] at h
    split at h
    · cases h
    injection h with h; subst h
    exact hs

theorem parse_logs (L : Lib) (doc : Xml) (p : Parsed) (h : L.parse doc = .ok p) : ∀ l ∈ p.beam.logs, l.bunch < p.beam.bunches.length := by
  unfold parse at h
  simp only [bind, Except.bind, pure, Except.pure] at h
  split at h
  · cases h
  split at h
  · cases h
  split at h
  · cases h
  next be hbe =>
  split at h
  · cases h
  split at h
  · cases h
  injection h with h
  subst h
  unfold parseBeam at hbe
  simp only [bind, Except.bind] at hbe
  split at hbe
  · cases hbe
  next node _ =>
  have key : ∀ (l : List Xml) (s s' : BeamState), (∀ x ∈ s.logs, x.bunch < s.bunches.length) → l.foldlM L.beamStep s = .ok s' → ∀ x ∈ s'.logs, x.bunch < s'.bunches.length := by
    intro l
    induction l with
    | nil => intro s s' hs h; injection h with h; subst h; exact hs
    | cons e l ih =>
      intro s s' hs h
      rw [List.foldlM_cons] at h
      cases hx : L.beamStep s e with
      | error e => rw [hx] at h; cases h
      | ok s1 => rw [hx] at h; exact ih s1 s' (beamStep_logs hx hs) h
  exact key _ _ _ (by simp) hbe

theorem master_bunches {p : Parsed} {m : Beam} (h : masterBeam p = .ok m) : m.B.length = p.beam.bunches.length := by
  unfold masterBeam at h
  simp only [bind, Except.bind, pure, Except.pure] at h
  split at h
  · cases h
  next bs hbs =>
  injection h with h
  subst h
  rw [← (mapM_except_length hbs).1]
  have key : ∀ (l : List Bunch) (b : Beam), (l.foldl Beam.Add b).B.length = b.B.length + l.length := by
    intro l
    induction l with
    | nil => intro b; rfl
    | cons x l ih =>
      intro b
      rw [List.foldl_cons, ih]
      simp [Beam.Add]
      omega
  simpa [Beam.empty] using key bs Beam.empty

/-- the step size and the size of the file of a log are within the limits of the program -/
def LogFits (m : Beam) (NOTS : Nat) : LogSpec → Prop
  | .param _ _ step _ => 1 ≤ toUnsigned step
  | .traj b _ step number => 1 ≤ toUnsigned step ∧
      ∀ bu, m.B[b]? = some bu → (1 + NOTS / toUnsigned step) * min (toUnsigned number) bu.P.length * 6 < 2 ^ 32

/-- **C86 (without observers, interactions and probe log).** A document which can be parsed, with a non-negative number of steps, particles of non-vanishing mass, a lattice whose
field exists everywhere, logs with positive step size (and at most 2³² numbers) runs to completion on any number of nodes and whatever the random numbers
of other nodes and the contents of communication buffers are. -/
theorem C86_runs (L : Lib) (rnd : Nat → (Nat → Nat → ℝ) × (Nat → Nat → Nat → ℝ)) (J : Indet) (nodes : Nat) (hN : 0 < nodes) (doc : Xml) (p : Parsed) (m : Beam)
    (hp : (L.withRandom (rnd 0)).parse doc = .ok p) (hm : masterBeam p = .ok m) (hNOTS : 0 ≤ p.tracking.NOTS)
    (hlat : ∀ t X, ∃ F, Lattice.field p.lattice.lattice t X = .ok F) (hmass : ∀ i j q, m.Holds i j q → q.Mass ≠ 0)
    (hlogs : ∀ l ∈ p.beam.logs, LogFits m p.tracking.NOTS.toNat l)
    (hint : p.tracking.state.interactions = []) (hprobe : p.beam.probe = none) (hobs : p.observers.observers = []) :
    ∃ fs, L.program rnd J nodes doc = .ok fs := by
  obtain ⟨N, rfl⟩ : ∃ N, nodes = N + 1 := ⟨nodes - 1, by omega⟩
  obtain ⟨ms, h1, h2, h3, h4⟩ := program_ok L rnd J N doc p hp m hm
  have hlen : (m :: ms).length = (tracking p J (N + 1)).run.nodes := by simp [h1]; rfl
  have hN' : 0 < (tracking p J (N + 1)).run.nodes := by show 0 < N + 1; omega
  have hbn := master_bunches hm
  have hlb := parse_logs _ doc p hp
  obtain ⟨loggers, hl, hus⟩ := mapM_exists_prop (LogSpec.create m) (Logger.Usable m.B.length) p.beam.logs (by
    intro l hl
    have hb := hlb l hl
    have hf := hlogs l hl
    rw [← hbn] at hb
    cases l with
    | param b f st bf => exact ⟨_, rfl, hb, hf⟩
    | traj b f st n =>
      have hb : b < m.B.length := hb
      have hbu := List.getElem?_eq_getElem hb
      refine ⟨.traj b (TrajLog.new m.B[b] (toUnsigned st) (toUnsigned n)), ?_, hb, hf.1⟩
      simp only [LogSpec.create, Particle.vecAt, hbu, Except.map]
      try rfl)
  have hstart : (tracking p J (N + 1)).run.startOut = Output.start J.traj J.fuel := by
    show (match p.beam.probe with
      | none => Output.start J.traj J.fuel
      | some pr => Output.startProbe J.traj J.fuel (toUnsigned pr.step) (toUnsigned pr.number)) = _
    rw [hprobe]
  have hsize : ∀ b : Beam, b.B.map Bunch.getNOP = m.B.map Bunch.getNOP → b.B.length = m.B.length := by
    intro b e
    simpa using congrArg List.length e
  obtain ⟨w, hw, _⟩ := progress_on (tracking p J (N + 1)).run m (fun o => ∀ l ∈ o.loggers, l.Usable m.B.length) (fun o => ∀ l ∈ o.loggers, l.Usable m.B.length) (fun s => s = [])
    ⟨by
      intro b t o hwf hsz _ ho
      rw [hstart]
      obtain ⟨o1, ho1⟩ := writeWatches_wf hwf 0 o
      obtain ⟨ls, e1, e2⟩ := mapM_exists_prop (Logger.update J.traj J.fuel b t) (Logger.Usable m.B.length) o.loggers (by
        intro l hl
        have := Logger.usable_update J.traj J.fuel hwf t l (by rw [hsize b hsz]; exact ho l hl)
        rwa [hsize b hsz] at this)
      refine ⟨{ o1 with loggers := ls }, ?_, e2⟩
      unfold Output.start
      rw [ho1]
      simp only [bind, Except.bind, (writeWatches_loggers ho1).1, e1]
      rfl,
     by
      intro k b t o _ hwf hsz _ ho
      obtain ⟨ls, e1, e2⟩ := mapM_exists_prop (Logger.maybe J.traj J.fuel k b t) (Logger.Usable m.B.length) o.loggers (by
        intro l hl
        have := Logger.usable_maybe J.traj J.fuel k hwf t l (by rw [hsize b hsz]; exact ho l hl)
        rwa [hsize b hsz] at this)
      obtain ⟨o1, ho1⟩ := writeWatches_wf hwf k { o with loggers := ls }
      refine ⟨o1, ?_, by rw [(writeWatches_loggers ho1).1]; exact e2⟩
      show Output.step J.traj J.fuel k b t o = _
      unfold Output.step
      simp only [bind, Except.bind, e1]
      exact ho1,
     by rintro b s rfl; exact ⟨_, rfl, rfl⟩, by rintro b s rfl; exact ⟨_, rfl, rfl⟩⟩
    (by
      rintro s rfl t x
      rw [(tracking_external p J (N + 1)).lattice [] rfl]
      exact hlat t x) hN' (m :: ms) hlen h2 rfl h3 (by
        unfold masterBeam at hm
        simp only [bind, Except.bind, pure, Except.pure] at hm
        split at hm
        · cases hm
        · injection hm with hm; rw [← hm]) hmass [] ⟨loggers, p.tracking.state.watches, []⟩ hus rfl p.tracking.NOTS.toNat
  rw [h4, if_neg (by omega), hint, hl]
  show ∃ fs, (runAll (tracking p J (N + 1)).run (m :: ms) [] ⟨loggers, p.tracking.state.watches, []⟩).bind _ = _
  have hw' : runAll (tracking p J (N + 1)).run (m :: ms) [] ⟨loggers, p.tracking.state.watches, []⟩ = .ok w := hw
  rw [hw']
  simp only [Except.bind]
  have hwf : ∀ b ∈ m :: ms, Beam.WF b := fun b hb => Beam.wf_reachable (h2 b hb)
  have hinter := inter_kept (tracking p J (N + 1)).run (fun x => x = []) (tracking_external p J (N + 1)).init (tracking_external p J (N + 1)).step hN' (m :: ms) hlen hwf m rfl h3 [] rfl _ _ w hw
  obtain ⟨hcount, hne⟩ := run_counted _ hN' (m :: ms) hlen hwf m rfl h3 [] _ _ w hw
  unfold finish
  cases hn : w.nodes with
  | nil => exact absurd hn hne
  | cons root rest =>
    have hroot : w.root = some (root.master, root.tracked) := by simp [World.root, hn]
    have hri : root.inter = [] := hinter root (by simp [hn])
    obtain ⟨logs, hlogs'⟩ := mapM_exists (fun nl : String × Logger => (nl.2.writeData root.master).map (fun d => (⟨nl.1, d⟩ : OutFile))) ((logFiles p).zip w.out.loggers) (by
      intro nl hnl
      obtain ⟨i, hi⟩ := List.getElem?_of_mem hnl
      obtain ⟨nm, lg⟩ := nl
      rw [List.getElem?_zip_eq_some] at hi
      obtain ⟨hi1, hi2⟩ := hi
      unfold logFiles at hi1
      rw [hprobe] at hi1
      simp only [Option.map_none, Option.toList_none, List.append_nil, List.getElem?_map, Option.map_eq_some_iff] at hi1
      obtain ⟨sp, hsp, _⟩ := hi1
      obtain ⟨l0, c1, c2⟩ := mapM_get hl i sp hsp
      have hf := hlogs sp (List.mem_of_getElem? hsp)
      cases sp with
      | param b f st bf =>
        simp only [LogSpec.create] at c1
        injection c1 with c1
        subst c1
        obtain ⟨log, bu, F, g1, g2, g3, _⟩ := C81_parameter _ J.traj J.fuel (tracking_records p J (N + 1)) hN' (m :: ms) hlen h2 m rfl h3 [] _ i b (toUnsigned st) bf hf c2 _ w hw root.master root.tracked hroot
        have hi2' : w.out.loggers[i]? = some lg := hi2
        rw [hi2'] at g1
        injection g1 with g1
        subst g1
        simp only [g3, Except.map]
        exact ⟨_, rfl⟩
      | traj b f st n =>
        have hb : b < m.B.length := by rw [hbn]; exact hlb _ (List.mem_of_getElem? hsp)
        have hbu := List.getElem?_eq_getElem hb
        simp only [LogSpec.create, Particle.vecAt, hbu, Except.map] at c1
        injection c1 with c1
        subst c1
        have hnop : m.B[b].getNOP = m.B[b].P.length := ((hwf m (by simp)).2 _ (List.mem_of_getElem? hbu)).1
        obtain ⟨log, F, g1, g2, _⟩ := C81_trajectory_partial _ J.traj J.fuel (tracking_records p J (N + 1)) hN' (m :: ms) hlen h2 m rfl h3 [] _ i b (toUnsigned st) (toUnsigned n) m.B[b] hbu hf.1 c2 _ w hw
          root.master (by rw [hnop]; exact hf.2 _ hbu)
        have hi2' : w.out.loggers[i]? = some lg := hi2
        rw [hi2'] at g1
        injection g1 with g1
        subst g1
        simp only [g2, Except.map]
        exact ⟨_, rfl⟩)
    simp only [hri, hobs, bind, Except.bind]
    rw [hlogs']
    simp only [List.zip_nil_left, List.mapM_nil, pure, Except.pure]
    rw [remove_all]
    exact ⟨_, rfl⟩

/-! ### Example: a bunch of three particles with both kinds of logs -/

/-- the entry of the bunch -/
def logEntryOf (log traj : String) : Xml :=
  .node "bunch" [("n", "3"), ("gamma", "2"), ("charge", "1"), ("cmr", "1")] [.node "position" [] [], .node "momentum" [("z", "1")] [],
    .node "log" [("file", log)] [], .node "trajectories" [("file", traj), ("particles", "3")] []]

def logEntry : Xml := logEntryOf "params.sdds" "traj.h5"

/-- an input with the given entries of the beam, which are tracked two steps through a homogeneous field -/
def beamDoc (es : List Xml) : Xml :=
  .node "" [] [.node "teufel" []
    [.node "lattice" [] [.node "background" [] [.node "E" [("x", "1")] []]],
     .node "beam" [] es,
     .node "tracking" [("method", "Vay"), ("delta_t", "1"), ("n", "2")] [],
     .node "observer" [] []]]

/-- an input with a bunch of three particles, of which the parameters and trajectories are logged -/
def logDoc : Xml := beamDoc [logEntry]

/-- the bunch of `logEntry`, if it is entry number `k` -/
noncomputable def logBunch (L : Lib) (k : Nat) : Except Err Bunch := L.makeBunch k 3 2 1 1 0 ⟨0, 0, 0⟩ ⟨0, 0, 1⟩ ⟨0, 0, 0, 0, 0, 0, 0⟩ []

noncomputable def beamParsed (b : BeamState) : Parsed :=
  ⟨⟨predefined, [HomogeneousField ⟨1, 0, 0⟩ 0], 1⟩, b, ⟨1, 2, ⟨predefined, [], []⟩⟩, ⟨predefined, []⟩⟩

noncomputable def logParsed (L : Lib) : Parsed :=
  beamParsed ⟨predefined, [logBunch L 0], [.param 0 "params.sdds" 1 none, .traj 0 "traj.h5" 1 3], none, 1⟩

theorem logEntry_step (r : (Nat → Nat → ℝ) × (Nat → Nat → Nat → ℝ)) (log traj : String) (bs : List (Except Err Bunch)) (logs : List LogSpec) (n : Int) :
    (exampleLib.withRandom r).beamStep ⟨predefined, bs, logs, none, n⟩ (logEntryOf log traj) =
      .ok ⟨predefined, bs ++ [logBunch (exampleLib.withRandom r) bs.length], logs ++ [.param bs.length log 1 none] ++ [.traj bs.length traj 1 3], none, n + 1⟩ := by
  have e0 : ∀ env, (exampleLib.withRandom r).eval env "" = env "" := by intro env; simp [withRandom, exampleLib]
  have e1 : ∀ env, (exampleLib.withRandom r).eval env "1" = some 1 := by intro env; simp [withRandom, exampleLib]
  have e2 : ∀ env, (exampleLib.withRandom r).eval env "2" = some 2 := by intro env; simp [withRandom, exampleLib]
  have e3 : (exampleLib.withRandom r).asInt "3" = 3 := by simp [withRandom, exampleLib]
  have hpe := predefined_empty
  generalize exampleLib.withRandom r = L at *
  have hn : L.intOr (logEntryOf log traj) "n" 1 = 3 := by simp [intOr, logEntryOf, Xml.attr, Xml.attrs, List.lookup, e3]
  have c0 : ∀ env, L.parseCalcChildren env (logEntryOf log traj) = env := by intro env; simp [parseCalcChildren, logEntryOf, Xml.children, Xml.name]
  have c1 : (logEntryOf log traj).child "time" = none := by simp [logEntryOf, Xml.child, Xml.children, Xml.name]
  have c2 : (logEntryOf log traj).child "position" = some (.node "position" [] []) := by simp [logEntryOf, Xml.child, Xml.children, Xml.name]
  have c3 : (logEntryOf log traj).child "momentum" = some (.node "momentum" [("z", "1")] []) := by simp [logEntryOf, Xml.child, Xml.children, Xml.name]
  have c4 : (logEntryOf log traj).child "correlations" = none := by simp [logEntryOf, Xml.child, Xml.children, Xml.name]
  have c5 : (logEntryOf log traj).child "log" = some (.node "log" [("file", log)] []) := by simp [logEntryOf, Xml.child, Xml.children, Xml.name]
  have c6 : (logEntryOf log traj).child "trajectories" = some (.node "trajectories" [("file", traj), ("particles", "3")] []) := by simp [logEntryOf, Xml.child, Xml.children, Xml.name]
  have l1 : L.parseLog predefined (logEntryOf log traj) bs.length true = .ok [.param bs.length log 1 none] := by
    unfold parseLog
    simp [c5, need, bind, Except.bind, pure, Except.pure, intOr, Xml.attr, Xml.attrs, List.lookup]
  have l2 : L.parseTraj (logEntryOf log traj) bs.length = .ok [.traj bs.length traj 1 3] := by
    unfold parseTraj
    rw [c6]
    generalize (1000000 : Int) = d
    simp [need, bind, Except.bind, pure, Except.pure, intOr, Xml.attr, Xml.attrs, List.lookup, e3]
  have l3 : L.parseCorrelations predefined (logEntryOf log traj) = .ok (predefined, []) := by
    unfold parseCorrelations
    rw [c4]
  have a1 : L.num predefined (logEntryOf log traj) "gamma" = 2 := by simp [num, Xml.value, logEntryOf, Xml.attr, Xml.attrs, List.lookup, e2]
  have a2 : L.num predefined (logEntryOf log traj) "charge" = 1 := by simp [num, Xml.value, logEntryOf, Xml.attr, Xml.attrs, List.lookup, e1]
  have a3 : L.num predefined (logEntryOf log traj) "cmr" = 1 := by simp [num, Xml.value, logEntryOf, Xml.attr, Xml.attrs, List.lookup, e1]
  have q1 : ∀ a, L.opt predefined (.node "position" [] []) a = 0 := by intro a; simp [opt, Xml.attr, Xml.attrs, List.lookup]
  have q2 : L.opt predefined (.node "momentum" [("z", "1")] []) "xrms" = 0 ∧ L.opt predefined (.node "momentum" [("z", "1")] []) "yrms" = 0 ∧
      L.opt predefined (.node "momentum" [("z", "1")] []) "delta" = 0 := by simp [opt, Xml.attr, Xml.attrs, List.lookup]
  have v1 : L.vec predefined (.node "position" [] []) = ⟨0, 0, 0⟩ := by simp [vec, num, Xml.value, Xml.attr, Xml.attrs, List.lookup, e0, hpe]
  have v2 : L.vec predefined (.node "momentum" [("z", "1")] []) = ⟨0, 0, 1⟩ := by simp [vec, num, Xml.value, Xml.attr, Xml.attrs, List.lookup, e0, e1, hpe]
  have d1 : ∀ env s a, L.parseCalcChildren env (.node s a []) = env := by intro env s a; simp [parseCalcChildren, Xml.children]
  have hname : (logEntryOf log traj).name = "bunch" := rfl
  have hb : L.bunchEntry ⟨predefined, bs, logs, none, n⟩ (logEntryOf log traj) = .ok ⟨predefined, bs ++ [logBunch L bs.length], logs ++ [.param bs.length log 1 none] ++ [.traj bs.length traj 1 3], none, n + 1⟩ := by
    have hneg : ¬ L.intOr (logEntryOf log traj) "n" 1 < 0 := by rw [hn]; norm_num
    simp only [bunchEntry, hneg, if_false, bindOk, needOk, pureOk]
    refine ⟨_, c2, _, c3, (predefined, []), ?_, [.param bs.length log 1 none], ?_, [.traj bs.length traj 1 3], l2, ?_⟩
    · rw [c0, c1]; simp only [optCalc, d1]; exact l3
    · exact l1
    · rw [c0, c1]
      simp only [optCalc, optNum, d1, hn, a1, a2, a3, q1, q2.1, q2.2.1, q2.2.2, v1, v2]
      rfl
  unfold beamStep
  simp only [hname]
  simp [hb]

theorem beamDoc_parse (r : (Nat → Nat → ℝ) × (Nat → Nat → Nat → ℝ)) (es : List Xml) (b : BeamState)
    (h : es.foldlM (exampleLib.withRandom r).beamStep ⟨predefined, [], [], none, 0⟩ = .ok b) (henv : b.env = predefined) : (exampleLib.withRandom r).parse (beamDoc es) = .ok (beamParsed b) := by
  have hc : ∀ env node, (∀ c ∈ node.children, c.name ≠ "calc") → (exampleLib.withRandom r).parseCalcChildren env node = env := by
    intro env node hn
    unfold parseCalcChildren
    generalize node.children = l at hn
    induction l generalizing env with
    | nil => rfl
    | cons c l ih =>
      rw [List.foldl_cons, if_neg (hn c (by simp))]
      exact ih env (fun c' hc' => hn c' (by simp [hc']))
  have e0 : ∀ env, (exampleLib.withRandom r).eval env "" = env "" := by intro env; simp [withRandom, exampleLib]
  have e1 : ∀ env, (exampleLib.withRandom r).eval env "1" = some 1 := by intro env; simp [withRandom, exampleLib]
  have e2 : ∀ env, (exampleLib.withRandom r).eval env "2" = some 2 := by intro env; simp [withRandom, exampleLib]
  have e3 : (exampleLib.withRandom r).asInt "3" = 3 := by simp [withRandom, exampleLib]
  have hpe := predefined_empty
  have h2 : toInt32 (crint 2) = .ok 2 := by simp [crint, toInt32]
  unfold parse beamDoc
  simp only [Xml.child, Xml.children, Xml.name, List.find?, need, bind, Except.bind, pure, Except.pure, start, beq_self_eq_true]
  rw [hc _ _ (by simp [Xml.children, Xml.name])]
  simp only [parseLattice, parseBeam, parseTracking, parseObservers, Xml.child, Xml.children, Xml.name, List.find?, need, bind, Except.bind, pure, Except.pure]
  have p1 : (exampleLib.withRandom r).latticeStep ⟨predefined, [], 0⟩ (.node "background" [] [.node "E" [("x", "1")] []]) = .ok ⟨predefined, [HomogeneousField ⟨1, 0, 0⟩ 0], 1⟩ := by
    simp [latticeStep, latticeElement, Xml.name, parseCalcChildren, Xml.children, Except.map, Lattice.addElement, optVec, Xml.child, vec, num, Xml.value, Xml.attr, Xml.attrs, e0, e1, hpe]
  simp [p1, h, Xml.value, Xml.attr, Xml.attrs, List.lookup, int, num, e1, e2, h2, beamParsed, henv]
  simp [pure, Except.pure]

theorem logDoc_parse (r : (Nat → Nat → ℝ) × (Nat → Nat → Nat → ℝ)) : (exampleLib.withRandom r).parse logDoc = .ok (logParsed (exampleLib.withRandom r)) :=
  beamDoc_parse r _ _ (by simp only [List.foldlM_cons, List.foldlM_nil, logEntry, logEntry_step]; rfl) rfl

/-- the beam of `logDoc`: three particles of non-vanishing mass -/
theorem logDoc_master (L : Lib) : ∃ m bu, masterBeam (logParsed L) = .ok m ∧ m.B = [bu] ∧ bu.P.length = 3 ∧ ∀ i j q, m.Holds i j q → q.Mass ≠ 0 := by
  obtain ⟨bu, ps, h1, h2, h3, h4, h5⟩ := C64_bunch_partial L 0 3 (by norm_num) 2 1 1 0 ⟨0, 0, 0⟩ ⟨0, 0, 1⟩ ⟨0, 0, 0, 0, 0, 0, 0⟩ []
    (by norm_num) one_ne_zero one_ne_zero (by intro h; have := congrArg Vec.z h; simp at this)
  refine ⟨{ Beam.empty.Add bu with tracker := .vay, dt := 1, NOTS := 2 }, bu, ?_, ?_, ?_, ?_⟩
  · simp [masterBeam, logParsed, beamParsed, logBunch, h1, bind, Except.bind, pure, Except.pure]
  · simp [Beam.Add, Beam.empty]
  · rw [(consists_list (Bunch.wf_reachable h2) h3).2]
    simp
  · intro i j q hq
    have hwf : Beam.WF { Beam.empty.Add bu with tracker := .vay, dt := 1, NOTS := 2 } := by
      refine ⟨by simp [Beam.Add, Beam.empty], ?_⟩
      intro x hx
      simp [Beam.Add, Beam.empty] at hx
      subst hx
      exact Bunch.wf_reachable h2
    obtain ⟨b, g1, g2⟩ := (holds_iff hwf i j q).mp hq
    have hb : b = bu := by simpa [Beam.Add, Beam.empty] using List.mem_of_getElem? g1
    subst hb
    rw [(consists_list (Bunch.wf_reachable h2) h3).2] at g2
    obtain ⟨l, hl, rfl⟩ := List.mem_map.mp (List.mem_of_getElem? g2)
    intro h0
    have := (h5 l (List.mem_range.mp hl)).2.1
    rw [h0] at this
    simp at this

/-- non-vacuity of C86: `logDoc` runs on any number of nodes -/
theorem logDoc_runs (rnd : Nat → (Nat → Nat → ℝ) × (Nat → Nat → Nat → ℝ)) (J : Indet) (nodes : Nat) (hN : 0 < nodes) : ∃ fs, exampleLib.program rnd J nodes logDoc = .ok fs := by
  obtain ⟨m, bu, h1, h2, h3, h4⟩ := logDoc_master (exampleLib.withRandom (rnd 0))
  refine C86_runs exampleLib rnd J nodes hN logDoc _ m (logDoc_parse (rnd 0)) h1 (by simp [logParsed, beamParsed]) (fun t X => ⟨_, rfl⟩) h4 ?_ rfl rfl rfl
  intro l hl
  simp only [logParsed, beamParsed, List.mem_cons, List.not_mem_nil, or_false] at hl
  rcases hl with rfl | rfl
  · show 1 ≤ toUnsigned 1
    norm_num [toUnsigned]
  · refine ⟨by norm_num [toUnsigned], ?_⟩
    intro b hb
    rw [h2] at hb
    simp at hb
    subst hb
    have u1 : toUnsigned 1 = 1 := by norm_num [toUnsigned]
    have u3 : toUnsigned 3 = 3 := by norm_num [toUnsigned]; rfl
    have hn : (logParsed (exampleLib.withRandom (rnd 0))).tracking.NOTS.toNat = 2 := rfl
    rw [h3, u1, u3, hn]
    norm_num

/-- non-vacuity of C85: the files of both logs after a run on two nodes, with three records each -/
example (rnd : Nat → (Nat → Nat → ℝ) × (Nat → Nat → Nat → ℝ)) (J : Indet) : ∃ fs F G, exampleLib.program rnd J 2 logDoc = .ok fs ∧
    (⟨"params.sdds", .params F⟩ : OutFile) ∈ fs ∧ F.rows.length = 3 ∧ F.NumberParticles = 3 ∧
    (⟨"traj.h5", .hdf5 G⟩ : OutFile) ∈ fs ∧ G.extent "Trajectories" = some [3, 3, 6] := by
  obtain ⟨fs, h⟩ := logDoc_runs rnd J 2 (by norm_num)
  obtain ⟨m, bu, h1, h2, h3, h4⟩ := logDoc_master (exampleLib.withRandom (rnd 0))
  obtain ⟨p, m', hp, hm, hF⟩ := C85_parameter exampleLib rnd J 2 (by norm_num) logDoc fs h
  obtain ⟨p', m'', hp', hm', hG⟩ := C85_trajectory exampleLib rnd J 2 (by norm_num) logDoc fs h
  rw [logDoc_parse] at hp hp'
  injection hp with hp
  injection hp' with hp'
  subst hp hp'
  rw [h1] at hm hm'
  injection hm with hm
  injection hm' with hm'
  subst hm hm'
  have u1 : ((1 : Nat) : Int) = 1 % 2 ^ 32 := by norm_num
  have u3 : ((3 : Nat) : Int) = 3 % 2 ^ 32 := by norm_num
  obtain ⟨bu1, F, f1, f2, f3, f4, f5, f6, f7, _⟩ := hF rfl 0 "params.sdds" 1 none (by simp [logParsed, beamParsed]) 1 u1 le_rfl
  obtain ⟨bu2, g1, g2⟩ := hG rfl 0 "traj.h5" 1 3 (by simp [logParsed, beamParsed]) 1 3 u1 u3 le_rfl
  rw [h2] at f1 g1
  simp at f1 g1
  subst f1 g1
  have hn : (logParsed (exampleLib.withRandom (rnd 0))).tracking.NOTS.toNat = 2 := rfl
  rw [h3, hn] at g2
  obtain ⟨_, G, k1, k2, _⟩ := g2
  exact ⟨fs, F, G, h, f2, by rw [f7, hn], by rw [f4, h3], k1, k2⟩

end Lib
end Teufel
