import Verif.Lemmas.Program
import Verif.Props.ObserverFiles
import Verif.Spec.InputExample

/-!
# C82: the program as a whole
-/

namespace Teufel
open Vec Input

namespace Lib

theorem tracking_records (p : Parsed) (J : Indet) (nodes : Nat) :
    (tracking p J nodes).run.Records J.traj J.fuel (p.beam.probe.map (fun pr => (toUnsigned pr.step, toUnsigned pr.number))) := by
  refine ⟨rfl, ?_⟩
  show (tracking p J nodes).startOut = _
  unfold tracking
  cases p.beam.probe <;> rfl

theorem create_noprobe {m : Beam} {specs : List LogSpec} {ls : List Logger} (h : specs.mapM (LogSpec.create m) = .ok ls) : ∀ L, Logger.probe L ∉ ls := by
  intro L hL
  obtain ⟨a, _, ha⟩ := mapM_mem_ok h hL
  cases a with
  | param i f st bf => cases ha
  | traj i f st n =>
    simp only [LogSpec.create] at ha
    cases hv : Particle.vecAt m.B i with
    | error e => rw [hv] at ha; cases ha
    | ok bu => rw [hv] at ha; cases ha

/-- what the nodes parsed -/
theorem parse_all (L : Lib) (rnd : Nat → (Nat → Nat → ℝ) × (Nat → Nat → Nat → ℝ)) (doc : Xml) (N : Nat) (p : Parsed) (h0 : (L.withRandom (rnd 0)).parse doc = .ok p) :
    ∃ ps, (List.range (N + 1)).mapM (fun r : Nat => (L.withRandom (rnd r)).parse doc) = .ok (p :: ps) ∧ ps.length = N ∧
      ∀ q ∈ p :: ps, SameParsed (.ok p) (.ok q) := by
  have hex : ∀ r ∈ List.range (N + 1), ∃ q, (L.withRandom (rnd r)).parse doc = .ok q := by
    intro r _
    have h := parse_random (L.withRandom (rnd 0)) (rnd r) doc
    rw [h0] at h
    change SameParsed (.ok p) ((L.withRandom (rnd r)).parse doc) at h
    cases hq : (L.withRandom (rnd r)).parse doc with
    | error e => rw [hq] at h; exact h.elim
    | ok q => exact ⟨q, rfl⟩
  obtain ⟨qs, hqs⟩ := mapM_exists _ _ hex
  have hl := (mapM_except_length hqs).1
  rw [List.length_range] at hl
  cases qs with
  | nil => simp at hl
  | cons q qs =>
    have hq : q = p := by
      have := hqs
      rw [List.range_succ_eq_map, List.mapM_cons, h0] at this
      simp only [bind, Except.bind, pure, Except.pure] at this
      split at this
      · cases this
      · injection this with this
        injection this with this _
        exact this.symm
    subst hq
    refine ⟨qs, hqs, by simpa using hl, ?_⟩
    intro q' hq'
    obtain ⟨r, _, hr⟩ := mapM_mem_ok hqs hq'
    have h := parse_random (L.withRandom (rnd 0)) (rnd r) doc
    rw [h0] at h
    change SameParsed (.ok q) ((L.withRandom (rnd r)).parse doc) at h
    rw [hr] at h
    exact h

/-- the beams of the nodes -/
theorem masters_all (p : Parsed) (ps : List Parsed) (h : ∀ q ∈ p :: ps, SameParsed (.ok p) (.ok q)) (m : Beam) (hm : masterBeam p = .ok m) :
    ∃ ms, (p :: ps).mapM masterBeam = .ok (m :: ms) ∧ ms.length = ps.length ∧ (∀ b ∈ m :: ms, Beam.Reachable b) ∧ ∀ b ∈ m :: ms, Beam.blank b = m.blank := by
  have hs : ∀ q ∈ p :: ps, ∃ b, masterBeam q = .ok b ∧ b.Reachable ∧ m.blank = b.blank := by
    intro q hq
    obtain ⟨_, hb, ht, _⟩ := h q hq
    have hh := masterBeam_same hb ht
    rw [hm] at hh
    cases hq' : masterBeam q with
    | error e => rw [hq'] at hh; exact hh.elim
    | ok b =>
      rw [hq'] at hh
      exact ⟨b, rfl, hh.2.1, hh.2.2⟩
  obtain ⟨bs, hbs⟩ := mapM_exists masterBeam (p :: ps) (fun q hq => (hs q hq).imp (fun b hb => hb.1))
  have hl := (mapM_except_length hbs).1
  have hmem : ∀ b ∈ bs, Beam.Reachable b ∧ Beam.blank b = m.blank := by
    intro b hb
    obtain ⟨q, hq, hqb⟩ := mapM_mem_ok hbs hb
    obtain ⟨b', e1, e2, e3⟩ := hs q hq
    rw [hqb] at e1
    injection e1 with e1
    subst e1
    exact ⟨e2, e3.symm⟩
  cases bs with
  | nil => simp at hl
  | cons b bs =>
    have hb : b = m := by
      have := hbs
      rw [List.mapM_cons, hm] at this
      simp only [bind, Except.bind, pure, Except.pure] at this
      split at this
      · cases this
      · injection this with this
        injection this with this _
        exact this.symm
    subst hb
    exact ⟨bs, hbs, by simpa using hl, fun x hx => (hmem x hx).1, fun x hx => (hmem x hx).2⟩

/-- what the program does after parsing -/
theorem program_ok (L : Lib) (rnd : Nat → (Nat → Nat → ℝ) × (Nat → Nat → Nat → ℝ)) (J : Indet) (N : Nat) (doc : Xml) (p : Parsed)
    (h0 : (L.withRandom (rnd 0)).parse doc = .ok p) (m : Beam) (hm : masterBeam p = .ok m) :
    ∃ ms, ms.length = N ∧ (∀ b ∈ m :: ms, Beam.Reachable b) ∧ (∀ b ∈ m :: ms, Beam.blank b = m.blank) ∧
      L.program rnd J (N + 1) doc = if p.tracking.NOTS < 0 then .error .range else (do
        let s ← p.tracking.state.interactions.mapM id
        let loggers ← p.beam.logs.mapM (LogSpec.create m)
        let w ← runAll (tracking p J (N + 1)).run (m :: ms) s ⟨loggers, p.tracking.state.watches, []⟩
        L.finish doc p w) := by
  obtain ⟨ps, h1, h2, h3⟩ := parse_all L rnd doc N p h0
  obtain ⟨ms, g1, g2, g3, g4⟩ := masters_all p ps h3 m hm
  refine ⟨ms, g2.trans h2, g3, g4, ?_⟩
  unfold program
  rw [h1]
  simp only [bind, Except.bind]
  rw [g1, hm]

theorem program_error (L : Lib) (rnd : Nat → (Nat → Nat → ℝ) × (Nat → Nat → Nat → ℝ)) (J : Indet) (N : Nat) (doc : Xml)
    (h0 : ∀ p, (L.withRandom (rnd 0)).parse doc = .ok p → ∀ m, masterBeam p ≠ .ok m) : ∃ e, L.program rnd J (N + 1) doc = .error e := by
  cases hp : (L.withRandom (rnd 0)).parse doc with
  | error e =>
    refine ⟨e, ?_⟩
    unfold program
    rw [List.range_succ_eq_map, List.mapM_cons, hp]
    rfl
  | ok p =>
    obtain ⟨ps, h1, h2, h3⟩ := parse_all L rnd doc N p hp
    cases hm : masterBeam p with
    | ok m => exact absurd hm (h0 p hp m)
    | error e =>
      refine ⟨e, ?_⟩
      unfold program
      rw [h1]
      simp only [bind, Except.bind]
      rw [List.mapM_cons, hm]
      rfl

/-- observation of the beam on several nodes and on one node -/
theorem observe_same {σ : Type} {R R₁ : Run σ Output} {ms : List Beam} {m0 : Beam} {s : σ} {out : Output} {k : Nat} {w w₁ : World σ Output}
    (hN : 0 < R.nodes) (hlen : ms.length = R.nodes) (hwf : ∀ m ∈ ms, Beam.WF m) (hm0 : ms.head? = some m0) (hblank : ∀ m ∈ ms, Beam.blank m = m0.blank)
    (r0 : R₁.nodes = 1) (hw : runSteps R ms s out k = .ok w) (hw₁ : runSteps R₁ [m0] s out k = .ok w₁)
    (h : w.nodes.flatMap (fun n => n.tracked.all) = w₁.nodes.flatMap (fun n => n.tracked.all)) (o : Observer) (ho : o.Fresh) :
    Agree (observeBeam w o) (observeBeam w₁ o) := by
  obtain ⟨ow, oz⟩ := ho.ok
  have hm0wf := hwf m0 (List.mem_of_head? hm0)
  obtain ⟨c1, n1⟩ := run_counted R hN ms hlen hwf m0 hm0 hblank s out k w hw
  obtain ⟨c2, n2⟩ := run_counted R₁ (by omega) [m0] (by simp [r0]) (by simpa using hm0wf) m0 rfl (by simp) s out k w₁ hw₁
  have key := Observer.observe_agree ow oz (w.nodes.map (fun n => RadSource.beam n.tracked)) (w₁.nodes.map (fun n => RadSource.beam n.tracked))
    (by simpa using n1) (by simpa using n2) ?_ ?_ ?_
  · show Agree (observe o (w.nodes.map (fun n => RadSource.beam n.tracked))) (observe o (w₁.nodes.map (fun n => RadSource.beam n.tracked)))
    cases ha : observe o (w.nodes.map (fun n => RadSource.beam n.tracked)) with
    | error e =>
      rw [ha] at key
      cases hb : observe o (w₁.nodes.map (fun n => RadSource.beam n.tracked)) with
      | error e => trivial
      | ok b => rw [hb] at key; exact key
    | ok a =>
      rw [ha] at key
      cases hb : observe o (w₁.nodes.map (fun n => RadSource.beam n.tracked)) with
      | error e => rw [hb] at key; exact key
      | ok b => rw [hb] at key; exact key
  · intro s hs
    simp only [List.mem_map] at hs
    obtain ⟨n, hn, rfl⟩ := hs
    exact c1 n hn
  · intro s hs
    simp only [List.mem_map] at hs
    obtain ⟨n, hn, rfl⟩ := hs
    exact c2 n hn
  · intro c hc q
    rw [sumM_nodes ow w.nodes hc, sumM_nodes ow w₁.nodes hc, h]

/-- **C82 (partial).** The files written by the program - watch points, logs, interaction fields and observations, with their names,
contents and order - do not depend on the number of nodes, on the random numbers drawn by any other node than the first, or on
the contents of communication buffers before they are used.
Missing: observers of the lattice (C38) and probe logs of more particles than the first node tracks (C70), see below. -/
theorem C82_nodes_partial (L : Lib) (rnd rnd₁ : Nat → (Nat → Nat → ℝ) × (Nat → Nat → Nat → ℝ)) (hrnd : rnd 0 = rnd₁ 0) (J J₁ : Indet) (hJ : J.traj = J₁.traj ∧ J.fuel = J₁.fuel)
    (nodes : Nat) (hN : 0 < nodes) (doc : Xml)
    (hdoc : ∀ p, (L.withRandom (rnd 0)).parse doc = .ok p → (∀ spec ∈ p.observers.observers, spec.source = .beam) ∧
      ∀ pr, p.beam.probe = some pr → ∀ m total, masterBeam p = .ok m → m.getNOP = .ok total → toUnsigned pr.number ≤ ⌈(total : ℚ) / nodes⌉₊) :
    Agree (L.program rnd J nodes doc) (L.program rnd₁ J₁ 1 doc) := by
  obtain ⟨N, rfl⟩ : ∃ N, nodes = N + 1 := ⟨nodes - 1, by omega⟩
  by_cases hok : ∃ p, (L.withRandom (rnd 0)).parse doc = .ok p ∧ ∃ m, masterBeam p = .ok m
  · obtain ⟨p, hp, m, hm⟩ := hok
    obtain ⟨ms, h1, h2, h3, h4⟩ := program_ok L rnd J N doc p hp m hm
    obtain ⟨ms₁, g1, g2, g3, g4⟩ := program_ok L rnd₁ J₁ 0 doc p (hrnd ▸ hp) m hm
    obtain ⟨hobs, hprobe⟩ := hdoc p hp
    rw [h4, g4]
    rw [List.length_eq_zero_iff] at g1
    subst g1
    split_ifs with hn
    · trivial
    · refine Agree.bind Agree.rfl' ?_
      intro s _
      refine Agree.bind Agree.rfl' ?_
      intro loggers hloggers
      have hwf : ∀ b ∈ m :: ms, Beam.WF b := fun b hb => Beam.wf_reachable (h2 b hb)
      have hmwf := hwf m (by simp)
      have hsame := nodes_same (tracking p J (N + 1)).run (tracking p J₁ 1).run rfl rfl rfl rfl rfl
        (by show (tracking p J₁ 1).startOut = (tracking p J (N + 1)).startOut; simp only [tracking, hJ.1, hJ.2])
        (by show (tracking p J₁ 1).stepOut = (tracking p J (N + 1)).stepOut; simp only [tracking, hJ.1, hJ.2])
        (tracking_records p J (N + 1)) (by show 0 < N + 1; omega) (m :: ms) (by simp [h1]; rfl) h2 m rfl h3 m.all.length (nop_all hmwf)
        (by
          cases hpr : p.beam.probe with
          | none => simp [probeNumber]
          | some pr => exact hprobe pr hpr m m.all.length hm (nop_all hmwf))
        s ⟨loggers, p.tracking.state.watches, []⟩ (create_noprobe hloggers) (tracking p J (N + 1)).run.NOTS
      unfold runAll
      have hNOTS : (tracking p J₁ 1).run.NOTS = (tracking p J (N + 1)).run.NOTS := rfl
      rw [hNOTS]
      cases hw : runSteps (tracking p J (N + 1)).run (m :: ms) s ⟨loggers, p.tracking.state.watches, []⟩ (tracking p J (N + 1)).run.NOTS with
      | error e =>
        rw [hw] at hsame
        cases hw₁ : runSteps (tracking p J₁ 1).run [m] s ⟨loggers, p.tracking.state.watches, []⟩ (tracking p J (N + 1)).run.NOTS with
        | error e₁ => trivial
        | ok w₁ => rw [hw₁] at hsame; exact hsame.elim
      | ok w =>
        rw [hw] at hsame
        cases hw₁ : runSteps (tracking p J₁ 1).run [m] s ⟨loggers, p.tracking.state.watches, []⟩ (tracking p J (N + 1)).run.NOTS with
        | error e₁ => rw [hw₁] at hsame; exact hsame.elim
        | ok w₁ =>
          rw [hw₁] at hsame
          obtain ⟨a1, a2, a3, a4, a5⟩ := hsame
          show Agree (L.finish doc p w) (L.finish doc p w₁)
          unfold finish
          have hob := observe_same (R := (tracking p J (N + 1)).run) (R₁ := (tracking p J₁ 1).run) (by show 0 < N + 1; omega) (by simp [h1]; rfl) hwf rfl h3 rfl hw hw₁ a5
          replace a1 : w.nodes.length = N + 1 := a1
          cases hwn : w.nodes with
          | nil => rw [hwn] at a1; simp at a1
          | cons root rest =>
            cases hwn₁ : w₁.nodes with
            | nil => rw [hwn₁] at a2; simp at a2
            | cons root₁ rest₁ =>
              obtain ⟨e1, e2⟩ := a4 root (by simp [hwn]) root₁ (by simp [hwn₁])
              simp only
              rw [e1, e2, a3]
              refine Agree.bind Agree.rfl' ?_
              intro logs _
              refine Agree.bind Agree.rfl' ?_
              intro fels _
              refine Agree.bind Agree.rfl' ?_
              intro lat _
              refine Agree.bind (Agree.mapM ?_) (fun _ _ => rfl)
              intro spec hspec
              unfold observeSpec
              rw [hobs spec hspec]
              exact Agree.bind (hob _ (parse_fresh _ doc p hp spec hspec)) (fun _ _ => Agree.rfl')
  · have hno : ∀ p, (L.withRandom (rnd 0)).parse doc = .ok p → ∀ m, masterBeam p ≠ .ok m := fun p hp m hm => hok ⟨p, hp, m, hm⟩
    obtain ⟨e, he⟩ := program_error L rnd J N doc hno
    obtain ⟨e₁, he₁⟩ := program_error L rnd₁ J₁ 0 doc (by rw [← hrnd]; exact hno)
    rw [he, he₁]
    trivial

/-! ## A document -/

/-- one particle in a constant field, tracked for two steps, with an observation point for the fields of `src` -/
def progDoc (src : String) : Xml :=
  .node "" [] [.node "teufel" []
    [.node "lattice" [] [.node "background" [] [.node "E" [("x", "1")] []]],
     .node "beam" [] [.node "particle" [("gamma", "2"), ("charge", "1"), ("cmr", "1")] [.node "position" [] [], .node "momentum" [("z", "1")] []]],
     .node "tracking" [("method", "Vay"), ("delta_t", "1"), ("n", "2")] [],
     .node "observer" [] [.node "point" [("file", "point.sdds"), ("source", src)] [.node "position" [] [], .node "time" [("dt", "1"), ("n", "3")] []]]]]

noncomputable def progParsed (src : SourceType) : Parsed :=
  ⟨⟨predefined, [HomogeneousField ⟨1, 0, 0⟩ 0], 1⟩, ⟨predefined, [singleParticle 2 1 1 0 ⟨0, 0, 0⟩ ⟨0, 0, 1⟩], [], none, 1⟩,
    ⟨1, 2, ⟨predefined, [], []⟩⟩, ⟨predefined, [⟨.point (PointObs.new ⟨0, 0, 0⟩ 0 1 3), src, "point.sdds"⟩]⟩⟩

theorem predefined_empty : predefined "" = none := by simp [predefined]

theorem progDoc_parse (r : (Nat → Nat → ℝ) × (Nat → Nat → Nat → ℝ)) (s : String) (src : SourceType) (h : s = "beam" ∧ src = .beam ∨ s = "lattice" ∧ src = .lattice) :
    (exampleLib.withRandom r).parse (progDoc s) = .ok (progParsed src) := by
  have hc : ∀ env node, (∀ c ∈ node.children, c.name ≠ "calc") → (exampleLib.withRandom r).parseCalcChildren env node = env := by
    intro env node hn
    unfold parseCalcChildren
    generalize node.children = l at hn
    induction l generalizing env with
    | nil => rfl
    | cons c l ih =>
      rw [List.foldl_cons, if_neg (hn c (by simp))]
      exact ih env (fun c' hc' => hn c' (by simp [hc']))
  have e0 : ∀ env, (exampleLib.withRandom r).eval env "" = env "" := by intro env; simp [withRandom, exampleLib]
  have e1 : ∀ env, (exampleLib.withRandom r).eval env "1" = some 1 := by intro env; simp [withRandom, exampleLib]
  have e2 : ∀ env, (exampleLib.withRandom r).eval env "2" = some 2 := by intro env; simp [withRandom, exampleLib]
  have e3 : (exampleLib.withRandom r).asInt "3" = 3 := by simp [withRandom, exampleLib]
  have hpe := predefined_empty
  have h2 : toInt32 (crint 2) = .ok 2 := by simp [crint, toInt32]
  unfold parse progDoc
  simp only [Xml.child, Xml.children, Xml.name, List.find?, need, bind, Except.bind, pure, Except.pure, start, beq_self_eq_true]
  rw [hc _ _ (by simp [Xml.children, Xml.name])]
  simp only [parseLattice, parseBeam, parseTracking, parseObservers, Xml.child, Xml.children, Xml.name, List.find?, need, bind, Except.bind, pure, Except.pure]
  have p1 : (exampleLib.withRandom r).latticeStep ⟨predefined, [], 0⟩ (.node "background" [] [.node "E" [("x", "1")] []]) = .ok ⟨predefined, [HomogeneousField ⟨1, 0, 0⟩ 0], 1⟩ := by
    simp [latticeStep, latticeElement, Xml.name, parseCalcChildren, Xml.children, Except.map, Lattice.addElement, optVec, Xml.child, vec, num, Xml.value, Xml.attr, Xml.attrs, e0, e1, hpe]
  have p2 : (exampleLib.withRandom r).beamStep ⟨predefined, [], [], none, 0⟩ (.node "particle" [("gamma", "2"), ("charge", "1"), ("cmr", "1")] [.node "position" [] [], .node "momentum" [("z", "1")] []])
      = .ok ⟨predefined, [singleParticle 2 1 1 0 ⟨0, 0, 0⟩ ⟨0, 0, 1⟩], [], none, 1⟩ := by
    simp [beamStep, particleEntry, Xml.name, parseCalcChildren, Xml.children, Xml.child, need, bind, Except.bind, pure, Except.pure, parseLog, optNum, vec, num, Xml.value, Xml.attr, Xml.attrs, e0, e1, e2, hpe, List.lookup]
  have p4 : (exampleLib.withRandom r).observerStep ⟨predefined, []⟩ (.node "point" [("file", "point.sdds"), ("source", s)] [.node "position" [] [], .node "time" [("dt", "1"), ("n", "3")] []])
      = .ok ⟨predefined, [⟨.point (PointObs.new ⟨0, 0, 0⟩ 0 1 3), src, "point.sdds"⟩]⟩ := by
    have hsrc : source (.node "point" [("file", "point.sdds"), ("source", s)] [.node "position" [] [], .node "time" [("dt", "1"), ("n", "3")] []]) = .ok src := by
      rcases h with ⟨rfl, rfl⟩ | ⟨rfl, rfl⟩ <;> simp [source, Xml.attr, Xml.attrs, List.lookup]
    simp [observerStep, observerEntry, pointEntry, Xml.name, parseCalcChildren, Xml.children, Xml.child, need, bind, Except.bind, pure, Except.pure, hsrc, points, Except.map, vec, num, Xml.value, Xml.attr, Xml.attrs, e0, e1, e3, hpe, List.lookup]
  simp [p1, p2, Xml.value, Xml.attr, Xml.attrs, List.lookup, int, num, e1, e2, h2, progParsed]
  simp [pure, Except.pure, p4]

theorem filled_after {o o' : Observer} (ho : o.Fresh) (hw : o'.WF) (hb : o'.blank = o) (hf : o.Fits) : o.After o' := by
  obtain ⟨ow, oz⟩ := ho.ok
  obtain ⟨g, hg⟩ := Observer.values hw
  have hk : o'.keys = o.keys := by rw [← Observer.keys_blank o', hb]
  obtain ⟨o1, h1, h2, h3, h4⟩ := Observer.fromBuffer_fits ow hf g
  have e : o1 = o' := Observer.ext' h2 hw (by rw [h3, oz, hb]) (by
    intro k hk1
    have hk' : k ∈ o.keys := by rw [← oz, ← h3, Observer.keys_blank]; exact hk1
    rw [h4 k hk', hg k (hk ▸ hk')])
  subst e
  exact .fromBuffer .refl (by rw [comps_length, List.length_map]) h1

/-- what `observe` returns is the observer after some calls -/
theorem observe_after {o o' : Observer} (ho : o.Fresh) (srcs : List RadSource) (hne : srcs ≠ []) (hs : ∀ s ∈ srcs, s.Counted) (h : observe o srcs = .ok o') : o.After o' := by
  obtain ⟨ow, oz⟩ := ho.ok
  obtain ⟨h1, h2, h3, _⟩ := (Observer.observe_spec ow oz srcs hne hs).1 o' h
  exact filled_after ho h2 h3 (Observer.small_fits h1)

/-- a constant field observed by `n` nodes -/
theorem homogeneous_point (E : Vec) (nots : Nat) (hn : 6 * nots < 2 ^ 31) (h0 : 0 < nots) (N : Nat) : ∃ s f,
    observeLattice (N + 1) [HomogeneousField E 0] (.point (PointObs.new ⟨0, 0, 0⟩ 0 1 nots)) = .ok (.point s) ∧ s.writeFile = .ok f ∧
      f.rows[0]? = some [0, E.x * ((N + 1 : Nat) : ℝ), E.y * ((N + 1 : Nat) : ℝ), E.z * ((N + 1 : Nat) : ℝ), 0, 0, 0] := by
  have hfr : (Observer.point (PointObs.new ⟨0, 0, 0⟩ 0 1 nots)).Fresh := .point _ _ _ _
  obtain ⟨ow, oz⟩ := hfr.ok
  have hfield : ∀ t X, Lattice.field [HomogeneousField E 0] t X = .ok ⟨E, 0⟩ := by
    intro t X
    have := (show Lattice.field [HomogeneousField E 0] t X = .ok ((0 : EMField) + ⟨E, 0⟩) from rfl)
    rw [zero_add] at this
    exact this
  have hsh : ∃ q, Observer.share (.point (PointObs.new ⟨0, 0, 0⟩ 0 1 nots)) (.lattice (Lattice.field [HomogeneousField E 0])) (0, 0) = .ok q := by
    simp only [Observer.share, shareAt, PointObs.new, FieldTrace.new, hfield]
    obtain ⟨l, hl⟩ := mapM_exists (fun i : Nat => (Except.ok (⟨E, 0⟩ : EMField) : Except Err EMField)) (List.range nots) (fun a _ => ⟨_, rfl⟩)
    rw [hl]
    exact ⟨_, rfl⟩
  have hc : ∀ m, ∀ s ∈ List.replicate m (RadSource.lattice (Lattice.field [HomogeneousField E 0])), s.Counted := by
    intro m s hs
    rw [(List.mem_replicate.mp hs).2]
    trivial
  obtain ⟨_, hB⟩ := Observer.observe_spec ow oz _ (by simp) (hc 1)
  obtain ⟨b, hb⟩ := hB ⟨by simpa [Observer.keys, PointObs.new, FieldTrace.new] using hn, by
    intro c hc
    simp only [Observer.cellsOf, List.mem_singleton] at hc
    subst hc
    rw [sumM_replicate _ _ _ (by norm_num)]
    obtain ⟨q, hq⟩ := hsh
    rw [hq]
    exact ⟨_, rfl⟩⟩
  replace hb : observeLattice 1 [HomogeneousField E 0] (.point (PointObs.new ⟨0, 0, 0⟩ 0 1 nots)) = .ok b := hb
  have hfac := C38_factor_partial [HomogeneousField E 0] (.point (PointObs.new ⟨0, 0, 0⟩ 0 1 nots)) hfr (N + 1) (by omega)
  rw [hb] at hfac
  have hk : ((0, 0), 0) ∈ (Observer.point (PointObs.new ⟨0, 0, 0⟩ 0 1 nots)).keys := by simpa [Observer.keys, PointObs.new, FieldTrace.new] using h0
  cases ha : observeLattice (N + 1) [HomogeneousField E 0] (.point (PointObs.new ⟨0, 0, 0⟩ 0 1 nots)) with
  | error e => rw [ha] at hfac; exact hfac.elim
  | ok a =>
    rw [ha] at hfac
    obtain ⟨f, f1, f2⟩ := hfac.2.2 _ hk
    obtain ⟨t, X, f', _, g2, g3⟩ := (C38_single_node_partial _ _ hfr b hb).2 _ hk
    rw [hfield] at g2
    injection g2 with g2
    subst g2
    rw [f1] at g3
    injection g3 with g3
    subst g3
    obtain ⟨s, fl, e1, e2, _, _, _, _, e3⟩ := C79_point _ _ _ _ a (observe_after hfr _ (by simp) (hc _) ha) (by omega)
    refine ⟨s, fl, by rw [e1], e2, ?_⟩
    rw [e3 0 _ h0 f2]
    simp

/-- the lattice after the interactions have been removed -/
theorem remove_all (E : Lattice) (s : List FEL) :
    removeInteractions (2 * (E ++ interactionFields s).length + 1) 0 (E ++ interactionFields s) = .ok (E.filter (fun e => e.isExternal)) := by
  have h := remove_loop (E ++ interactionFields s) (2 * (E ++ interactionFields s).length + 1) 0 (by omega) (by omega)
  simp only [List.take_zero, List.drop_zero, List.nil_append, List.filter_append, Nat.cast_zero] at h
  rw [h]
  have : (interactionFields s).filter (fun e => e.isExternal) = [] := by
    rw [List.filter_eq_nil_iff]
    intro a ha
    simp only [interactionFields, List.mem_map] at ha
    obtain ⟨x, _, rfl⟩ := ha
    simp [InteractionField]
  rw [this, List.append_nil]

/-- the particle of the example -/
noncomputable def progParticle (bg : ℝ) (mom : Vec) : Particle := (Particle.new (1 / ElementaryCharge) (1 / ElementaryCharge)).initTrajectory 0 ⟨0, 0, 0⟩ (mom * bg) 0

noncomputable def progBeam (bg : ℝ) (mom : Vec) : Beam := { Beam.empty.Add (Bunch.empty.Add (progParticle bg mom)) with tracker := .vay, dt := 1, NOTS := 2 }

theorem progDoc_master (src : SourceType) : ∃ bg mom, masterBeam (progParsed src) = .ok (progBeam bg mom) := by
  have hn : normalizeE ⟨0, 0, 1⟩ = .ok (Vec.normalize ⟨0, 0, 1⟩) := by
    unfold normalizeE
    rw [if_neg]
    intro h
    have := congrArg Vec.z h
    norm_num at this
  have hc : chargeMass (1 / ElementaryCharge) 1 = .ok (1 / ElementaryCharge, 1 / ElementaryCharge) := by
    unfold chargeMass
    rw [if_neg (by norm_num [ElementaryCharge]), div_one]
  have hb : betaGamma 2 = .ok (Real.sqrt (2 * 2 - 1)) := by
    unfold betaGamma
    rw [if_neg (by norm_num)]
  refine ⟨Real.sqrt (2 * 2 - 1), Vec.normalize ⟨0, 0, 1⟩, ?_⟩
  simp only [masterBeam, progParsed, singleParticle, hn, hc, hb, bind, Except.bind, pure, Except.pure, List.mapM_cons, List.mapM_nil, id, List.foldl]
  rfl

theorem progBeam_reachable (bg : ℝ) (mom : Vec) : (progBeam bg mom).Reachable :=
  reach_set (Beam.Reachable.Add _ (.empty) (.Add _ .empty ⟨_, [.init 0 ⟨0, 0, 0⟩ (mom * bg) 0], Or.inl ⟨_, _, rfl⟩, rfl⟩)) _ _ _

theorem progBeam_mass (bg : ℝ) (mom : Vec) : ∀ i j p, (progBeam bg mom).Holds i j p → p.Mass ≠ 0 := by
  intro i j p h
  obtain ⟨bu, h1, h2⟩ := (holds_iff (Beam.wf_reachable (progBeam_reachable bg mom)) i j p).mp h
  have hb := List.mem_of_getElem? h1
  have hp := List.mem_of_getElem? h2
  simp [progBeam, Beam.Add, Beam.empty] at hb
  subst hb
  simp [Bunch.Add, Bunch.empty] at hp
  rw [hp]
  show (1 / ElementaryCharge : ℝ) ≠ 0
  norm_num [ElementaryCharge]

/-- the example runs on any number of nodes -/
theorem progDoc_run (src : SourceType) (J : Indet) (bg : ℝ) (mom : Vec) (N : Nat) (ms : List Beam) (h1 : ms.length = N)
    (h2 : ∀ b ∈ progBeam bg mom :: ms, Beam.Reachable b) (h3 : ∀ b ∈ progBeam bg mom :: ms, Beam.blank b = (progBeam bg mom).blank) :
    ∃ w, runAll (tracking (progParsed src) J (N + 1)).run (progBeam bg mom :: ms) [] ⟨[], [], []⟩ = .ok w ∧ w.out = ⟨[], [], []⟩ ∧ w.nodes.length = N + 1 := by
  obtain ⟨w, hw, hI⟩ := progress_on (tracking (progParsed src) J (N + 1)).run (progBeam bg mom) (fun o => o = ⟨[], [], []⟩) (fun o => o = ⟨[], [], []⟩) (fun s => s = [])
    ⟨by rintro m t o _ _ _ rfl; exact ⟨_, rfl, rfl⟩, by rintro k m t o _ _ _ _ rfl; exact ⟨_, rfl, rfl⟩,
     by rintro m s rfl; exact ⟨_, rfl, rfl⟩, by rintro m s rfl; exact ⟨_, rfl, rfl⟩⟩
    (by rintro s rfl t x; exact ⟨_, rfl⟩) (by show 0 < N + 1; omega) (progBeam bg mom :: ms) (by simp [h1]; rfl) h2 rfl h3 rfl (progBeam_mass bg mom) [] _ rfl rfl 2
  have hs := nodes_same (tracking (progParsed src) J (N + 1)).run (tracking (progParsed src) J 1).run rfl rfl rfl rfl rfl rfl rfl (tracking_records _ J _)
    (by show 0 < N + 1; omega) (progBeam bg mom :: ms) (by simp [h1]; rfl) h2 _ rfl h3 _ (nop_all (Beam.wf_reachable (progBeam_reachable bg mom))) (by simp [probeNumber, progParsed]) [] ⟨[], [], []⟩ (by simp) 2
  rw [hw] at hs
  refine ⟨w, hw, hI, ?_⟩
  revert hs
  cases runSteps (tracking (progParsed src) J 1).run [progBeam bg mom] [] ⟨[], [], []⟩ 2 with
  | error e => exact fun h => h.elim
  | ok w₁ => exact fun h => h.1

/-- the file of the observer of the lattice: three rows, the field of the first is the number of nodes -/
theorem progDoc_lattice (rnd : Nat → (Nat → Nat → ℝ) × (Nat → Nat → Nat → ℝ)) (J : Indet) (N : Nat) :
    ∃ f : PointFile, exampleLib.program rnd J (N + 1) (progDoc "lattice") = .ok [⟨"point.sdds", .point f⟩] ∧
      f.rows[0]? = some [0, ((N + 1 : Nat) : ℝ), 0, 0, 0, 0, 0] := by
  obtain ⟨bg, mom, hm⟩ := progDoc_master .lattice
  obtain ⟨ms, h1, h2, h3, h4⟩ := program_ok exampleLib rnd J N (progDoc "lattice") _ (progDoc_parse (rnd 0) "lattice" .lattice (Or.inr ⟨rfl, rfl⟩)) _ hm
  obtain ⟨w, hw, ho, hl⟩ := progDoc_run .lattice J bg mom N ms h1 h2 h3
  rw [h4, if_neg (by simp [progParsed])]
  have e1 : (progParsed .lattice).tracking.state.interactions.mapM id = (.ok [] : Except Err (List FEL)) := rfl
  have e2 : (progParsed .lattice).beam.logs.mapM (LogSpec.create (progBeam bg mom)) = (.ok [] : Except Err (List Logger)) := rfl
  rw [e1, e2]
  show ∃ f : PointFile, (runAll (tracking (progParsed .lattice) J (N + 1)).run (progBeam bg mom :: ms) [] ⟨[], [], []⟩).bind _ = _ ∧ _
  rw [hw]
  simp only [Except.bind]
  unfold finish
  cases hn : w.nodes with
  | nil => rw [hn] at hl; simp at hl
  | cons root rest =>
    obtain ⟨s, f, o1, o2, o3⟩ := homogeneous_point ⟨1, 0, 0⟩ 3 (by norm_num) (by norm_num) N
    have hrem : removeInteractions (2 * ((progParsed .lattice).lattice.lattice ++ interactionFields root.inter).length + 1) 0
        ((progParsed .lattice).lattice.lattice ++ interactionFields root.inter) = .ok [HomogeneousField ⟨1, 0, 0⟩ 0] := by
      rw [remove_all]
      simp [progParsed, HomogeneousField]
    have hfel : felFiles (progDoc "lattice") = [] := by simp [felFiles, progDoc, Xml.child, Xml.children, Xml.name]
    have hobs : exampleLib.observeSpec w [HomogeneousField ⟨1, 0, 0⟩ 0] root.master ⟨.point (PointObs.new ⟨0, 0, 0⟩ 0 1 3), .lattice, "point.sdds"⟩ = .ok [⟨"point.sdds", .point f⟩] := by
      simp only [observeSpec, hl, o1, bind, Except.bind, storeParticles, generateOutput, o2, Except.map, caught]
    refine ⟨f, ?_, by rw [o3]; simp⟩
    simp only [hrem, hfel, ho, bind, Except.bind, List.zip_nil_right, List.mapM_nil, pure, Except.pure]
    simp [progParsed, hobs, bind, Except.bind, pure, Except.pure]

/-- **C82 (random numbers).** All random numbers of a run are those drawn on the nodes (`rnd`): there is no other source of randomness, so that (with
`C82_nodes_partial`) the files are a function of the document, the libraries and the random numbers of the first node. -/
theorem C82_random_numbers (L : Lib) (uniform : Nat → Nat → ℝ) (normal : Nat → Nat → Nat → ℝ) (rnd : Nat → (Nat → Nat → ℝ) × (Nat → Nat → Nat → ℝ)) (J : Indet)
    (nodes : Nat) (doc : Xml) : ({ L with uniform := uniform, normal := normal } : Lib).program rnd J nodes doc = L.program rnd J nodes doc := rfl

/-- **C82, the full statement is false**: lattice fields are observed by every node, and the sum is written (see C38). -/
theorem C82_full_statement_false : ¬ ∀ (L : Lib) (rnd rnd₁ : Nat → (Nat → Nat → ℝ) × (Nat → Nat → Nat → ℝ)) (J J₁ : Indet) (nodes : Nat) (doc : Xml),
    rnd 0 = rnd₁ 0 → J.traj = J₁.traj ∧ J.fuel = J₁.fuel → 0 < nodes → Agree (L.program rnd J nodes doc) (L.program rnd₁ J₁ 1 doc) := by
  intro h
  have h' := h exampleLib (fun _ => (fun _ _ => 0, fun _ _ _ => 0)) (fun _ => (fun _ _ => 0, fun _ _ _ => 0)) ⟨fun _ _ _ => 0, fun _ => 0, 0⟩ ⟨fun _ _ _ => 0, fun _ => 0, 0⟩ 2 (progDoc "lattice")
    rfl ⟨rfl, rfl⟩ (by norm_num)
  obtain ⟨f, h1, h2⟩ := progDoc_lattice (fun _ => (fun _ _ => 0, fun _ _ _ => 0)) ⟨fun _ _ _ => 0, fun _ => 0, 0⟩ 1
  obtain ⟨f₁, g1, g2⟩ := progDoc_lattice (fun _ => (fun _ _ => 0, fun _ _ _ => 0)) ⟨fun _ _ _ => 0, fun _ => 0, 0⟩ 0
  rw [h1, g1] at h'
  simp only [Agree, List.cons.injEq, OutFile.mk.injEq, FileData.point.injEq, true_and, and_true] at h'
  rw [h', g2] at h2
  norm_num at h2

/-- non-vacuity of `C82_nodes_partial`: the particle in a constant field, with an observation point for its radiation -/
example (r : (Nat → Nat → ℝ) × (Nat → Nat → Nat → ℝ)) (nodes : Nat) : ∃ p, (exampleLib.withRandom r).parse (progDoc "beam") = .ok p ∧
    (∀ spec ∈ p.observers.observers, spec.source = .beam) ∧ p.observers.observers ≠ [] ∧
      ∀ pr, p.beam.probe = some pr → ∀ m total, masterBeam p = .ok m → m.getNOP = .ok total → toUnsigned pr.number ≤ ⌈(total : ℚ) / nodes⌉₊ :=
  ⟨_, progDoc_parse r "beam" .beam (Or.inl ⟨rfl, rfl⟩), by simp [progParsed], by simp [progParsed], by simp [progParsed]⟩

end Lib
end Teufel
