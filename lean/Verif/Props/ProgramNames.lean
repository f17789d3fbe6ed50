import Verif.Props.ProgramFiles
import Verif.Props.Watches

/-!
# C84: the names of all files
-/

namespace Teufel
open Vec Input

section
variable {σ ω : Type}

/-- what every interaction step keeps, the run keeps -/
theorem inter_kept (R : Run σ ω) (K : σ → Prop) (hi : ∀ b s s', K s → R.initInter b s = .ok s' → K s') (hs : ∀ b s s', K s → R.stepInter b s = .ok s' → K s')
    (hN : 0 < R.nodes) (ms : List Beam) (hlen : ms.length = R.nodes)
    (hwf : ∀ m ∈ ms, Beam.WF m) (m0 : Beam) (hm0 : ms.head? = some m0) (hblank : ∀ m ∈ ms, Beam.blank m = m0.blank)
    (s : σ) (hK : K s) (out : ω) (k : Nat) (w : World σ ω) (hw : runSteps R ms s out k = .ok w) : ∀ n ∈ w.nodes, K n.inter := by
  have hm0wf := hwf m0 (List.mem_of_head? hm0)
  obtain ⟨M, hM, hMl, _, hdt, _, hMall, hlens, hset⟩ := setupMasters ms m0 hm0wf hwf hblank R.NOTS
  have hr := runSteps_abs R hN ms hlen hwf m0 hm0 hblank s out M hM hMl hset k
  rw [hr.1] at hw
  cases hA : absRun R (trackingNOP M.all.length R.nodes) M s out k with
  | error e => rw [hA] at hw; cases hw
  | ok A =>
    rw [hA] at hw
    injection hw with hw
    subst hw
    have key : K A.s := by
      unfold absRun at hA
      cases h0 : absSetup R (trackingNOP M.all.length R.nodes) M s out with
      | error e => rw [h0] at hA; cases hA
      | ok A0 =>
        rw [h0] at hA
        simp only [bind, Except.bind] at hA
        have base : K A0.s := by
          unfold absSetup at h0
          simp only [bind, Except.bind, pure, Except.pure] at h0
          split at h0
          · cases h0
          · split at h0
            · cases h0
            split at h0
            · cases h0
            cases hx : R.initInter M s with
            | error e => rw [hx] at h0; cases h0
            | ok s' =>
              rw [hx] at h0
              injection h0 with h0
              rw [← h0]
              exact hi _ _ _ hK hx
        clear h0
        generalize List.range k = l at hA
        induction l generalizing A0 with
        | nil =>
          injection hA with hA
          rw [← hA]
          exact base
        | cons j l ih =>
          rw [List.foldlM_cons] at hA
          cases hst : absStep R (trackingNOP M.all.length R.nodes) A0 j with
          | error e => rw [hst] at hA; cases hA
          | ok A1 =>
            rw [hst] at hA
            refine ih A1 ?_ hA
            unfold absStep at hst
            simp only [bind, Except.bind, pure, Except.pure] at hst
            split at hst
            · cases hst
            split at hst
            · cases hst
            split at hst
            · cases hst
            split at hst
            · cases hst
            split at hst
            · cases hst
            next s' hx =>
            injection hst with hst
            rw [← hst]
            exact hs _ _ _ base hx
    intro n hn
    simp only [Abs.world, List.mem_map] at hn
    obtain ⟨c, _, rfl⟩ := hn
    exact key

/-- the watch points of which the files are written during the first `k` steps, in order of time -/
def watchOrder (watches : List Watch) (k : Nat) : List Watch :=
  (List.range (k + 1)).flatMap (fun j : Nat => watches.filter (fun x => x.step = (j : Int)))

/-- files and loggers after `k` steps -/
theorem output_lists (R : Run σ Output) (junk : Nat → ℝ) (fuel : Nat) {probe : Option (Nat × Nat)} (hR : R.Records junk fuel probe) (ms : List Beam) (s : σ) (out : Output) (hnew : out.files = [])
    (k : Nat) (w : World σ Output) (hw : runSteps R ms s out k = .ok w) :
    w.out.watches = out.watches ∧ w.out.files.map WatchFile.watch = watchOrder out.watches k ∧ w.out.loggers.length = out.loggers.length + probe.toList.length := by
  induction k generalizing w with
  | zero =>
    obtain ⟨m, t, h1, h2⟩ := run_start _ ms s out w hw
    obtain ⟨g1, new, g2, g3, g4⟩ := records_files hR h2
    rw [hnew, List.nil_append] at g2
    refine ⟨g1, ?_, ?_⟩
    · rw [g2, g3]
      simp [watchOrder]
    · have len : ∀ (o o' : Output), o.start junk fuel m t = .ok o' → o'.loggers.length = o.loggers.length := by
        intro o o' h
        unfold Output.start at h
        simp only [bind, Except.bind, pure, Except.pure] at h
        cases hx : writeWatches 0 m o with
        | error e => rw [hx] at h; cases h
        | ok o1 =>
          rw [hx] at h
          simp only at h
          cases hm : o1.loggers.mapM (Logger.update junk fuel m t) with
          | error e => rw [hm] at h; cases h
          | ok ls =>
            rw [hm] at h
            injection h with h
            rw [← h, ← (writeWatches_loggers hx).1]
            exact (mapM_except_length hm).1
      rw [hR.2] at h2
      cases probe with
      | none => simpa using len _ _ h2
      | some p =>
        simp only [Output.startProbe] at h2
        cases hL : ProbeLog.new t p.1 p.2 with
        | error e => rw [hL] at h2; cases h2
        | ok L =>
          rw [hL] at h2
          simp only [bind, Except.bind] at h2
          simpa using len _ _ h2
  | succ k ih =>
    obtain ⟨w', hw'⟩ := runSteps_prefix _ ms s out (k + 1) w hw k (by omega)
    obtain ⟨i1, i2, i3⟩ := ih w' hw'
    obtain ⟨m, t, h1, h2⟩ := run_next _ ms s out k w' w hw' (run_root _ ms s out k w' hw') hw
    rw [hR.1] at h2
    obtain ⟨g1, new, g2, g3, g4⟩ := step_files h2
    refine ⟨g1.trans i1, ?_, ?_⟩
    · rw [g2, List.map_append, g3, i1, i2]
      unfold watchOrder
      rw [List.range_succ (n := k + 1), List.flatMap_append]
      simp
    · rw [← i3]
      unfold Output.step at h2
      simp only [bind, Except.bind] at h2
      cases hm : w'.out.loggers.mapM (Logger.maybe junk fuel (k + 1) m t) with
      | error e => rw [hm] at h2; cases h2
      | ok ls =>
        rw [hm] at h2
        rw [(writeWatches_loggers h2).1]
        exact (mapM_except_length hm).1

end

namespace Lib

/-- there is one interaction for every `<fel1d>` -/
theorem interactions_length (L : Lib) (doc : Xml) (p : Parsed) (h : L.parse doc = .ok p) : p.tracking.state.interactions.length = (felFiles doc).length := by
  unfold parse at h
  simp only [bind, Except.bind, pure, Except.pure] at h
  cases h1 : need (doc.child "teufel") with
  | error e => rw [h1] at h; cases h
  | ok root =>
  rw [h1] at h
  simp only at h
  cases h2 : L.parseLattice root (L.start root) [] with
  | error e => rw [h2] at h; cases h
  | ok lat =>
  rw [h2] at h
  simp only at h
  cases h3 : L.parseBeam root lat.env with
  | error e => rw [h3] at h; cases h
  | ok be =>
  rw [h3] at h
  simp only at h
  cases h4 : L.parseTracking root be.env with
  | error e => rw [h4] at h; cases h
  | ok tr =>
  rw [h4] at h
  simp only at h
  cases h5 : L.parseObservers root tr.state.env with
  | error e => rw [h5] at h; cases h
  | ok ob =>
  rw [h5] at h
  injection h with h
  subst h
  simp only
  unfold parseTracking at h4
  simp only [bind, Except.bind, pure, Except.pure] at h4
  cases h6 : need (root.child "tracking") with
  | error e => rw [h6] at h4; cases h4
  | ok track =>
  rw [h6] at h4
  simp only at h4
  have hfel : felFiles doc = (track.children.filter (fun c => c.name == "fel1d")).map (fun c => (c.child "log").bind (fun l => l.attr "file")) := by
    unfold felFiles
    rw [need_some h1, Option.bind_some, need_some h6]
  rw [hfel, List.length_map]
  split at h4
  · cases h4
  split at h4
  · cases h4
  split at h4
  · cases h4
  split at h4
  · cases h4
  cases h7 : track.children.foldlM (L.trackStep track) ⟨be.env, [], []⟩ with
  | error e => rw [h7] at h4; cases h4
  | ok st =>
  rw [h7] at h4
  injection h4 with h4
  subst h4
  simp only
  have key : ∀ (l : List Xml) (s s' : TrackState), l.foldlM (L.trackStep track) s = .ok s' →
      s'.interactions.length = s.interactions.length + (l.filter (fun c => c.name == "fel1d")).length := by
    intro l
    induction l with
    | nil =>
      intro s s' h
      injection h with h
      subst h
      simp
    | cons x l ih =>
      intro s s' h
      rw [List.foldlM_cons] at h
      cases hx : L.trackStep track s x with
      | error e => rw [hx] at h; cases h
      | ok s1 =>
        rw [hx] at h
        rw [ih s1 s' h]
        unfold trackStep at hx
        have watch : ∀ ty, L.watchEntry ty s x = .ok s1 → s1.interactions = s.interactions := by
          intro ty hy
          unfold watchEntry at hy
          simp only [bind, Except.bind, pure, Except.pure] at hy
          split at hy
          · cases hy
          split at hy
          · cases hy
          split at hy
          · cases hy
          injection hy with hy
          rw [← hy]
        split_ifs at hx with c1 c2 c3 c4
        · injection hx with hx
          subst hx
          rw [List.filter_cons_of_neg (by simp [c1])]
        · rw [List.filter_cons_of_pos (by simp [c2])]
          unfold felEntry at hx
          simp only [bind, Except.bind, pure, Except.pure] at hx
          split at hx
          · cases hx
          split at hx
          · cases hx
          injection hx with hx
          rw [← hx]
          simp
          omega
        · rw [List.filter_cons_of_neg (by simp [c3]), watch _ hx]
        · rw [List.filter_cons_of_neg (by simp [c4]), watch _ hx]
  have := key _ _ _ h7
  simpa using this

theorem names_of_zip {α β : Type} (g : β → Except Err FileData) (names : List String) (l : List β) (hl : names.length = l.length) (fs : List OutFile)
    (h : (names.zip l).mapM (fun nl : String × β => (g nl.2).map (fun d => (⟨nl.1, d⟩ : OutFile))) = .ok fs) : fs.map OutFile.name = names := by
  induction names generalizing l fs with
  | nil =>
    injection h with h
    rw [← h]
    rfl
  | cons n names ih =>
    cases l with
    | nil => simp at hl
    | cons x l =>
      rw [List.zip_cons_cons, List.mapM_cons] at h
      simp only [bind, Except.bind, pure, Except.pure] at h
      cases hx : g x with
      | error e => rw [hx] at h; cases h
      | ok d =>
        rw [hx] at h
        simp only [Except.map] at h
        split at h
        · cases h
        next fs' hfs =>
        injection h with h
        rw [← h, List.map_cons, ih l (by simpa using hl) fs' hfs]

theorem names_of_fel (fels : List FEL) (names : List (Option String)) (hl : fels.length = names.length) (fs : List (List OutFile))
    (h : (fels.zip names).mapM felOutput = .ok fs) : fs.flatten.map OutFile.name = names.filterMap id := by
  induction fels generalizing names fs with
  | nil =>
    rw [List.length_nil] at hl
    rw [List.eq_nil_of_length_eq_zero hl.symm]
    injection h with h
    rw [← h]
    rfl
  | cons f fels ih =>
    cases names with
    | nil => simp at hl
    | cons n names =>
      rw [List.zip_cons_cons, List.mapM_cons] at h
      simp only [bind, Except.bind, pure, Except.pure] at h
      cases hx : felOutput (f, n) with
      | error e => rw [hx] at h; cases h
      | ok fl =>
        rw [hx] at h
        simp only at h
        split at h
        · cases h
        next fs' hfs =>
        injection h with h
        rw [← h, List.flatten_cons, List.map_append, ih names (by simpa using hl) fs' hfs]
        cases n with
        | none =>
          injection hx with hx
          rw [← hx]
          rfl
        | some n =>
          simp only [felOutput] at hx
          cases hw : f.writeOutput with
          | error e => rw [hw] at hx; cases hx
          | ok d =>
            rw [hw] at hx
            injection hx with hx
            rw [← hx]
            rfl

/-- **C84.** If the program succeeds it has written exactly these files, in this order: those of the watch points with
`0 ≤ step ≤ NOTS` in order of time (for the same time in the order of the input), the log files of the bunches in the order of the input, that of the
probe, those of the interactions with a log, those of the observers in the order of the input. -/
theorem C84_names (L : Lib) (rnd : Nat → (Nat → Nat → ℝ) × (Nat → Nat → Nat → ℝ)) (J : Indet) (nodes : Nat) (hN : 0 < nodes) (doc : Xml) (fs : List OutFile)
    (h : L.program rnd J nodes doc = .ok fs) :
    ∃ p, (L.withRandom (rnd 0)).parse doc = .ok p ∧
      fs.map OutFile.name =
        (List.range (p.tracking.NOTS.toNat + 1)).flatMap (fun j : Nat => (p.tracking.state.watches.filter (fun x => x.step = (j : Int))).map Watch.filename) ++
        p.beam.logs.map LogSpec.file ++ (p.beam.probe.map ProbeSpec.file).toList ++ (felFiles doc).filterMap id ++ p.observers.observers.map ObserverSpec.file := by
  obtain ⟨N, rfl⟩ : ∃ N, nodes = N + 1 := ⟨nodes - 1, by omega⟩
  obtain ⟨p, m, ms, s, loggers, w, root, rest, logs, fels, obs, ⟨hp, hm, h1, h2, h3, h4, hs, hl, hw, hwn, hlo, hfe, hob, hfs⟩, hlen', hfiles⟩ := observer_parts L rnd J N doc fs h
  refine ⟨p, hp, ?_⟩
  have hwf : ∀ b ∈ m :: ms, Beam.WF b := fun b hb => Beam.wf_reachable (h2 b hb)
  have hlen : (m :: ms).length = (tracking p J (N + 1)).run.nodes := by simp [h1]; rfl
  have hN' : 0 < (tracking p J (N + 1)).run.nodes := by show 0 < N + 1; omega
  obtain ⟨o1, o2, o3⟩ := output_lists (tracking p J (N + 1)).run J.traj J.fuel (tracking_records p J (N + 1)) (m :: ms) s _ rfl _ w hw
  have hinter : root.inter.length = s.length := by
    refine inter_kept (tracking p J (N + 1)).run (fun x => x.length = s.length) ?_ ?_ hN' (m :: ms) hlen hwf m rfl h3 s rfl _ _ w hw root (by simp [hwn])
    · intro b x x' hx hy
      exact ((mapM_except_length (show x.mapM (FEL.init b) = .ok x' from hy)).1).trans hx
    · intro b x x' hx hy
      exact ((mapM_except_length (show x.mapM (FEL.step b) = .ok x' from hy)).1).trans hx
  have hslen := (mapM_except_length hs).1
  have hint := interactions_length _ doc p hp
  have hloglen := (mapM_except_length hl).1
  have n2 : logs.map OutFile.name = logFiles p := by
    refine names_of_zip (α := Unit) (fun l : Logger => l.writeData root.master) _ _ ?_ _ hlo
    rw [o3, hloglen]
    unfold logFiles
    cases p.beam.probe <;> simp
  have n3 : fels.flatten.map OutFile.name = (felFiles doc).filterMap id := names_of_fel _ _ (by omega) _ hfe
  have n4 : obs.flatten.map OutFile.name = p.observers.observers.map ObserverSpec.file := by
    apply List.ext_getElem?
    intro i
    cases hi : p.observers.observers[i]? with
    | none =>
      rw [List.getElem?_map, List.getElem?_map, hi]
      rw [List.getElem?_eq_none_iff] at hi
      rw [List.getElem?_eq_none_iff.mpr (by omega)]
      rfl
    | some spec =>
      obtain ⟨d, hd, _⟩ := hfiles i spec hi
      rw [List.getElem?_map, List.getElem?_map, hd, hi]
      rfl
  rw [hfs, List.map_append, List.map_append, List.map_append, n2, n3, n4, List.map_map]
  have n1 : w.out.files.map (OutFile.name ∘ fun f => ⟨f.watch.filename, .watch f.data⟩) = (w.out.files.map WatchFile.watch).map Watch.filename := by
    rw [List.map_map]
    rfl
  rw [n1, o2]
  unfold logFiles watchOrder
  rw [List.map_flatMap]
  simp only [List.append_assoc]

/-! ## Example: two watch points, given in the wrong order -/

/-- as `progDoc`, with two watch points -/
def watchDoc : Xml :=
  .node "" [] [.node "teufel" []
    [.node "lattice" [] [.node "background" [] [.node "E" [("x", "1")] []]],
     .node "beam" [] [.node "particle" [("gamma", "2"), ("charge", "1"), ("cmr", "1")] [.node "position" [] [], .node "momentum" [("z", "1")] []]],
     .node "tracking" [("method", "Vay"), ("delta_t", "1"), ("n", "2")] [.node "watch" [("step", "2"), ("file", "late.h5")] [], .node "watch-sdds" [("step", "1"), ("file", "early.sdds")] []],
     .node "observer" [] [.node "point" [("file", "point.sdds"), ("source", "lattice")] [.node "position" [] [], .node "time" [("dt", "1"), ("n", "3")] []]]]]

noncomputable def watchParsed : Parsed :=
  { progParsed .lattice with tracking := ⟨1, 2, ⟨predefined, [⟨2, "late.h5", .hdf5⟩, ⟨1, "early.sdds", .sdds⟩], []⟩⟩ }

theorem watchDoc_parse (r : (Nat → Nat → ℝ) × (Nat → Nat → Nat → ℝ)) : (exampleLib.withRandom r).parse watchDoc = .ok watchParsed := by
  have hc : ∀ env node, (∀ c ∈ node.children, c.name ≠ "calc") → (exampleLib.withRandom r).parseCalcChildren env node = env := by
    intro env node hn
    unfold parseCalcChildren
    generalize node.children = l at hn
    induction l generalizing env with
    | nil => rfl
    | cons c l ih =>
      rw [List.foldl_cons, if_neg (hn c (by simp))]
      exact ih env (fun c' hc' => hn c' (by simp [hc']))
  have e0 : ∀ env, (exampleLib.withRandom r).eval env "" = env "" := by intro env; simp [withRandom, exampleLib]
  have e1 : ∀ env, (exampleLib.withRandom r).eval env "1" = some 1 := by intro env; simp [withRandom, exampleLib]
  have e2 : ∀ env, (exampleLib.withRandom r).eval env "2" = some 2 := by intro env; simp [withRandom, exampleLib]
  have e3 : (exampleLib.withRandom r).asInt "3" = 3 := by simp [withRandom, exampleLib]
  have hpe := predefined_empty
  have h1 : toInt32 (crint 1) = .ok 1 := by simp [crint, toInt32]
  have h2 : toInt32 (crint 2) = .ok 2 := by simp [crint, toInt32]
  unfold parse watchDoc
  simp only [Xml.child, Xml.children, Xml.name, List.find?, need, bind, Except.bind, pure, Except.pure, start, beq_self_eq_true]
  rw [hc _ _ (by simp [Xml.children, Xml.name])]
  simp only [parseLattice, parseBeam, parseTracking, parseObservers, Xml.child, Xml.children, Xml.name, List.find?, need, bind, Except.bind, pure, Except.pure]
  have p1 : (exampleLib.withRandom r).latticeStep ⟨predefined, [], 0⟩ (.node "background" [] [.node "E" [("x", "1")] []]) = .ok ⟨predefined, [HomogeneousField ⟨1, 0, 0⟩ 0], 1⟩ := by
    simp [latticeStep, latticeElement, Xml.name, parseCalcChildren, Xml.children, Except.map, Lattice.addElement, optVec, Xml.child, vec, num, Xml.value, Xml.attr, Xml.attrs, e0, e1, hpe]
  have p2 : (exampleLib.withRandom r).beamStep ⟨predefined, [], [], none, 0⟩ (.node "particle" [("gamma", "2"), ("charge", "1"), ("cmr", "1")] [.node "position" [] [], .node "momentum" [("z", "1")] []])
      = .ok ⟨predefined, [singleParticle 2 1 1 0 ⟨0, 0, 0⟩ ⟨0, 0, 1⟩], [], none, 1⟩ := by
    simp [beamStep, particleEntry, Xml.name, parseCalcChildren, Xml.children, Xml.child, need, bind, Except.bind, pure, Except.pure, parseLog, optNum, vec, num, Xml.value, Xml.attr, Xml.attrs, e0, e1, e2, hpe, List.lookup]
  have p3 : ∀ t ws, (exampleLib.withRandom r).trackStep t ⟨predefined, ws, []⟩ (.node "watch" [("step", "2"), ("file", "late.h5")] []) = .ok ⟨predefined, ws ++ [⟨2, "late.h5", .hdf5⟩], []⟩ := by
    intro t ws
    simp [trackStep, watchEntry, Xml.name, need, bind, Except.bind, pure, Except.pure, int, num, Xml.value, Xml.attr, Xml.attrs, e2, h2, List.lookup]
  have p3' : ∀ t ws, (exampleLib.withRandom r).trackStep t ⟨predefined, ws, []⟩ (.node "watch-sdds" [("step", "1"), ("file", "early.sdds")] []) = .ok ⟨predefined, ws ++ [⟨1, "early.sdds", .sdds⟩], []⟩ := by
    intro t ws
    simp [trackStep, watchEntry, Xml.name, need, bind, Except.bind, pure, Except.pure, int, num, Xml.value, Xml.attr, Xml.attrs, e1, h1, List.lookup]
  have p4 : (exampleLib.withRandom r).observerStep ⟨predefined, []⟩ (.node "point" [("file", "point.sdds"), ("source", "lattice")] [.node "position" [] [], .node "time" [("dt", "1"), ("n", "3")] []])
      = .ok ⟨predefined, [⟨.point (PointObs.new ⟨0, 0, 0⟩ 0 1 3), .lattice, "point.sdds"⟩]⟩ := by
    have hsrc : source (.node "point" [("file", "point.sdds"), ("source", "lattice")] [.node "position" [] [], .node "time" [("dt", "1"), ("n", "3")] []]) = .ok .lattice := by
      simp [source, Xml.attr, Xml.attrs, List.lookup]
    simp [observerStep, observerEntry, pointEntry, Xml.name, parseCalcChildren, Xml.children, Xml.child, need, bind, Except.bind, pure, Except.pure, hsrc, points, Except.map, vec, num, Xml.value, Xml.attr, Xml.attrs, e0, e1, e3, hpe, List.lookup]
  simp [p1, p2, Xml.value, Xml.attr, Xml.attrs, List.lookup, int, num, e1, e2, h2, watchParsed, progParsed]
  simp [pure, Except.pure, bind, Except.bind, p3, p3', p4]

/-- the program runs on any number of nodes -/
theorem watchDoc_runs (rnd : Nat → (Nat → Nat → ℝ) × (Nat → Nat → Nat → ℝ)) (J : Indet) (N : Nat) : ∃ fs, exampleLib.program rnd J (N + 1) watchDoc = .ok fs := by
  obtain ⟨bg, mom, hm⟩ := progDoc_master .lattice
  obtain ⟨ms, h1, h2, h3, h4⟩ := program_ok exampleLib rnd J N watchDoc _ (watchDoc_parse (rnd 0)) (progBeam bg mom) hm
  obtain ⟨w, hw, hI⟩ := progress_on (tracking watchParsed J (N + 1)).run (progBeam bg mom) (fun o => o.loggers = []) (fun o => o.loggers = []) (fun s => s = [])
    ⟨by
      intro m t o hwf _ _ ho
      obtain ⟨o', ho'⟩ := writeWatches_wf hwf 0 o
      have hl := (writeWatches_loggers ho').1
      refine ⟨{ o' with loggers := [] }, ?_, rfl⟩
      show Output.start J.traj J.fuel m t o = _
      unfold Output.start
      rw [ho']
      simp only [bind, Except.bind]
      rw [hl, ho]
      rfl,
     by
      intro k m t o _ hwf _ _ ho
      obtain ⟨o', ho'⟩ := writeWatches_wf hwf k { o with loggers := [] }
      refine ⟨o', ?_, (writeWatches_loggers ho').1⟩
      show Output.step J.traj J.fuel k m t o = _
      unfold Output.step
      rw [ho]
      exact ho',
     by rintro m s rfl; exact ⟨_, rfl, rfl⟩, by rintro m s rfl; exact ⟨_, rfl, rfl⟩⟩
    (by rintro s rfl t x; exact ⟨_, rfl⟩) (by show 0 < N + 1; omega) (progBeam bg mom :: ms) (by simp [h1]; rfl) h2 rfl h3 rfl (progBeam_mass bg mom) []
    ⟨[], watchParsed.tracking.state.watches, []⟩ rfl rfl 2
  have hl : w.nodes.length = N + 1 := by
    have hwf : ∀ b ∈ progBeam bg mom :: ms, Beam.WF b := fun b hb => Beam.wf_reachable (h2 b hb)
    obtain ⟨M, hM, hMl, _, hdt, _, hMall, hlens, hset⟩ := setupMasters (progBeam bg mom :: ms) _ (hwf _ (by simp)) hwf h3 (tracking watchParsed J (N + 1)).run.NOTS
    have hr := runSteps_abs (tracking watchParsed J (N + 1)).run (by show 0 < N + 1; omega) (progBeam bg mom :: ms) (by simp [h1]; rfl) hwf _ rfl h3 [] ⟨[], watchParsed.tracking.state.watches, []⟩ M hM hMl hset 2
    rw [hr.1] at hw
    cases hA : absRun (tracking watchParsed J (N + 1)).run (trackingNOP M.all.length (tracking watchParsed J (N + 1)).run.nodes) M [] ⟨[], watchParsed.tracking.state.watches, []⟩ 2 with
    | error e => rw [hA] at hw; cases hw
    | ok A =>
      rw [hA] at hw
      injection hw with hw
      subst hw
      simp [Abs.world, chunks]
      rfl
  rw [h4, if_neg (by simp [watchParsed])]
  have e1 : watchParsed.tracking.state.interactions.mapM id = (.ok [] : Except Err (List FEL)) := rfl
  have e2 : watchParsed.beam.logs.mapM (LogSpec.create (progBeam bg mom)) = (.ok [] : Except Err (List Logger)) := rfl
  rw [e1, e2]
  show ∃ fs, (runAll (tracking watchParsed J (N + 1)).run (progBeam bg mom :: ms) [] ⟨[], watchParsed.tracking.state.watches, []⟩).bind _ = _
  have hw' : runAll (tracking watchParsed J (N + 1)).run (progBeam bg mom :: ms) [] ⟨[], watchParsed.tracking.state.watches, []⟩ = .ok w := hw
  rw [hw']
  simp only [Except.bind]
  unfold finish
  cases hn : w.nodes with
  | nil => rw [hn] at hl; simp at hl
  | cons root rest =>
    obtain ⟨s, f, o1, o2, o3⟩ := homogeneous_point ⟨1, 0, 0⟩ 3 (by norm_num) (by norm_num) N
    have hrem : removeInteractions (2 * (watchParsed.lattice.lattice ++ interactionFields root.inter).length + 1) 0
        (watchParsed.lattice.lattice ++ interactionFields root.inter) = .ok [HomogeneousField ⟨1, 0, 0⟩ 0] := by
      rw [remove_all]
      simp [watchParsed, progParsed, HomogeneousField]
    have hfel : felFiles watchDoc = [] := by simp [felFiles, watchDoc, Xml.child, Xml.children, Xml.name]
    have hobs : exampleLib.observeSpec w [HomogeneousField ⟨1, 0, 0⟩ 0] root.master ⟨.point (PointObs.new ⟨0, 0, 0⟩ 0 1 3), .lattice, "point.sdds"⟩ = .ok [⟨"point.sdds", .point f⟩] := by
      simp only [observeSpec, hl, o1, bind, Except.bind, storeParticles, generateOutput, o2, Except.map, caught]
    simp only [hrem, hfel, hI, bind, Except.bind, List.zip_nil_right, List.mapM_nil, pure, Except.pure]
    simp [watchParsed, progParsed, hobs, bind, Except.bind, pure, Except.pure]

/-- non-vacuity of C84 (and C83): two watch points and an observer on three nodes -/
example (rnd : Nat → (Nat → Nat → ℝ) × (Nat → Nat → Nat → ℝ)) (J : Indet) :
    ∃ fs, exampleLib.program rnd J 3 watchDoc = .ok fs ∧ fs.map OutFile.name = ["early.sdds", "late.h5", "point.sdds"] := by
  obtain ⟨fs, h⟩ := watchDoc_runs rnd J 2
  obtain ⟨p, hp, hn⟩ := C84_names exampleLib rnd J 3 (by norm_num) watchDoc fs h
  rw [watchDoc_parse] at hp
  injection hp with hp
  subst hp
  refine ⟨fs, h, ?_⟩
  rw [hn]
  simp [watchParsed, progParsed, felFiles, watchDoc, Xml.child, Xml.children, Xml.name, List.range_succ]

end Lib
end Teufel
