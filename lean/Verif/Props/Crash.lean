import Verif.Lemmas.CrashMid
import Verif.Props.ProgramComplete

/-!
# C123: the files of a run which is interrupted or fails
-/

namespace Teufel
open Traced Input

/-- a place in a concatenation -/
theorem split_append {α : Type} {a b u v : List α} {f : α} (h : a ++ b = u ++ f :: v) :
    (∃ v', a = u ++ f :: v' ∧ v = v' ++ b) ∨ ∃ u', u = a ++ u' ∧ b = u' ++ f :: v := by
  rcases List.append_eq_append_iff.mp h with ⟨c, h1, h2⟩ | ⟨c, h1, h2⟩
  · exact Or.inr ⟨c, h1, h2⟩
  · cases c with
    | nil =>
      rw [List.nil_append] at h2
      rw [List.append_nil] at h1
      exact Or.inr ⟨[], by simp [h1], by simp [h2]⟩
    | cons x c =>
      rw [List.cons_append, List.cons.injEq] at h2
      obtain ⟨rfl, h2⟩ := h2
      exact Or.inl ⟨c, h1, h2⟩

section
variable (P : FELProgram Output) (hN : 0 < P.nodes) (ms : List Beam) (hlen : ms.length = P.nodes)
  (hreach : ∀ m ∈ ms, Beam.Reachable m) (m0 : Beam) (hm0 : ms.head? = some m0) (hblank : ∀ m ∈ ms, Beam.blank m = m0.blank)
  (s : List FEL) (out : Output) (h0 : out.files = []) {start : Beam → Beam → Output → Traced Output} {step' : Nat → Beam → Beam → Output → Traced Output}
  (h1 : ∀ m t o, (start m t o).result = P.run.startOut m t o) (h2 : ∀ k m t o, (step' k m t o).result = P.run.stepOut k m t o)
  (w1 : WritesWatches 0 start) (w2 : ∀ k : Nat, WritesWatches k (step' k)) {junk : Nat → ℝ} {fuel : Nat} {probe : Option (Nat × Nat)} (hR : P.run.Records junk fuel probe)
include hN hlen hreach hm0 hblank h0 h1 h2 w1 w2 hR

/-- all files of the steps done -/
theorem done_written (k : Nat) (w : World (List FEL) Output) (hw : runSteps P.run ms s out k = .ok w) :
    (runStepsT P.run start step' ms s out k).written = w.out.files.map WatchFile.file ∧
      ∀ y ∈ out.watches, 0 ≤ y.step → y.step ≤ k → ∃ g ∈ (runStepsT P.run start step' ms s out k).written, WatchFileOf P.ext m0.dt m0.all s y g := by
  have hwr : (runStepsT P.run start step' ms s out k).written = w.out.files.map WatchFile.file := by
    rcases tracking_writes P.run h1 h2 w1 w2 ms s out h0 k with ⟨w', a, _, b⟩ | ⟨⟨e, he⟩, _⟩
    · rw [hw] at a
      cases a
      exact b
    · rw [hw] at he
      cases he
  refine ⟨hwr, ?_⟩
  intro y hy y0 y1
  obtain ⟨hperm, hc⟩ := C42_watches P.run junk fuel hR ms s out h0 k w hw
  have hmem : y ∈ w.out.files.map WatchFile.watch := by
    rw [hperm.mem_iff, List.mem_filter]
    exact ⟨hy, by simp [y0, y1]⟩
  rw [List.mem_map] at hmem
  obtain ⟨f, hf, rfl⟩ := hmem
  obtain ⟨m, t, ⟨w', hw', hr⟩, hwrite⟩ := hc f hf
  obtain ⟨n, hn, rfl, _⟩ := root_mem hr
  obtain ⟨_, M, S, hT, hM⟩ := run_together P hN ms hlen hreach m0 hm0 hblank s out _ w' hw'
  obtain ⟨bs, hbs, _, hcur⟩ := hT.now
  rw [← (hM n hn).1] at hcur
  rw [hwr]
  refine ⟨f.file, List.mem_map_of_mem hf, y0, f.data, bs, rfl, after_particles hbs, shows_of ?_ (hcur.imp (fun _ _ c => ⟨c.2.2.1, c.2.2.2.1, c.2.2.2.2.1⟩)) hwrite⟩
  rw [(hM n hn).1]
  exact hT.wf

/-- every file written while tracking is that of a watch point, and those of earlier steps are before it -/
theorem tracking_order (k : Nat) (before : List OutFile) (f : OutFile) (after : List OutFile) (h : (runStepsT P.run start step' ms s out k).written = before ++ f :: after) :
    ∃ x ∈ out.watches, x.step ≤ k ∧ WatchFileOf P.ext m0.dt m0.all s x f ∧
      ∀ y ∈ out.watches, 0 ≤ y.step → y.step < x.step → ∃ g ∈ before, WatchFileOf P.ext m0.dt m0.all s y g := by
  induction k generalizing before f after with
  | zero =>
    obtain ⟨a, _⟩ := stage_writes w1 (setupNodes P.run ms s) out _ (setupRunT P.run start ms s out) rfl
    have e : runStepsT P.run start step' ms s out 0 = setupRunT P.run start ms s out := by
      unfold runStepsT
      simp only [List.range_zero, loop]
      generalize setupRunT P.run start ms s out = x
      cases x with
      | mk w r => cases r <;> simp [andThen, silent]
    rw [e] at h
    obtain ⟨n, rest, x, d, hn, hx, hx0, hd, rfl⟩ := a f (by rw [h]; simp)
    obtain ⟨hwf, bs, hb1, hb2⟩ := start_beam P hN ms hlen hreach m0 hm0 hblank s out n rest hn
    refine ⟨x, hx, by omega, ⟨by omega, d, bs, rfl, ?_, shows_of hwf hb2 hd⟩, ?_⟩
    · rw [hx0]
      exact hb1
    · intro y _ y0 y1
      omega
  | succ k ih =>
    rw [runStepsT_succ] at h
    have hr := runStepsT_result P.run h1 h2 ms s out k
    cases hs : runSteps P.run ms s out k with
    | error e =>
      rw [hs] at hr
      rw [andThen_error hr] at h
      obtain ⟨x, a, b, c⟩ := ih before f after h
      exact ⟨x, a, by push_cast; omega, c⟩
    | ok w =>
      rw [hs] at hr
      rw [andThen_ok hr] at h
      rcases split_append h with ⟨v, hv, _⟩ | ⟨u, hu, hb⟩
      · obtain ⟨x, a, b, c⟩ := ih before f v hv
        exact ⟨x, a, by push_cast; omega, c⟩
      · obtain ⟨_, hdone⟩ := done_written P hN ms hlen hreach m0 hm0 hblank s out h0 h1 h2 w1 w2 hR k w hs
        obtain ⟨a, _⟩ := stage_writes (w2 (k + 1)) (stepNodes P.run w.nodes k) w.out _ (trackStepT P.run step' w k) rfl
        have hwat : w.out.watches = out.watches := by
          rcases tracking_writes P.run h1 h2 w1 w2 ms s out h0 k with ⟨w', a', b', _⟩ | ⟨⟨e, he⟩, _⟩
          · rw [hs] at a'
            cases a'
            exact b'
          · rw [hs] at he
            cases he
        obtain ⟨n, rest, x, d, hn, hx, hx0, hd, rfl⟩ := a f (by rw [hb]; simp)
        rw [hwat] at hx
        obtain ⟨hwf, bs, hb1, hb2⟩ := step_beam P hN ms hlen hreach m0 hm0 hblank s out k w hs n rest hn
        refine ⟨x, hx, by omega, ⟨by omega, d, bs, rfl, ?_, shows_of hwf hb2 hd⟩, ?_⟩
        · rw [hx0]
          exact hb1
        · intro y hy y0 y1
          obtain ⟨g, hg, hy⟩ := hdone y hy y0 (by push_cast at hx0; omega)
          exact ⟨g, by rw [hu]; exact List.mem_append_left _ hg, hy⟩

end

namespace Lib

theorem prelude_ok (L : Lib) (rnd : Nat → (Nat → Nat → ℝ) × (Nat → Nat → Nat → ℝ)) (N : Nat) (doc : Xml) (p : Parsed) (masters : List Beam) (s : List FEL) (loggers : List Logger)
    (h : L.prelude rnd (N + 1) doc = .ok (p, masters, s, loggers)) :
    ∃ m ms, masters = m :: ms ∧ (L.withRandom (rnd 0)).parse doc = .ok p ∧ masterBeam p = .ok m ∧ ms.length = N ∧ (∀ b ∈ m :: ms, Beam.Reachable b) ∧
      (∀ b ∈ m :: ms, Beam.blank b = m.blank) ∧ 0 ≤ p.tracking.NOTS ∧ p.tracking.state.interactions.mapM id = .ok s ∧ p.beam.logs.mapM (LogSpec.create m) = .ok loggers := by
  unfold prelude at h
  cases h0 : (L.withRandom (rnd 0)).parse doc with
  | error e =>
    rw [List.range_succ_eq_map, List.mapM_cons, h0] at h
    cases h
  | ok q =>
    obtain ⟨ps, e1, e2, e3⟩ := parse_all L rnd doc N q h0
    rw [e1] at h
    simp only [bind, Except.bind] at h
    cases hm : masterBeam q with
    | error e =>
      rw [List.mapM_cons, hm] at h
      cases h
    | ok m =>
      obtain ⟨ms, g1, g2, g3, g4⟩ := masters_all q ps e3 m hm
      rw [g1, hm] at h
      simp only at h
      split_ifs at h with hn
      cases hs : q.tracking.state.interactions.mapM id with
      | error e => rw [hs] at h; cases h
      | ok s' =>
        rw [hs] at h
        simp only at h
        cases hl : q.beam.logs.mapM (LogSpec.create m) with
        | error e => rw [hl] at h; cases h
        | ok l' =>
          rw [hl] at h
          cases h
          exact ⟨m, ms, rfl, rfl, hm, g2.trans e2, g3, g4, by omega, hs, hl⟩

theorem program_prelude (L : Lib) (rnd : Nat → (Nat → Nat → ℝ) × (Nat → Nat → Nat → ℝ)) (J : Indet) (nodes : Nat) (doc : Xml) :
    L.program rnd J nodes doc = (L.prelude rnd nodes doc).bind (fun q =>
      (runAll (tracking q.1 J nodes).run q.2.1 q.2.2.1 ⟨q.2.2.2, q.1.tracking.state.watches, []⟩).bind (L.finish doc q.1)) := by
  unfold program prelude
  cases (List.range nodes).mapM (fun r : Nat => (L.withRandom (rnd r)).parse doc) with
  | error e => rfl
  | ok parsed =>
    cases parsed with
    | nil => rfl
    | cons p rest =>
      simp only [bind, Except.bind, pure, Except.pure]
      cases (p :: rest).mapM masterBeam with
      | error e => rfl
      | ok masters =>
        dsimp only
        cases masterBeam p with
        | error e => rfl
        | ok m =>
          dsimp only
          split_ifs with hn
          · rfl
          · cases p.tracking.state.interactions.mapM id with
            | error e => rfl
            | ok s =>
              dsimp only
              cases p.beam.logs.mapM (LogSpec.create m) <;> rfl

theorem startOutT_result (p : Parsed) (J : Indet) (nodes : Nat) (m t : Beam) (o : Output) : (startOutT p J m t o).result = (tracking p J nodes).run.startOut m t o := by
  show _ = (tracking p J nodes).startOut m t o
  unfold startOutT tracking
  cases p.beam.probe with
  | none => exact startT_result _ _ _ _ _
  | some pr => exact startProbeT_result _ _ _ _ _ _ _

theorem startOutT_writes (p : Parsed) (J : Indet) : WritesWatches 0 (startOutT p J) := by
  unfold startOutT
  cases p.beam.probe with
  | none => exact startT_writes _ _
  | some pr => exact startProbeT_writes _ _ _ _

theorem fileT_result (r : Except Err (List OutFile)) : (fileT r).result = r := by
  cases r <;> rfl

theorem fileT_written (r : Except Err (List OutFile)) (fs : List OutFile) (h : (fileT r).result = .ok fs) : (fileT r).written = id fs := by
  rw [fileT_result] at h
  subst h
  rfl

theorem mapM_single {α β : Type} (f : α → Except Err β) (l : List α) :
    l.mapM (fun a => (f a).map (fun b => [b])) = (l.mapM f).map (fun bs => bs.map (fun b => [b])) := by
  induction l with
  | nil => rfl
  | cons a l ih =>
    rw [List.mapM_cons, List.mapM_cons, ih]
    cases f a with
    | error e => rfl
    | ok b =>
      simp only [Except.map, bind, Except.bind]
      cases l.mapM f <;> rfl

/-- output after the tracking as a sequence of writes -/
theorem finishT_ok (L : Lib) (doc : Xml) (p : Parsed) (w : World (List FEL) Output) :
    (L.finishT doc p w).result = (L.finish doc p w).map (fun _ => ()) ∧
      ∀ fs, L.finish doc p w = .ok fs → fs = w.out.files.map WatchFile.file ++ (L.finishT doc p w).written := by
  unfold finishT finish
  cases w.nodes with
  | nil => exact ⟨rfl, fun fs h => by cases h⟩
  | cons root rest =>
    simp only [andThen_result, each_result, fileT_result, silent_result]
    have hsingle : ((logFiles p).zip w.out.loggers).mapM (fun nl : String × Logger => (nl.2.writeData root.master).map (fun d => [(⟨nl.1, d⟩ : OutFile)])) =
        (((logFiles p).zip w.out.loggers).mapM (fun nl : String × Logger => (nl.2.writeData root.master).map (fun d => (⟨nl.1, d⟩ : OutFile)))).map (fun bs => bs.map (fun b => [b])) := by
      rw [← mapM_single]
      congr 1
      funext nl
      cases nl.2.writeData root.master <;> rfl
    have r1 : ∀ {α : Type} (g : α → Except Err (List OutFile)) (l : List α), (each (fun a => fileT (g a)) l).result = l.mapM g := by
      intro α g l
      rw [each_result]
      exact congrArg (fun g => l.mapM g) (funext fun a => fileT_result _)
    have r2 : ∀ {α : Type} (g : α → Except Err (List OutFile)) (l : List α) bs, l.mapM g = .ok bs → (each (fun a => fileT (g a)) l).written = bs.flatten := by
      intro α g l bs h
      rw [each_written_ok (g := id) (fun a b hb => fileT_written _ _ hb) ((r1 g l).trans h)]
      exact List.flatMap_id ..
    have q1 := r1 (fun nl : String × Logger => (nl.2.writeData root.master).map (fun d => [(⟨nl.1, d⟩ : OutFile)])) ((logFiles p).zip w.out.loggers)
    have q2 := r2 (fun nl : String × Logger => (nl.2.writeData root.master).map (fun d => [(⟨nl.1, d⟩ : OutFile)])) ((logFiles p).zip w.out.loggers)
    rw [hsingle] at q1 q2
    rw [hsingle]
    simp only [bind, Except.bind, pure, Except.pure]
    cases hl : ((logFiles p).zip w.out.loggers).mapM (fun nl : String × Logger => (nl.2.writeData root.master).map (fun d => (⟨nl.1, d⟩ : OutFile))) with
    | error e => exact ⟨rfl, fun fs h => by cases h⟩
    | ok logs =>
      rw [hl] at q1 q2
      simp only [Except.map] at q1 q2 ⊢
      have q2 := q2 _ rfl
      cases hf : (root.inter.zip (felFiles doc)).mapM felOutput with
      | error e => exact ⟨rfl, fun fs h => by cases h⟩
      | ok fels =>
        have hf1 := (r1 felOutput (root.inter.zip (felFiles doc))).trans hf
        simp only
        cases hr : removeInteractions (2 * (p.lattice.lattice ++ interactionFields root.inter).length + 1) 0 (p.lattice.lattice ++ interactionFields root.inter) with
        | error e => exact ⟨rfl, fun fs h => by cases h⟩
        | ok lat =>
          simp only
          cases ho : p.observers.observers.mapM (L.observeSpec w lat root.master) with
          | error e => exact ⟨rfl, fun fs h => by cases h⟩
          | ok obs =>
            have ho1 := (r1 (L.observeSpec w lat root.master) p.observers.observers).trans ho
            refine ⟨rfl, ?_⟩
            intro fs h
            cases h
            rw [andThen_ok q1, andThen_ok hf1, andThen_ok (x := silent _) rfl, andThen_ok ho1, q2, r2 _ _ _ hf, r2 _ _ _ ho]
            simp only [silent_written, List.nil_append, List.append_nil, List.append_assoc]
            congr 2
            clear * -
            induction logs with
            | nil => rfl
            | cons a l ih => rw [List.map_cons, List.flatten_cons, ← ih]; rfl

/-- **C123 (complete runs).** The sequence of writes belongs to the run: it ends with the same error, or without one, and then what has been written are the files
of the run.  If such a run is killed, an initial part of its files is on the disk, each of them as in the complete run. -/
theorem C123_complete (L : Lib) (rnd : Nat → (Nat → Nat → ℝ) × (Nat → Nat → Nat → ℝ)) (J : Indet) (nodes : Nat) (hN : 0 < nodes) (doc : Xml) :
    (L.programT rnd J nodes doc).result = (L.program rnd J nodes doc).map (fun _ => ()) ∧
    ∀ fs, L.program rnd J nodes doc = .ok fs → (L.programT rnd J nodes doc).written = fs ∧ ∀ i, (L.programT rnd J nodes doc).killed i = fs.take i := by
  obtain ⟨N, rfl⟩ : ∃ N, nodes = N + 1 := ⟨nodes - 1, by omega⟩
  rw [program_prelude]
  unfold programT
  cases hq : L.prelude rnd (N + 1) doc with
  | error e => exact ⟨rfl, fun fs h => by cases h⟩
  | ok q =>
    obtain ⟨p, masters, s, loggers⟩ := q
    obtain ⟨m, ms, rfl, hp, hm, g1, g2, g3, g4, g5, g6⟩ := prelude_ok L rnd N doc p masters s loggers hq
    have hr := runStepsT_result (tracking p J (N + 1)).run (startOutT_result p J (N + 1)) (fun k m t o => stepT_result J.traj J.fuel k m t o) (m :: ms) s ⟨loggers, p.tracking.state.watches, []⟩ p.tracking.NOTS.toNat
    simp only [andThen_result, silent_result, Except.bind]
    rw [hr]
    have hall : runAll (tracking p J (N + 1)).run (m :: ms) s ⟨loggers, p.tracking.state.watches, []⟩ = runSteps (tracking p J (N + 1)).run (m :: ms) s ⟨loggers, p.tracking.state.watches, []⟩ p.tracking.NOTS.toNat := rfl
    rw [hall]
    cases hw : runSteps (tracking p J (N + 1)).run (m :: ms) s ⟨loggers, p.tracking.state.watches, []⟩ p.tracking.NOTS.toNat with
    | error e => exact ⟨rfl, fun fs h => by cases h⟩
    | ok w =>
      rw [hw] at hr
      obtain ⟨f1, f2⟩ := finishT_ok L doc p w
      refine ⟨f1, ?_⟩
      intro fs h
      have hfs := f2 fs h
      obtain ⟨hd, _⟩ := done_written (tracking p J (N + 1)) (by show 0 < N + 1; omega) (m :: ms) (by simp [g1]; rfl) g2 m rfl g3 s ⟨loggers, p.tracking.state.watches, []⟩ rfl
        (startOutT_result p J (N + 1)) (fun k m t o => stepT_result J.traj J.fuel k m t o) (startOutT_writes p J) (stepT_writes J.traj J.fuel) (tracking_records p J (N + 1)) _ w hw
      have hwr : ((silent (L.prelude rnd (N + 1) doc)).andThen fun (p, masters, s, loggers) =>
          (runStepsT (tracking p J (N + 1)).run (startOutT p J) (Output.stepT J.traj J.fuel) masters s ⟨loggers, p.tracking.state.watches, []⟩ p.tracking.NOTS.toNat).andThen fun w =>
            L.finishT doc p w).written = fs := by
        rw [hq, andThen_ok (x := silent _) rfl]
        simp only [silent_written, List.nil_append]
        rw [andThen_ok hr, hd, hfs]
      rw [hq] at hwr
      refine ⟨hwr, ?_⟩
      intro i
      unfold killed
      rw [hwr]

/-- **C123 (watch points).** Whatever ends a run: a file on the disk is the complete and correct file of one of the watch points, and the files of all watch points with
smaller step have been written before; or all time steps have been done and the files of all watch points with `0 ≤ step ≤ NOTS` have been written before. -/
theorem C123_watches (L : Lib) (rnd : Nat → (Nat → Nat → ℝ) × (Nat → Nat → Nat → ℝ)) (J : Indet) (nodes : Nat) (hN : 0 < nodes) (doc : Xml) (before : List OutFile) (f : OutFile) (after : List OutFile)
    (h : (L.programT rnd J nodes doc).written = before ++ f :: after) :
    ∃ p m s, (L.withRandom (rnd 0)).parse doc = .ok p ∧ masterBeam p = .ok m ∧ p.tracking.state.interactions.mapM id = .ok s ∧
      ((∃ x ∈ p.tracking.state.watches, x.step ≤ p.tracking.NOTS ∧ WatchFileOf p.lattice.lattice p.tracking.timeStep m.all s x f ∧
          ∀ y ∈ p.tracking.state.watches, 0 ≤ y.step → y.step < x.step → ∃ g ∈ before, WatchFileOf p.lattice.lattice p.tracking.timeStep m.all s y g) ∨
        ((∃ r, Coupled.after p.lattice.lattice p.tracking.timeStep m.all s p.tracking.NOTS.toNat = .ok r) ∧
          ∀ y ∈ p.tracking.state.watches, 0 ≤ y.step → y.step ≤ p.tracking.NOTS → ∃ g ∈ before, WatchFileOf p.lattice.lattice p.tracking.timeStep m.all s y g)) := by
  obtain ⟨N, rfl⟩ : ∃ N, nodes = N + 1 := ⟨nodes - 1, by omega⟩
  unfold programT at h
  cases hq : L.prelude rnd (N + 1) doc with
  | error e =>
    rw [hq, andThen_error (x := silent _) rfl] at h
    simp at h
  | ok q =>
    obtain ⟨p, masters, s, loggers⟩ := q
    obtain ⟨m, ms, rfl, hp, hm, g1, g2, g3, g4, g5, g6⟩ := prelude_ok L rnd N doc p masters s loggers hq
    refine ⟨p, m, s, hp, hm, g5, ?_⟩
    rw [hq, andThen_ok (x := silent _) rfl] at h
    simp only [silent_written, List.nil_append] at h
    have hN' : 0 < (tracking p J (N + 1)).nodes := by show 0 < N + 1; omega
    have hlen : (m :: ms).length = (tracking p J (N + 1)).nodes := by simp [g1]; rfl
    have hr := runStepsT_result (tracking p J (N + 1)).run (startOutT_result p J (N + 1)) (fun k m t o => stepT_result J.traj J.fuel k m t o) (m :: ms) s ⟨loggers, p.tracking.state.watches, []⟩ p.tracking.NOTS.toNat
    have hord := fun b f a => tracking_order (tracking p J (N + 1)) hN' (m :: ms) hlen g2 m rfl g3 s ⟨loggers, p.tracking.state.watches, []⟩ rfl
      (startOutT_result p J (N + 1)) (fun k m t o => stepT_result J.traj J.fuel k m t o) (startOutT_writes p J) (stepT_writes J.traj J.fuel) (tracking_records p J (N + 1)) p.tracking.NOTS.toNat b f a
    have hcast : ((p.tracking.NOTS.toNat : Nat) : Int) = p.tracking.NOTS := Int.toNat_of_nonneg g4
    rw [hcast, master_dt hm] at hord
    cases hw : runSteps (tracking p J (N + 1)).run (m :: ms) s ⟨loggers, p.tracking.state.watches, []⟩ p.tracking.NOTS.toNat with
    | error e =>
      rw [hw] at hr
      rw [andThen_error hr] at h
      exact Or.inl (hord _ _ _ h)
    | ok w =>
      rw [hw] at hr
      rw [andThen_ok hr] at h
      rcases split_append h with ⟨v, hv, _⟩ | ⟨u, hu, hb⟩
      · exact Or.inl (hord _ _ _ hv)
      · refine Or.inr ⟨?_, ?_⟩
        · obtain ⟨_, M, S, hT, _⟩ := run_together (tracking p J (N + 1)) hN' (m :: ms) hlen g2 m rfl g3 s _ _ w hw
          obtain ⟨bs, hbs, _⟩ := hT.now
          rw [master_dt hm] at hbs
          exact ⟨_, hbs⟩
        · obtain ⟨_, hd⟩ := done_written (tracking p J (N + 1)) hN' (m :: ms) hlen g2 m rfl g3 s ⟨loggers, p.tracking.state.watches, []⟩ rfl
            (startOutT_result p J (N + 1)) (fun k m t o => stepT_result J.traj J.fuel k m t o) (startOutT_writes p J) (stepT_writes J.traj J.fuel) (tracking_records p J (N + 1)) _ w hw
          intro y hy y0 y1
          rw [master_dt hm] at hd
          obtain ⟨g, k1, k2⟩ := hd y hy y0 (by omega)
          exact ⟨g, by rw [hu]; exact List.mem_append_left _ k1, k2⟩

/-- **C123 (logs and observers are written last).** A run which cannot do all of its time steps leaves no file of a log, an interaction or an observer. -/
theorem C123_logs_lost (L : Lib) (rnd : Nat → (Nat → Nat → ℝ) × (Nat → Nat → Nat → ℝ)) (J : Indet) (nodes : Nat) (hN : 0 < nodes) (doc : Xml) (p : Parsed) (m : Beam) (s : List FEL)
    (hp : (L.withRandom (rnd 0)).parse doc = .ok p) (hm : masterBeam p = .ok m) (hs : p.tracking.state.interactions.mapM id = .ok s) (e : Err)
    (hfail : Coupled.after p.lattice.lattice p.tracking.timeStep m.all s p.tracking.NOTS.toNat = .error e) (f : OutFile) (hf : f ∈ (L.programT rnd J nodes doc).written) :
    ∃ x ∈ p.tracking.state.watches, x.step ≤ p.tracking.NOTS ∧ WatchFileOf p.lattice.lattice p.tracking.timeStep m.all s x f := by
  obtain ⟨b, a, h⟩ := List.append_of_mem hf
  obtain ⟨p', m', s', hp', hm', hs', hc⟩ := C123_watches L rnd J nodes hN doc b f a h
  rw [hp] at hp'
  cases hp'
  rw [hm] at hm'
  cases hm'
  rw [hs] at hs'
  cases hs'
  rcases hc with ⟨x, k1, k2, k3, _⟩ | ⟨⟨r, hr⟩, _⟩
  · exact ⟨x, k1, k2, k3⟩
  · rw [hfail] at hr
    cases hr

/-- **C123 (nothing is lost of the steps done).** If the particles and interactions can be advanced by `k` of the time steps and the logs can be kept, then the files of
all watch points with `0 ≤ step ≤ k` are on the disk, however the run ends after that. -/
theorem C123_progress (L : Lib) (rnd : Nat → (Nat → Nat → ℝ) × (Nat → Nat → Nat → ℝ)) (J : Indet) (nodes : Nat) (hN : 0 < nodes) (doc : Xml) (p : Parsed) (m : Beam) (s : List FEL)
    (hp : (L.withRandom (rnd 0)).parse doc = .ok p) (hm : masterBeam p = .ok m) (hNOTS : 0 ≤ p.tracking.NOTS) (hs : p.tracking.state.interactions.mapM id = .ok s)
    (hlogs : ∀ l ∈ p.beam.logs, LogFits m p.tracking.NOTS.toNat l)
    (hprobe : ∀ pr, p.beam.probe = some pr → ProbeFits m p.tracking.NOTS.toNat nodes J.fuel pr) (k : Nat) (hk : (k : Int) ≤ p.tracking.NOTS)
    (hrun : ∃ r, Coupled.after p.lattice.lattice p.tracking.timeStep m.all s k = .ok r) :
    ∀ x ∈ p.tracking.state.watches, 0 ≤ x.step → x.step ≤ k →
      ∃ f ∈ (L.programT rnd J nodes doc).written, WatchFileOf p.lattice.lattice p.tracking.timeStep m.all s x f := by
  obtain ⟨N, rfl⟩ : ∃ N, nodes = N + 1 := ⟨nodes - 1, by omega⟩
  obtain ⟨ps, e1, e2, e3⟩ := parse_all L rnd doc N p hp
  obtain ⟨ms, c1, c2, c3, c4⟩ := masters_all p ps e3 m hm
  obtain ⟨loggers, w, hl, hw⟩ := tracking_reaches L (rnd 0) J N doc p m hp hm hlogs hprobe ms (c2.trans e2) c3 c4 s k hrun
  have hq : L.prelude rnd (N + 1) doc = .ok (p, m :: ms, s, loggers) := by
    unfold prelude
    rw [e1]
    simp only [bind, Except.bind]
    rw [c1, hm]
    simp only
    rw [if_neg (by omega)]
    simp only [hs, hl]
    rfl
  intro x hx x0 x1
  obtain ⟨_, hd⟩ := done_written (tracking p J (N + 1)) (by show 0 < N + 1; omega) (m :: ms) (by simp [c2, e2]; rfl) c3 m rfl c4 s ⟨loggers, p.tracking.state.watches, []⟩ rfl
    (startOutT_result p J (N + 1)) (fun k m t o => stepT_result J.traj J.fuel k m t o) (startOutT_writes p J) (stepT_writes J.traj J.fuel) (tracking_records p J (N + 1)) k w hw
  rw [master_dt hm] at hd
  obtain ⟨g, hg, hx⟩ := hd x hx x0 x1
  refine ⟨g, ?_, hx⟩
  have hsub : ∀ d, g ∈ (runStepsT (tracking p J (N + 1)).run (startOutT p J) (Output.stepT J.traj J.fuel) (m :: ms) s ⟨loggers, p.tracking.state.watches, []⟩ (k + d)).written := by
    intro d
    induction d with
    | zero => exact hg
    | succ d ih =>
      rw [← Nat.add_assoc, runStepsT_succ]
      unfold andThen
      split
      · exact ih
      · exact List.mem_append_left _ ih
  have hg' := hsub (p.tracking.NOTS.toNat - k)
  rw [show k + (p.tracking.NOTS.toNat - k) = p.tracking.NOTS.toNat by omega] at hg'
  unfold programT
  rw [hq, andThen_ok (x := silent _) rfl]
  simp only [silent_written, List.nil_append]
  unfold andThen
  split
  · exact hg'
  · exact List.mem_append_left _ hg'

/-! ### Example: an interaction whose log has step size 0 stops the program in its first step -/

def crashNode : Xml :=
  .node "fel1d" [("N", "2*a")]
    [.node "calc" [("var", "a"), ("eq", "2")] [], .node "position" [] [], .node "prop" [("z", "1")] [], .node "pol" [("x", "1")] [],
     .node "log" [("file", "fel.h5"), ("step", "0")] [], .node "mode" [("zR", "1"), ("w0", "1"), ("zwaist", "1")] []]

def crashTrack : Xml :=
  .node "tracking" [("method", "Vay"), ("delta_t", "1"), ("n", "2")] [.node "watch" [("step", "2"), ("file", "late.h5")] [], .node "watch" [("step", "0"), ("file", "first.h5")] [], crashNode]

def crashDoc : Xml :=
  .node "" [] [.node "teufel" []
    [.node "lattice" [] [.node "background" [] [.node "E" [("x", "1")] []]],
     .node "beam" [] [.node "particle" [("gamma", "2"), ("charge", "1"), ("cmr", "1")] [.node "position" [] [], .node "momentum" [("z", "1")] []]],
     crashTrack,
     .node "observer" [] []]]

noncomputable def crashFel : FEL := FEL.setup 4 1 (1 * SpeedOfLight) ⟨0, 0, 0⟩ ⟨0, 0, 1⟩ ⟨1, 0, 0⟩ (Vec.cross ⟨0, 0, 1⟩ ⟨1, 0, 0⟩) (some 0) 1 1 1

noncomputable def crashParsed : Parsed :=
  ⟨⟨predefined, [HomogeneousField ⟨1, 0, 0⟩ 0], 1⟩, ⟨predefined, [singleParticle 2 1 1 0 ⟨0, 0, 0⟩ ⟨0, 0, 1⟩], [], none, 1⟩,
    ⟨1, 2, ⟨felEnv, [⟨2, "late.h5", .hdf5⟩, ⟨0, "first.h5", .hdf5⟩], [.ok crashFel]⟩⟩, ⟨felEnv, []⟩⟩

theorem crashDoc_parse (r : (Nat → Nat → ℝ) × (Nat → Nat → Nat → ℝ)) : (exampleLib.withRandom r).parse crashDoc = .ok crashParsed := by
  have hc : ∀ env node, (∀ c ∈ node.children, c.name ≠ "calc") → (exampleLib.withRandom r).parseCalcChildren env node = env := by
    intro env node hn
    unfold parseCalcChildren
    generalize node.children = l at hn
    induction l generalizing env with
    | nil => rfl
    | cons c l ih =>
      rw [List.foldl_cons, if_neg (hn c (by simp))]
      exact ih env (fun c' hc' => hn c' (by simp [hc']))
  have e0 : ∀ env, (exampleLib.withRandom r).eval env "" = env "" := by intro env; simp [withRandom, exampleLib]
  have e1 : ∀ env, (exampleLib.withRandom r).eval env "1" = some 1 := by intro env; simp [withRandom, exampleLib]
  have e2 : ∀ env, (exampleLib.withRandom r).eval env "2" = some 2 := by intro env; simp [withRandom, exampleLib]
  have e3 : (exampleLib.withRandom r).eval felEnv "2*a" = some 4 := by
    simp [withRandom, exampleLib, felEnv]
    norm_num
  have e5 : (exampleLib.withRandom r).nameOk "a" = true := by simp [withRandom, exampleLib]
  have e6 : (exampleLib.withRandom r).asInt "0" = 0 := by simp [withRandom, exampleLib]
  have hp0 : predefined "0" = none := by simp [predefined]
  have e7 : (exampleLib.withRandom r).eval predefined "0" = none := by simp [withRandom, exampleLib, hp0]
  have hpe := predefined_empty
  have hfe : felEnv "" = none := by simp [felEnv, hpe]
  have h2 : toInt32 (crint 2) = .ok 2 := by simp [crint, toInt32]
  have h4 : toInt32 (crint 4) = .ok 4 := by simp [crint, toInt32]
  unfold parse crashDoc
  simp only [Xml.child, Xml.children, Xml.name, crashTrack, List.find?, need, bind, Except.bind, pure, Except.pure, start, beq_self_eq_true]
  rw [hc _ _ (by simp [Xml.children, Xml.name])]
  simp only [parseLattice, parseBeam, parseTracking, parseObservers, Xml.child, Xml.children, Xml.name, List.find?, need, bind, Except.bind, pure, Except.pure]
  have p1 : (exampleLib.withRandom r).latticeStep ⟨predefined, [], 0⟩ (.node "background" [] [.node "E" [("x", "1")] []]) = .ok ⟨predefined, [HomogeneousField ⟨1, 0, 0⟩ 0], 1⟩ := by
    simp [latticeStep, latticeElement, Xml.name, parseCalcChildren, Xml.children, Except.map, Lattice.addElement, optVec, Xml.child, vec, num, Xml.value, Xml.attr, Xml.attrs, e0, e1, hpe]
  have p2 : (exampleLib.withRandom r).beamStep ⟨predefined, [], [], none, 0⟩ (.node "particle" [("gamma", "2"), ("charge", "1"), ("cmr", "1")] [.node "position" [] [], .node "momentum" [("z", "1")] []])
      = .ok ⟨predefined, [singleParticle 2 1 1 0 ⟨0, 0, 0⟩ ⟨0, 0, 1⟩], [], none, 1⟩ := by
    simp [beamStep, particleEntry, Xml.name, parseCalcChildren, Xml.children, Xml.child, need, bind, Except.bind, pure, Except.pure, parseLog, optNum, vec, num, Xml.value, Xml.attr, Xml.attrs, e0, e1, e2, hpe, List.lookup]
  have p5 : ∀ t ws, (exampleLib.withRandom r).trackStep t ⟨predefined, ws, []⟩ (.node "watch" [("step", "2"), ("file", "late.h5")] []) = .ok ⟨predefined, ws ++ [⟨2, "late.h5", .hdf5⟩], []⟩ := by
    intro t ws
    simp [trackStep, watchEntry, Xml.name, need, bind, Except.bind, pure, Except.pure, int, num, Xml.value, Xml.attr, Xml.attrs, e2, h2, List.lookup]
  have p4 : ∀ t ws, (exampleLib.withRandom r).trackStep t ⟨predefined, ws, []⟩ (.node "watch" [("step", "0"), ("file", "first.h5")] []) = .ok ⟨predefined, ws ++ [⟨0, "first.h5", .hdf5⟩], []⟩ := by
    intro t ws
    simp [trackStep, watchEntry, Xml.name, need, bind, Except.bind, pure, Except.pure, int, num, Xml.value, Xml.attr, Xml.attrs, e7, List.lookup]
  have p3 : ∀ ws, (exampleLib.withRandom r).trackStep crashTrack ⟨predefined, ws, []⟩ crashNode = .ok ⟨felEnv, ws, [.ok crashFel]⟩ := by
    intro ws
    have c1 : (exampleLib.withRandom r).parseCalcChildren predefined crashNode = felEnv := by
      simp [parseCalcChildren, crashNode, Xml.children, Xml.name, parseCalc, Xml.value, Xml.attr, Xml.attrs, List.lookup, e2, e5, felEnv]
    have c2 : (exampleLib.withRandom r).cellCount felEnv crashNode = .ok (some 4) := by
      simp [cellCount, crashNode, Xml.attr, Xml.attrs, List.lookup, int, Xml.value, e3, h4, Except.map]
    have c3 : (exampleLib.withRandom r).felInput felEnv crashNode (some 4) = ⟨some 4, some ⟨0, 0, 0⟩, some ⟨0, 0, 1⟩, some ⟨1, 0, 0⟩, some (true, some 0), some (1, 1, 1), none⟩ := by
      simp [felInput, crashNode, Xml.child, Xml.children, Xml.name, vec, num, Xml.value, Xml.attr, Xml.attrs, List.lookup, e0, e1, e6, hfe]
    have c4 : (exampleLib.withRandom r).num felEnv crashTrack "delta_t" = 1 := by
      simp [num, crashTrack, Xml.value, Xml.attr, Xml.attrs, List.lookup, e1]
    have g1 : normalizeE (⟨0, 0, 1⟩ : Vec) = .ok ⟨0, 0, 1⟩ := FEL.normalizeE_unit (by simp [Vec.norm, Vec.abs2nd])
    have g2 : (⟨1, 0, 0⟩ : Vec) - (⟨0, 0, 1⟩ : Vec) * Vec.dot (⟨1, 0, 0⟩ : Vec) ⟨0, 0, 1⟩ = ⟨1, 0, 0⟩ := by ext <;> simp [Vec.dot]
    have g3 : normalizeE (⟨1, 0, 0⟩ : Vec) = .ok ⟨1, 0, 0⟩ := FEL.normalizeE_unit (by simp [Vec.norm, Vec.abs2nd])
    have c5 : FEL.ofInput 1 ⟨some 4, some ⟨0, 0, 0⟩, some ⟨0, 0, 1⟩, some ⟨1, 0, 0⟩, some (true, some 0), some (1, 1, 1), none⟩ = .ok crashFel := by
      unfold FEL.ofInput
      simp only [pure, Except.pure, bind, Except.bind, g1, g2, g3, FEL.logStep]
      rw [if_neg (by omega)]
      rfl
    unfold trackStep
    rw [if_neg (by simp [crashNode, Xml.name]), if_pos (by simp [crashNode, Xml.name])]
    simp only [felEntry, c1, c2, c3, c4, c5, keepPoisoned, bind, Except.bind, pure, Except.pure, List.nil_append]
  simp only [crashTrack] at p3
  simp [p1, p2, Xml.value, Xml.attr, Xml.attrs, List.lookup, int, num, e1, e2, h2, crashParsed]
  simp [pure, Except.pure, bind, Except.bind, p3, p4, p5]

/-- the interaction can not be advanced -/
theorem crash_step (b : Beam) (f f' : FEL) (hf : f.stepOutput = some 0) (h : FEL.step b f = .ok f') : False := by
  unfold FEL.step at h
  have hd : ∀ n, f.recordDue n = .error .ub := by
    intro n
    unfold FEL.recordDue
    rw [hf]
    rfl
  simp only [hd, bind, Except.bind] at h
  repeat' split at h
  all_goals cases h

/-- non-vacuity: the program stops with an error in the first step.  The file of the watch point at step 0 is on the disk and is correct; no other file is. -/
example (rnd : Nat → (Nat → Nat → ℝ) × (Nat → Nat → Nat → ℝ)) (J : Indet) (nodes : Nat) (hN : 0 < nodes) : ∃ m e,
    masterBeam crashParsed = .ok m ∧ (exampleLib.programT rnd J nodes crashDoc).result = .error e ∧
    (∃ f ∈ (exampleLib.programT rnd J nodes crashDoc).written, WatchFileOf [HomogeneousField ⟨1, 0, 0⟩ 0] 1 m.all [crashFel] ⟨0, "first.h5", .hdf5⟩ f) ∧
    ∀ f ∈ (exampleLib.programT rnd J nodes crashDoc).written, WatchFileOf [HomogeneousField ⟨1, 0, 0⟩ 0] 1 m.all [crashFel] ⟨0, "first.h5", .hdf5⟩ f := by
  have hp := crashDoc_parse (rnd 0)
  obtain ⟨bg, mom, hm⟩ : ∃ bg mom, masterBeam crashParsed = .ok { progBeam bg mom with NOTS := 2 } := by
    obtain ⟨bg, mom, h⟩ := progDoc_master .beam
    refine ⟨bg, mom, ?_⟩
    simp only [masterBeam, progParsed, crashParsed, bind, Except.bind] at h ⊢
    split at h
    · cases h
    · next v hv =>
      injection h with h
      rw [hv]
      simp only [pure, Except.pure, Except.ok.injEq]
      rw [← h]
  have hB : ({ progBeam bg mom with NOTS := 2 } : Beam).all = [progParticle bg mom] := by
    simp [Beam.all, progBeam, Beam.Add, Beam.empty, Bunch.Add, Bunch.empty]
  generalize hmm : ({ progBeam bg mom with NOTS := 2 } : Beam) = m at hm hB
  have hc := interactions_constructed _ crashDoc crashParsed hp [crashFel] rfl crashFel (by simp)
  have hfield : ∃ F, FEL.Field crashFel 0 0 = .ok F := by
    refine FEL.field_exists hc.fresh.sized (by rw [hc.fresh.ds]; exact mul_pos one_pos SpeedOfLight_pos) hc.fresh.int (by norm_num [crashFel, FEL.setup]) (by rw [hc.fresh.time]) ?_ ?_
    · simp [FEL.depth, crashFel, FEL.setup, Vec.dot]
    · have : FEL.depth crashFel 0 = 0 := by simp [FEL.depth, crashFel, FEL.setup, Vec.dot]
      rw [this]
      exact mul_nonneg (by norm_num [crashFel, FEL.setup]) (mul_nonneg (by norm_num) SpeedOfLight_pos.le)
  have h0 : ∃ r, Coupled.after [HomogeneousField ⟨1, 0, 0⟩ 0] 1 m.all [crashFel] 0 = .ok r := by
    obtain ⟨qs, hqs⟩ := mapM_exists (fun p : Particle => dropState ((p.initTrajectory p.tCur p.XCur p.PCur p.ACur).InitVay 1 (Coupled.field [HomogeneousField ⟨1, 0, 0⟩ 0] [crashFel]))) m.all (by
      intro q hq
      rw [hB, List.mem_singleton] at hq
      subst hq
      rw [init_single (p := progParticle bg mom) rfl rfl rfl rfl rfl]
      rw [if_neg (show ((progParticle bg mom).initTrajectory (progParticle bg mom).tCur (progParticle bg mom).XCur (progParticle bg mom).PCur (progParticle bg mom).ACur).Mass ≠ 0 from progBeam_mass bg mom 0 0 _ ⟨_, rfl, rfl⟩)]
      obtain ⟨F, hF⟩ := coupled_field_exists (ext := [HomogeneousField ⟨1, 0, 0⟩ 0]) (s := [crashFel]) (t := (progParticle bg mom).tCur) (X := (progParticle bg mom).XCur) ⟨_, rfl⟩ (by
        intro f hf
        rw [List.mem_singleton] at hf
        subst hf
        exact hfield)
      rw [hF]
      exact ⟨_, rfl⟩)
    obtain ⟨S, hS⟩ := mapM_exists (FEL.init ⟨1, [⟨qs.length, qs⟩], 0, 1, .vay⟩) [crashFel] (by
      intro f hf
      rw [List.mem_singleton] at hf
      subst hf
      obtain ⟨f', hf', _⟩ := FEL.init_ok hc.fresh.sized (by simp [crashFel, FEL.setup]) ⟨1, [⟨qs.length, qs⟩], 0, 1, .vay⟩ (by norm_num [crashFel, FEL.setup]) (by norm_num [crashFel, FEL.setup])
      exact ⟨f', hf'⟩)
    unfold Coupled.after
    simp only [hqs, hS, bind, Except.bind]
    exact ⟨_, rfl⟩
  have h1 : ∀ r, Coupled.after [HomogeneousField ⟨1, 0, 0⟩ 0] 1 m.all [crashFel] 1 ≠ .ok r := by
    intro r hr
    unfold Coupled.after at hr
    obtain ⟨⟨ps, S⟩, hps⟩ := h0
    have hat := after_at (fun f hf => by rw [List.mem_singleton] at hf; subst hf; exact hc) hps
    rw [hps] at hr
    simp only [bind, Except.bind, pure, Except.pure] at hr
    cases hat with
    | cons hx ht =>
      cases ht
      next f =>
      split at hr
      · cases hr
      · next qs _ =>
        rw [List.mapM_cons] at hr
        simp only [bind, Except.bind] at hr
        cases hstep : FEL.step ⟨1, [⟨qs.length, qs⟩], ((0 : Nat) : Int) + 1, 1, .vay⟩ f with
        | error e => rw [hstep] at hr; cases hr
        | ok f' => exact crash_step _ _ _ (by rw [hx.out]; rfl) hstep
  have h2 : ∃ e, Coupled.after [HomogeneousField ⟨1, 0, 0⟩ 0] 1 m.all [crashFel] 2 = .error e := by
    cases h : Coupled.after [HomogeneousField ⟨1, 0, 0⟩ 0] 1 m.all [crashFel] 2 with
    | error e => exact ⟨e, rfl⟩
    | ok r =>
      unfold Coupled.after at h
      cases hk : Coupled.after [HomogeneousField ⟨1, 0, 0⟩ 0] 1 m.all [crashFel] 1 with
      | error e => rw [hk] at h; cases h
      | ok r => exact absurd hk (h1 r)
  obtain ⟨e, he⟩ := h2
  have hfirst := C123_progress exampleLib rnd J nodes hN crashDoc crashParsed m [crashFel] hp hm (by simp [crashParsed]) rfl (by simp [crashParsed]) (by simp [crashParsed]) 0 (by simp [crashParsed]) h0
    ⟨0, "first.h5", .hdf5⟩ (by simp [crashParsed]) (by norm_num) (by norm_num)
  have hlost := C123_logs_lost exampleLib rnd J nodes hN crashDoc crashParsed m [crashFel] hp hm rfl e he
  have herr : ∃ e, (exampleLib.programT rnd J nodes crashDoc).result = .error e := by
    rw [(C123_complete exampleLib rnd J nodes hN crashDoc).1]
    cases h : exampleLib.program rnd J nodes crashDoc with
    | error e => exact ⟨e, rfl⟩
    | ok fs =>
      obtain ⟨N, rfl⟩ : ∃ N, nodes = N + 1 := ⟨nodes - 1, by omega⟩
      obtain ⟨p, m', s, hp', hm', hs', hw⟩ := C85_watches_coupled_partial exampleLib rnd J _ (by omega) crashDoc fs h
      rw [hp] at hp'
      cases hp'
      rw [hm] at hm'
      cases hm'
      have hs'' : (.ok [crashFel] : Except Err (List FEL)) = .ok s := hs'
      cases hs''
      obtain ⟨d, bs, S, _, hafter, _⟩ := hw ⟨2, "late.h5", .hdf5⟩ (by simp [crashParsed]) (by norm_num) (by norm_num [crashParsed])
      have : Coupled.after [HomogeneousField ⟨1, 0, 0⟩ 0] 1 m.all [crashFel] 2 = .ok (bs, S) := hafter
      rw [he] at this
      cases this
  obtain ⟨e', he'⟩ := herr
  refine ⟨m, e', hm, he', hfirst, ?_⟩
  intro f hf
  obtain ⟨x, hx, _, hx2⟩ := hlost f hf
  have hx' : x = ⟨2, "late.h5", .hdf5⟩ ∨ x = ⟨0, "first.h5", .hdf5⟩ := by simpa [crashParsed] using hx
  rcases hx' with rfl | rfl
  · obtain ⟨_, d, bs, _, hpart, _⟩ := hx2
    have : Coupled.particles [HomogeneousField ⟨1, 0, 0⟩ 0] 1 m.all [crashFel] 2 = .ok bs := hpart
    have hdef : Coupled.particles [HomogeneousField ⟨1, 0, 0⟩ 0] 1 m.all [crashFel] 2 = (Coupled.after [HomogeneousField ⟨1, 0, 0⟩ 0] 1 m.all [crashFel] 1).bind
      (fun b => b.1.mapM (fun p : Particle => dropState (p.StepVay (Coupled.field [HomogeneousField ⟨1, 0, 0⟩ 0] b.2)))) := rfl
    rw [hdef] at this
    cases hk : Coupled.after [HomogeneousField ⟨1, 0, 0⟩ 0] 1 m.all [crashFel] 1 with
    | error e => rw [hk] at this; cases this
    | ok r => exact absurd hk (h1 r)
  · exact hx2

end Lib
end Teufel
