import Verif.Model.Faults
import Verif.Props.ProgramRuns

/-!
# C87: files which cannot be created
-/

namespace Teufel
open Vec Input
namespace Lib

end Lib

section
variable {σ : Type}

/-- parameter loggers, of which the file is no loss -/
def Logger.isParam : Logger → Bool
  | .param _ _ => true
  | .traj _ _ => false
  | .probe _ => false

theorem update_kind {junk : Nat → ℝ} {fuel : Nat} {m t : Beam} {l l' : Logger} (h : l.update junk fuel m t = .ok l') : l'.isParam = l.isParam := by
  cases l with
  | param b L =>
    simp only [Logger.update] at h
    cases hv : Particle.vecAt m.B b with
    | error e => rw [hv] at h; cases h
    | ok bu => rw [hv] at h; injection h with h; rw [← h]; rfl
  | traj b L =>
    simp only [Logger.update, bind, Except.bind, pure, Except.pure] at h
    split at h
    · cases h
    split at h
    · cases h
    injection h with h; rw [← h]; rfl
  | probe L =>
    simp only [Logger.update] at h
    cases hv : L.update fuel t with
    | error e => rw [hv] at h; cases h
    | ok bu => rw [hv] at h; injection h with h; rw [← h]; rfl

theorem maybe_kind {junk : Nat → ℝ} {fuel k : Nat} {m t : Beam} {l l' : Logger} (h : l.maybe junk fuel k m t = .ok l') : l'.isParam = l.isParam := by
  simp only [Logger.maybe, bind, Except.bind, pure, Except.pure] at h
  split at h
  · cases h
  split at h
  · exact update_kind h
  · injection h with h; rw [← h]

theorem mapM_kinds {f : Logger → Except Err Logger} (hf : ∀ l l', f l = .ok l' → l'.isParam = l.isParam) {l l' : List Logger} (h : l.mapM f = .ok l') :
    l'.map Logger.isParam = l.map Logger.isParam := by
  induction l generalizing l' with
  | nil => injection h with h; rw [← h]; rfl
  | cons a l ih =>
    rw [List.mapM_cons] at h
    cases ha : f a with
    | error e => rw [ha] at h; cases h
    | ok b =>
      rw [ha] at h
      cases hl : l.mapM f with
      | error e => rw [hl] at h; cases h
      | ok l'' =>
        rw [hl] at h
        injection h with h
        rw [← h, List.map_cons, List.map_cons, hf a b ha, ih hl]

/-- the kinds of the loggers do not change -/
theorem output_kinds (R : Run σ Output) (junk : Nat → ℝ) (fuel : Nat) {probe : Option (Nat × Nat)} (hR : R.Records junk fuel probe) (ms : List Beam) (s : σ) (out : Output)
    (k : Nat) (w : World σ Output) (hw : runSteps R ms s out k = .ok w) :
    w.out.loggers.map Logger.isParam = out.loggers.map Logger.isParam ++ (probe.toList.map (fun _ => false)) := by
  induction k generalizing w with
  | zero =>
    obtain ⟨m, t, h1, h2⟩ := run_start _ ms s out w hw
    have len : ∀ (o o' : Output), o.start junk fuel m t = .ok o' → o'.loggers.map Logger.isParam = o.loggers.map Logger.isParam := by
      intro o o' h
      unfold Output.start at h
      simp only [bind, Except.bind, pure, Except.pure] at h
      cases hx : writeWatches 0 m o with
      | error e => rw [hx] at h; cases h
      | ok o1 =>
        rw [hx] at h
        simp only at h
        cases hm : o1.loggers.mapM (Logger.update junk fuel m t) with
        | error e => rw [hm] at h; cases h
        | ok ls =>
          rw [hm] at h
          injection h with h
          rw [← h, ← (writeWatches_loggers hx).1]
          exact mapM_kinds (fun l l' h => update_kind h) hm
    rw [hR.2] at h2
    cases probe with
    | none => simpa using len _ _ h2
    | some p =>
      simp only [Output.startProbe] at h2
      cases hL : ProbeLog.new t p.1 p.2 with
      | error e => rw [hL] at h2; cases h2
      | ok L =>
        rw [hL] at h2
        simp only [bind, Except.bind] at h2
        simpa [Logger.isParam] using len _ _ h2
  | succ k ih =>
    obtain ⟨w', hw'⟩ := runSteps_prefix _ ms s out (k + 1) w hw k (by omega)
    have i3 := ih w' hw'
    obtain ⟨m, t, h1, h2⟩ := run_next _ ms s out k w' w hw' (run_root _ ms s out k w' hw') hw
    rw [hR.1] at h2
    rw [← i3]
    unfold Output.step at h2
    simp only [bind, Except.bind] at h2
    cases hm : w'.out.loggers.mapM (Logger.maybe junk fuel (k + 1) m t) with
    | error e => rw [hm] at h2; cases h2
    | ok ls =>
      rw [hm] at h2
      rw [(writeWatches_loggers h2).1]
      exact mapM_kinds (fun l l' h => maybe_kind h) hm

end

namespace Lib

theorem program_track (L : Lib) (rnd : Nat → (Nat → Nat → ℝ) × (Nat → Nat → Nat → ℝ)) (J : Indet) (nodes : Nat) (doc : Xml) :
    L.program rnd J nodes doc = (L.track rnd J nodes doc).bind (fun pw => L.finish doc pw.1 pw.2) := by
  unfold program track
  cases (List.range nodes).mapM (fun r : Nat => (L.withRandom (rnd r)).parse doc) with
  | error e => rfl
  | ok parsed =>
    cases parsed with
    | nil => rfl
    | cons p rest =>
      simp only [bind, Except.bind, pure, Except.pure]
      cases (p :: rest).mapM masterBeam with
      | error e => rfl
      | ok masters =>
        dsimp only
        cases masterBeam p with
        | error e => rfl
        | ok m =>
          dsimp only
          by_cases hn : p.tracking.NOTS < 0
          · simp only [hn, if_true]
          · simp only [hn, if_false]
            cases p.tracking.state.interactions.mapM id with
            | error e => rfl
            | ok s =>
              dsimp only
              cases p.beam.logs.mapM (LogSpec.create m) with
              | error e => rfl
              | ok loggers =>
                dsimp only
                cases runAll (tracking p J nodes).run masters s ⟨loggers, p.tracking.state.watches, []⟩ <;> rfl

/-- a stage that writes one file (or none) for each item, as if all files could be created -/
theorem stage_filter {α : Type} (fine : String → Bool) (one : α → Except Err (List OutFile)) (step : List OutFile → α → DiskRes)
    (l : List α) (h : ∀ a ∈ l, ∀ disk fs, one a = .ok fs → step disk a = .ok (disk ++ fs.filter (fun f => fine f.name))) (out : List (List OutFile)) (ho : l.mapM one = .ok out) (disk : List OutFile) :
    l.foldlM step disk = .ok (disk ++ out.flatten.filter (fun f => fine f.name)) := by
  induction l generalizing out disk with
  | nil => injection ho with ho; subst ho; simp [pure, Except.pure]
  | cons a l ih =>
    rw [List.mapM_cons] at ho
    cases ha : one a with
    | error e => rw [ha] at ho; cases ho
    | ok fs =>
      rw [ha] at ho
      cases hl : l.mapM one with
      | error e => rw [hl] at ho; cases ho
      | ok out' =>
        rw [hl] at ho
        injection ho with ho
        subst ho
        rw [List.foldlM_cons, h a (by simp) disk fs ha]
        show l.foldlM step _ = _
        rw [ih (fun x hx => h x (by simp [hx])) out' hl]
        simp

/-- a log as a list of files -/
noncomputable def logOutput (m : Beam) (nl : String × Logger) : Except Err (List OutFile) := (nl.2.writeData m).map (fun d => [⟨nl.1, d⟩])

theorem logs_lists (m : Beam) (l : List (String × Logger)) (logs : List OutFile) (h : l.mapM (fun nl : String × Logger => (nl.2.writeData m).map (fun d => (⟨nl.1, d⟩ : OutFile))) = .ok logs) :
    l.mapM (logOutput m) = .ok (logs.map (fun f => [f])) := by
  induction l generalizing logs with
  | nil => injection h with h; subst h; rfl
  | cons a l ih =>
    rw [List.mapM_cons] at h ⊢
    unfold logOutput
    cases ha : a.2.writeData m with
    | error e => rw [ha] at h; cases h
    | ok d =>
      rw [ha] at h
      cases hl : l.mapM (fun nl : String × Logger => (nl.2.writeData m).map (fun d => (⟨nl.1, d⟩ : OutFile))) with
      | error e => rw [hl] at h; cases h
      | ok o =>
        rw [hl] at h
        injection h with h
        subst h
        have := ih o hl
        unfold logOutput at this
        rw [this]
        rfl

/-- a log that is fine, or is no loss -/
theorem writeLog_ok (fine : String → Bool) (m : Beam) (nl : String × Logger) (h : fine nl.1 = true ∨ ∃ b L, nl.2 = .param b L) (disk fs : List OutFile) (ho : logOutput m nl = .ok fs) :
    writeLog fine m disk nl = .ok (disk ++ fs.filter (fun f => fine f.name)) := by
  unfold logOutput at ho
  cases hd : nl.2.writeData m with
  | error e => rw [hd] at ho; cases ho
  | ok d =>
    rw [hd] at ho
    injection ho with ho
    subst ho
    unfold writeLog
    by_cases hf : fine nl.1 = true
    · simp [hf, hd, addFile]
    · obtain ⟨b, L, hb⟩ := h.resolve_left hf
      simp [hf, hb]

theorem writeFel_ok (fine : String → Bool) (fn : FEL × Option String) (h : ∀ name, fn.2 = some name → fine name = true) (disk fs : List OutFile) (ho : felOutput fn = .ok fs) :
    writeFel fine disk fn = .ok (disk ++ fs.filter (fun f => fine f.name)) := by
  obtain ⟨f, n⟩ := fn
  cases n with
  | none => injection ho with ho; subst ho; simp [writeFel]
  | some name =>
    unfold felOutput at ho
    cases hd : f.writeOutput with
    | error e => simp only [hd] at ho; cases ho
    | ok d =>
      simp only [hd, Except.map] at ho
      injection ho with ho
      subst ho
      have := h name rfl
      simp [writeFel, this, hd, Except.map, addFile]

theorem writeObserver_ok (L : Lib) (fine : String → Bool) (w : World (List FEL) Output) (lattice : Lattice) (m : Beam) (spec : ObserverSpec) (disk fs : List OutFile)
    (ho : L.observeSpec w lattice m spec = .ok fs) : L.writeObserver fine w lattice m disk spec = .ok (disk ++ fs.filter (fun f => fine f.name)) := by
  have key : ∀ (src : SourceType) (o : Observer), ((storeParticles m src o).bind (fun o => caught spec.file (L.generateOutput spec.file o))) = .ok fs →
      (match storeParticles m src o with
        | .error e => (.error (e, disk) : DiskRes)
        | .ok o => if fine spec.file then
            match caught spec.file (L.generateOutput spec.file o) with
            | .ok fs => .ok (disk ++ fs)
            | .error e => .error (e, disk)
          else .ok disk) = .ok (disk ++ fs.filter (fun f => fine f.name)) := by
    intro src o ho
    cases hs : storeParticles m src o with
    | error e => rw [hs] at ho; cases ho
    | ok o' =>
      rw [hs] at ho
      simp only [Except.bind] at ho
      dsimp only
      cases hg : L.generateOutput spec.file o' with
      | ok d =>
        rw [hg] at ho
        injection ho with ho
        subst ho
        by_cases hf : fine spec.file = true <;> simp [hf, caught]
      | error e =>
        rw [hg] at ho
        cases e with
        | io =>
          injection ho with ho
          subst ho
          by_cases hf : fine spec.file = true <;> simp [hf, caught]
        | _ => cases ho
  obtain ⟨ob, src, file⟩ := spec
  unfold observeSpec at ho
  unfold writeObserver
  cases src with
  | beam =>
    simp only [bind, Except.bind] at ho ⊢
    cases hr : observeBeam w ob with
    | error e => rw [hr] at ho; cases ho
    | ok o => rw [hr] at ho; exact key .beam o ho
  | lattice =>
    simp only [bind, Except.bind] at ho ⊢
    cases hr : observeLattice w.nodes.length lattice ob with
    | error e => rw [hr] at ho; cases ho
    | ok o => rw [hr] at ho; exact key .lattice o ho

/-- what a run does up to the end of the tracking does not depend on the file system -/
theorem programOn_parts (L : Lib) (rnd : Nat → (Nat → Nat → ℝ) × (Nat → Nat → Nat → ℝ)) (J : Indet) (N : Nat) (doc : Xml) (fs : List OutFile)
    (h : L.program rnd J (N + 1) doc = .ok fs) :
    ∃ p m ms s loggers w root rest logs fels obs, (L.withRandom (rnd 0)).parse doc = .ok p ∧ masterBeam p = .ok m ∧
      p.beam.logs.mapM (LogSpec.create m) = .ok loggers ∧ p.tracking.state.interactions.mapM id = .ok s ∧
      runSteps (tracking p J (N + 1)).run (m :: ms) s ⟨loggers, p.tracking.state.watches, []⟩ p.tracking.NOTS.toNat = .ok w ∧ w.nodes = root :: rest ∧
      (logFiles p |>.zip w.out.loggers).mapM (fun nl : String × Logger => (nl.2.writeData root.master).map (fun d => (⟨nl.1, d⟩ : OutFile))) = .ok logs ∧
      (root.inter.zip (felFiles doc)).mapM felOutput = .ok fels ∧
      p.observers.observers.mapM (L.observeSpec w p.lattice.lattice root.master) = .ok obs ∧
      fs = w.out.files.map (fun f => ⟨f.watch.filename, .watch f.data⟩) ++ logs ++ fels.flatten ++ obs.flatten ∧
      (∀ fine, L.programOn fine rnd J (N + 1) doc = L.finishOn fine doc p w) ∧
      removeInteractions (2 * (p.lattice.lattice ++ interactionFields root.inter).length + 1) 0 (p.lattice.lattice ++ interactionFields root.inter) = .ok p.lattice.lattice ∧
      root.inter.length = (felFiles doc).length := by
  by_cases hok : ∃ p, (L.withRandom (rnd 0)).parse doc = .ok p ∧ ∃ m, masterBeam p = .ok m
  · obtain ⟨p, hp, m, hm⟩ := hok
    obtain ⟨ps, a1, a2, a3⟩ := parse_all L rnd doc N p hp
    obtain ⟨ms, g1, g2, g3, g4⟩ := masters_all p ps a3 m hm
    have h4 : L.track rnd J (N + 1) doc = if p.tracking.NOTS < 0 then .error .range else (do
        let s ← p.tracking.state.interactions.mapM id
        let loggers ← p.beam.logs.mapM (LogSpec.create m)
        let w ← runAll (tracking p J (N + 1)).run (m :: ms) s ⟨loggers, p.tracking.state.watches, []⟩
        return (p, w)) := by
      unfold track
      rw [a1]
      simp only [bind, Except.bind]
      rw [g1, hm]
    have ht := h4
    rw [program_track, h4] at h
    split_ifs at h ht with hn
    · cases h
    simp only [bind, Except.bind] at h ht
    cases hs : p.tracking.state.interactions.mapM id with
    | error e => rw [hs] at h; cases h
    | ok s =>
    rw [hs] at h ht
    simp only at h ht
    cases hl : p.beam.logs.mapM (LogSpec.create m) with
    | error e => rw [hl] at h; cases h
    | ok loggers =>
    rw [hl] at h ht
    simp only at h ht
    cases hw : runAll (tracking p J (N + 1)).run (m :: ms) s ⟨loggers, p.tracking.state.watches, []⟩ with
    | error e => rw [hw] at h; cases h
    | ok w =>
    rw [hw] at h ht
    simp only [pure, Except.pure] at h ht
    unfold finish at h
    cases hwn : w.nodes with
    | nil => rw [hwn] at h; cases h
    | cons root rest =>
    rw [hwn] at h
    simp only [bind, Except.bind] at h
    have hext : p.lattice.lattice.filter (fun e => e.isExternal) = p.lattice.lattice := by
      rw [List.filter_eq_self]
      exact (parse_loaded _ doc p hp).2
    have hrem := remove_all p.lattice.lattice root.inter
    rw [hext] at hrem
    rw [hrem] at h
    cases hlo : (logFiles p |>.zip w.out.loggers).mapM (fun nl : String × Logger => (nl.2.writeData root.master).map (fun d => (⟨nl.1, d⟩ : OutFile))) with
    | error e => rw [hlo] at h; cases h
    | ok logs =>
    rw [hlo] at h
    simp only at h
    cases hfe : (root.inter.zip (felFiles doc)).mapM felOutput with
    | error e => rw [hfe] at h; cases h
    | ok fels =>
    rw [hfe] at h
    simp only at h
    cases hob : p.observers.observers.mapM (L.observeSpec w p.lattice.lattice root.master) with
    | error e => rw [hob] at h; cases h
    | ok obs =>
    rw [hob] at h
    injection h with h
    refine ⟨p, m, ms, s, loggers, w, root, rest, logs, fels, obs, hp, hm, hl, hs, hw, hwn, hlo, hfe, hob, h.symm, ?_, hrem, ?_⟩
    · intro fine
      unfold programOn
      rw [ht]
    · rw [← interactions_length _ doc p hp, ← (mapM_except_length hs).1]
      refine inter_kept (tracking p J (N + 1)).run (fun x => x.length = s.length) ?_ ?_ (by show 0 < N + 1; omega) (m :: ms) (by simp only [List.length_cons, g2, a2]; rfl) (fun b hb => Beam.wf_reachable (g3 b hb)) m rfl
        g4 s rfl _ _ w hw root (by simp [hwn])
      · intro b x x' hx hy
        exact ((mapM_except_length (show x.mapM (FEL.init b) = .ok x' from hy)).1).trans hx
      · intro b x x' hx hy
        exact ((mapM_except_length (show x.mapM (FEL.step b) = .ok x' from hy)).1).trans hx
  · obtain ⟨e, he⟩ := program_error L rnd J N doc (fun p hp m hm => hok ⟨p, hp, m, hm⟩)
    rw [he] at h
    cases h

theorem filter_singletons {α : Type} (q : α → Bool) (l : List α) : ((l.map (fun a => [a])).flatten).filter q = l.filter q := by
  induction l with
  | nil => rfl
  | cons a l ih => rw [List.map_cons, List.flatten_cons, List.filter_append, ih, ← List.filter_append]; rfl

theorem mapM_take {α β : Type} (f : α → Except Err β) (i : Nat) {l : List α} {r : List β} (h : l.mapM f = .ok r) : (l.take i).mapM f = .ok (r.take i) := by
  induction l generalizing r i with
  | nil => injection h with h; subst h; simp [pure, Except.pure]
  | cons a l ih =>
    cases i with
    | zero => rfl
    | succ i =>
      rw [List.mapM_cons] at h
      cases ha : f a with
      | error e => rw [ha] at h; cases h
      | ok b =>
        rw [ha] at h
        cases hl : l.mapM f with
        | error e => rw [hl] at h; cases h
        | ok l'' =>
          rw [hl] at h
          injection h with h
          subst h
          rw [List.take_succ_cons, List.mapM_cons, ha, ih i hl]
          rfl

/-- whether the log is one of parameters -/
def LogSpec.isParam : LogSpec → Bool
  | .param _ _ _ _ => true
  | .traj _ _ _ _ => false

theorem create_kinds {m : Beam} {l : List LogSpec} {loggers : List Logger} (h : l.mapM (LogSpec.create m) = .ok loggers) : loggers.map Logger.isParam = l.map LogSpec.isParam := by
  induction l generalizing loggers with
  | nil => injection h with h; subst h; rfl
  | cons a l ih =>
    rw [List.mapM_cons] at h
    cases ha : LogSpec.create m a with
    | error e => rw [ha] at h; cases h
    | ok b =>
      rw [ha] at h
      cases hl : l.mapM (LogSpec.create m) with
      | error e => rw [hl] at h; cases h
      | ok l'' =>
        rw [hl] at h
        injection h with h
        subst h
        rw [List.map_cons, List.map_cons, ih hl]
        congr 1
        cases a with
        | param b f st bf => injection ha with ha; subst ha; rfl
        | traj b f st n =>
          simp only [LogSpec.create] at ha
          cases hv : Particle.vecAt m.B b with
          | error e => rw [hv] at ha; cases ha
          | ok bu => rw [hv] at ha; injection ha with ha; subst ha; rfl

/-- **C87 (partial).** If all files can be created whose loss is fatal -- those of trajectory logs, the probe log and the logs of interactions --, then the program writes
all files which can be created, with the same contents and in the same order as if no creation failed, and ends normally. -/
theorem C87_others_partial (L : Lib) (fine : String → Bool) (rnd : Nat → (Nat → Nat → ℝ) × (Nat → Nat → Nat → ℝ)) (J : Indet) (nodes : Nat) (hN : 0 < nodes) (doc : Xml) (fs : List OutFile)
    (h : L.program rnd J nodes doc = .ok fs) :
    ∃ p, (L.withRandom (rnd 0)).parse doc = .ok p ∧
      ((∀ b file step number, LogSpec.traj b file step number ∈ p.beam.logs → fine file = true) → (∀ pr, p.beam.probe = some pr → fine pr.file = true) →
        (∀ name, some name ∈ felFiles doc → fine name = true) →
        L.programOn fine rnd J nodes doc = .ok (fs.filter (fun f => fine f.name))) := by
  obtain ⟨N, rfl⟩ : ∃ N, nodes = N + 1 := ⟨nodes - 1, by omega⟩
  obtain ⟨p, m, ms, s, loggers, w, root, rest, logs, fels, obs, hp, hm, hl, hs, hw, hwn, hlo, hfe, hob, hfs, hon, hrem, _⟩ := programOn_parts L rnd J N doc fs h
  refine ⟨p, hp, ?_⟩
  intro ht hpr hfel
  have hk := output_kinds _ J.traj J.fuel (tracking_records p J (N + 1)) (m :: ms) s _ _ w hw
  rw [create_kinds hl] at hk
  rw [hon]
  unfold finishOn
  rw [hwn]
  dsimp only
  rw [stage_filter fine (logOutput root.master) (writeLog fine root.master) _ ?_ _ (logs_lists _ _ _ hlo)]
  · simp only [bind, Except.bind]
    rw [stage_filter fine felOutput (writeFel fine) _ ?_ _ hfe]
    · dsimp only
      rw [hrem]
      dsimp only
      rw [stage_filter fine (L.observeSpec w p.lattice.lattice root.master) _ _ (fun a _ disk fs' ho => writeObserver_ok L fine w _ _ a disk fs' ho) _ hob]
      rw [hfs, filter_singletons]
      simp
    · intro a ha disk fs' ho
      refine writeFel_ok fine a (fun name hn => hfel name ?_) disk fs' ho
      rw [← hn]
      exact (List.of_mem_zip ha).2
  · intro a ha disk fs' ho
    refine writeLog_ok fine _ a ?_ disk fs' ho
    obtain ⟨n, l⟩ := a
    obtain ⟨i, hi⟩ := List.getElem?_of_mem ha
    rw [List.getElem?_zip_eq_some] at hi
    obtain ⟨h1, h2⟩ := hi
    cases hpar : l.isParam with
    | true =>
      right
      cases l with
      | param b L' => exact ⟨b, L', rfl⟩
      | traj b L' => cases hpar
      | probe L' => cases hpar
    | false =>
      left
      have h3 : (w.out.loggers.map Logger.isParam)[i]? = some false := by rw [List.getElem?_map]; simp only at h2; rw [h2]; simp [hpar]
      rw [hk] at h3
      unfold logFiles at h1
      simp only at h1
      by_cases hlt : i < p.beam.logs.length
      · rw [List.getElem?_append_left (by simpa using hlt), List.getElem?_map] at h1 h3
        rw [List.getElem?_eq_getElem hlt] at h1 h3
        have hmem := List.getElem_mem hlt
        generalize p.beam.logs[i] = sp at h1 h3 hmem
        cases sp with
        | param b f st bf => simp [LogSpec.isParam] at h3
        | traj b f st nn =>
          simp only [Option.map_some, Option.some.injEq, LogSpec.file] at h1
          subst h1
          exact ht b f st nn hmem
      · rw [List.getElem?_append_right (by simpa using Nat.le_of_not_lt hlt)] at h1
        cases hprobe : p.beam.probe with
        | none => rw [hprobe] at h1; simp at h1
        | some pr =>
          rw [hprobe] at h1
          have := List.mem_of_getElem? h1
          simp at this
          rw [this]
          exact hpr pr hprobe

/-- **C87** (what happens else): if the file of a trajectory log cannot be created (and those of the trajectory logs before it can), the program ends with an exception: nothing that would be written
after it is, whether it can be created or not. -/
theorem C87_stops (L : Lib) (fine : String → Bool) (rnd : Nat → (Nat → Nat → ℝ) × (Nat → Nat → Nat → ℝ)) (J : Indet) (nodes : Nat) (hN : 0 < nodes) (doc : Xml) (fs : List OutFile)
    (h : L.program rnd J nodes doc = .ok fs) :
    ∃ p, (L.withRandom (rnd 0)).parse doc = .ok p ∧
      ∀ pre b file step number post, p.beam.logs = pre ++ .traj b file step number :: post → fine file = false →
        (∀ b' file' step' number', LogSpec.traj b' file' step' number' ∈ pre → fine file' = true) →
        L.programOn fine rnd J nodes doc =
          .error (.io, (fs.take ((p.tracking.state.watches.filter (fun x => 0 ≤ x.step ∧ x.step ≤ (p.tracking.NOTS.toNat : ℤ))).length + pre.length)).filter (fun f => fine f.name)) := by
  obtain ⟨N, rfl⟩ : ∃ N, nodes = N + 1 := ⟨nodes - 1, by omega⟩
  obtain ⟨p, m, ms, s, loggers, w, root, rest, logs, fels, obs, hp, hm, hl, hs, hw, hwn, hlo, hfe, hob, hfs, hon, hrem, _⟩ := programOn_parts L rnd J N doc fs h
  refine ⟨p, hp, ?_⟩
  intro pre b file step number post hlogs hbad hgood
  have hk := output_kinds _ J.traj J.fuel (tracking_records p J (N + 1)) (m :: ms) s _ _ w hw
  rw [create_kinds hl] at hk
  have hwatch := (C42_watches _ J.traj J.fuel (tracking_records p J (N + 1)) (m :: ms) s _ rfl _ w hw).1.length_eq
  rw [List.length_map] at hwatch
  have hwatch' : (w.out.files.map (fun f => (⟨f.watch.filename, .watch f.data⟩ : OutFile))).length =
      (p.tracking.state.watches.filter (fun x => 0 ≤ x.step ∧ x.step ≤ (p.tracking.NOTS.toNat : ℤ))).length := by rw [List.length_map]; exact hwatch
  have hz : (logFiles p)[pre.length]? = some file := by
    unfold logFiles
    rw [hlogs]
    simp [LogSpec.file]
  have hk0 : ∀ i, i < pre.length + 1 → (w.out.loggers.map Logger.isParam)[i]? = ((p.beam.logs[i]?).map LogSpec.isParam) := by
    intro i hi
    rw [hk, List.getElem?_append_left (by rw [hlogs]; simp; omega), List.getElem?_map]
  have hl0 : ∃ l, w.out.loggers[pre.length]? = some l ∧ l.isParam = false := by
    have := hk0 pre.length (by omega)
    rw [hlogs] at this
    simp [LogSpec.isParam] at this
    exact this
  obtain ⟨l, hl1, hl2⟩ := hl0
  have hzip : ((logFiles p).zip w.out.loggers)[pre.length]? = some (file, l) := by
    rw [List.getElem?_zip_eq_some]
    exact ⟨hz, hl1⟩
  have hlt : pre.length < ((logFiles p).zip w.out.loggers).length := by
    by_contra hc
    rw [List.getElem?_eq_none (by omega)] at hzip
    cases hzip
  have hllen := (mapM_except_length hlo).1
  rw [hon]
  unfold finishOn
  rw [hwn]
  dsimp only
  have hsplit : (logFiles p).zip w.out.loggers = ((logFiles p).zip w.out.loggers).take pre.length ++ (file, l) :: ((logFiles p).zip w.out.loggers).drop (pre.length + 1) := by
    rw [List.getElem?_eq_getElem hlt] at hzip
    injection hzip with hzip
    rw [← hzip, List.getElem_cons_drop, List.take_append_drop]
  rw [hsplit, List.foldlM_append]
  rw [stage_filter fine (logOutput root.master) (writeLog fine root.master) _ ?_ _ (logs_lists _ _ _ (mapM_take _ pre.length hlo))]
  · simp only [bind, Except.bind, List.foldlM_cons]
    have hstop : ∀ disk, writeLog fine root.master disk (file, l) = .error (.io, disk) := by
      intro disk
      unfold writeLog
      cases l with
      | param b L' => cases hl2
      | traj b L' => simp [hbad]
      | probe L' => simp [hbad]
    rw [hstop]
    dsimp only
    congr 2
    rw [hfs, ← hwatch']
    generalize w.out.files.map (fun f => (⟨f.watch.filename, .watch f.data⟩ : OutFile)) = W
    rw [List.append_assoc, List.append_assoc, List.take_length_add_append, List.filter_append, List.take_append_of_le_length (by omega)]
    rw [filter_singletons]
  · intro a ha disk fs' ho
    refine writeLog_ok fine _ a ?_ disk fs' ho
    obtain ⟨n, lg⟩ := a
    obtain ⟨i, hi⟩ := List.getElem?_of_mem ha
    have hi' : i < pre.length := by
      by_contra hc
      rw [List.getElem?_take, if_neg hc] at hi
      cases hi
    rw [List.getElem?_take_of_lt hi', List.getElem?_zip_eq_some] at hi
    obtain ⟨h1, h2⟩ := hi
    have h3 := hk0 i (by omega)
    have hsp : p.beam.logs[i]? = some pre[i] := by rw [hlogs, List.getElem?_append_left hi', List.getElem?_eq_getElem hi']
    have hmem := List.getElem_mem hi'
    unfold logFiles at h1
    rw [List.getElem?_append_left (by rw [hlogs]; simp; omega), List.getElem?_map, hsp] at h1
    rw [List.getElem?_map, hsp] at h3
    simp only at h2
    rw [h2] at h3
    generalize pre[i] = sp at h1 h3 hmem
    simp only [Option.map_some, Option.some.injEq] at h1 h3
    cases sp with
    | param b f st bf =>
      right
      cases lg with
      | param b L' => exact ⟨b, L', rfl⟩
      | traj b L' => cases h3
      | probe L' => cases h3
    | traj b f st nn =>
      left
      subst h1
      exact hgood b f st nn hmem

/-- an input with two bunches, the parameters and trajectories of both of which are logged -/
def twoDoc : Xml := beamDoc [logEntryOf "a.sdds" "a.h5", logEntryOf "b.sdds" "b.h5"]

noncomputable def twoParsed (L : Lib) : Parsed :=
  beamParsed ⟨predefined, [logBunch L 0, logBunch L 1], [.param 0 "a.sdds" 1 none, .traj 0 "a.h5" 1 3, .param 1 "b.sdds" 1 none, .traj 1 "b.h5" 1 3], none, 2⟩

theorem twoDoc_parse (r : (Nat → Nat → ℝ) × (Nat → Nat → Nat → ℝ)) : (exampleLib.withRandom r).parse twoDoc = .ok (twoParsed (exampleLib.withRandom r)) :=
  beamDoc_parse r _ _ (by simp only [List.foldlM_cons, List.foldlM_nil, bind, Except.bind, logEntry_step]; rfl) rfl

theorem logBunch_ok (L : Lib) (k : Nat) : ∃ bu, logBunch L k = .ok bu ∧ bu.WF ∧ bu.P.length = 3 ∧ ∀ q ∈ bu.P, q.Mass ≠ 0 := by
  obtain ⟨bu, ps, h1, h2, h3, h4, h5⟩ := C64_bunch_partial L k 3 (by norm_num) 2 1 1 0 ⟨0, 0, 0⟩ ⟨0, 0, 1⟩ ⟨0, 0, 0, 0, 0, 0, 0⟩ []
    (by norm_num) one_ne_zero one_ne_zero (by intro h; have := congrArg Vec.z h; simp at this)
  have hP := (consists_list (Bunch.wf_reachable h2) h3).2
  refine ⟨bu, h1, Bunch.wf_reachable h2, by rw [hP]; simp, ?_⟩
  intro q hq
  rw [hP] at hq
  obtain ⟨l, hl, rfl⟩ := List.mem_map.mp hq
  intro h0
  have := (h5 l (List.mem_range.mp hl)).2.1
  rw [h0] at this
  simp at this

theorem twoDoc_runs (rnd : Nat → (Nat → Nat → ℝ) × (Nat → Nat → Nat → ℝ)) (J : Indet) (nodes : Nat) (hN : 0 < nodes) : ∃ fs, exampleLib.program rnd J nodes twoDoc = .ok fs := by
  obtain ⟨b0, h1, w1, n1, q1⟩ := logBunch_ok (exampleLib.withRandom (rnd 0)) 0
  obtain ⟨b1, h2, w2, n2, q2⟩ := logBunch_ok (exampleLib.withRandom (rnd 0)) 1
  have hm : masterBeam (twoParsed (exampleLib.withRandom (rnd 0))) = .ok { (Beam.empty.Add b0).Add b1 with tracker := .vay, dt := 1, NOTS := 2 } := by
    simp [masterBeam, twoParsed, beamParsed, h1, h2, bind, Except.bind, pure, Except.pure]
  have hwf : Beam.WF { (Beam.empty.Add b0).Add b1 with tracker := .vay, dt := 1, NOTS := 2 } := by
    refine ⟨by simp [Beam.Add, Beam.empty], ?_⟩
    intro x hx
    simp [Beam.Add, Beam.empty] at hx
    rcases hx with rfl | rfl <;> assumption
  refine C86_runs exampleLib rnd J nodes hN twoDoc _ _ (twoDoc_parse (rnd 0)) hm (by simp [twoParsed, beamParsed]) (fun t X => ⟨_, rfl⟩) ?_ ?_ rfl rfl rfl
  · intro i j q hq
    obtain ⟨b, g1, g2⟩ := (holds_iff hwf i j q).mp hq
    have hb := List.mem_of_getElem? g1
    simp [Beam.Add, Beam.empty] at hb
    rcases hb with rfl | rfl
    · exact q1 q (List.mem_of_getElem? g2)
    · exact q2 q (List.mem_of_getElem? g2)
  · have u1 : toUnsigned 1 = 1 := by norm_num [toUnsigned]
    have u3 : toUnsigned 3 = 3 := by norm_num [toUnsigned]; rfl
    have hn : (twoParsed (exampleLib.withRandom (rnd 0))).tracking.NOTS.toNat = 2 := rfl
    have ht : ∀ b f, LogFits { (Beam.empty.Add b0).Add b1 with tracker := .vay, dt := 1, NOTS := 2 } 2 (.traj b f 1 3) := by
      intro b f
      refine ⟨by rw [u1], ?_⟩
      intro bu hb
      have hb' := List.mem_of_getElem? hb
      simp [Beam.Add, Beam.empty] at hb'
      have : bu.P.length = 3 := by rcases hb' with rfl | rfl <;> assumption
      rw [this, u1, u3]
      norm_num
    have hq : ∀ b f, LogFits { (Beam.empty.Add b0).Add b1 with tracker := .vay, dt := 1, NOTS := 2 } 2 (.param b f 1 none) := by
      intro b f
      show 1 ≤ toUnsigned 1
      rw [u1]
    intro l hl
    rw [hn]
    simp only [twoParsed, beamParsed, List.mem_cons, List.not_mem_nil, or_false] at hl
    rcases hl with rfl | rfl | rfl | rfl
    · exact hq _ _
    · exact ht _ _
    · exact hq _ _
    · exact ht _ _

/-- **C87, the full statement is false**: if the trajectory log of the first bunch cannot be created, then the program ends with an exception and the log of the second one is not written although
it can be. -/
theorem C87_full_statement_false : ¬ ∀ (L : Lib) (fine : String → Bool) (rnd : Nat → (Nat → Nat → ℝ) × (Nat → Nat → Nat → ℝ)) (J : Indet) (nodes : Nat) (_ : 0 < nodes) (doc : Xml) (fs : List OutFile)
    (_ : L.program rnd J nodes doc = .ok fs) (disk : List OutFile)
    (_ : L.programOn fine rnd J nodes doc = .ok disk ∨ ∃ e, L.programOn fine rnd J nodes doc = .error (e, disk)),
    ∀ f ∈ fs, fine f.name = true → f ∈ disk := by
  intro hall
  let rnd : Nat → (Nat → Nat → ℝ) × (Nat → Nat → Nat → ℝ) := fun _ => (fun _ _ => 0, fun _ _ _ => 0)
  let J : Indet := ⟨fun _ _ _ => 0, fun _ => 0, 0⟩
  obtain ⟨fs, h⟩ := twoDoc_runs rnd J 1 Nat.one_pos
  let fine : String → Bool := fun n => n != "a.h5"
  obtain ⟨p, hp, hstop⟩ := C87_stops exampleLib fine rnd J 1 Nat.one_pos twoDoc fs h
  rw [twoDoc_parse] at hp
  injection hp with hp
  subst hp
  have hs := hstop [.param 0 "a.sdds" 1 none] 0 "a.h5" 1 3 [.param 1 "b.sdds" 1 none, .traj 1 "b.h5" 1 3] rfl (by simp [fine]) (by simp)
  have hd := hall exampleLib fine rnd J 1 Nat.one_pos twoDoc fs h _ (Or.inr ⟨_, hs⟩)
  obtain ⟨p', hp', hnames⟩ := C84_names exampleLib rnd J 1 Nat.one_pos twoDoc fs h
  rw [twoDoc_parse] at hp'
  injection hp' with hp'
  subst hp'
  have hfel : felFiles twoDoc = [] := by
    simp [felFiles, twoDoc, beamDoc, Xml.child, Xml.children, Xml.name]
  have hn : fs.map OutFile.name = ["a.sdds", "a.h5", "b.sdds", "b.h5"] := by
    rw [hnames, hfel]
    simp [twoParsed, beamParsed, LogSpec.file]
  have hb : "b.sdds" ∈ fs.map OutFile.name := by rw [hn]; simp
  obtain ⟨f, hf, hfn⟩ := List.mem_map.mp hb
  have hmem := hd f hf (by simp [fine, hfn])
  have h1 : f.name ∈ (fs.take 1).map OutFile.name := List.mem_map_of_mem (List.mem_of_mem_filter hmem)
  rw [List.map_take, hn, hfn] at h1
  simp at h1

/-- non-vacuity of C87: if only the parameter log of the first bunch cannot be created, the three other files are written -/
example (rnd : Nat → (Nat → Nat → ℝ) × (Nat → Nat → Nat → ℝ)) (J : Indet) : ∃ disk, exampleLib.programOn (fun n => n != "a.sdds") rnd J 2 twoDoc = .ok disk ∧
    disk.map OutFile.name = ["a.h5", "b.sdds", "b.h5"] := by
  obtain ⟨fs, h⟩ := twoDoc_runs rnd J 2 Nat.two_pos
  have hfel : felFiles twoDoc = [] := by
    simp [felFiles, twoDoc, beamDoc, Xml.child, Xml.children, Xml.name]
  obtain ⟨p, hp, hk⟩ := C87_others_partial exampleLib (fun n => n != "a.sdds") rnd J 2 Nat.two_pos twoDoc fs h
  obtain ⟨p', hp', hnames⟩ := C84_names exampleLib rnd J 2 Nat.two_pos twoDoc fs h
  rw [twoDoc_parse] at hp hp'
  injection hp with hp
  injection hp' with hp'
  subst hp hp'
  refine ⟨_, hk ?_ ?_ ?_, ?_⟩
  · intro b file step number hm
    simp [twoParsed, beamParsed] at hm
    rcases hm with hm | hm <;> simp [hm.2.1]
  · intro pr hpr
    simp [twoParsed, beamParsed] at hpr
  · rw [hfel]; simp
  · have hn : fs.map OutFile.name = ["a.sdds", "a.h5", "b.sdds", "b.h5"] := by
      rw [hnames, hfel]
      simp [twoParsed, beamParsed, LogSpec.file]
    have : (fs.filter (fun f => f.name != "a.sdds")).map OutFile.name = (fs.map OutFile.name).filter (fun n => n != "a.sdds") := by
      rw [List.filter_map]; rfl
    rw [this, hn]
    decide

end Lib
end Teufel
