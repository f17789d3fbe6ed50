import Verif.Props.Faults
import Verif.Props.ProgramComplete

/-!
# C87: the probe log and the logs of interactions as files which cannot be created
-/

namespace Teufel
open Vec Input
namespace Lib

/-- the files of the loggers whose loss is fatal are those of the trajectory logs and of the probe log -/
theorem log_losable (p : Parsed) (ls : List Logger) (probe : Option (Nat × Nat)) (hk : ls.map Logger.isParam = p.beam.logs.map LogSpec.isParam ++ (probe.toList.map (fun _ => false))) (i : Nat) (n : String) (l : Logger)
    (hi : ((logFiles p).zip ls)[i]? = some (n, l)) :
    (∃ b L', l = .param b L') ∨ (∃ b step number, LogSpec.traj b n step number ∈ p.beam.logs) ∨ (p.beam.logs.length ≤ i ∧ ∃ pr, p.beam.probe = some pr ∧ pr.file = n) := by
  rw [List.getElem?_zip_eq_some] at hi
  obtain ⟨h1, h2⟩ := hi
  cases hpar : l.isParam with
  | true =>
    left
    cases l with
    | param b L' => exact ⟨b, L', rfl⟩
    | traj b L' => cases hpar
    | probe L' => cases hpar
  | false =>
    right
    have h3 : (ls.map Logger.isParam)[i]? = some false := by rw [List.getElem?_map]; simp only at h2; rw [h2]; simp [hpar]
    rw [hk] at h3
    unfold logFiles at h1
    simp only at h1
    by_cases hlt : i < p.beam.logs.length
    · left
      rw [List.getElem?_append_left (by simpa using hlt), List.getElem?_map] at h1 h3
      rw [List.getElem?_eq_getElem hlt] at h1 h3
      have hmem := List.getElem_mem hlt
      generalize p.beam.logs[i] = sp at h1 h3 hmem
      cases sp with
      | param b f st bf => simp [LogSpec.isParam] at h3
      | traj b f st nn =>
        simp only [Option.map_some, Option.some.injEq, LogSpec.file] at h1
        subst h1
        exact ⟨b, st, nn, hmem⟩
    · right
      rw [List.getElem?_append_right (by simpa using Nat.le_of_not_lt hlt)] at h1
      refine ⟨by omega, ?_⟩
      cases hprobe : p.beam.probe with
      | none => rw [hprobe] at h1; simp at h1
      | some pr =>
        rw [hprobe] at h1
        have := List.mem_of_getElem? h1
        simp at this
        exact ⟨pr, rfl, this.symm⟩

/-- **C87** (what happens else): if the file of the probe log cannot be created (and those of the trajectory logs can), the program ends with an exception: of the files of the complete run
exactly those of the watch points and of the logs of bunches which can be created are on the disk. -/
theorem C87_stops_probe (L : Lib) (fine : String → Bool) (rnd : Nat → (Nat → Nat → ℝ) × (Nat → Nat → Nat → ℝ)) (J : Indet) (nodes : Nat) (hN : 0 < nodes) (doc : Xml) (fs : List OutFile)
    (h : L.program rnd J nodes doc = .ok fs) :
    ∃ p, (L.withRandom (rnd 0)).parse doc = .ok p ∧
      ∀ pr, p.beam.probe = some pr → fine pr.file = false →
        (∀ b file step number, LogSpec.traj b file step number ∈ p.beam.logs → fine file = true) →
        L.programOn fine rnd J nodes doc =
          .error (.io, (fs.take ((p.tracking.state.watches.filter (fun x => 0 ≤ x.step ∧ x.step ≤ (p.tracking.NOTS.toNat : ℤ))).length + p.beam.logs.length)).filter (fun f => fine f.name)) := by
  obtain ⟨N, rfl⟩ : ∃ N, nodes = N + 1 := ⟨nodes - 1, by omega⟩
  obtain ⟨p, m, ms, s, loggers, w, root, rest, logs, fels, obs, hp, hm, hl, hs, hw, hwn, hlo, hfe, hob, hfs, hon, hrem, hilen⟩ := programOn_parts L rnd J N doc fs h
  refine ⟨p, hp, ?_⟩
  intro pr hpr hbad hgood
  have hk := output_kinds _ J.traj J.fuel (tracking_records p J (N + 1)) (m :: ms) s _ _ w hw
  rw [create_kinds hl] at hk
  have hwatch := (C42_watches _ J.traj J.fuel (tracking_records p J (N + 1)) (m :: ms) s _ rfl _ w hw).1.length_eq
  rw [List.length_map] at hwatch
  have hwatch' : (w.out.files.map (fun f => (⟨f.watch.filename, .watch f.data⟩ : OutFile))).length =
      (p.tracking.state.watches.filter (fun x => 0 ≤ x.step ∧ x.step ≤ (p.tracking.NOTS.toNat : ℤ))).length := by rw [List.length_map]; exact hwatch
  have hz : (logFiles p)[p.beam.logs.length]? = some pr.file := by
    unfold logFiles
    rw [hpr, List.getElem?_append_right (by simp)]
    simp
  obtain ⟨l, hl1, hl2⟩ : ∃ l, w.out.loggers[p.beam.logs.length]? = some l ∧ l.isParam = false := by
    have : (w.out.loggers.map Logger.isParam)[p.beam.logs.length]? = some false := by
      rw [hk, List.getElem?_append_right (by simp), hpr]
      simp
    simpa using this
  have hzip : ((logFiles p).zip w.out.loggers)[p.beam.logs.length]? = some (pr.file, l) := by
    rw [List.getElem?_zip_eq_some]
    exact ⟨hz, hl1⟩
  have hlt : p.beam.logs.length < ((logFiles p).zip w.out.loggers).length := by
    by_contra hc
    rw [List.getElem?_eq_none (by omega)] at hzip
    cases hzip
  have hllen := (mapM_except_length hlo).1
  rw [hon]
  unfold finishOn
  rw [hwn]
  dsimp only
  have hsplit : (logFiles p).zip w.out.loggers = ((logFiles p).zip w.out.loggers).take p.beam.logs.length ++ (pr.file, l) :: ((logFiles p).zip w.out.loggers).drop (p.beam.logs.length + 1) := by
    rw [List.getElem?_eq_getElem hlt] at hzip
    injection hzip with hzip
    rw [← hzip, List.getElem_cons_drop, List.take_append_drop]
  rw [hsplit, List.foldlM_append]
  rw [stage_filter fine (logOutput root.master) (writeLog fine root.master) _ ?_ _ (logs_lists _ _ _ (mapM_take _ p.beam.logs.length hlo))]
  · simp only [bind, Except.bind, List.foldlM_cons]
    have hstop : ∀ disk, writeLog fine root.master disk (pr.file, l) = .error (.io, disk) := by
      intro disk
      unfold writeLog
      cases l with
      | param b L' => cases hl2
      | traj b L' => simp [hbad]
      | probe L' => simp [hbad]
    rw [hstop]
    dsimp only
    congr 2
    rw [hfs, ← hwatch']
    generalize w.out.files.map (fun f => (⟨f.watch.filename, .watch f.data⟩ : OutFile)) = W
    rw [List.append_assoc, List.append_assoc, List.take_length_add_append, List.filter_append, List.take_append_of_le_length (by omega)]
    rw [filter_singletons]
  · intro a ha disk fs' ho
    refine writeLog_ok fine _ a ?_ disk fs' ho
    obtain ⟨n, lg⟩ := a
    obtain ⟨i, hi⟩ := List.getElem?_of_mem ha
    have hi' : i < p.beam.logs.length := by
      by_contra hc
      rw [List.getElem?_take, if_neg hc] at hi
      cases hi
    rw [List.getElem?_take_of_lt hi'] at hi
    rcases log_losable p _ _ hk i n lg hi with h1 | ⟨b, st, nn, h1⟩ | ⟨h1, _⟩
    · exact Or.inr h1
    · exact Or.inl (hgood b n st nn h1)
    · omega

/-- the files of the first interactions are the first of the files of interactions -/
theorem fels_take (l : List FEL) (fn : List (Option String)) (r : List (List OutFile)) (h : (l.zip fn).mapM felOutput = .ok r) (k : Nat) (hk : k ≤ l.length) (hk' : k ≤ fn.length) :
    (r.take k).flatten = r.flatten.take ((fn.take k).filterMap id).length := by
  induction k generalizing l fn r with
  | zero => simp
  | succ k ih =>
    cases l with
    | nil => simp at hk
    | cons a l =>
      cases fn with
      | nil => simp at hk'
      | cons b fn =>
        rw [List.zip_cons_cons, List.mapM_cons] at h
        cases ha : felOutput (a, b) with
        | error e => rw [ha] at h; cases h
        | ok x =>
        rw [ha] at h
        cases hl : (l.zip fn).mapM felOutput with
        | error e => rw [hl] at h; cases h
        | ok r' =>
        rw [hl] at h
        injection h with h
        subst h
        have hi := ih l fn r' hl (by simpa using hk) (by simpa using hk')
        have hx : x.length = ([b].filterMap id).length := by
          cases b with
          | none => unfold felOutput at ha; injection ha with ha; subst ha; rfl
          | some nm =>
            unfold felOutput at ha
            simp only at ha
            cases hy : a.writeOutput with
            | error e => rw [hy] at ha; cases ha
            | ok y => rw [hy] at ha; injection ha with ha; subst ha; rfl
        rw [List.take_succ_cons, List.flatten_cons, List.flatten_cons, List.take_succ_cons, show b :: List.take k fn = [b] ++ List.take k fn from rfl, List.filterMap_append, List.length_append, ← hx,
          List.take_length_add_append, hi]

/-- **C87** (what happens else): if the file of the log of an interaction cannot be created (and those of the trajectory logs, of the probe log and of the interactions before it can), the program
ends with an exception: of the files of the complete run exactly those in front of it which can be created are on the disk; in particular no observer has written its file. -/
theorem C87_stops_interaction (L : Lib) (fine : String → Bool) (rnd : Nat → (Nat → Nat → ℝ) × (Nat → Nat → Nat → ℝ)) (J : Indet) (nodes : Nat) (hN : 0 < nodes) (doc : Xml) (fs : List OutFile)
    (h : L.program rnd J nodes doc = .ok fs) :
    ∃ p, (L.withRandom (rnd 0)).parse doc = .ok p ∧
      ∀ pre name post, felFiles doc = pre ++ some name :: post → fine name = false →
        (∀ b file step number, LogSpec.traj b file step number ∈ p.beam.logs → fine file = true) → (∀ pr, p.beam.probe = some pr → fine pr.file = true) →
        (∀ name', some name' ∈ pre → fine name' = true) →
        L.programOn fine rnd J nodes doc =
          .error (.io, (fs.take ((p.tracking.state.watches.filter (fun x => 0 ≤ x.step ∧ x.step ≤ (p.tracking.NOTS.toNat : ℤ))).length + p.beam.logs.length + p.beam.probe.toList.length +
            (pre.filterMap id).length)).filter (fun f => fine f.name)) := by
  obtain ⟨N, rfl⟩ : ∃ N, nodes = N + 1 := ⟨nodes - 1, by omega⟩
  obtain ⟨p, m, ms, s, loggers, w, root, rest, logs, fels, obs, hp, hm, hl, hs, hw, hwn, hlo, hfe, hob, hfs, hon, hrem, hilen⟩ := programOn_parts L rnd J N doc fs h
  refine ⟨p, hp, ?_⟩
  intro pre name post hfiles hbad hgood hprobe hpre
  have hk := output_kinds _ J.traj J.fuel (tracking_records p J (N + 1)) (m :: ms) s _ _ w hw
  rw [create_kinds hl] at hk
  have hwatch := (C42_watches _ J.traj J.fuel (tracking_records p J (N + 1)) (m :: ms) s _ rfl _ w hw).1.length_eq
  rw [List.length_map] at hwatch
  have hwatch' : (w.out.files.map (fun f => (⟨f.watch.filename, .watch f.data⟩ : OutFile))).length =
      (p.tracking.state.watches.filter (fun x => 0 ≤ x.step ∧ x.step ≤ (p.tracking.NOTS.toNat : ℤ))).length := by rw [List.length_map]; exact hwatch
  have hllen : logs.length = p.beam.logs.length + p.beam.probe.toList.length := by
    have h1 := (mapM_except_length hlo).1
    have h2 := (output_lists (tracking p J (N + 1)).run J.traj J.fuel (tracking_records p J (N + 1)) (m :: ms) s _ rfl _ w hw).2.2
    have h3 := (mapM_except_length hl).1
    rw [h1, List.length_zip, h2, h3]
    unfold logFiles
    cases p.beam.probe <;> simp
  have hk1 : pre.length < root.inter.length := by rw [hilen, hfiles]; simp
  have hsplit : root.inter.zip (felFiles doc) = (root.inter.zip (felFiles doc)).take pre.length ++ (root.inter[pre.length], some name) :: (root.inter.zip (felFiles doc)).drop (pre.length + 1) := by
    have hlt : pre.length < (root.inter.zip (felFiles doc)).length := by rw [List.length_zip, ← hilen]; omega
    have : (root.inter.zip (felFiles doc))[pre.length] = (root.inter[pre.length], some name) := by
      rw [List.getElem_zip]
      simp [hfiles]
    rw [← this, List.getElem_cons_drop, List.take_append_drop]
  have htake := fels_take root.inter (felFiles doc) fels hfe pre.length (by omega) (by omega)
  rw [hfiles, List.take_left] at htake
  have hle : (pre.filterMap id).length ≤ fels.flatten.length := by
    have h1 := fels_take root.inter (felFiles doc) fels hfe (felFiles doc).length (by omega) (by omega)
    have h2 := names_of_fel _ _ (by omega) _ hfe
    have h3 := congrArg List.length h2
    rw [List.length_map, hfiles, List.filterMap_append, List.length_append] at h3
    omega
  rw [hon]
  unfold finishOn
  rw [hwn]
  dsimp only
  rw [stage_filter fine (logOutput root.master) (writeLog fine root.master) _ ?_ _ (logs_lists _ _ _ hlo)]
  · simp only [bind, Except.bind]
    rw [hsplit, List.foldlM_append]
    rw [stage_filter fine felOutput (writeFel fine) _ ?_ _ (mapM_take _ pre.length hfe)]
    · simp only [bind, Except.bind, List.foldlM_cons]
      have hstop : ∀ disk, writeFel fine disk (root.inter[pre.length], some name) = .error (.io, disk) := by
        intro disk
        unfold writeFel
        simp [hbad]
      rw [hstop]
      dsimp only
      congr 2
      rw [htake, hfs, ← hwatch', filter_singletons]
      generalize w.out.files.map (fun f => (⟨f.watch.filename, .watch f.data⟩ : OutFile)) = W
      rw [show W.length + p.beam.logs.length + p.beam.probe.toList.length + (pre.filterMap id).length = (W ++ logs).length + (pre.filterMap id).length by rw [List.length_append, hllen]; omega,
        List.append_assoc (W ++ logs), List.take_length_add_append, List.take_append_of_le_length hle, List.filter_append, List.filter_append]
    · intro a ha disk fs' ho
      refine writeFel_ok fine a (fun name' hn => hpre name' ?_) disk fs' ho
      obtain ⟨i, hi⟩ := List.getElem?_of_mem ha
      have hi' : i < pre.length := by
        by_contra hc
        rw [List.getElem?_take, if_neg hc] at hi
        cases hi
      rw [List.getElem?_take_of_lt hi', List.getElem?_zip_eq_some, hfiles, List.getElem?_append_left hi'] at hi
      rw [← hn]
      exact List.mem_of_getElem? hi.2
  · intro a ha disk fs' ho
    refine writeLog_ok fine _ a ?_ disk fs' ho
    obtain ⟨n, lg⟩ := a
    obtain ⟨i, hi⟩ := List.getElem?_of_mem ha
    rcases log_losable p _ _ hk i n lg hi with h1 | ⟨b, st, nn, h1⟩ | ⟨_, pr, h1, h2⟩
    · exact Or.inr h1
    · exact Or.inl (hgood b n st nn h1)
    · exact Or.inl (by rw [← h2]; exact hprobe pr h1)

/-- non-vacuity of `C87_stops_probe`: the probe log of a run which also observes the field cannot be created, and nothing is written -/
example (rnd : Nat → (Nat → Nat → ℝ) × (Nat → Nat → Nat → ℝ)) (J : Indet) (hJ : 1 ≤ J.fuel) : exampleLib.programOn (fun n => n != "probe.h5") rnd J 3 farDoc = .error (.io, []) := by
  obtain ⟨fs, h⟩ := farDoc_runs rnd J hJ 3 (by norm_num)
  obtain ⟨p, hp, hk⟩ := C87_stops_probe exampleLib (fun n => n != "probe.h5") rnd J 3 (by norm_num) farDoc fs h
  rw [farDoc_parse] at hp
  injection hp with hp
  subst hp
  rw [hk ⟨"probe.h5", 1, 1⟩ rfl (by simp) (by simp [farParsed])]
  simp [farParsed]

/-- non-vacuity of `C87_stops_interaction`: the log of the interaction cannot be created -/
example (rnd : Nat → (Nat → Nat → ℝ) × (Nat → Nat → Nat → ℝ)) (J : Indet) : exampleLib.programOn (fun n => n != "fel.h5") rnd J 3 felDoc = .error (.io, []) := by
  obtain ⟨fs, F, h, _⟩ := felDoc_runs rnd J 3 (by norm_num)
  obtain ⟨p, hp, hk⟩ := C87_stops_interaction exampleLib (fun n => n != "fel.h5") rnd J 3 (by norm_num) felDoc fs h
  rw [felDoc_parse] at hp
  injection hp with hp
  subst hp
  rw [hk [] "fel.h5" [] (by simp [felFiles, felDoc, felNode, Xml.child, Xml.children, Xml.name, Xml.attr, Xml.attrs, List.lookup]) (by simp) (by simp [felParsed]) (by simp [felParsed]) (by simp)]
  simp [felParsed]

end Lib
end Teufel
