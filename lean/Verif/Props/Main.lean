import Verif.Model.Main
import Verif.Props.Faults

/-!
# C95: the exit status of the program
-/

namespace Teufel
namespace Lib
open Input

variable (L : Lib) (load : String → Option Xml) (rnd : Nat → (Nat → Nat → ℝ) × (Nat → Nat → Nat → ℝ)) (J : Indet) (nodes : Nat)

private theorem stage_all {α : Type} (one : α → Except Err (List OutFile)) (step : List OutFile → α → DiskRes)
    (hs : ∀ disk a, step disk a = match one a with | .ok fs => .ok (disk ++ fs) | .error e => .error (e, disk)) (l : List α) (disk : List OutFile) :
    (∀ out, l.mapM one = .ok out → l.foldlM step disk = .ok (disk ++ out.flatten)) ∧
    (∀ e, l.mapM one = .error e → ∃ d, l.foldlM step disk = .error (e, d)) := by
  induction l generalizing disk with
  | nil => exact ⟨fun out h => (by injection h with h; subst h; simp [pure, Except.pure]), fun e h => (by cases h)⟩
  | cons a l ih =>
    rw [List.mapM_cons, List.foldlM_cons, hs disk a]
    cases ha : one a with
    | error e =>
      refine ⟨fun out h => (by cases h), fun e' h => ?_⟩
      simp only [bind, Except.bind] at h
      injection h with h
      subst h
      exact ⟨disk, rfl⟩
    | ok fs =>
      simp only [bind, Except.bind]
      obtain ⟨i1, i2⟩ := ih (disk ++ fs)
      cases hl : l.mapM one with
      | error e =>
        refine ⟨fun out h => (by cases h), fun e' h => ?_⟩
        injection h with h
        subst h
        exact i2 e hl
      | ok out =>
        refine ⟨fun out' h => ?_, fun e h => (by cases h)⟩
        injection h with h
        subst h
        rw [i1 out hl]
        simp

private theorem logs_error (m : Beam) (l : List (String × Logger)) (e : Err) (h : l.mapM (fun nl : String × Logger => (nl.2.writeData m).map (fun d => (⟨nl.1, d⟩ : OutFile))) = .error e) :
    l.mapM (logOutput m) = .error e := by
  induction l with
  | nil => cases h
  | cons a l ih =>
    rw [List.mapM_cons] at h ⊢
    unfold logOutput
    cases ha : a.2.writeData m with
    | error e' => rw [ha] at h; simpa [bind, Except.bind, Except.map] using h
    | ok d =>
      rw [ha] at h
      cases hl : l.mapM (fun nl : String × Logger => (nl.2.writeData m).map (fun d => (⟨nl.1, d⟩ : OutFile))) with
      | ok o => rw [hl] at h; cases h
      | error e' =>
        rw [hl] at h
        have h : e' = e := by simpa [bind, Except.bind, Except.map] using h
        subst h
        have := ih hl
        unfold logOutput at this
        rw [this]
        rfl

/-- if every file can be created, the program with a file system is the program -/
theorem programOn_all (doc : Xml) (fine : String → Bool) (hf : ∀ name, fine name = true) :
    (∀ fs, L.program rnd J nodes doc = .ok fs → L.programOn fine rnd J nodes doc = .ok fs) ∧
    (∀ e, L.program rnd J nodes doc = .error e → ∃ disk, L.programOn fine rnd J nodes doc = .error (e, disk)) := by
  rw [program_track]
  unfold programOn
  cases L.track rnd J nodes doc with
  | error e => exact ⟨fun fs h => (by cases h), fun e' h => by injection h with h; subst h; exact ⟨_, rfl⟩⟩
  | ok pw =>
    obtain ⟨p, w⟩ := pw
    simp only [Except.bind]
    unfold finish finishOn
    cases hw : w.nodes with
    | nil => exact ⟨fun fs h => (by cases h), fun e' h => by injection h with h; subst h; exact ⟨_, rfl⟩⟩
    | cons root rest =>
      simp only [bind, Except.bind, pure, Except.pure]
      have hfil : (w.out.files.map (fun f => (⟨f.watch.filename, .watch f.data⟩ : OutFile))).filter (fun f => fine f.name) =
          w.out.files.map (fun f => (⟨f.watch.filename, .watch f.data⟩ : OutFile)) := by
        rw [List.filter_eq_self]; intro a _; exact hf _
      rw [hfil]
      generalize w.out.files.map (fun f => (⟨f.watch.filename, .watch f.data⟩ : OutFile)) = d0
      have s1 : ∀ disk (nl : String × Logger), writeLog fine root.master disk nl = match logOutput root.master nl with | .ok fs => .ok (disk ++ fs) | .error e => .error (e, disk) := by
        intro disk nl
        unfold writeLog logOutput
        rw [if_pos (hf _)]
        cases nl.2.writeData root.master <;> rfl
      have s2 : ∀ disk (fn : FEL × Option String), writeFel fine disk fn = match felOutput fn with | .ok fs => .ok (disk ++ fs) | .error e => .error (e, disk) := by
        intro disk fn
        obtain ⟨f, n⟩ := fn
        cases n with
        | none => simp [writeFel, felOutput]
        | some name =>
          simp only [writeFel, felOutput, hf name, if_true]
          cases f.writeOutput <;> rfl
      have s3 : ∀ lattice disk spec, L.writeObserver fine w lattice root.master disk spec =
          match L.observeSpec w lattice root.master spec with | .ok fs => .ok (disk ++ fs) | .error e => .error (e, disk) := by
        intro lattice disk spec
        cases ho : L.observeSpec w lattice root.master spec with
        | ok fs =>
          rw [writeObserver_ok L fine w lattice root.master spec disk fs ho]
          have : fs.filter (fun f => fine f.name) = fs := by rw [List.filter_eq_self]; intro a _; exact hf _
          rw [this]
        | error e =>
          unfold observeSpec at ho
          unfold writeObserver
          simp only [bind, Except.bind, hf, if_true] at ho ⊢
          obtain ⟨ob, src, file⟩ := spec
          cases src <;> dsimp only at ho ⊢
          · cases h1 : observeBeam w ob with
            | error e' => rw [h1] at ho; cases ho; rfl
            | ok o =>
              rw [h1] at ho
              dsimp only at ho ⊢
              cases h2 : storeParticles root.master .beam o with
              | error e' => rw [h2] at ho; cases ho; rfl
              | ok o' => rw [h2] at ho; dsimp only at ho ⊢; rw [ho]
          · cases h1 : observeLattice w.nodes.length lattice ob with
            | error e' => rw [h1] at ho; cases ho; rfl
            | ok o =>
              rw [h1] at ho
              dsimp only at ho ⊢
              cases h2 : storeParticles root.master .lattice o with
              | error e' => rw [h2] at ho; cases ho; rfl
              | ok o' => rw [h2] at ho; dsimp only at ho ⊢; rw [ho]
      cases hlo : (logFiles p |>.zip w.out.loggers).mapM (fun nl : String × Logger => (nl.2.writeData root.master).map (fun d => (⟨nl.1, d⟩ : OutFile))) with
      | error e =>
        refine ⟨fun fs h => (by cases h), fun e' h => ?_⟩
        injection h with h
        subst h
        obtain ⟨d, hd⟩ := (stage_all _ _ s1 _ d0).2 e (logs_error _ _ _ hlo)
        rw [hd]
        exact ⟨_, rfl⟩
      | ok logs =>
        rw [(stage_all _ _ s1 _ d0).1 _ (logs_lists _ _ _ hlo)]
        have hflat : (logs.map (fun f => [f])).flatten = logs := by clear * -; induction logs <;> simp_all
        dsimp only
        cases hfe : (root.inter.zip (felFiles doc)).mapM felOutput with
        | error e =>
          refine ⟨fun fs h => (by cases h), fun e' h => ?_⟩
          injection h with h
          subst h
          obtain ⟨d, hd⟩ := (stage_all _ _ s2 _ (d0 ++ (logs.map (fun f => [f])).flatten)).2 e hfe
          rw [hd]
          exact ⟨_, rfl⟩
        | ok fels =>
          rw [(stage_all _ _ s2 _ _).1 _ hfe]
          dsimp only
          cases removeInteractions (2 * (p.lattice.lattice ++ interactionFields root.inter).length + 1) 0 (p.lattice.lattice ++ interactionFields root.inter) with
          | error e =>
            refine ⟨fun fs h => (by cases h), fun e' h => ?_⟩
            injection h with h
            subst h
            exact ⟨_, rfl⟩
          | ok lattice =>
            dsimp only
            cases hob : p.observers.observers.mapM (L.observeSpec w lattice root.master) with
            | error e =>
              refine ⟨fun fs h => (by cases h), fun e' h => ?_⟩
              injection h with h
              subst h
              obtain ⟨d, hd⟩ := (stage_all _ _ (s3 lattice) _ _).2 e hob
              rw [hd]
              exact ⟨_, rfl⟩
            | ok obs =>
              refine ⟨fun fs h => ?_, fun e h => (by cases h)⟩
              injection h with h
              subst h
              rw [(stage_all _ _ (s3 lattice) _ _).1 _ hob, hflat]

/-- **C95 (usage).** Without the name of an input file, or with one that cannot be read, the program ends with exit status 1 and writes nothing. -/
theorem C95_usage (fine : String → Bool) (argv : List String)
    (h : ∀ file, argv[1]? = some file → load file = none) : L.main load fine rnd J nodes argv = (.status 1, []) := by
  unfold main
  split
  · rename_i a file rest
    rw [h file rfl]
  · rfl

/-- **C95 (arguments).** Only the first argument counts. -/
theorem C95_arguments (fine : String → Bool) (a a' file : String) (rest rest' : List String) :
    L.main load fine rnd J nodes (a :: file :: rest) = L.main load fine rnd J nodes (a' :: file :: rest') := rfl

/-- **C95 (partial).** On a file system on which all files can be created: the exit status is 0 if and only if the first argument names a
readable document for which the program succeeds, and then exactly the files of the run are on the disk; the status is 1 if and only if no
document could be read. -/
theorem C95_status_partial (fine : String → Bool) (hf : ∀ name, fine name = true) (argv : List String) (disk : List OutFile) :
    (L.main load fine rnd J nodes argv = (.status 0, disk) ↔ ∃ file doc, argv[1]? = some file ∧ load file = some doc ∧ L.program rnd J nodes doc = .ok disk) ∧
    (L.main load fine rnd J nodes argv = (.status 1, disk) ↔ (∀ file, argv[1]? = some file → load file = none) ∧ disk = []) := by
  by_cases hn : ∀ file, argv[1]? = some file → load file = none
  · rw [C95_usage L load rnd J nodes fine argv hn]
    refine ⟨⟨fun h => (by simp at h), ?_⟩, ⟨fun h => ⟨hn, by simpa using (congrArg Prod.snd h).symm⟩, fun h => by rw [h.2]⟩⟩
    rintro ⟨file, doc, h1, h2, _⟩
    rw [hn file h1] at h2
    cases h2
  · push Not at hn
    obtain ⟨file, h1, h2⟩ := hn
    obtain ⟨doc, hd⟩ := Option.ne_none_iff_exists'.mp h2
    obtain ⟨a, rest, rfl⟩ : ∃ a rest, argv = a :: file :: rest := by
      match argv, h1 with
      | a :: b :: rest, h1 => simp at h1; exact ⟨a, rest, by rw [h1]⟩
    have hm : L.main load fine rnd J nodes (a :: file :: rest) = match L.programOn fine rnd J nodes doc with
      | .ok disk => (.status 0, disk)
      | .error (e, disk) => (.terminated e, disk) := by
      unfold main
      simp only [hd]
      cases L.programOn fine rnd J nodes doc <;> rfl
    rw [hm]
    obtain ⟨p1, p2⟩ := programOn_all L rnd J nodes doc fine hf
    cases hp : L.program rnd J nodes doc with
    | ok fs =>
      rw [p1 fs hp]
      refine ⟨⟨fun h => ⟨file, doc, rfl, hd, by rw [← (Prod.mk.inj h).2, hp]⟩, ?_⟩, ⟨fun h => (by simp at h), fun h => absurd (h.1 file rfl) h2⟩⟩
      rintro ⟨file', doc', g1, g2, g3⟩
      simp only [List.getElem?_cons_succ, List.getElem?_cons_zero, Option.some.injEq] at g1
      subst g1
      rw [hd] at g2
      injection g2 with g2
      subst g2
      rw [hp] at g3
      injection g3 with g3
      rw [g3]
    | error e =>
      obtain ⟨d, hd'⟩ := p2 e hp
      rw [hd']
      refine ⟨⟨fun h => (by simp at h), ?_⟩, ⟨fun h => (by simp at h), fun h => absurd (h.1 file rfl) h2⟩⟩
      rintro ⟨file', doc', g1, g2, g3⟩
      simp only [List.getElem?_cons_succ, List.getElem?_cons_zero, Option.some.injEq] at g1
      subst g1
      rw [hd] at g2
      injection g2 with g2
      subst g2
      rw [hp] at g3
      cases g3

/-- a run that succeeds, on any number of nodes -/
example (hN : 0 < nodes) : ∃ disk, exampleLib.main (fun f => if f = "in.xml" then some twoDoc else none) (fun _ => true) rnd J nodes ["teufel", "in.xml"] = (.status 0, disk) := by
  obtain ⟨fs, h⟩ := twoDoc_runs rnd J nodes hN
  exact ⟨fs, (C95_status_partial _ _ _ _ _ _ (fun _ => rfl) _ _).1.mpr ⟨"in.xml", twoDoc, rfl, rfl, h⟩⟩

/-- **C95, the full statement is false**: the exit status is 0 although a log that was asked for has not been written. -/
theorem C95_full_statement_false : ¬ ∀ (L : Lib) (load : String → Option Xml) (fine : String → Bool) (rnd : Nat → (Nat → Nat → ℝ) × (Nat → Nat → Nat → ℝ)) (J : Indet) (nodes : Nat) (_ : 0 < nodes)
    (argv : List String) (file : String) (doc : Xml) (fs disk : List OutFile), argv[1]? = some file → load file = some doc → L.program rnd J nodes doc = .ok fs →
    L.main load fine rnd J nodes argv = (.status 0, disk) → disk = fs := by
  intro hall
  let rnd : Nat → (Nat → Nat → ℝ) × (Nat → Nat → Nat → ℝ) := fun _ => (fun _ _ => 0, fun _ _ _ => 0)
  let J : Indet := ⟨fun _ _ _ => 0, fun _ => 0, 0⟩
  obtain ⟨fs, h⟩ := twoDoc_runs rnd J 1 Nat.one_pos
  have hfel : felFiles twoDoc = [] := by
    simp [felFiles, twoDoc, beamDoc, Xml.child, Xml.children, Xml.name]
  obtain ⟨p, hp, hk⟩ := C87_others_partial exampleLib (fun n => n != "a.sdds") rnd J 1 Nat.one_pos twoDoc fs h
  obtain ⟨p', hp', hnames⟩ := C84_names exampleLib rnd J 1 Nat.one_pos twoDoc fs h
  rw [twoDoc_parse] at hp hp'
  injection hp with hp
  injection hp' with hp'
  subst hp hp'
  have hdisk := hk (by
    intro b file step number hm
    simp [twoParsed, beamParsed] at hm
    rcases hm with hm | hm <;> simp [hm.2.1]) (by intro pr hpr; simp [twoParsed, beamParsed] at hpr) (by rw [hfel]; simp)
  have hn : fs.map OutFile.name = ["a.sdds", "a.h5", "b.sdds", "b.h5"] := by
    rw [hnames, hfel]
    simp [twoParsed, beamParsed, LogSpec.file]
  have heq := hall exampleLib (fun _ => some twoDoc) (fun n => n != "a.sdds") rnd J 1 Nat.one_pos ["teufel", "in.xml"] "in.xml" twoDoc fs _ rfl rfl h (by
    unfold main
    simp only [hdisk]
    rfl)
  have hmem : "a.sdds" ∈ fs.map OutFile.name := by rw [hn]; simp
  obtain ⟨f, hf, hfn⟩ := List.mem_map.mp hmem
  rw [← heq] at hf
  have := (List.mem_filter.mp hf).2
  simp [hfn] at this

end Lib
end Teufel
