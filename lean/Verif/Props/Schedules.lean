import Verif.Lemmas.Nodes

/-!
# C91: the schedule of the nodes does not matter

Every node executes its own program (`Lib.nodeProgram`), at its own pace: any node which can act may be the next to act.
A node inside a collective operation waits for the nodes whose contribution it needs (see Model/MPI).
-/

namespace Teufel
open Job Lib

/-- the nodes at the start of the program -/
noncomputable def launch (L : Lib) (rnd : Nat → (Nat → Nat → ℝ) × (Nat → Nat → Nat → ℝ)) (J : Indet) (N : Nat) (doc : Xml) : Job (N + 1) :=
  Job.start fun i => (L.withRandom (rnd i.val)).nodeProgram J (N + 1) doc i.val

/-- A run which succeeds when the nodes proceed in rounds succeeds with every schedule, without deadlock, and leaves the same files. -/
theorem C91_every_schedule (L : Lib) (rnd : Nat → (Nat → Nat → ℝ) × (Nat → Nat → Nat → ℝ)) (J : Indet) (N : Nat) (doc : Xml) (files : List OutFile)
    (hp : L.program rnd J (N + 1) doc = .ok files) (k : Nat) (job : Job (N + 1)) (hj : Job.Steps k (launch L rnd J N doc) job) :
    -- collective operations match in kind and in the number of values
    (∀ (i i' : Fin (N + 1)) (l : Nat) (c c' : Call), (job i).posted[l]? = some c → (job i').posted[l]? = some c' → c.kind = c'.kind) ∧
    -- no exception is thrown
    (∀ i e, (job i).prog ≠ .fail e) ∧
    -- rank 0 has written some of the files, in order, the others nothing
    (job 0).files <+: files ∧ (∀ i, i ≠ 0 → (job i).files = []) ∧
    -- no deadlock: somebody can act until the program is complete
    ((∃ job', Job.Step job job') ∨ ((∀ i, (job i).prog = .done) ∧ (job 0).files = files)) := by
  have hl : Lock (fun i : Fin (N + 1) => (L.withRandom (rnd i.val)).nodeProgram J (N + 1) doc i.val) (some fun i => if i.val = 0 then files else []) := by
    have := lock_program (N := N) L rnd J doc
    rw [hp] at this
    exact this
  obtain ⟨h1, h2, h3, h4⟩ := hl.all_ok hj
  refine ⟨h1, h3, by simpa using h2 0, ?_, ?_⟩
  · intro i hi
    have := h2 i
    have h0 : i.val ≠ 0 := fun h => hi (Fin.ext h)
    rw [if_neg h0] at this
    exact List.prefix_nil.mp this
  · rcases h4 with h | h
    · exact .inl h
    · exact .inr ⟨fun i => (h i).1, by rw [(h 0).2]; rfl⟩

/-- If the program fails in lockstep, it does not run to its end with any schedule: some node throws. -/
theorem C91_failure (L : Lib) (rnd : Nat → (Nat → Nat → ℝ) × (Nat → Nat → Nat → ℝ)) (J : Indet) (N : Nat) (doc : Xml) (e : Err)
    (hp : L.program rnd J (N + 1) doc = .error e) (k : Nat) (job : Job (N + 1)) (hj : Job.Steps k (launch L rnd J N doc) job) :
    (¬ ∀ i, (job i).prog = .done) ∧ ((∃ job', Job.Step job job') ∨ ∃ i e, (job i).prog = .fail e) := by
  have hl := lock_program (N := N) L rnd J doc
  rw [onRoot_error hp] at hl
  exact hl.all_error hj

/-- No execution goes on forever. -/
theorem C91_ends (L : Lib) (rnd : Nat → (Nat → Nat → ℝ) × (Nat → Nat → Nat → ℝ)) (J : Indet) (N : Nat) (doc : Xml) :
    ¬ ∃ run : Nat → Job (N + 1), run 0 = launch L rnd J N doc ∧ ∀ k, Job.Step (run k) (run (k + 1)) :=
  fun ⟨run, _, h⟩ => no_infinite ⟨run, h⟩

/-- Whatever has happened so far, the run can still be completed; the total number of actions is the same for all schedules. -/
theorem C91_completes (L : Lib) (rnd : Nat → (Nat → Nat → ℝ) × (Nat → Nat → Nat → ℝ)) (J : Indet) (N : Nat) (doc : Xml) (files : List OutFile)
    (hp : L.program rnd J (N + 1) doc = .ok files) :
    ∃ total, ∀ k job, Job.Steps k (launch L rnd J N doc) job →
      ∃ l last, Job.Steps l job last ∧ k + l = total ∧ (∀ i, (last i).prog = .done) ∧ (last 0).files = files := by
  have hl : Lock (fun i : Fin (N + 1) => (L.withRandom (rnd i.val)).nodeProgram J (N + 1) doc i.val) (some fun i => if i.val = 0 then files else []) := by
    have := lock_program (N := N) L rnd J doc
    rw [hp] at this
    exact this
  obtain ⟨total, h⟩ := hl.completes
  refine ⟨total, fun k job hj => ?_⟩
  obtain ⟨l, last, h1, h2, h3⟩ := h k job hj
  exact ⟨l, last, h1, h2, fun i => (h3 i).1, by rw [(h3 0).2]; rfl⟩

/-! ## The hypotheses can be met -/

/-- a document on which the program succeeds, on any number of nodes -/
example (rnd : Nat → (Nat → Nat → ℝ) × (Nat → Nat → Nat → ℝ)) (J : Indet) (N : Nat) : ∃ files : List OutFile, Input.exampleLib.program rnd J (N + 1) (progDoc "lattice") = .ok files ∧ files ≠ [] := by
  obtain ⟨f, h, _⟩ := progDoc_lattice rnd J N
  exact ⟨[⟨"point.sdds", .point f⟩], h, List.cons_ne_nil _ _⟩

/-- an empty document: the program fails -/
example (L : Lib) (rnd : Nat → (Nat → Nat → ℝ) × (Nat → Nat → Nat → ℝ)) (J : Indet) (N : Nat) : ∃ e, L.program rnd J (N + 1) (.node "" [] []) = .error e := by
  refine program_error L rnd J N _ (fun p hp => ?_)
  unfold Lib.parse at hp
  have : need ((Xml.node "" [] []).child "teufel") = .error .io := rfl
  rw [this] at hp
  cases hp

/-- nodes which do not agree in their collective operations do get stuck: one node does not enter the barrier -/
example : ∃ k job, Job.Steps (n := 2) k (Job.start ![.call .barrier (fun _ => .done), .done]) job ∧ (¬ ∃ job', Job.Step job job') ∧ (job 0).prog ≠ .done ∧ ∀ i e, (job i).prog ≠ .fail e := by
  refine ⟨1, ![⟨.call .barrier (fun _ => .done), [.barrier], true, []⟩, ⟨.done, [], false, []⟩], ?_, ?_, ?_, ?_⟩
  · refine .succ ⟨0, _, .enter rfl rfl, ?_⟩ (.zero _)
    funext i
    fin_cases i <;> rfl
  · rintro ⟨job', i, r, h, _⟩
    fin_cases i
    · cases h with
      | write h => cases h
      | enter h out => cases out
      | leave h inn last ready =>
        cases h
        simp at last
        have := ready 1 trivial
        simp at this
    · cases h with
      | write h => cases h
      | enter h out => cases h
      | leave h inn last ready => cases h
  · intro h; cases h
  · intro i e
    fin_cases i <;> (intro h; cases h)

end Teufel
