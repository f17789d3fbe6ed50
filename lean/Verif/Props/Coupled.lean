import Verif.Props.ProgramCoupled
import Verif.Props.FELRun

/-!
# C88: particles and interactions advance together, on any number of nodes
-/

namespace Teufel
open Vec Input

variable {ω : Type}

/-- **C88 (the run).** On any number of nodes, with any kind of output: after `k` steps the particles tracked by all nodes together are the particles
of the serial calculation `Coupled.after` with the same interactions, in the same order and state; every node has the same interactions, those of the serial
calculation; and every node has recorded the same trajectories, which are the times, positions and momenta of that calculation at every step up to `k`. -/
theorem C88_run (P : FELProgram ω) (hN : 0 < P.nodes) (ms : List Beam) (hlen : ms.length = P.nodes)
    (hreach : ∀ m ∈ ms, Beam.Reachable m) (m0 : Beam) (hm0 : ms.head? = some m0) (hblank : ∀ m ∈ ms, Beam.blank m = m0.blank)
    (s : List FEL) (out : ω) (k : Nat) (w : World (List FEL) ω) (hw : runSteps P.run ms s out k = .ok w) :
    w.nodes.length = P.nodes ∧ ∃ ps S, Coupled.after P.ext m0.dt m0.all s k = .ok (ps, S) ∧
      List.Forall₂ SameState (w.nodes.flatMap (fun n => n.tracked.all)) ps ∧
      ∀ n ∈ w.nodes, n.inter = S ∧ n.master.B.map (fun c : Bunch => c.P.length) = m0.B.map (fun c : Bunch => c.P.length) ∧
        ∀ l ≤ k, ∃ ps' S', Coupled.after P.ext m0.dt m0.all s l = .ok (ps', S') ∧
          List.Forall₂ (fun q p => q.Time[l]? = some p.tCur ∧ q.X[l]? = some p.XCur ∧ q.P[l]? = some p.PCur) n.master.all ps' := by
  obtain ⟨h1, M, S, hT, hM⟩ := run_together P hN ms hlen hreach m0 hm0 hblank s out k w hw
  obtain ⟨ps, e1, e2, _⟩ := hT.now
  refine ⟨h1, ps, S, e1, ?_, ?_⟩
  · rw [e2]
    clear * -
    induction ps with
    | nil => exact .nil
    | cons p ps ih => exact .cons ⟨rfl, rfl, rfl, rfl, rfl, rfl⟩ ih
  · intro n hn
    obtain ⟨a, b⟩ := hM n hn
    rw [a]
    exact ⟨b, sizes_eq (Beam.wf_reachable (hreach m0 (List.mem_of_head? hm0))) hT.wf hT.sizes, hT.past⟩

/-- **C88 (success).** When the output objects do not fail, the run on any number of nodes succeeds exactly if the serial calculation does. -/
theorem C88_succeeds (P : FELProgram ω) (hstart : ∀ m t o, ∃ o', P.startOut m t o = .ok o') (hstep : ∀ k m t o, ∃ o', P.stepOut k m t o = .ok o')
    (hN : 0 < P.nodes) (ms : List Beam) (hlen : ms.length = P.nodes) (hreach : ∀ m ∈ ms, Beam.Reachable m) (m0 : Beam) (hm0 : ms.head? = some m0)
    (hblank : ∀ m ∈ ms, Beam.blank m = m0.blank) (htr : m0.tracker = .vay) (s : List FEL) (out : ω) (k : Nat) :
    (∃ w, runSteps P.run ms s out k = .ok w) ↔ ∃ r, Coupled.after P.ext m0.dt m0.all s k = .ok r := by
  constructor
  · rintro ⟨w, hw⟩
    obtain ⟨_, ps, S, h, _⟩ := C88_run P hN ms hlen hreach m0 hm0 hblank s out k w hw
    exact ⟨_, h⟩
  · intro hC
    obtain ⟨w, hw, _⟩ := coupled_progress P m0 (fun _ => True) (fun _ => True)
      (fun m t o _ _ _ _ => by obtain ⟨o', h⟩ := hstart m t o; exact ⟨o', h, trivial⟩)
      (fun k m t o _ _ _ _ _ => by obtain ⟨o', h⟩ := hstep k m t o; exact ⟨o', h, trivial⟩)
      hN ms hlen hreach hm0 hblank htr s out trivial k hC
    exact ⟨w, hw⟩

/-- **C88 (no interactions).** Without interactions the serial calculation is the tracking of every particle alone in the field of the lattice. -/
theorem C88_alone (ext : Lattice) (dt : ℝ) (ps : List Particle) (k : Nat) (qs : List Particle) (S : List FEL) :
    Coupled.after ext dt ps [] k = .ok (qs, S) ↔ ps.mapM (fun p => trackAlone dt (Lattice.field ext) p k) = .ok qs ∧ S = [] :=
  coupled_alone ext dt ps k qs S

/-- **C88 (files).** After a run of the program, the file of each interaction with `<log file=…>` contains what this interaction recorded in the
serial calculation with all particles and all interactions. -/
theorem Lib.C88_file (L : Lib) (rnd : Nat → (Nat → Nat → ℝ) × (Nat → Nat → Nat → ℝ)) (J : Indet) (nodes : Nat) (hN : 0 < nodes) (doc : Xml) (fs : List OutFile)
    (h : L.program rnd J nodes doc = .ok fs) :
    ∃ p m s ps S, (L.withRandom (rnd 0)).parse doc = .ok p ∧ masterBeam p = .ok m ∧ p.tracking.state.interactions.mapM id = .ok s ∧
      Coupled.after p.lattice.lattice p.tracking.timeStep m.all s p.tracking.NOTS.toNat = .ok (ps, S) ∧
      ∀ (i : Nat) (f : FEL) (name : String), S[i]? = some f → (felFiles doc)[i]? = some (some name) → ∃ F, f.writeOutput = .ok F ∧ (⟨name, .fel F⟩ : OutFile) ∈ fs := by
  obtain ⟨N, rfl⟩ : ∃ N, nodes = N + 1 := ⟨nodes - 1, by omega⟩
  obtain ⟨p, m, ms, s, loggers, w, root, rest, logs, fels, obs, hp, hm, h1, h2, h3, h4, hs, hl, hw, hwn, hlo, hfe, hob, hfs⟩ := program_parts L rnd J N doc fs h
  have hlen : (m :: ms).length = (tracking p J (N + 1)).nodes := by simp [h1]; rfl
  have hN' : 0 < (tracking p J (N + 1)).nodes := by show 0 < N + 1; omega
  obtain ⟨_, ps, S, hC, _, hall⟩ := C88_run (tracking p J (N + 1)) hN' (m :: ms) hlen h2 m rfl h3 s _ _ w hw
  rw [master_dt hm] at hC
  refine ⟨p, m, s, ps, S, hp, hm, hs, hC, ?_⟩
  intro i f name hf hname
  have hroot : root.inter = S := (hall root (by rw [hwn]; simp)).1
  rw [hroot] at hfe
  have hz : (S.zip (felFiles doc))[i]? = some (f, some name) := by
    rw [List.getElem?_zip_eq_some]
    exact ⟨hf, hname⟩
  obtain ⟨o, ho, ho'⟩ := mapM_get hfe i _ hz
  simp only [felOutput] at ho
  cases hF : f.writeOutput with
  | error e => rw [hF] at ho; cases ho
  | ok F =>
    rw [hF] at ho
    simp only [Except.map] at ho
    injection ho with ho
    refine ⟨F, rfl, ?_⟩
    rw [hfs]
    simp only [List.mem_append, List.mem_flatten]
    refine Or.inl (Or.inr ⟨o, List.mem_of_getElem? ho', ?_⟩)
    rw [← ho]
    simp

/-- non-vacuity of C88: the run of an electron with one interaction on two nodes succeeds, and so does the serial calculation -/
example : ∃ f, ∃ w ps S, FEL.Constructed f ∧ runSteps restingProgram.run [restingBeam, restingBeam] [f] () 1 = .ok w ∧
    Coupled.after [] 1 [resting] [f] 1 = .ok (ps, S) ∧ ps.length = 1 ∧ S.length = 1 := by
  obtain ⟨f, w, h1, h2, h3⟩ := resting_run
  obtain ⟨_, ps, S, e1, _⟩ := C88_run restingProgram (by decide) [restingBeam, restingBeam] rfl (by simp [restingBeam_reachable]) restingBeam rfl (by simp) [f] () 1 w h3
  have e2 : Coupled.after [] 1 [resting] [f] 1 = .ok (ps, S) := by
    have : restingBeam.all = [resting] := by simp [restingBeam, Beam.all, Beam.Add, Beam.empty, Bunch.Add, Bunch.empty]
    rw [this] at e1
    exact e1
  refine ⟨f, w, ps, S, h1, h3, e2, ?_, (after_length e2).2⟩
  have := congrArg List.length (after_length e2).1
  simpa using this

end Teufel
