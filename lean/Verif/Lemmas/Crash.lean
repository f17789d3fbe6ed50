import Verif.Model.Crash
import Verif.Props.ProgramCoupled

/-!
# Lemmas about the sequence of writes
-/

namespace Teufel
namespace Traced
variable {α β γ : Type}

@[simp] theorem silent_result (r : Except Err α) : (silent r).result = r := rfl
@[simp] theorem silent_written (r : Except Err α) : (silent r).written = [] := rfl

theorem andThen_result (x : Traced α) (f : α → Traced β) : (x.andThen f).result = x.result.bind (fun a => (f a).result) := by
  unfold andThen
  cases x.result <;> rfl

theorem andThen_ok {x : Traced α} {a : α} (h : x.result = .ok a) (f : α → Traced β) : (x.andThen f).written = x.written ++ (f a).written := by
  unfold andThen
  rw [h]

theorem andThen_error {x : Traced α} {e : Err} (h : x.result = .error e) (f : α → Traced β) : (x.andThen f).written = x.written := by
  unfold andThen
  rw [h]

theorem each_result (f : α → Traced β) (l : List α) : (each f l).result = l.mapM (fun a => (f a).result) := by
  induction l with
  | nil => rfl
  | cons a l ih =>
    rw [each, List.mapM_cons, andThen_result]
    congr 1
    funext b
    rw [andThen_result, ih]
    rfl

theorem loop_result (f : β → α → Traced β) (b : β) (l : List α) : (loop f b l).result = l.foldlM (fun b a => (f b a).result) b := by
  induction l generalizing b with
  | nil => rfl
  | cons a l ih =>
    rw [loop, List.foldlM_cons, andThen_result]
    congr 1
    funext b'
    exact ih b'

/-- the files written by a loop over a list are those of its members -/
theorem each_written_mem {f : α → Traced β} {l : List α} {x : OutFile} (h : x ∈ (each f l).written) : ∃ a ∈ l, x ∈ (f a).written := by
  induction l with
  | nil => cases h
  | cons a l ih =>
    rw [each] at h
    cases ha : (f a).result with
    | error e =>
      rw [andThen_error ha] at h
      exact ⟨a, by simp, h⟩
    | ok b =>
      rw [andThen_ok ha, List.mem_append] at h
      rcases h with h | h
      · exact ⟨a, by simp, h⟩
      · have : x ∈ (each f l).written := by
          cases hl : (each f l).result with
          | error e => rwa [andThen_error hl] at h
          | ok bs => rw [andThen_ok hl] at h; simpa using h
        obtain ⟨a', h1, h2⟩ := ih this
        exact ⟨a', by simp [h1], h2⟩

theorem each_written_ok {f : α → Traced β} {g : β → List OutFile} (hf : ∀ a b, (f a).result = .ok b → (f a).written = g b) {l : List α} {bs : List β} (h : (each f l).result = .ok bs) :
    (each f l).written = bs.flatMap g := by
  induction l generalizing bs with
  | nil => cases h; rfl
  | cons a l ih =>
    rw [each, andThen_result] at h
    cases ha : (f a).result with
    | error e => rw [ha] at h; cases h
    | ok b =>
      rw [ha] at h
      simp only [Except.bind] at h
      rw [andThen_result] at h
      cases hl : (each f l).result with
      | error e => rw [hl] at h; cases h
      | ok bs' =>
        rw [hl] at h
        cases h
        rw [each, andThen_ok ha, andThen_ok hl, ih hl, hf a b ha]
        simp

/-- a loop with a state over an appended member -/
theorem loop_append (f : β → α → Traced β) (b : β) (l : List α) (a : α) : loop f b (l ++ [a]) = (loop f b l).andThen (fun b' => f b' a) := by
  have assoc : ∀ {α β γ : Type} (x : Traced α) (f : α → Traced β) (g : β → Traced γ), (x.andThen f).andThen g = x.andThen (fun a => (f a).andThen g) := by
    intro α β γ x f g
    unfold andThen
    cases x.result with
    | error e => rfl
    | ok a =>
      simp only
      cases (f a).result with
      | error e => rfl
      | ok b => simp
  have unit : ∀ {α : Type} (x : Traced α), x.andThen (fun a => silent (.ok a)) = x := by
    intro α x
    cases x with
    | mk w r => cases r <;> simp [andThen, silent]
  induction l generalizing b with
  | nil =>
    simp only [List.nil_append, loop]
    rw [unit]
    simp [andThen, silent]
  | cons c l ih =>
    simp only [List.cons_append, loop]
    rw [assoc]
    congr 1
    funext b'
    exact ih b'

end Traced

open Traced

/-- the file of a watch point -/
def WatchFile.file (f : WatchFile) : OutFile := ⟨f.watch.filename, .watch f.data⟩

theorem writeT_result (m : Beam) (x : Watch) : (x.writeT m).result = (x.write m).map (fun d => (⟨x, d⟩ : WatchFile)) := by
  unfold Watch.writeT
  cases x.write m <;> rfl

theorem writeWatchesT_result (k : Int) (m : Beam) (o : Output) : (writeWatchesT k m o).result = writeWatches k m o := by
  unfold writeWatchesT writeWatches
  rw [andThen_result, each_result]
  congr 1
  exact congrArg (fun g => List.mapM g _) (funext (writeT_result m))

theorem startT_result (junk : Nat → ℝ) (fuel : Nat) (m t : Beam) (o : Output) : (Output.startT junk fuel m t o).result = Output.start junk fuel m t o := by
  unfold Output.startT Output.start
  rw [andThen_result, writeWatchesT_result]
  congr 1

theorem stepT_result (junk : Nat → ℝ) (fuel k : Nat) (m t : Beam) (o : Output) : (Output.stepT junk fuel k m t o).result = Output.step junk fuel k m t o := by
  unfold Output.stepT Output.step
  rw [andThen_result]
  congr 1
  funext ls
  exact writeWatchesT_result _ _ _

theorem startProbeT_result (junk : Nat → ℝ) (fuel a b : Nat) (m t : Beam) (o : Output) : (Output.startProbeT junk fuel a b m t o).result = Output.startProbe junk fuel a b m t o := by
  unfold Output.startProbeT Output.startProbe
  rw [andThen_result]
  congr 1
  funext L
  exact startT_result _ _ _ _ _

section
variable {σ ω : Type}

theorem rankZeroT_result {f : Beam → Beam → ω → Traced ω} {g : Beam → Beam → ω → Except Err ω} (h : ∀ m t o, (f m t o).result = g m t o) (nodes : List (Node σ)) (out : ω) :
    (rankZeroT f nodes out).result = rankZero g nodes out := by
  cases nodes with
  | nil => rfl
  | cons n l => exact h _ _ _

theorem setupRun_eq (R : Run σ ω) (ms : List Beam) (s : σ) (out : ω) :
    setupRun R ms s out = (setupNodes R ms s).bind (fun nodes => (rankZero R.startOut nodes out).bind (fun out => (nodes.mapM (Node.interact R.initInter)).map (fun nodes => ⟨nodes, out⟩))) := by
  unfold setupRun setupNodes
  cases ms with
  | nil => rfl
  | cons m0 l =>
    simp only [bind, Except.bind, pure, Except.pure]
    cases m0.getNOP with
    | error e => rfl
    | ok nop =>
      simp only
      by_cases hb : trackingNOP nop R.nodes * R.nodes * 10 < nop * 10
      · simp only [hb, if_true]
      · simp only [hb, if_false]
        cases m0.bufferStep with
        | error e => rfl
        | ok vals =>
          simp only
          cases intoBuffer (trackingNOP nop R.nodes * R.nodes * 10) (R.junk 0 0) vals with
          | error e => rfl
          | ok buf =>
            simp only
            cases (m0 :: l).mapM (fun m : Beam => setupMaster m buf R.NOTS) with
            | error e => rfl
            | ok masters =>
              simp only
              cases masters.zipIdx.mapM (fun mr : Beam × Nat => setupNode R mr.1 s mr.2) with
              | error e => rfl
              | ok nodes =>
                simp only
                cases rankZero R.startOut nodes out with
                | error e => rfl
                | ok o =>
                  simp only
                  cases nodes.mapM (Node.interact R.initInter) <;> rfl

theorem trackStep_eq (R : Run σ ω) (w : World σ ω) (step : Nat) :
    trackStep R w step = (stepNodes R w.nodes step).bind (fun nodes => (rankZero (R.stepOut (step + 1)) nodes w.out).bind (fun out => (nodes.mapM (Node.interact R.stepInter)).map (fun nodes => ⟨nodes, out⟩))) := by
  unfold trackStep stepNodes
  simp only [bind, Except.bind, pure, Except.pure]
  cases w.nodes.mapM (Node.advance R) with
  | error e => rfl
  | ok nodes =>
    simp only
    cases nodes.zipIdx.mapM (Node.contribution R step) with
    | error e => rfl
    | ok bufs =>
      simp only
      cases nodes.mapM (Node.receive step bufs.flatten) with
      | error e => rfl
      | ok nodes =>
        simp only
        cases rankZero (R.stepOut (step + 1)) nodes w.out with
        | error e => rfl
        | ok o =>
          simp only
          cases nodes.mapM (Node.interact R.stepInter) <;> rfl

theorem runStepsT_result (R : Run σ ω) {start : Beam → Beam → ω → Traced ω} {step' : Nat → Beam → Beam → ω → Traced ω} (h1 : ∀ m t o, (start m t o).result = R.startOut m t o)
    (h2 : ∀ k m t o, (step' k m t o).result = R.stepOut k m t o) (ms : List Beam) (s : σ) (out : ω) (k : Nat) :
    (runStepsT R start step' ms s out k).result = runSteps R ms s out k := by
  unfold runStepsT runSteps
  rw [andThen_result]
  have e1 : (setupRunT R start ms s out).result = setupRun R ms s out := by
    unfold setupRunT
    rw [setupRun_eq, andThen_result]
    congr 1
    funext nodes
    rw [andThen_result, rankZeroT_result h1]
    rfl
  rw [e1]
  congr 1
  funext w
  rw [loop_result]
  congr 1
  funext w step
  unfold trackStepT
  rw [trackStep_eq, andThen_result]
  congr 1
  funext nodes
  rw [andThen_result, rankZeroT_result (h2 (step + 1))]
  rfl

theorem runStepsT_succ (R : Run σ ω) (start : Beam → Beam → ω → Traced ω) (step' : Nat → Beam → Beam → ω → Traced ω) (ms : List Beam) (s : σ) (out : ω) (k : Nat) :
    runStepsT R start step' ms s out (k + 1) = (runStepsT R start step' ms s out k).andThen (fun w => trackStepT R step' w k) := by
  unfold runStepsT
  rw [List.range_succ]
  have : (fun w => loop (trackStepT R step') w (List.range k ++ [k])) = fun w => (loop (trackStepT R step') w (List.range k)).andThen (fun w' => trackStepT R step' w' k) :=
    funext fun w => loop_append _ _ _ _
  rw [this]
  unfold andThen
  cases (setupRunT R start ms s out).result with
  | error e => rfl
  | ok a =>
    simp only
    cases (loop (trackStepT R step') a (List.range k)).result with
    | error e => rfl
    | ok b => simp

end

/-! ### What is written -/

/-- the files are those of watch points with the given step, written from the beam of the first of the nodes -/
def FromNodes {σ : Type} (watches : List Watch) (k : Int) (nodes : Except Err (List (Node σ))) (fs : List OutFile) : Prop :=
  ∀ f ∈ fs, ∃ n rest x d, nodes = .ok (n :: rest) ∧ x ∈ watches ∧ x.step = k ∧ x.write n.master = .ok d ∧ f = ⟨x.filename, .watch d⟩

theorem watchesT_mem {k : Int} {m : Beam} {o : Output} {f : OutFile} (h : f ∈ (writeWatchesT k m o).written) :
    ∃ x d, x ∈ o.watches ∧ x.step = k ∧ x.write m = .ok d ∧ f = ⟨x.filename, .watch d⟩ := by
  have hm : f ∈ (each (Watch.writeT m) (o.watches.filter (fun w => w.step = k))).written := by
    unfold writeWatchesT at h
    cases he : (each (Watch.writeT m) (o.watches.filter (fun w => w.step = k))).result with
    | error e => rwa [andThen_error he] at h
    | ok b => rw [andThen_ok he] at h; simpa using h
  obtain ⟨x, hx, hf⟩ := each_written_mem hm
  rw [List.mem_filter] at hx
  unfold Watch.writeT at hf
  cases hw : x.write m with
  | error e => rw [hw] at hf; cases hf
  | ok d =>
    rw [hw] at hf
    exact ⟨x, d, hx.1, by simpa using hx.2, hw, by simpa using hf⟩

theorem watchesT_ok {k : Int} {m : Beam} {o o' : Output} (h : (writeWatchesT k m o).result = .ok o') :
    o'.watches = o.watches ∧ ∃ new, o'.files = o.files ++ new ∧ (writeWatchesT k m o).written = new.map WatchFile.file := by
  unfold writeWatchesT at h ⊢
  cases he : (each (Watch.writeT m) (o.watches.filter (fun w => w.step = k))).result with
  | error e => rw [andThen_result, he] at h; cases h
  | ok b =>
    rw [andThen_result, he] at h
    simp only [Except.bind, silent_result, Except.ok.injEq] at h
    subst h
    refine ⟨rfl, b, rfl, ?_⟩
    rw [andThen_ok he, silent_written, List.append_nil, each_written_ok (g := fun f => [f.file]) ?_ he]
    · clear he
      induction b with
      | nil => rfl
      | cons a l ih => rw [List.flatMap_cons, List.map_cons, ih]; rfl
    · intro x f hf
      unfold Watch.writeT at hf ⊢
      cases hw : x.write m with
      | error e => rw [hw] at hf; cases hf
      | ok d =>
        rw [hw] at hf
        cases hf
        rfl

/-- what output objects write: files of watch points of the given step -/
structure WritesWatches (k : Int) (f : Beam → Beam → Output → Traced Output) : Prop where
  mem : ∀ m t o x, x ∈ (f m t o).written → ∃ y d, y ∈ o.watches ∧ y.step = k ∧ y.write m = .ok d ∧ x = ⟨y.filename, .watch d⟩
  ok : ∀ m t o o', (f m t o).result = .ok o' → o'.watches = o.watches ∧ ∃ new, o'.files = o.files ++ new ∧ (f m t o).written = new.map WatchFile.file

theorem startT_writes (junk : Nat → ℝ) (fuel : Nat) : WritesWatches 0 (Output.startT junk fuel) := by
  constructor
  · intro m t o x h
    unfold Output.startT at h
    refine watchesT_mem (o := o) ?_
    cases he : (writeWatchesT 0 m o).result with
    | error e => rwa [andThen_error he] at h
    | ok b => rw [andThen_ok he] at h; simpa using h
  · intro m t o o' h
    unfold Output.startT at h ⊢
    cases he : (writeWatchesT 0 m o).result with
    | error e => rw [andThen_result, he] at h; cases h
    | ok b =>
      rw [andThen_result, he] at h
      simp only [Except.bind, silent_result] at h
      obtain ⟨h1, new, h2, h3⟩ := watchesT_ok he
      cases hl : b.loggers.mapM (Logger.update junk fuel m t) with
      | error e => rw [hl] at h; cases h
      | ok ls =>
        rw [hl] at h
        cases h
        refine ⟨h1, new, h2, ?_⟩
        rw [andThen_ok he, silent_written, List.append_nil, h3]

theorem startProbeT_writes (junk : Nat → ℝ) (fuel a b : Nat) : WritesWatches 0 (Output.startProbeT junk fuel a b) := by
  constructor
  · intro m t o x h
    unfold Output.startProbeT at h
    cases he : ProbeLog.new t a b with
    | error e => rw [he, andThen_error (x := silent _) rfl] at h; cases h
    | ok L =>
      rw [he, andThen_ok (x := silent _) rfl] at h
      exact (startT_writes junk fuel).mem m t { o with loggers := o.loggers ++ [.probe L] } x (by simpa using h)
  · intro m t o o' h
    unfold Output.startProbeT at h ⊢
    rw [andThen_result] at h
    cases he : ProbeLog.new t a b with
    | error e => rw [he] at h; cases h
    | ok L =>
      rw [he] at h
      simp only [Except.bind, silent_result] at h
      obtain ⟨h1, new, h2, h3⟩ := (startT_writes junk fuel).ok m t { o with loggers := o.loggers ++ [.probe L] } o' h
      refine ⟨h1, new, h2, ?_⟩
      rw [andThen_ok (x := silent _) rfl, silent_written, List.nil_append, h3]

theorem stepT_writes (junk : Nat → ℝ) (fuel k : Nat) : WritesWatches k (Output.stepT junk fuel k) := by
  constructor
  · intro m t o x h
    unfold Output.stepT at h
    cases he : o.loggers.mapM (Logger.maybe junk fuel k m t) with
    | error e => rw [he, andThen_error (x := silent _) rfl] at h; cases h
    | ok ls =>
      rw [he, andThen_ok (x := silent _) rfl] at h
      exact watchesT_mem (o := { o with loggers := ls }) (by simpa using h)
  · intro m t o o' h
    unfold Output.stepT at h ⊢
    rw [andThen_result] at h
    cases he : o.loggers.mapM (Logger.maybe junk fuel k m t) with
    | error e => rw [he] at h; cases h
    | ok ls =>
      rw [he] at h
      simp only [Except.bind, silent_result] at h
      obtain ⟨h1, new, h2, h3⟩ := watchesT_ok h
      refine ⟨h1, new, h2, ?_⟩
      rw [andThen_ok (x := silent _) rfl, silent_written, List.nil_append, h3]

/-- nodes compute, rank 0 writes, nodes compute -/
theorem stage_writes {σ : Type} {k : Int} {f : Beam → Beam → Output → Traced Output} (hf : WritesWatches k f) (nodes : Except Err (List (Node σ))) (out : Output)
    (g : List (Node σ) → Except Err (List (Node σ))) (T : Traced (World σ Output))
    (hT : T = (silent nodes).andThen (fun nodes => (rankZeroT f nodes out).andThen (fun out => silent ((g nodes).map (fun nodes => ⟨nodes, out⟩))))) :
    FromNodes out.watches k nodes T.written ∧
      ∀ w, T.result = .ok w → w.out.watches = out.watches ∧ ∃ new, w.out.files = out.files ++ new ∧ T.written = new.map WatchFile.file := by
  subst hT
  cases nodes with
  | error e =>
    refine ⟨?_, ?_⟩
    · rw [andThen_error (x := silent _) rfl]
      intro x h
      cases h
    · intro w h
      rw [andThen_result] at h
      cases h
  | ok nodes =>
    rw [andThen_ok (x := silent _) rfl, andThen_result]
    simp only [silent_written, List.nil_append, silent_result, Except.bind]
    cases nodes with
    | nil =>
      simp only [rankZeroT]
      rw [andThen_ok (x := silent _) rfl, andThen_result]
      refine ⟨by intro x h; simp at h, ?_⟩
      intro w h
      simp only [silent_result, Except.bind] at h
      cases hg : g [] with
      | error e => rw [hg] at h; cases h
      | ok l =>
        rw [hg] at h
        cases h
        exact ⟨rfl, [], by simp, by simp⟩
    | cons n rest =>
      simp only [rankZeroT]
      refine ⟨?_, ?_⟩
      · intro x h
        have h' : x ∈ (f n.master n.tracked out).written := by
          cases he : (f n.master n.tracked out).result with
          | error e => rwa [andThen_error he] at h
          | ok b => rw [andThen_ok he] at h; simpa using h
        obtain ⟨y, d, e⟩ := hf.mem _ _ _ _ h'
        exact ⟨n, rest, y, d, rfl, e⟩
      · intro w h
        rw [andThen_result] at h
        cases he : (f n.master n.tracked out).result with
        | error e => rw [he] at h; cases h
        | ok b =>
          rw [he] at h
          simp only [Except.bind, silent_result] at h
          obtain ⟨h1, new, h2, h3⟩ := hf.ok _ _ _ _ he
          cases hg : g (n :: rest) with
          | error e => rw [hg] at h; cases h
          | ok l =>
            rw [hg] at h
            cases h
            refine ⟨h1, new, h2, ?_⟩
            rw [andThen_ok he, silent_written, List.append_nil, h3]

/-- the files written while tracking: those of the steps completed, and possibly some of the next one -/
theorem tracking_writes {σ : Type} (R : Run σ Output) {start : Beam → Beam → Output → Traced Output} {step' : Nat → Beam → Beam → Output → Traced Output}
    (h1 : ∀ m t o, (start m t o).result = R.startOut m t o) (h2 : ∀ k m t o, (step' k m t o).result = R.stepOut k m t o)
    (w1 : WritesWatches 0 start) (w2 : ∀ k : Nat, WritesWatches k (step' k)) (ms : List Beam) (s : σ) (out : Output) (h0 : out.files = []) (k : Nat) :
    (∃ w, runSteps R ms s out k = .ok w ∧ w.out.watches = out.watches ∧ (runStepsT R start step' ms s out k).written = w.out.files.map WatchFile.file) ∨
    ((∃ e, runSteps R ms s out k = .error e) ∧
      (FromNodes out.watches 0 (setupNodes R ms s) (runStepsT R start step' ms s out k).written ∨
        ∃ j w extra, j < k ∧ runSteps R ms s out j = .ok w ∧ (runStepsT R start step' ms s out k).written = w.out.files.map WatchFile.file ++ extra ∧
          FromNodes out.watches (j + 1) (stepNodes R w.nodes j) extra)) := by
  induction k with
  | zero =>
    obtain ⟨a, b⟩ := stage_writes w1 (setupNodes R ms s) out _ (setupRunT R start ms s out) rfl
    have hr := runStepsT_result R h1 h2 ms s out 0
    have e : runStepsT R start step' ms s out 0 = setupRunT R start ms s out := by
      unfold runStepsT
      simp only [List.range_zero, loop]
      generalize setupRunT R start ms s out = x
      cases x with
      | mk w r => cases r <;> simp [andThen, silent]
    rw [e] at hr ⊢
    cases hs : runSteps R ms s out 0 with
    | error e => exact Or.inr ⟨⟨e, rfl⟩, Or.inl a⟩
    | ok w =>
      obtain ⟨c1, new, c2, c3⟩ := b w (hr.trans hs)
      refine Or.inl ⟨w, rfl, c1, ?_⟩
      rw [c2, h0, List.nil_append, c3]
  | succ k ih =>
    have hr := runStepsT_result R h1 h2 ms s out (k + 1)
    have hr0 := runStepsT_result R h1 h2 ms s out k
    rw [runStepsT_succ] at hr ⊢
    rcases ih with ⟨w, hw, a1, a2⟩ | ⟨⟨e, he⟩, a⟩
    · rw [hw] at hr0
      obtain ⟨a, b⟩ := stage_writes (w2 (k + 1)) (stepNodes R w.nodes k) w.out _ (trackStepT R step' w k) rfl
      rw [andThen_result, hr0] at hr
      rw [andThen_ok hr0, a2]
      cases hs : runSteps R ms s out (k + 1) with
      | error e =>
        refine Or.inr ⟨⟨e, rfl⟩, Or.inr ⟨k, w, _, by omega, hw, rfl, ?_⟩⟩
        rw [a1] at a
        exact_mod_cast a
      | ok w' =>
        rw [hs] at hr
        obtain ⟨c1, new, c2, c3⟩ := b w' hr
        refine Or.inl ⟨w', rfl, c1.trans a1, ?_⟩
        rw [c2, List.map_append, c3]
    · rw [he] at hr0
      rw [andThen_error hr0]
      refine Or.inr ⟨?_, ?_⟩
      · cases hs : runSteps R ms s out (k + 1) with
        | error e => exact ⟨e, rfl⟩
        | ok w' =>
          rw [andThen_result, hr0, hs] at hr
          cases hr
      · rcases a with a | ⟨j, w, extra, b1, b2⟩
        · exact Or.inl a
        · exact Or.inr ⟨j, w, extra, by omega, b2⟩

end Teufel
