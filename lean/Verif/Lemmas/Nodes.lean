import Verif.Lemmas.MPI
import Verif.Model.Nodes
import Verif.Props.Program
import Verif.Lemmas.Coupled

/-! # The nodes in lockstep follow the program -/

namespace Teufel
open Function

namespace Job
variable {n N : Nat}

theorem lock_barrier {ps : Fin n → Proc} {o} (h : Lock ps o) : Lock (fun i => (ps i).barrier) o :=
  .call (c := fun _ => .barrier) (next := fun i _ => ps i) (fun _ => rfl) (fun _ _ => rfl) h

theorem lock_barriers (k : Nat) {ps : Fin n → Proc} {o} (h : Lock ps o) : Lock (fun i => Proc.barriers k (ps i)) o := by
  induction k with
  | zero => exact h
  | succ k ih => exact lock_barrier ih

theorem lock_ok {α : Type} {x : Fin n → Except Err α} {a : Fin n → α} (hx : ∀ i, x i = .ok (a i)) {next : Fin n → α → Proc} {o} (h : Lock (fun i => next i (a i)) o) :
    Lock (fun i => Proc.eval (x i) (next i)) o := by
  have : (fun i => Proc.eval (x i) (next i)) = fun i => next i (a i) := funext fun i => by rw [hx i]; rfl
  rw [this]
  exact h

theorem lock_error {α : Type} {x : Fin n → Except Err α} {i : Fin n} {e : Err} (hx : x i = .error e) {next : Fin n → α → Proc} :
    Lock (fun i => Proc.eval (x i) (next i)) none :=
  .fail (i := i) (e := e) (by simp only [hx]; rfl)

/-- the files written by rank 0, nothing by the others -/
def onRoot : Except Err (List OutFile) → Option (Fin (N + 1) → List OutFile)
  | .ok fs => some (fun i => if i.val = 0 then fs else [])
  | .error _ => none

theorem onRoot_error {r : Except Err (List OutFile)} {e : Err} (h : r = .error e) : onRoot (N := N) r = none := by rw [h]; rfl

theorem lock_writes (fs : List OutFile) : ∀ {ps : Fin (N + 1) → Proc} {p : Proc} {r : Except Err (List OutFile)}, ps 0 = Proc.writeAll fs p →
    Lock (update ps 0 p) (onRoot r) → Lock ps (onRoot (r.map (fs ++ ·))) := by
  induction fs with
  | nil =>
    intro ps p r h hl
    have e1 : update ps 0 p = ps := by rw [← show ps 0 = p from h]; exact update_eq_self 0 ps
    have e2 : r.map (([] : List OutFile) ++ ·) = r := by cases r <;> rfl
    rw [e1] at hl
    rw [e2]
    exact hl
  | cons f fs ih =>
    intro ps p r h hl
    have h1 : Lock (update ps 0 (Proc.writeAll fs p)) (onRoot (r.map (fs ++ ·))) := by
      refine ih (p := p) (by rw [update_self]) ?_
      rw [update_idem]
      exact hl
    have h2 := Lock.write (ps := ps) (i := 0) (f := f) (p := Proc.writeAll fs p) h h1
    cases r with
    | error e => exact h2
    | ok l =>
      have : (onRoot (N := N) ((Except.ok l : Except Err (List OutFile)).map (fs ++ ·))).map (fun fs : Fin (N + 1) → List OutFile => update fs 0 (f :: fs 0))
          = onRoot ((Except.ok l : Except Err (List OutFile)).map ((f :: fs) ++ ·)) := by
        simp only [onRoot, Except.map, Option.map_some, Option.some.injEq]
        funext i
        by_cases hi : i = 0
        · subst hi; simp
        · have : i.val ≠ 0 := fun h => hi (Fin.ext h)
          rw [update_of_ne hi]; simp [this]
      rw [this] at h2
      exact h2

theorem lock_root_writes (fs : List OutFile) {ps : Fin (N + 1) → Proc} {r : Except Err (List OutFile)} (h : Lock ps (onRoot r)) :
    Lock (fun i => if i.val = 0 then Proc.writeAll fs (ps i) else ps i) (onRoot (r.map (fs ++ ·))) := by
  refine lock_writes fs (p := ps 0) (by simp) ?_
  have : update (fun i : Fin (N + 1) => if i.val = 0 then Proc.writeAll fs (ps i) else ps i) 0 (ps 0) = ps := by
    funext i
    by_cases hi : i = 0
    · subst hi; rw [update_self]
    · have : i.val ≠ 0 := fun h => hi (Fin.ext h)
      rw [update_of_ne hi]; simp [this]
  rw [this]
  exact h

theorem mapM_ofFn {α β : Type} (x : Fin n → α) (f : α → Except Err β) :
    (∃ a : Fin n → β, (∀ i, f (x i) = .ok (a i)) ∧ (List.ofFn x).mapM f = .ok (List.ofFn a)) ∨ ((∃ i e, f (x i) = .error e) ∧ ∃ e, (List.ofFn x).mapM f = .error e) := by
  by_cases h : ∀ i, ∃ a, f (x i) = .ok a
  · choose a ha using h
    refine .inl ⟨a, ha, ?_⟩
    rw [List.ofFn_eq_map, List.ofFn_eq_map, mapM_map']
    exact mapM_ok_map _ _ _ (fun i _ => ha i)
  · push Not at h
    obtain ⟨i, hi⟩ := h
    refine .inr ⟨?_, ?_⟩
    · cases hf : f (x i) with
      | ok a => exact (hi a hf).elim
      | error e => exact ⟨i, e, hf⟩
    · cases hm : (List.ofFn x).mapM f with
      | error e => exact ⟨e, rfl⟩
      | ok l =>
        rw [mapM_forall₂] at hm
        obtain ⟨b, hb⟩ := (List.forall₂_iff_get.mp hm)
        have := hb i.val (by simp) (by rw [← b]; simp)
        simp at this
        exact (hi _ this).elim

theorem zipIdx_ofFn {α : Type} (x : Fin n → α) : (List.ofFn x).zipIdx = List.ofFn (fun i => (x i, i.val)) := by
  apply List.ext_getElem
  · simp
  · intro i h1 h2
    simp

end Job

open Job
variable {σ : Type} {N : Nat}

/-- the files in the form of the program -/
def asFiles (l : List WatchFile) : List OutFile := l.map (fun f => ⟨f.watch.filename, .watch f.data⟩)

theorem lock_output (f : Beam → Beam → Output → Except Err Output) (hf : ∀ m t o o', f m t o = .ok o' → o.files <+: o'.files)
    (ns : Fin (N + 1) → Node σ) (os : Fin (N + 1) → Output) (next : Fin (N + 1) → Output → Proc) (r : Output → Except Err (List OutFile))
    (h : ∀ o', f (ns 0).master (ns 0).tracked (os 0) = .ok o' → Lock (fun i => next i (if i.val = 0 then o' else os i)) (onRoot (r o'))) :
    Lock (fun i => rankOutput i.val f (ns i) (os i) (next i)) (onRoot (do
      let o' ← rankZero f (List.ofFn ns) (os 0)
      let fs ← r o'
      return asFiles (o'.files.drop (os 0).files.length) ++ fs)) := by
  have hz : rankZero f (List.ofFn ns) (os 0) = f (ns 0).master (ns 0).tracked (os 0) := by rw [List.ofFn_succ]; rfl
  rw [hz]
  cases ho : f (ns 0).master (ns 0).tracked (os 0) with
  | error e =>
    refine Lock.fail (i := 0) (e := e) ?_
    simp [rankOutput, ho, Proc.eval]
  | ok o' =>
    have h1 := lock_root_writes (asFiles (o'.files.drop (os 0).files.length)) (h o' ho)
    have e : (fun i : Fin (N + 1) => rankOutput i.val f (ns i) (os i) (next i))
        = fun i : Fin (N + 1) => if i.val = 0 then Proc.writeAll (asFiles (o'.files.drop (os 0).files.length)) (next i (if i.val = 0 then o' else os i))
          else next i (if i.val = 0 then o' else os i) := by
      funext i
      by_cases hi : i = 0
      · subst hi; simp [rankOutput, ho, Proc.eval, asFiles]
      · have : i.val ≠ 0 := fun h => hi (Fin.ext h)
        simp [rankOutput, this]
    rw [e]
    convert h1 using 2
    simp only [bind, Except.bind, pure, Except.pure]
    cases r o' <;> rfl

theorem intoBuffer_length {size : Nat} {junk : Nat → ℝ} {vals buf : List ℝ} (h : intoBuffer size junk vals = .ok buf) : buf.length = size := by
  unfold intoBuffer at h
  split_ifs at h with hl
  injection h with h
  rw [← h]
  simp
  omega

theorem contribution_length {R : Run σ Output} {step : Nat} {nr : Node σ × Nat} {buf : List ℝ} (h : Node.contribution R step nr = .ok buf) :
    ∃ nop, nr.1.master.getNOP = .ok nop ∧ buf.length = trackingNOP nop R.nodes * 10 := by
  unfold Node.contribution at h
  cases hn : nr.1.master.getNOP with
  | error e => rw [hn] at h; cases h
  | ok nop =>
    rw [hn] at h
    simp only [bind, Except.bind] at h
    split at h
    · cases h
    · exact ⟨nop, rfl, intoBuffer_length h⟩

theorem receive_master {step : Nat} {buf : List ℝ} {n n' : Node σ} (h : n.receive step buf = .ok n') : n.master.setStepFromBuffer buf = .ok n'.master := by
  unfold Node.receive at h
  cases hn : n.master.setStepFromBuffer buf with
  | error e => rw [hn] at h; cases h
  | ok m =>
    rw [hn] at h
    simp only [bind, Except.bind] at h
    split_ifs at h
    injection h with h
    rw [← h]

theorem interact_master {f : Beam → σ → Except Err σ} {n n' : Node σ} (h : n.interact f = .ok n') : n'.master = n.master := by
  unfold Node.interact at h
  cases hf : f n.master n.inter with
  | error e => rw [hf] at h; cases h
  | ok s =>
    rw [hf] at h
    simp only [Except.map, Except.ok.injEq] at h
    rw [← h]

theorem rankZero_files {f : Beam → Beam → Output → Except Err Output} (hf : ∀ m t o o', f m t o = .ok o' → o.files <+: o'.files) {nodes : List (Node σ)} {o o' : Output}
    (h : rankZero f nodes o = .ok o') : o.files <+: o'.files := by
  cases nodes with
  | nil => cases h; exact List.prefix_rfl
  | cons n ns => exact hf _ _ _ _ h

theorem trackStep_files (R : Run σ Output) (hf : ∀ k m t o o', R.stepOut k m t o = .ok o' → o.files <+: o'.files) {w w' : World σ Output} {step : Nat}
    (h : trackStep R w step = .ok w') : w.out.files <+: w'.out.files := by
  unfold trackStep at h
  simp only [bind, Except.bind, pure, Except.pure] at h
  split at h
  · cases h
  split at h
  · cases h
  split at h
  · cases h
  split at h
  · cases h
  split at h
  · cases h
  rename_i ho _ _ _
  injection h with h
  rw [← h]
  exact rankZero_files (hf _) ho

theorem fold_files (R : Run σ Output) (hf : ∀ k m t o o', R.stepOut k m t o = .ok o' → o.files <+: o'.files) (steps : List Nat) : ∀ {w w' : World σ Output},
    steps.foldlM (trackStep R) w = .ok w' → w.out.files <+: w'.out.files := by
  induction steps with
  | nil => intro w w' h; cases h; exact List.prefix_rfl
  | cons s steps ih =>
    intro w w' h
    rw [List.foldlM_cons] at h
    cases h1 : trackStep R w s with
    | error e => rw [h1] at h; cases h
    | ok w1 => rw [h1] at h; exact (trackStep_files R hf h1).trans (ih h)

theorem asFiles_drop {a b c : List WatchFile} (h : a <+: b) (h' : b <+: c) : asFiles (c.drop a.length) = asFiles (b.drop a.length) ++ asFiles (c.drop b.length) := by
  obtain ⟨x, rfl⟩ := h
  obtain ⟨y, rfl⟩ := h'
  simp [asFiles, List.append_assoc]

/-- the tracking loop -/
theorem lock_track (R : Run σ Output) (hf : ∀ k m t o o', R.stepOut k m t o = .ok o' → o.files <+: o'.files) (next : Fin (N + 1) → Node σ → Output → Proc)
    (r : World σ Output → Except Err (List OutFile)) (steps : List Nat) : ∀ (ns : Fin (N + 1) → Node σ) (M : Beam), (∀ i, (ns i).master = M) → ∀ (os : Fin (N + 1) → Output),
    (∀ ns' M' o', (∀ i, (ns' i).master = M') → steps.foldlM (trackStep R) ⟨List.ofFn ns, os 0⟩ = .ok ⟨List.ofFn ns', o'⟩ →
      Lock (fun i => next i (ns' i) (if i.val = 0 then o' else os i)) (onRoot (r ⟨List.ofFn ns', o'⟩))) →
    Lock (fun i => trackLoop R i.val (next i) steps (ns i) (os i)) (onRoot (do
      let w ← steps.foldlM (trackStep R) ⟨List.ofFn ns, os 0⟩
      let fs ← r w
      return asFiles (w.out.files.drop (os 0).files.length) ++ fs)) := by
  induction steps with
  | nil =>
    intro ns M hM os h
    have h1 := h ns M (os 0) hM rfl
    have e : (fun i : Fin (N + 1) => trackLoop R i.val (next i) [] (ns i) (os i)) = fun i : Fin (N + 1) => next i (ns i) (if i.val = 0 then os 0 else os i) := by
      funext i
      by_cases hi : i = 0
      · subst hi; simp [trackLoop]
      · have : i.val ≠ 0 := fun h => hi (Fin.ext h)
        simp [trackLoop, this]
    rw [e]
    convert h1 using 2
    simp only [List.foldlM_nil, bind, Except.bind, pure, Except.pure]
    cases r ⟨List.ofFn ns, os 0⟩ <;> simp [asFiles]
  | cons step steps ih =>
    intro ns M hM os h
    simp only [List.foldlM_cons] at h ⊢
    simp only [trackLoop]
    have hT : trackStep R ⟨List.ofFn ns, os 0⟩ step = (do
        let nodes ← (List.ofFn ns).mapM (Node.advance R)
        let bufs ← nodes.zipIdx.mapM (Node.contribution R step)
        let nodes ← nodes.mapM (Node.receive step bufs.flatten)
        let out ← rankZero (R.stepOut (step + 1)) nodes (os 0)
        let nodes ← nodes.mapM (Node.interact R.stepInter)
        return ⟨nodes, out⟩) := rfl
    rcases mapM_ofFn ns (Node.advance R) with ⟨n1, h1, e1⟩ | ⟨⟨i, e, h1⟩, e', e1⟩
    swap
    · rw [onRoot_error (e := e') (by rw [hT, e1]; rfl)]
      exact lock_error h1
    refine lock_ok h1 (lock_barrier ?_)
    have hm1 : ∀ i, (n1 i).master = M := by
      intro i
      have := h1 i
      unfold Node.advance at this
      cases hd : dropState ((ns i).tracked.doStep (R.lattice (ns i).inter)) with
      | error e => rw [hd] at this; cases this
      | ok t =>
        rw [hd] at this
        simp only [Except.map, Except.ok.injEq] at this
        rw [← this]
        exact hM i
    rcases mapM_ofFn (fun i => (n1 i, i.val)) (Node.contribution R step) with ⟨bs, h2, e2⟩ | ⟨⟨i, e, h2⟩, e', e2⟩
    swap
    · rw [onRoot_error (e := e') (by rw [hT, e1]; simp only [bind, Except.bind]; rw [zipIdx_ofFn, e2])]
      exact lock_error h2
    refine lock_ok h2 ?_
    have hlen : ∀ i j, (bs i).length = (bs j).length := by
      intro i j
      obtain ⟨a, ha, ha'⟩ := contribution_length (h2 i)
      obtain ⟨b, hb, hb'⟩ := contribution_length (h2 j)
      simp only [hm1] at ha hb
      rw [ha] at hb
      injection hb with hb
      rw [ha', hb', hb]
    refine Lock.call (c := fun i => .allgather (bs i)) (fun _ => rfl) (fun i j => by simp only [Call.kind]; rw [hlen i j]) ?_
    have hd : ∀ i : Fin (N + 1), (Call.allgather (bs i)).deliver (fun i => Call.allgather (bs i)) i = (List.ofFn bs).flatten := fun i => rfl
    simp only [hd]
    rcases mapM_ofFn n1 (Node.receive step (List.ofFn bs).flatten) with ⟨n2, h3, e3⟩ | ⟨⟨i, e, h3⟩, e', e3⟩
    swap
    · rw [onRoot_error (e := e') (by rw [hT, e1]; simp only [bind, Except.bind]; rw [zipIdx_ofFn, e2]; simp only [e3])]
      exact lock_error h3
    refine lock_ok h3 (lock_barrier ?_)
    have hm2 : ∀ i, (n2 i).master = (n2 0).master := by
      intro i
      have ha := receive_master (h3 i)
      have hb := receive_master (h3 0)
      rw [hm1] at ha hb
      rw [ha] at hb
      injection hb
    have hlock := lock_output (R.stepOut (step + 1)) (hf (step + 1)) n2 os (fun i o => Proc.eval ((n2 i).interact R.stepInter) fun n => trackLoop R i.val (next i) steps n o)
      (fun o' => do
        let nodes ← (List.ofFn n2).mapM (Node.interact R.stepInter)
        let w ← steps.foldlM (trackStep R) ⟨nodes, o'⟩
        let fs ← r w
        return asFiles (w.out.files.drop o'.files.length) ++ fs) (by
      intro o' ho'
      rcases mapM_ofFn n2 (Node.interact R.stepInter) with ⟨n3, h4, e4⟩ | ⟨⟨i, e, h4⟩, e', e4⟩
      swap
      · rw [onRoot_error (e := e') (by rw [e4]; rfl)]
        exact lock_error h4
      refine lock_ok h4 ?_
      have hm3 : ∀ i, (n3 i).master = (n2 0).master := fun i => (interact_master (h4 i)).trans (hm2 i)
      have hstep : trackStep R ⟨List.ofFn ns, os 0⟩ step = .ok ⟨List.ofFn n3, o'⟩ := by
        rw [hT, e1]
        simp only [bind, Except.bind]
        rw [zipIdx_ofFn, e2]
        simp only [e3]
        have : rankZero (R.stepOut (step + 1)) (List.ofFn n2) (os 0) = .ok o' := by rw [List.ofFn_succ]; exact ho'
        rw [this, e4]
        rfl
      have := ih n3 (n2 0).master hm3 (fun i => if i.val = 0 then o' else os i) (by
        intro ns' M'' o'' hm'' hfold
        have h5 := h ns' M'' o'' hm'' (by rw [hstep]; exact hfold)
        convert h5 using 3
        split_ifs <;> rfl)
      rw [e4]
      exact this)
    convert hlock using 2
    rw [hT, e1]
    simp only [bind, Except.bind]
    rw [zipIdx_ofFn, e2]
    simp only [e3]
    cases ho : rankZero (R.stepOut (step + 1)) (List.ofFn n2) (os 0) with
    | error e => rfl
    | ok o' =>
      simp only
      cases hi : (List.ofFn n2).mapM (Node.interact R.stepInter) with
      | error e => rfl
      | ok nodes =>
        simp only [pure, Except.pure]
        cases hw : steps.foldlM (trackStep R) ⟨nodes, o'⟩ with
        | error e => rfl
        | ok w =>
          simp only
          cases r w with
          | error e => rfl
          | ok fs =>
            simp only [Except.ok.injEq]
            rw [asFiles_drop (rankZero_files (hf _) ho) (fold_files R hf steps hw), List.append_assoc]

/-! ## After the tracking -/

theorem generateOutput_random (L : Lib) (r : (Nat → Nat → ℝ) × (Nat → Nat → Nat → ℝ)) (file : String) (o : Observer) :
    (L.withRandom r).generateOutput file o = L.generateOutput file o := by
  cases o <;> rfl

theorem blank_size (o : Observer) : o.blank.getBufferSize = o.getBufferSize := by
  cases o <;> rfl

/-- the number of values a node contributes to the reduction -/
theorem nodeObserve_count {o : Observer} (ho : o.Fresh) {src : RadSource} (hs : src.Counted) {r : Observer × Nat × List ℝ} (hr : nodeObserve o src = .ok r) :
    ∃ size, o.getBufferSize = .ok size ∧ r.2.2.length = size % 2 ^ 32 := by
  obtain ⟨ow, oz⟩ := ho.ok
  unfold nodeObserve at hr
  cases hi : o.integrate src with
  | error e => rw [hi] at hr; cases hr
  | ok o1 =>
    obtain ⟨_, hb, _⟩ := (Observer.integrate_spec ow oz hs).1 o1 hi
    have hsz : o1.getBufferSize = o.getBufferSize := by rw [← blank_size o1, hb]
    rw [hi] at hr
    simp only [bind, Except.bind, hsz] at hr
    cases hz : o.getBufferSize with
    | error e => rw [hz] at hr; cases hr
    | ok size =>
      rw [hz] at hr
      simp only at hr
      cases hg : o1.getBuffer with
      | error e => rw [hg] at hr; cases hr
      | ok buf =>
        rw [hg] at hr
        simp only [pure, Except.pure] at hr
        split_ifs at hr with h1 h2
        injection hr with hr
        rw [← hr]
        refine ⟨size, rfl, ?_⟩
        simp only [List.length_take]
        omega

theorem onRoot_nil : onRoot (N := N) (.ok []) = some fun _ => [] := by
  simp only [onRoot, Option.some.injEq]
  funext i
  split_ifs <;> rfl

/-- the source of an observer on one node -/
noncomputable def specSource (spec : Lib.ObserverSpec) (lat : Lattice) (t : Beam) : RadSource :=
  match spec.source with
  | .beam => .beam t
  | .lattice => .lattice lat.field

theorem lock_observe (L : Lib) (rs : Fin (N + 1) → (Nat → Nat → ℝ) × (Nat → Nat → Nat → ℝ)) (ns : Fin (N + 1) → Node (List FEL)) (o : Output) (lat : Lattice)
    (hc : ∀ i, (RadSource.beam (ns i).tracked).Counted) (specs : List Lib.ObserverSpec) (hfresh : ∀ spec ∈ specs, spec.observer.Fresh) :
    Lock (fun i : Fin (N + 1) => (L.withRandom (rs i)).observeLoop i.val lat (ns i).master (ns i).tracked (.barrier .done) specs)
      (onRoot ((specs.mapM (L.observeSpec ⟨List.ofFn ns, o⟩ lat (ns 0).master)).map List.flatten)) := by
  induction specs with
  | nil =>
    simp only [List.mapM_nil, pure, Except.pure, Except.map, List.flatten_nil, Lib.observeLoop, onRoot_nil]
    exact lock_barrier (.done fun _ => rfl)
  | cons spec specs ih =>
    have ih := ih (fun s hs => hfresh s (by simp [hs]))
    simp only [Lib.observeLoop]
    refine lock_barrier ?_
    have hsrc : ∀ i, (specSource spec lat (ns i).tracked).Counted := by
      intro i
      unfold specSource
      cases spec.source with
      | beam => exact hc i
      | lattice => trivial
    have hobs : L.observeSpec ⟨List.ofFn ns, o⟩ lat (ns 0).master spec = (do
        let o ← observe spec.observer (List.ofFn (fun i => specSource spec lat (ns i).tracked))
        let o ← Lib.storeParticles (ns 0).master spec.source o
        Lib.caught spec.file (L.generateOutput spec.file o)) := by
      unfold Lib.observeSpec specSource
      cases spec.source with
      | beam => simp only [observeBeam, List.map_ofFn]; rfl
      | lattice => simp only [observeLattice, List.length_ofFn, List.ofFn_const]
    rcases mapM_ofFn (fun i => specSource spec lat (ns i).tracked) (nodeObserve spec.observer) with ⟨a, h1, e1⟩ | ⟨⟨i, e, h1⟩, e', e1⟩
    swap
    · have : ∃ e, (spec :: specs).mapM (L.observeSpec ⟨List.ofFn ns, o⟩ lat (ns 0).master) = .error e := by
        rw [List.mapM_cons, hobs]
        unfold observe
        rw [e1]
        exact ⟨_, rfl⟩
      obtain ⟨e'', h2⟩ := this
      rw [h2]
      exact lock_error h1
    refine lock_ok h1 (lock_barriers 2 ?_)
    refine Lock.call (c := fun i => .reduce (a i).2.2) (fun _ => rfl) (fun i j => ?_) ?_
    · obtain ⟨s1, p1, q1⟩ := nodeObserve_count (hfresh spec (by simp)) (hsrc i) (h1 i)
      obtain ⟨s2, p2, q2⟩ := nodeObserve_count (hfresh spec (by simp)) (hsrc j) (h1 j)
      rw [p1] at p2
      injection p2 with p2
      simp only [Call.kind, q1, q2, p2]
    refine lock_barrier ?_
    have hX : L.observeSpec ⟨List.ofFn ns, o⟩ lat (ns 0).master spec = (do
        let o ← (a 0).1.fromBuffer (reduceSum (List.ofFn (fun i => (a i).2.2))) (a 0).2.1
        let o ← Lib.storeParticles (ns 0).master spec.source o
        Lib.caught spec.file (L.generateOutput spec.file o)) := by
      rw [hobs]
      unfold observe
      rw [e1]
      simp only [bind, Except.bind]
      rw [List.ofFn_succ]
      simp only [List.map_cons, List.map_ofFn]
      rw [List.ofFn_succ (f := fun i => (a i).2.2)]
      rfl
    have hdel : ∀ i : Fin (N + 1), i.val = 0 → (Call.reduce (a i).2.2).deliver (fun i => Call.reduce (a i).2.2) i = reduceSum (List.ofFn (fun i => (a i).2.2)) := by
      intro i hi
      simp only [Call.deliver, hi, if_true]
      rfl
    cases hx : L.observeSpec ⟨List.ofFn ns, o⟩ lat (ns 0).master spec with
    | error e =>
      have : (spec :: specs).mapM (L.observeSpec ⟨List.ofFn ns, o⟩ lat (ns 0).master) = .error e := by rw [List.mapM_cons, hx]; rfl
      rw [this]
      refine Lock.fail (i := 0) (e := e) ?_
      simp only [Fin.val_zero, if_true, generateOutput_random]
      rw [hdel 0 rfl, ← hX, hx]
      rfl
    | ok fs =>
      have h2 := lock_root_writes fs (lock_barriers 2 ih)
      have e2 : ((spec :: specs).mapM (L.observeSpec ⟨List.ofFn ns, o⟩ lat (ns 0).master)).map List.flatten
          = ((specs.mapM (L.observeSpec ⟨List.ofFn ns, o⟩ lat (ns 0).master)).map List.flatten).map (fs ++ ·) := by
        rw [List.mapM_cons, hx]
        simp only [bind, Except.bind, pure, Except.pure]
        cases specs.mapM (L.observeSpec ⟨List.ofFn ns, o⟩ lat (ns 0).master) <;> simp [Except.map]
      rw [e2]
      convert h2 using 2 with i
      by_cases hi : i = 0
      · subst hi
        simp only [Fin.val_zero, if_true, generateOutput_random]
        rw [hdel 0 rfl, ← hX, hx]
        rfl
      · have : i.val ≠ 0 := fun h => hi (Fin.ext h)
        simp only [this, if_false]

theorem lock_logs (m : Beam) (ps : Fin (N + 1) → Proc) (r : Except Err (List OutFile)) (h : Lock ps (onRoot r)) (l : List (String × Logger)) :
    Lock (fun i => if i.val = 0 then Lib.writeLogs m (ps i) l else ps i) (onRoot (do
      let logs ← l.mapM (fun nl : String × Logger => (nl.2.writeData m).map (fun d => (⟨nl.1, d⟩ : OutFile)))
      let fs ← r
      return logs ++ fs)) := by
  induction l with
  | nil =>
    convert h using 2
    · simp [Lib.writeLogs]
    · cases r <;> rfl
  | cons nl l ih =>
    cases hd : nl.2.writeData m with
    | error e =>
      rw [onRoot_error (e := e) (by rw [List.mapM_cons, hd]; rfl)]
      refine Lock.fail (i := 0) (e := e) ?_
      simp [Lib.writeLogs, hd, Proc.eval]
    | ok d =>
      have h2 := lock_root_writes [⟨nl.1, d⟩] ih
      convert h2 using 2 with i
      · by_cases hi : i.val = 0
        · simp [hi, Lib.writeLogs, hd, Proc.eval, Proc.writeAll]
        · simp [hi]
      · rw [List.mapM_cons, hd]
        cases l.mapM (fun nl : String × Logger => (nl.2.writeData m).map (fun d => (⟨nl.1, d⟩ : OutFile))) with
        | error e => rfl
        | ok ls => cases r <;> rfl

theorem lock_inter (ps : Fin (N + 1) → Proc) (r : Except Err (List OutFile)) (h : Lock ps (onRoot r)) (l : List (FEL × Option String)) :
    Lock (fun i => if i.val = 0 then Lib.writeInteractions (ps i) l else ps i) (onRoot (do
      let fels ← l.mapM Lib.felOutput
      let fs ← r
      return fels.flatten ++ fs)) := by
  induction l with
  | nil =>
    convert h using 2
    · simp [Lib.writeInteractions]
    · cases r <;> rfl
  | cons nl l ih =>
    cases hd : Lib.felOutput nl with
    | error e =>
      rw [onRoot_error (e := e) (by rw [List.mapM_cons, hd]; rfl)]
      refine Lock.fail (i := 0) (e := e) ?_
      simp [Lib.writeInteractions, hd, Proc.eval]
    | ok d =>
      have h2 := lock_root_writes d ih
      convert h2 using 2 with i
      · by_cases hi : i.val = 0
        · simp [hi, Lib.writeInteractions, hd, Proc.eval]
        · simp [hi]
      · rw [List.mapM_cons, hd]
        simp only [bind, Except.bind, pure, Except.pure, Except.map]
        cases l.mapM Lib.felOutput with
        | error e => rfl
        | ok ls => cases r <;> simp

/-- the files written after the tracking -/
noncomputable def finishRest (L : Lib) (doc : Xml) (p : Lib.Parsed) (w : World (List FEL) Output) : Except Err (List OutFile) := do
  match w.nodes with
  | [] => .error .ub
  | root :: _ =>
    let logs ← (Lib.logFiles p |>.zip w.out.loggers).mapM (fun nl : String × Logger => (nl.2.writeData root.master).map (fun d => (⟨nl.1, d⟩ : OutFile)))
    let fels ← (root.inter.zip (Lib.felFiles doc)).mapM Lib.felOutput
    let lattice := p.lattice.lattice ++ Lib.interactionFields root.inter
    let lattice ← removeInteractions (2 * lattice.length + 1) 0 lattice
    let obs ← p.observers.observers.mapM (L.observeSpec w lattice root.master)
    return logs ++ (fels.flatten ++ obs.flatten)

theorem finish_eq (L : Lib) (doc : Xml) (p : Lib.Parsed) (w : World (List FEL) Output) :
    L.finish doc p w = (do let fs ← finishRest L doc p w; return asFiles w.out.files ++ fs) := by
  unfold Lib.finish finishRest
  cases w.nodes with
  | nil => rfl
  | cons root rest =>
    simp only [bind, Except.bind, pure, Except.pure]
    split
    · rfl
    split
    · rfl
    split
    · rfl
    split
    · rfl
    · simp [asFiles, List.append_assoc]

theorem lock_finish (L : Lib) (rs : Fin (N + 1) → (Nat → Nat → ℝ) × (Nat → Nat → Nat → ℝ)) (doc : Xml) (ps : Fin (N + 1) → Lib.Parsed)
    (hlat : ∀ i, (ps i).lattice = (ps 0).lattice) (hobs : ∀ i, (ps i).observers = (ps 0).observers)
    (hfresh : ∀ spec ∈ (ps 0).observers.observers, spec.observer.Fresh)
    (ns : Fin (N + 1) → Node (List FEL)) (hc : ∀ i, (RadSource.beam (ns i).tracked).Counted) (os : Fin (N + 1) → Output) :
    Lock (fun i : Fin (N + 1) => (L.withRandom (rs i)).finishNode doc (ps i) i.val (ns i) (os i)) (onRoot (finishRest L doc (ps 0) ⟨List.ofFn ns, os 0⟩)) := by
  unfold Lib.finishNode
  refine lock_barriers 4 ?_
  have hrem : ∀ s : List FEL, removeInteractions (2 * ((ps 0).lattice.lattice ++ Lib.interactionFields s).length + 1) 0 ((ps 0).lattice.lattice ++ Lib.interactionFields s)
      = .ok ((ps 0).lattice.lattice.filter (fun e => e.isExternal)) := fun s => Lib.remove_all _ _
  have h1 := lock_observe L rs ns (os 0) ((ps 0).lattice.lattice.filter (fun e => e.isExternal)) hc (ps 0).observers.observers hfresh
  have h2 : Lock (fun i : Fin (N + 1) => Proc.barriers 2 (Proc.eval (removeInteractions (2 * ((ps i).lattice.lattice ++ Lib.interactionFields (ns i).inter).length + 1) 0 ((ps i).lattice.lattice ++ Lib.interactionFields (ns i).inter))
      (fun lattice => (L.withRandom (rs i)).observeLoop i.val lattice (ns i).master (ns i).tracked (.barrier .done) (ps i).observers.observers))) _ :=
    lock_barriers 2 (lock_ok (a := fun _ => (ps 0).lattice.lattice.filter (fun e => e.isExternal)) (fun i => by rw [hlat i]; exact hrem _)
      (by simp only [hobs]; exact h1))
  have h3 := lock_logs (ns 0).master _ _ (lock_inter _ _ h2 ((ns 0).inter.zip (Lib.felFiles doc))) ((Lib.logFiles (ps 0)).zip (os 0).loggers)
  convert h3 using 2 with i
  · by_cases hi : i = 0
    · subst hi; simp
    · have : i.val ≠ 0 := fun h => hi (Fin.ext h)
      simp [this]
  · unfold finishRest
    rw [List.ofFn_succ]
    simp only [bind, Except.bind, pure, Except.pure]
    rw [hrem]
    simp only
    cases ((Lib.logFiles (ps 0)).zip (os 0).loggers).mapM (fun nl : String × Logger => (nl.2.writeData (ns 0).master).map (fun d => (⟨nl.1, d⟩ : OutFile))) with
    | error e => rfl
    | ok logs =>
      simp only
      cases ((ns 0).inter.zip (Lib.felFiles doc)).mapM Lib.felOutput with
      | error e => rfl
      | ok fels =>
        simp only
        rw [← List.ofFn_succ (f := ns)]
        cases (ps 0).observers.observers.mapM (L.observeSpec ⟨List.ofFn ns, os 0⟩ ((ps 0).lattice.lattice.filter (fun e => e.isExternal)) (ns 0).master) <;> rfl

/-! ## Before the tracking -/

theorem watch_prefix {k : Int} {m : Beam} {o o' : Output} (h : writeWatches k m o = .ok o') : o.files <+: o'.files := by
  unfold writeWatches at h
  simp only [bind, Except.bind, pure, Except.pure] at h
  split at h
  · cases h
  · injection h with h
    rw [← h]
    exact List.prefix_append _ _

theorem step_prefix (junk : Nat → ℝ) (fuel k : Nat) (m t : Beam) (o o' : Output) (h : Output.step junk fuel k m t o = .ok o') : o.files <+: o'.files := by
  unfold Output.step at h
  simp only [bind, Except.bind] at h
  split at h
  · cases h
  · have := watch_prefix h
    exact this

theorem start_prefix (junk : Nat → ℝ) (fuel : Nat) (m t : Beam) (o o' : Output) (h : Output.start junk fuel m t o = .ok o') : o.files <+: o'.files := by
  unfold Output.start at h
  simp only [bind, Except.bind, pure, Except.pure] at h
  split at h
  · cases h
  · rename_i o1 h1
    split at h
    · cases h
    · injection h with h
      rw [← h]
      have := watch_prefix h1
      exact this

theorem startProbe_prefix (junk : Nat → ℝ) (fuel a b : Nat) (m t : Beam) (o o' : Output) (h : Output.startProbe junk fuel a b m t o = .ok o') : o.files <+: o'.files := by
  unfold Output.startProbe at h
  simp only [bind, Except.bind, pure, Except.pure] at h
  split at h
  · cases h
  · have := start_prefix _ _ _ _ _ _ h
    exact this

theorem blank_all {b m : Beam} (h : b.blank = m.blank) : b.all.length = m.all.length := by
  have e : ∀ c : Beam, c.all.length = (c.blank.B.map (fun bu => bu.P.length)).sum := by
    intro c
    simp [Beam.all, Beam.blank, List.length_flatMap, Function.comp_def]
  rw [e, e, h]

theorem blank_bunches {b m : Beam} (h : b.blank = m.blank) : b.B.length = m.B.length := by
  have e : ∀ c : Beam, c.B.length = c.blank.B.length := by intro c; simp [Beam.blank]
  rw [e b, e m, h]

theorem vecAt_exists {α : Type} {l l' : List α} (h : l.length = l'.length) {i : Nat} {a : α} (ha : Particle.vecAt l i = .ok a) : ∃ b, Particle.vecAt l' i = .ok b := by
  unfold Particle.vecAt at ha ⊢
  by_cases hi : i < l.length
  · rw [List.getElem?_eq_getElem (h ▸ hi)]
    exact ⟨_, rfl⟩
  · rw [List.getElem?_eq_none (by omega)] at ha
    cases ha

theorem mapM_ok_mem {α β : Type} {f : α → Except Err β} {l : List α} {l' : List β} (h : l.mapM f = .ok l') {a : α} (ha : a ∈ l) : ∃ b, f a = .ok b := by
  rw [mapM_forall₂] at h
  obtain ⟨hl, hg⟩ := List.forall₂_iff_get.mp h
  obtain ⟨i, hi, e⟩ := List.getElem_of_mem ha
  exact ⟨_, by rw [← e]; exact hg i hi (hl ▸ hi)⟩

theorem create_exists {b m : Beam} (h : b.blank = m.blank) {s : Lib.LogSpec} {l : Logger} (hl : s.create m = .ok l) : ∃ l', s.create b = .ok l' := by
  cases s with
  | param => exact ⟨_, rfl⟩
  | traj i f step number =>
    simp only [Lib.LogSpec.create] at hl ⊢
    cases hv : Particle.vecAt m.B i with
    | error e => rw [hv] at hl; cases hl
    | ok bu =>
      obtain ⟨bu', h'⟩ := vecAt_exists (blank_bunches h.symm) hv
      rw [h']
      exact ⟨_, rfl⟩

namespace Lib

theorem sameParsed_ok {p q : Parsed} (h : SameParsed (.ok p) (.ok q)) : q.lattice = p.lattice ∧ q.beam.logs = p.beam.logs ∧ q.beam.probe = p.beam.probe ∧ q.tracking = p.tracking ∧ q.observers = p.observers :=
  ⟨h.1.symm, h.2.1.2.2.1.symm, h.2.1.2.2.2.1.symm, h.2.2.1.symm, h.2.2.2.symm⟩

theorem tracking_same {p q : Parsed} (h : SameParsed (.ok p) (.ok q)) (J : Indet) (n : Nat) : tracking q J n = tracking p J n := by
  obtain ⟨h1, h2, h3, h4, h5⟩ := sameParsed_ok h
  unfold tracking
  rw [h1, h3, h4]

/-- preparation of a node which parsed its input successfully -/
theorem prepare_ok {p : Parsed} {m : Beam} (hm : masterBeam p = .ok m) (hr : m.Reachable) (hN : ¬ p.tracking.NOTS < 0) {s : List FEL}
    (hs : p.tracking.state.interactions.mapM id = .ok s) {ls : List Logger} (hl : p.beam.logs.mapM (LogSpec.create m) = .ok ls) (J : Indet) (N : Nat) :
    ∃ g, prepare p J (N + 1) = .ok ⟨m, s, ls, m.all.flatMap Bunch.stepRecord ++ g⟩ ∧
      intoBuffer (trackingNOP m.all.length (N + 1) * (N + 1) * 10) (J.comm 0 0) (m.all.flatMap Bunch.stepRecord) = .ok (m.all.flatMap Bunch.stepRecord ++ g) ∧
      (m.all.flatMap Bunch.stepRecord ++ g).length = trackingNOP m.all.length (N + 1) * (N + 1) * 10 := by
  have hw := Beam.wf_reachable hr
  have hge : m.all.length ≤ trackingNOP m.all.length (N + 1) * (N + 1) := by
    rw [Nat.mul_comm]
    exact trackingNOP_ge _ _ (by omega)
  have hb : ∃ g, intoBuffer (trackingNOP m.all.length (N + 1) * (N + 1) * 10) (J.comm 0 0) (m.all.flatMap Bunch.stepRecord) = .ok (m.all.flatMap Bunch.stepRecord ++ g) := by
    unfold intoBuffer
    rw [if_pos (by rw [records_length]; omega)]
    exact ⟨_, rfl⟩
  obtain ⟨g, hg⟩ := hb
  refine ⟨g, ?_, hg, intoBuffer_length hg⟩
  unfold prepare
  simp only [bind, Except.bind, hm, if_neg hN, hs, hl, nop_all hw, bufferStep_beam hw, pure, Except.pure]
  rw [if_neg (by omega)]
  simp only [hg]

theorem run_prefix (p : Parsed) (J : Indet) (n : Nat) : (∀ m t o o', (tracking p J n).run.startOut m t o = .ok o' → o.files <+: o'.files) ∧
    ∀ k m t o o', (tracking p J n).run.stepOut k m t o = .ok o' → o.files <+: o'.files := by
  refine ⟨?_, fun k m t o o' h => step_prefix _ _ _ _ _ _ _ h⟩
  intro m t o o' h
  change (tracking p J n).startOut m t o = .ok o' at h
  cases hp : p.beam.probe with
  | none => simp only [tracking, hp] at h; exact start_prefix _ _ _ _ _ _ h
  | some pr => simp only [tracking, hp] at h; exact startProbe_prefix _ _ _ _ _ _ _ _ h

/-- what follows the parsing -/
theorem lock_run (L : Lib) (rs : Fin (N + 1) → (Nat → Nat → ℝ) × (Nat → Nat → Nat → ℝ)) (J : Indet) (doc : Xml) (ps : Fin (N + 1) → Parsed)
    (hsame : ∀ i, SameParsed (.ok (ps 0)) (.ok (ps i))) (hfresh : ∀ spec ∈ (ps 0).observers.observers, spec.observer.Fresh) :
    Lock (fun i : Fin (N + 1) => (L.withRandom (rs i)).runNode J (N + 1) doc i.val (ps i)) (onRoot (do
      let masters ← (List.ofFn ps).mapM masterBeam
      let m ← masterBeam (ps 0)
      if (ps 0).tracking.NOTS < 0 then .error .range
      let s ← (ps 0).tracking.state.interactions.mapM id
      let loggers ← (ps 0).beam.logs.mapM (LogSpec.create m)
      let w ← runAll (tracking (ps 0) J (N + 1)).run masters s ⟨loggers, (ps 0).tracking.state.watches, []⟩
      L.finish doc (ps 0) w)) := by
  unfold runNode
  have htr : ∀ i, tracking (ps i) J (N + 1) = tracking (ps 0) J (N + 1) := fun i => tracking_same (hsame i) J (N + 1)
  have hT : ∀ i, (ps i).tracking = (ps 0).tracking := fun i => (sameParsed_ok (hsame i)).2.2.2.1
  have hfail : ∀ e, prepare (ps 0) J (N + 1) = .error e → ∀ next : Fin (N + 1) → Prepared → Proc, Lock (fun i => Proc.eval (prepare (ps i) J (N + 1)) (next i)) none :=
    fun e he next => lock_error he
  simp only [htr]
  cases hm : masterBeam (ps 0) with
  | error e =>
    rw [onRoot_error (e := e) (by rw [List.ofFn_succ, List.mapM_cons, hm]; rfl)]
    exact hfail e (by unfold prepare; rw [hm]; rfl) _
  | ok m =>
  have hms : ∀ i, ∃ b, masterBeam (ps i) = .ok b ∧ b.Reachable ∧ b.blank = m.blank := by
    intro i
    obtain ⟨_, hb, ht, _⟩ := hsame i
    have hh := masterBeam_same hb ht
    rw [hm] at hh
    cases hq' : masterBeam (ps i) with
    | error e => rw [hq'] at hh; exact hh.elim
    | ok b =>
      rw [hq'] at hh
      exact ⟨b, rfl, hh.2.1, hh.2.2.symm⟩
  choose ms hms1 hms2 hms3 using hms
  have hm0 : ms 0 = m := by have := hms1 0; rw [hm] at this; injection this with this; exact this.symm
  have hmasters : (List.ofFn ps).mapM masterBeam = .ok (List.ofFn ms) := by
    rcases mapM_ofFn ps masterBeam with ⟨a, h1, e1⟩ | ⟨⟨i, e, h1⟩, _⟩
    · rw [e1]
      congr 2
      funext i
      have := h1 i
      rw [hms1 i] at this
      injection this with this
      exact this.symm
    · rw [hms1 i] at h1; cases h1
  rw [hmasters]
  simp only [bind, Except.bind]
  by_cases hN : (ps 0).tracking.NOTS < 0
  · rw [if_pos hN]
    exact hfail .range (by unfold prepare; simp only [bind, Except.bind, hm, if_pos hN]) _
  rw [if_neg hN]
  cases hs : (ps 0).tracking.state.interactions.mapM id with
  | error e => exact hfail e (by unfold prepare; simp only [bind, Except.bind, hm, if_neg hN, hs, pure, Except.pure]) _
  | ok s =>
  simp only
  cases hl : (ps 0).beam.logs.mapM (LogSpec.create m) with
  | error e => exact hfail e (by unfold prepare; simp only [bind, Except.bind, hm, if_neg hN, hs, hl, pure, Except.pure]) _
  | ok ls =>
  simp only
  have hlogs : ∀ i, ∃ l, (ps i).beam.logs.mapM (LogSpec.create (ms i)) = .ok l := by
    intro i
    rw [(sameParsed_ok (hsame i)).2.1]
    refine mapM_exists _ _ (fun sp hsp => ?_)
    obtain ⟨l, hl'⟩ := mapM_ok_mem hl hsp
    exact create_exists (hms3 i) hl'
  choose lg hlg using hlogs
  have hprep : ∀ i, ∃ g, prepare (ps i) J (N + 1) = .ok ⟨ms i, s, lg i, (ms i).all.flatMap Bunch.stepRecord ++ g⟩ ∧
      intoBuffer (trackingNOP (ms i).all.length (N + 1) * (N + 1) * 10) (J.comm 0 0) ((ms i).all.flatMap Bunch.stepRecord) = .ok ((ms i).all.flatMap Bunch.stepRecord ++ g) ∧
      ((ms i).all.flatMap Bunch.stepRecord ++ g).length = trackingNOP (ms i).all.length (N + 1) * (N + 1) * 10 :=
    fun i => prepare_ok (hms1 i) (hms2 i) (by rw [hT i]; exact hN) (by rw [hT i]; exact hs) (hlg i) J N
  choose g hg1 hg2 hg3 using hprep
  refine lock_ok hg1 ?_
  refine Lock.call (c := fun i => .bcast ((ms i).all.flatMap Bunch.stepRecord ++ g i)) (fun _ => rfl) (fun i j => ?_) ?_
  · simp only [Call.kind, hg3, blank_all (hms3 i), blank_all (hms3 j)]
  have hdel : ∀ i : Fin (N + 1), (Call.bcast ((ms i).all.flatMap Bunch.stepRecord ++ g i)).deliver (fun i => Call.bcast ((ms i).all.flatMap Bunch.stepRecord ++ g i)) i
      = m.all.flatMap Bunch.stepRecord ++ g 0 := by
    intro i
    simp only [Call.deliver, List.ofFn_succ, List.headD_cons, Call.data, hm0]
  simp only [hdel]
  generalize hR : (tracking (ps 0) J (N + 1)).run = R
  have hRn : R.nodes = N + 1 := by rw [← hR]; rfl
  obtain ⟨M, hM, hMl, _, _, _, _, _, hset⟩ := setupMasters (List.ofFn ms) m (hm0 ▸ Beam.wf_reachable (hms2 0))
    (fun b hb => by obtain ⟨i, rfl⟩ := List.mem_ofFn.mp hb; exact Beam.wf_reachable (hms2 i))
    (fun b hb => by obtain ⟨i, rfl⟩ := List.mem_ofFn.mp hb; exact hms3 i) R.NOTS
  have hset0 := hset (g 0)
  have hM' : ∀ i, setupMaster (ms i) (m.all.flatMap Bunch.stepRecord ++ g 0) R.NOTS = .ok M := by
    intro i
    rcases mapM_ofFn ms (fun m' : Beam => setupMaster m' (m.all.flatMap Bunch.stepRecord ++ g 0) R.NOTS) with ⟨a, h1, e1⟩ | ⟨⟨i, e, h1⟩, e', e1⟩
    · rw [e1, List.length_ofFn, ← List.ofFn_const] at hset0
      injection hset0 with hset0
      have := congrFun (List.ofFn_injective hset0) i
      rw [h1 i, this]
    · rw [e1] at hset0; cases hset0
  refine lock_ok hM' (lock_barriers 4 ?_)
  have hrun : setupRun R (List.ofFn ms) s ⟨ls, (ps 0).tracking.state.watches, []⟩ = (do
      let nodes ← (List.ofFn (fun i : Fin (N + 1) => (M, i.val))).mapM (fun mr : Beam × Nat => setupNode R mr.1 s mr.2)
      let out ← rankZero R.startOut nodes ⟨ls, (ps 0).tracking.state.watches, []⟩
      let nodes ← nodes.mapM (Node.interact R.initInter)
      return ⟨nodes, out⟩) := by
    have hw := Beam.wf_reachable (hms2 0)
    have hge : m.all.length ≤ trackingNOP m.all.length (N + 1) * (N + 1) := by
      rw [Nat.mul_comm]
      exact trackingNOP_ge _ _ (by omega)
    have hcons : List.ofFn ms = m :: List.ofFn (fun i : Fin N => ms i.succ) := by rw [List.ofFn_succ, hm0]
    rw [hm0] at hw
    have hg20 := hg2 0
    rw [hm0] at hg20
    have hj : R.junk 0 0 = J.comm 0 0 := by rw [← hR]; rfl
    rw [hcons]
    unfold setupRun
    simp only [bind, Except.bind, nop_all hw, bufferStep_beam hw, pure, Except.pure, hRn, hj]
    rw [if_neg (by omega)]
    simp only [hg20]
    rw [← hcons, hset0]
    simp only [List.length_ofFn]
    rw [← List.ofFn_const, zipIdx_ofFn]
  rcases mapM_ofFn (fun i : Fin (N + 1) => (M, i.val)) (fun mr : Beam × Nat => setupNode R mr.1 s mr.2) with ⟨n0, h1, e1⟩ | ⟨⟨i, e, h1⟩, e', e1⟩
  swap
  · rw [onRoot_error (e := e') (by unfold runAll runSteps; rw [hrun, e1]; rfl)]
    exact lock_error h1
  refine lock_ok h1 (lock_barriers 2 ?_)
  have hnm : ∀ i, (n0 i).master = M := by
    intro i
    have := h1 i
    unfold setupNode at this
    simp only [bind, Except.bind, pure, Except.pure] at this
    split at this
    · cases this
    split at this
    · cases this
    split at this
    · cases this
    injection this with this
    rw [← this]
  have hlg0 : lg 0 = ls := by have := hlg 0; rw [hm0, hl] at this; injection this with this; exact this.symm
  have hstart := (run_prefix (ps 0) J (N + 1)).1
  have hstep := (run_prefix (ps 0) J (N + 1)).2
  rw [hR] at hstart hstep
  have hNOTS : R.NOTS = (ps 0).tracking.NOTS.toNat := by rw [← hR]; rfl
  have hlock := lock_output R.startOut hstart n0 (fun i => ⟨lg i, (ps i).tracking.state.watches, []⟩)
    (fun i o => Proc.eval ((n0 i).interact R.initInter) fun n => trackLoop R i.val ((L.withRandom (rs i)).finishNode doc (ps i) i.val) (List.range R.NOTS) n o)
    (fun o' => do
      let nodes ← (List.ofFn n0).mapM (Node.interact R.initInter)
      let w ← (List.range R.NOTS).foldlM (Teufel.trackStep R) ⟨nodes, o'⟩
      let fs ← finishRest L doc (ps 0) w
      return asFiles (w.out.files.drop o'.files.length) ++ fs) (by
    intro o' ho'
    rcases mapM_ofFn n0 (Node.interact R.initInter) with ⟨n1, h2, e2⟩ | ⟨⟨i, e, h2⟩, e', e2⟩
    swap
    · rw [onRoot_error (e := e') (by rw [e2]; rfl)]
      exact lock_error h2
    refine lock_ok h2 ?_
    rw [e2]
    have hsetup : setupRun R (List.ofFn ms) s ⟨ls, (ps 0).tracking.state.watches, []⟩ = .ok ⟨List.ofFn n1, o'⟩ := by
      rw [hrun, e1]
      simp only [bind, Except.bind]
      have : rankZero R.startOut (List.ofFn n0) ⟨ls, (ps 0).tracking.state.watches, []⟩ = .ok o' := by
        rw [List.ofFn_succ]
        simp only [rankZero]
        rw [← hlg0]
        exact ho'
      rw [this, e2]
      rfl
    exact lock_track R hstep (fun i n o => (L.withRandom (rs i)).finishNode doc (ps i) i.val n o) (finishRest L doc (ps 0)) (List.range R.NOTS) n1 M
      (fun i => (interact_master (h2 i)).trans (hnm i)) (fun i => if i.val = 0 then o' else ⟨lg i, (ps i).tracking.state.watches, []⟩) (by
        intro ns' M' o'' _ hfold
        have hcount := run_counted R (by omega) (List.ofFn ms) (by simp [hRn]) (fun b hb => by obtain ⟨i, rfl⟩ := List.mem_ofFn.mp hb; exact Beam.wf_reachable (hms2 i))
          m (by rw [List.ofFn_succ, hm0]; rfl) (fun b hb => by obtain ⟨i, rfl⟩ := List.mem_ofFn.mp hb; exact hms3 i) s ⟨ls, (ps 0).tracking.state.watches, []⟩ R.NOTS
          ⟨List.ofFn ns', o''⟩ (by unfold runSteps; rw [hsetup]; exact hfold)
        have := lock_finish L rs doc ps (fun i => (sameParsed_ok (hsame i)).1) (fun i => (sameParsed_ok (hsame i)).2.2.2.2) hfresh ns'
          (fun i => hcount.1 _ (List.mem_ofFn.mpr ⟨i, rfl⟩)) (fun i => if i.val = 0 then o'' else if i.val = 0 then o' else ⟨lg i, (ps i).tracking.state.watches, []⟩)
        exact this))
  convert hlock using 2
  unfold runAll runSteps
  rw [hrun, e1]
  simp only [bind, Except.bind, hlg0]
  cases ho : rankZero R.startOut (List.ofFn n0) ⟨ls, (ps 0).tracking.state.watches, []⟩ with
  | error e => rfl
  | ok o' =>
    simp only
    cases hi : (List.ofFn n0).mapM (Node.interact R.initInter) with
    | error e => rfl
    | ok nodes =>
      simp only [pure, Except.pure]
      cases hw : (List.range R.NOTS).foldlM (Teufel.trackStep R) ⟨nodes, o'⟩ with
      | error e => rfl
      | ok w =>
        simp only
        rw [finish_eq]
        cases finishRest L doc (ps 0) w with
        | error e => rfl
        | ok fs =>
          simp only [bind, Except.bind, pure, Except.pure, Except.ok.injEq]
          have := asFiles_drop (List.nil_prefix (l := o'.files)) (fold_files R hstep _ hw)
          simp only [List.length_nil, List.drop_zero] at this
          rw [this, List.append_assoc]
          rfl

/-- the whole program -/
theorem lock_program (L : Lib) (rnd : Nat → (Nat → Nat → ℝ) × (Nat → Nat → Nat → ℝ)) (J : Indet) (doc : Xml) :
    Lock (fun i : Fin (N + 1) => (L.withRandom (rnd i.val)).nodeProgram J (N + 1) doc i.val) (onRoot (L.program rnd J (N + 1) doc)) := by
  have herr : ∀ e, (L.withRandom (rnd 0)).parse doc = .error e → onRoot (N := N) (L.program rnd J (N + 1) doc) = none := by
    intro e he
    refine onRoot_error (e := e) ?_
    unfold program
    rw [List.range_succ_eq_map, List.mapM_cons, he]
    rfl
  have hparse : ∀ i : Fin (N + 1), (L.withRandom (rnd i.val)).parse doc = (do
      let root ← need (doc.child "teufel")
      let lattice ← L.parseLattice root (L.start root) []
      let beam ← (L.withRandom (rnd i.val)).parseBeam root lattice.env
      let tracking ← L.parseTracking root beam.env
      let observers ← L.parseObservers root tracking.state.env
      return ⟨lattice, beam, tracking, observers⟩) := fun i => rfl
  unfold nodeProgram
  refine lock_barriers 3 ?_
  have hp0 := hparse 0
  simp only [Fin.val_zero] at hp0
  cases hroot : need (doc.child "teufel") with
  | error e =>
    rw [herr e (by rw [hp0, hroot]; rfl)]
    exact lock_error (i := 0) (e := e) rfl
  | ok root =>
  refine lock_ok (a := fun _ => root) (fun _ => rfl) ?_
  have e1 : ∀ i : Fin (N + 1), (L.withRandom (rnd i.val)).parseLattice root ((L.withRandom (rnd i.val)).start root) [] = L.parseLattice root (L.start root) [] := fun _ => rfl
  have e2 : ∀ (i : Fin (N + 1)) env, (L.withRandom (rnd i.val)).parseTracking root env = L.parseTracking root env := fun _ _ => rfl
  have e3 : ∀ (i : Fin (N + 1)) env, (L.withRandom (rnd i.val)).parseObservers root env = L.parseObservers root env := fun _ _ => rfl
  simp only [e1, e2, e3]
  cases hlat : L.parseLattice root (L.start root) [] with
  | error e =>
    rw [herr e (by rw [hp0, hroot]; simp only [bind, Except.bind, hlat])]
    exact lock_error (i := 0) (e := e) rfl
  | ok lat =>
  refine lock_ok (a := fun _ => lat) (fun _ => rfl) (lock_barriers 2 ?_)
  cases hb0 : (L.withRandom (rnd 0)).parseBeam root lat.env with
  | error e =>
    rw [herr e (by rw [hp0, hroot]; simp only [bind, Except.bind, hlat, hb0])]
    exact lock_error (i := 0) (e := e) hb0
  | ok b0 =>
  have hbs : ∀ i : Fin (N + 1), ∃ b, (L.withRandom (rnd i.val)).parseBeam root lat.env = .ok b ∧ SameState b0 b := by
    intro i
    have h := parseBeam_same (L.withRandom (rnd 0)) (rnd i.val) root lat.env
    rw [hb0] at h
    change SameStates (.ok b0) ((L.withRandom (rnd i.val)).parseBeam root lat.env) at h
    cases hb : (L.withRandom (rnd i.val)).parseBeam root lat.env with
    | error e => rw [hb] at h; exact h.elim
    | ok b => rw [hb] at h; exact ⟨b, rfl, h⟩
  choose bs hbs1 hbs2 using hbs
  refine lock_ok hbs1 (lock_barriers 2 ?_)
  have henv : ∀ i, (bs i).env = b0.env := fun i => (hbs2 i).1.symm
  simp only [henv]
  cases ht : L.parseTracking root b0.env with
  | error e =>
    rw [herr e (by rw [hp0, hroot]; simp only [bind, Except.bind, hlat, hb0, ht])]
    exact lock_error (i := 0) (e := e) rfl
  | ok tr =>
  refine lock_ok (a := fun _ => tr) (fun _ => rfl) (lock_barriers 2 ?_)
  cases ho : L.parseObservers root tr.state.env with
  | error e =>
    rw [herr e (by rw [hp0, hroot]; simp only [bind, Except.bind, hlat, hb0, ht, ho])]
    exact lock_error (i := 0) (e := e) rfl
  | ok obs =>
  refine lock_ok (a := fun _ => obs) (fun _ => rfl) (lock_barriers 6 ?_)
  have hall : ∀ i : Fin (N + 1), (L.withRandom (rnd i.val)).parse doc = .ok ⟨lat, bs i, tr, obs⟩ := by
    intro i
    rw [hparse i, hroot]
    simp only [bind, Except.bind, hlat, hbs1 i, henv, ht, ho]
    rfl
  have hb00 : bs 0 = b0 := by have := hbs1 0; simp only [Fin.val_zero] at this; rw [hb0] at this; injection this with this; exact this.symm
  have hlock := lock_run L (fun i => rnd i.val) J doc (fun i => ⟨lat, bs i, tr, obs⟩) (fun i => ⟨rfl, hb00 ▸ hbs2 i, rfl, rfl⟩)
    (fun spec hs => parse_fresh (L.withRandom (rnd 0)) doc ⟨lat, bs 0, tr, obs⟩ (hall 0) spec hs)
  convert hlock using 2
  unfold program
  have hrange : (List.range (N + 1)).mapM (fun r : Nat => (L.withRandom (rnd r)).parse doc) = .ok (List.ofFn (fun i : Fin (N + 1) => (⟨lat, bs i, tr, obs⟩ : Parsed))) := by
    have : List.range (N + 1) = List.ofFn (fun i : Fin (N + 1) => i.val) := by
      apply List.ext_getElem
      · simp
      · intro i h1 h2; rw [List.getElem_range, List.getElem_ofFn]
    rw [this]
    rcases mapM_ofFn (fun i : Fin (N + 1) => i.val) (fun r : Nat => (L.withRandom (rnd r)).parse doc) with ⟨a, h1, e1⟩ | ⟨⟨i, e, h1⟩, _⟩
    · have ha : a = fun i : Fin (N + 1) => (⟨lat, bs i, tr, obs⟩ : Parsed) := by
        funext i
        have h := h1 i
        rw [hall i] at h
        injection h with h
        exact h.symm
      rw [e1, ha]
    · rw [hall i] at h1; cases h1
  rw [hrange]
  simp only [bind, Except.bind]
  rw [List.ofFn_succ]

end Lib
end Teufel
