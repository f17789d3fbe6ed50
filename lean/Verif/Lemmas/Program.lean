import Verif.Props.ProbeLog
import Verif.Props.Observation
import Verif.Props.Mesh
import Verif.Lemmas.ParseRandom
import Verif.Spec.Program

/-!
# Lemmas about the program as a whole
-/

namespace Teufel
open Vec

variable {σ : Type}

/-- number of particles requested by the probe logger -/
def probeNumber (probe : Option (Nat × Nat)) : Nat := (probe.map Prod.snd).getD 0

theorem records_first (R : Run σ Output) {junk : Nat → ℝ} {fuel : Nat} {probe : Option (Nat × Nat)} (hR : R.Records junk fuel probe) :
    R.FirstOut (probeNumber probe) (fun o => ∀ l ∈ o.loggers, LooksAt (probeNumber probe) l) (fun o => ∀ l ∈ o.loggers, LooksAt (probeNumber probe) l) := by
  cases probe with
  | none =>
    refine ⟨?_, ?_, ?_, ?_⟩
    · intro m dt nots c c' o h1 h2 h ho
      rw [hR.2]
      exact start_first junk fuel m dt nots h1 h2 h ho
    · intro m dt nots c o o' h1 ho h
      rw [hR.2] at h
      exact start_looks ho h
    · intro k m dt nots c c' o h1 h2 h ho
      rw [hR.1]
      exact step_first junk fuel k m dt nots h1 h2 h ho
    · intro k m t o o' ho h
      rw [hR.1] at h
      exact step_looks ho h
  | some pr =>
    obtain ⟨st, number⟩ := pr
    have h := withProbe_first (⟨R.nodes, R.NOTS, R.lattice, R.initInter, R.stepInter, fun _ _ o => .ok o, fun _ _ _ o => .ok o, R.junk⟩ : Run σ Unit) junk fuel st number
    refine ⟨?_, ?_, ?_, ?_⟩
    · intro m dt nots c c' o h1 h2 h3 ho
      rw [hR.2]
      exact h.start m dt nots c c' o h1 h2 h3 ho
    · intro m dt nots c o o' h1 ho h2
      rw [hR.2] at h2
      exact h.startKeeps m dt nots c o o' h1 ho h2
    · intro k m dt nots c c' o h1 h2 h3 ho
      rw [hR.1]
      exact h.step k m dt nots c c' o h1 h2 h3 ho
    · intro k m t o o' ho h2
      rw [hR.1] at h2
      exact h.stepKeeps k m t o o' ho h2

/-- outcomes of a run on `nodes` nodes and on one node: same output, master beams, interactions and tracked particles -/
def SameWorlds (nodes : Nat) (r r₁ : Except Err (World σ Output)) : Prop :=
  match r, r₁ with
  | .ok w, .ok w₁ => w.nodes.length = nodes ∧ w₁.nodes.length = 1 ∧ w.out = w₁.out ∧
      (∀ n ∈ w.nodes, ∀ n₁ ∈ w₁.nodes, n.master = n₁.master ∧ n.inter = n₁.inter) ∧
      w.nodes.flatMap (fun n => n.tracked.all) = w₁.nodes.flatMap (fun n => n.tracked.all)
  | .error e, .error e₁ => e = e₁
  | _, _ => False

theorem setup_head (ms : List Beam) (m0 : Beam) (hm0 : ms.head? = some m0) (NOTS : Nat) (buf : List ℝ) (M : Beam)
    (e : ms.mapM (fun m : Beam => setupMaster m buf NOTS) = .ok (List.replicate ms.length M)) : setupMaster m0 buf NOTS = .ok M := by
  cases ms with
  | nil => simp at hm0
  | cons m ms =>
    simp only [List.head?_cons, Option.some.injEq] at hm0
    subst hm0
    rw [List.mapM_cons] at e
    cases hx : setupMaster m buf NOTS with
    | error e' => rw [hx] at e; cases e
    | ok b =>
      rw [hx] at e
      simp only [bind, Except.bind, pure, Except.pure] at e
      split at e
      · cases e
      · injection e with e
        rw [List.length_cons, List.replicate_succ] at e
        injection e with e _
        rw [e]

theorem world_flat (A : Abs σ Output) (n N : Nat) (hN : 0 < N) (h : A.T.length = n) :
    (A.world (trackingNOP n N) N).nodes.flatMap (fun n => n.tracked.all) = A.T := by
  unfold Abs.world
  simp only [List.flatMap_map]
  have : (fun c : List Particle => (oneBunch A.dt A.nots c).all) = id := by
    funext c
    simp [oneBunch, Beam.all]
  rw [this, ← List.flatten_eq_flatMap, chunks_flatten]
  rw [h]
  exact trackingNOP_ge _ _ hN

theorem nodes_same (R R₁ : Run σ Output) (r0 : R₁.nodes = 1) (r1 : R₁.NOTS = R.NOTS) (r2 : R₁.lattice = R.lattice) (r3 : R₁.initInter = R.initInter)
    (r4 : R₁.stepInter = R.stepInter) (r5 : R₁.startOut = R.startOut) (r6 : R₁.stepOut = R.stepOut) {junk : Nat → ℝ} {fuel : Nat} {probe : Option (Nat × Nat)}
    (hR : R.Records junk fuel probe) (hN : 0 < R.nodes) (ms : List Beam) (hlen : ms.length = R.nodes)
    (hreach : ∀ m ∈ ms, Beam.Reachable m) (m0 : Beam) (hm0 : ms.head? = some m0) (hblank : ∀ m ∈ ms, Beam.blank m = m0.blank)
    (total : Nat) (ht : m0.getNOP = .ok total) (hnum : probeNumber probe ≤ ⌈(total : ℚ) / R.nodes⌉₊) (s : σ) (out : Output) (hout : ∀ L, Logger.probe L ∉ out.loggers)
    (k : Nat) : SameWorlds R.nodes (runSteps R ms s out k) (runSteps R₁ [m0] s out k) := by
  have hwf : ∀ m ∈ ms, Beam.WF m := fun m hm => Beam.wf_reachable (hreach m hm)
  have hm0wf := hwf m0 (List.mem_of_head? hm0)
  obtain ⟨M, hM, hMl, _, _, _, hMall, _, hset⟩ := setupMasters ms m0 hm0wf hwf hblank R.NOTS
  have hset' : ∀ g, [m0].mapM (fun m : Beam => setupMaster m (m0.all.flatMap Bunch.stepRecord ++ g) R₁.NOTS) = .ok (List.replicate [m0].length M) := by
    intro g
    rw [List.mapM_cons, r1, setup_head ms m0 hm0 R.NOTS _ M (hset g)]
    rfl
  have htot : total = M.all.length := by
    rw [nop_all hm0wf] at ht
    injection ht with ht
    rw [hMl, ht]
  rw [← trackingNOP_ceil _ _ hN, htot] at hnum
  have hle := trackingNOP_le M.all.length R.nodes hN
  have hr := runSteps_abs R hN ms hlen hwf m0 hm0 hblank s out M hM hMl hset k
  have hr₁ := runSteps_abs R₁ (by omega) [m0] (by simp [r0]) (by simpa using hm0wf) m0 rfl (by simp) s out M hM hMl hset' k
  have hI : ∀ l ∈ out.loggers, LooksAt (probeNumber probe) l := by
    intro l hl L e
    subst e
    exact absurd hl (hout L)
  have hab := absRun_first R R₁ (records_first R hR) (trackingNOP M.all.length R.nodes) (trackingNOP M.all.length 1) M s out hI k r1 r2 r3 r4 r5 r6 hnum
    (by rw [trackingNOP_one]; omega) (by omega)
  rw [hr.1, hr₁.1, r0, hab]
  cases hA : absRun R (trackingNOP M.all.length R.nodes) M s out k with
  | error e => exact rfl
  | ok A =>
    obtain ⟨hAi, hAl⟩ := hr.2 A hA
    refine ⟨by simp [Abs.world, chunks], by simp [Abs.world, chunks], rfl, ?_, ?_⟩
    · intro n hn n₁ hn₁
      simp only [Abs.world, List.mem_map] at hn hn₁
      obtain ⟨c, _, rfl⟩ := hn
      obtain ⟨c₁, _, rfl⟩ := hn₁
      exact ⟨rfl, rfl⟩
    · rw [world_flat A _ _ hN (hAi.2.trans hAl), world_flat A _ 1 (by simp) (hAi.2.trans hAl)]

namespace Lib

/-! ## The beams of the nodes -/

theorem Add_fold (bs : List Bunch) : ∀ b : Beam, bs.foldl Beam.Add b = { b with NOB := b.NOB + bs.length, B := b.B ++ bs } := by
  induction bs with
  | nil => intro b; simp
  | cons x bs ih =>
    intro b
    rw [List.foldl_cons, ih]
    simp only [Beam.Add, List.length_cons, List.append_assoc, List.singleton_append]
    congr 1
    omega

theorem Add_reachable (bs : List Bunch) (h : ∀ b ∈ bs, Bunch.Reachable b) : ∀ b : Beam, b.Reachable → (bs.foldl Beam.Add b).Reachable := by
  induction bs with
  | nil => intro b hb; exact hb
  | cons x bs ih =>
    intro b hb
    exact ih (fun y hy => h y (by simp [hy])) _ (.Add x hb (h x (by simp)))

theorem reach_set {b : Beam} (h : b.Reachable) (t : Tracker) (dt : ℝ) (n : Int) : Beam.Reachable { b with tracker := t, dt := dt, NOTS := n } := by
  have h1 := Beam.Reachable.setTracking t h
  have h2 := Beam.Reachable.setTimeStep dt h1
  exact Beam.Reachable.setNOTS n h2

theorem mapM_same : ∀ {l l' : List (Except Err Bunch)}, List.Forall₂ SameBunch l l' →
    match l.mapM id, l'.mapM id with
    | .ok bs, .ok bs' => (∀ b ∈ bs, Bunch.Reachable b) ∧ (∀ b ∈ bs', Bunch.Reachable b) ∧
        bs.map (fun bu : Bunch => { bu with P := bu.P.map Particle.blank }) = bs'.map (fun bu : Bunch => { bu with P := bu.P.map Particle.blank })
    | .error e, .error e' => e = e'
    | _, _ => False := by
  intro l l' h
  induction h with
  | nil => exact ⟨by simp, by simp, rfl⟩
  | @cons x x' l l' h1 _ ih =>
    rw [List.mapM_cons, List.mapM_cons]
    cases x with
    | error e =>
      cases x' with
      | error e' => exact h1
      | ok b' => exact h1.elim
    | ok b =>
      cases x' with
      | error e' => exact h1.elim
      | ok b' =>
        obtain ⟨g1, g2, g3, g4⟩ := h1
        simp only [id, bind, Except.bind, pure, Except.pure]
        change match (l.mapM id), (l'.mapM id) with | .ok bs, .ok bs' => _ | .error e, .error e' => _ | _, _ => _ at ih
        cases hl : l.mapM id with
        | error e =>
          rw [hl] at ih
          cases hl' : l'.mapM id with
          | error e' => rw [hl'] at ih; exact ih
          | ok bs' => rw [hl'] at ih; exact ih.elim
        | ok bs =>
          rw [hl] at ih
          cases hl' : l'.mapM id with
          | error e' => rw [hl'] at ih; exact ih.elim
          | ok bs' =>
            rw [hl'] at ih
            obtain ⟨i1, i2, i3⟩ := ih
            refine ⟨?_, ?_, ?_⟩
            · intro y hy
              rcases List.mem_cons.1 hy with rfl | hy
              · exact g1
              · exact i1 y hy
            · intro y hy
              rcases List.mem_cons.1 hy with rfl | hy
              · exact g2
              · exact i2 y hy
            · rw [List.map_cons, List.map_cons, i3, g3, g4]

theorem masterBeam_same {p p' : Parsed} (hb : SameState p.beam p'.beam) (ht : p.tracking = p'.tracking) :
    match masterBeam p, masterBeam p' with
    | .ok b, .ok b' => b.Reachable ∧ b'.Reachable ∧ b.blank = b'.blank
    | .error e, .error e' => e = e'
    | _, _ => False := by
  have h := mapM_same hb.2.1
  unfold masterBeam
  simp only [bind, Except.bind, pure, Except.pure]
  cases hl : p.beam.bunches.mapM id with
  | error e =>
    rw [hl] at h
    cases hl' : p'.beam.bunches.mapM id with
    | error e' => rw [hl'] at h; exact h
    | ok bs' => rw [hl'] at h; exact h.elim
  | ok bs =>
    rw [hl] at h
    cases hl' : p'.beam.bunches.mapM id with
    | error e' => rw [hl'] at h; exact h.elim
    | ok bs' =>
      rw [hl'] at h
      obtain ⟨h1, h2, h3⟩ := h
      refine ⟨reach_set (Add_reachable bs h1 _ .empty) _ _ _, reach_set (Add_reachable bs' h2 _ .empty) _ _ _, ?_⟩
      have hlen : bs.length = bs'.length := by simpa using congrArg List.length h3
      rw [Add_fold, Add_fold]
      simp only [Beam.blank, Beam.empty, List.nil_append, ht, h3, hlen]

/-! ## Observers -/

theorem mesh_fresh {f : MeshFile} {m : Mesh} (h : Mesh.ofFile f = .ok m) : (Observer.mesh m.zero.toObs).Fresh := by
  obtain ⟨⟨_, h1, _, h2, h3⟩, _⟩ := C73_created f m h
  have e : m.zero.toObs = MeshObs.new m.points (m.A.map (fun tr => tr.t0)) m.dt m.Nt := by
    simp only [Mesh.zero, Mesh.toObs, MeshObs.new, h1, List.map_map, MeshObs.mk.injEq, true_and]
    apply List.map_congr_left
    intro tr htr
    obtain ⟨g1, g2, g3⟩ := h3 tr htr
    unfold FieldTrace.WF at g1
    simp only [FieldTrace.zero, FieldTrace.new, Function.comp_apply]
    rw [List.drop_of_length_le (by omega), List.append_nil, g2, ← g3]
  rw [e]
  exact .mesh _ _ _ _ (by rw [List.length_map, h1, h2])

/-- an observer as the parser makes it: newly constructed, a mesh from the contents of its file -/
def Loaded (L : Lib) (o : ObserverSpec) : Prop :=
  o.observer.Fresh ∧ ∀ s, o.observer = .mesh s → ∃ f m, L.mesh o.file = some f ∧ Mesh.ofFile f = .ok m ∧ s = m.zero.toObs

theorem need_some {α : Type} {x : Option α} {a : α} (h : need x = .ok a) : x = some a := by
  cases x with
  | none => cases h
  | some b => injection h with h; rw [h]

theorem entry_loaded (L : Lib) {env : Env} {obs : Xml} {o : ObserverSpec} (h : L.observerEntry env obs = .ok o) : L.Loaded o := by
  unfold observerEntry at h
  have fin : ∀ {α} {r : Except Err α} {g : α → Except Err ObserverSpec}, r.bind g = .ok o → (∀ a, r = .ok a → g a = .ok o → L.Loaded o) → L.Loaded o := by
    intro α r g h1 h2
    cases hr : r with
    | error e => rw [hr] at h1; cases h1
    | ok a => rw [hr] at h1; exact h2 a hr h1
  split_ifs at h
  · unfold snapshotEntry at h
    simp only [bind] at h
    repeat refine fin h ?_; clear h; intro _ _ h
    injection h with h
    subst h
    exact ⟨.snapshot _ _ _ _ _ _, fun _ e => by cases e⟩
  · unfold screenEntry at h
    simp only [bind] at h
    repeat refine fin h ?_; clear h; intro _ _ h
    injection h with h
    subst h
    exact ⟨.screen _ _ _ _ _ _ _ _ _ _, fun _ e => by cases e⟩
  · unfold meshEntry at h
    simp only [bind] at h
    refine fin h ?_; clear h; intro _ _ h
    refine fin h ?_; clear h; intro _ _ h
    refine fin h ?_; clear h; intro f hf h
    refine fin h ?_; clear h; intro m hm h
    refine fin h ?_; clear h; intro _ _ h
    injection h with h
    subst h
    exact ⟨mesh_fresh hm, fun s e => ⟨f, m, need_some hf, hm, by injection e with e; exact e.symm⟩⟩
  · unfold pointEntry at h
    simp only [bind] at h
    repeat refine fin h ?_; clear h; intro _ _ h
    injection h with h
    subst h
    exact ⟨.point _ _ _ _, fun _ e => by cases e⟩

theorem observers_fold (L : Lib) (l : List Xml) : ∀ (s s' : ObserverState), l.foldlM L.observerStep s = .ok s' → (∀ o ∈ s.observers, L.Loaded o) →
    ∀ o ∈ s'.observers, L.Loaded o := by
  induction l with
  | nil =>
    intro s s' h hs
    injection h with h
    subst h
    exact hs
  | cons x l ih =>
    intro s s' h hs
    rw [List.foldlM_cons] at h
    cases hx : L.observerStep s x with
    | error e => rw [hx] at h; cases h
    | ok s1 =>
      rw [hx] at h
      refine ih s1 s' h ?_
      unfold observerStep at hx
      split_ifs at hx with hc
      · injection hx with hx
        subst hx
        exact hs
      · cases he : L.observerEntry (L.parseCalcChildren s.env x) x with
        | error e => rw [he] at hx; cases hx
        | ok o =>
          rw [he] at hx
          injection hx with hx
          subst hx
          intro o' ho'
          rcases List.mem_append.1 ho' with ho' | ho'
          · exact hs o' ho'
          · rw [List.mem_singleton] at ho'
            subst ho'
            exact entry_loaded L he

theorem element_external (L : Lib) {env : Env} {el : Xml} {r : Env × GeneralField} (h : L.latticeElement env el = .ok r) : r.2.isExternal = true := by
  unfold latticeElement at h
  have fin : ∀ {α} {x : Except Err α} {g : α → Except Err (Env × GeneralField)}, x.bind g = .ok r → (∀ a, x = .ok a → g a = .ok r → r.2.isExternal = true) → r.2.isExternal = true := by
    intro α x g h1 h2
    cases hx : x with
    | error e => rw [hx] at h1; cases h1
    | ok a => rw [hx] at h1; exact h2 a hx h1
  have finm : ∀ {x : Except Err GeneralField} {en : Env}, x.map (fun f => (en, f)) = .ok r → (∀ a, x = .ok a → a.isExternal = true) → r.2.isExternal = true := by
    intro x en h1 h2
    cases hx : x with
    | error e => rw [hx] at h1; cases h1
    | ok a =>
      rw [hx] at h1
      injection h1 with h1
      rw [← h1]
      exact h2 a hx
  have fin' : ∀ {α} {x : Except Err α} {y : GeneralField} {g : α → Except Err GeneralField}, x.bind g = .ok y → (∀ a, x = .ok a → g a = .ok y → y.isExternal = true) → y.isExternal = true := by
    intro α x y g h1 h2
    cases hx : x with
    | error e => rw [hx] at h1; cases h1
    | ok a => rw [hx] at h1; exact h2 a hx h1
  simp only at h
  split_ifs at h
  · unfold planarUndulator at h
    simp only [bind] at h
    repeat refine fin h ?_; clear h; intro _ _ h
    injection h with h
    rw [← h]; rfl
  · unfold gradientUndulator at h
    simp only [bind] at h
    repeat refine fin h ?_; clear h; intro _ _ h
    injection h with h
    rw [← h]; rfl
  · refine finm h ?_
    intro a h
    unfold gaussianWave at h
    simp only [bind] at h
    repeat refine fin' h ?_; clear h; intro _ _ h
    injection h with h
    rw [← h]; rfl
  · refine finm h ?_
    intro a h
    unfold wavePacket at h
    simp only [bind] at h
    repeat refine fin' h ?_; clear h; intro _ _ h
    injection h with h
    rw [← h]; rfl
  · refine finm h ?_
    intro a h
    unfold sourceScreen at h
    simp only [bind] at h
    refine fin' h ?_; clear h; intro _ _ h
    refine fin' h ?_; clear h; intro _ _ h
    refine fin' h ?_; clear h; intro f _ h
    generalize SourceScreen.ofFile f _ _ = x at h
    cases x with
    | ok s =>
      injection h with h
      rw [← h]; rfl
    | error e =>
      cases e <;> cases h
      rfl
  · unfold hardEdgeDipole at h
    simp only [bind] at h
    repeat refine fin h ?_; clear h; intro _ _ h
    injection h with h
    rw [← h]; rfl
  · unfold softEdgeDipole at h
    simp only [bind] at h
    repeat refine fin h ?_; clear h; intro _ _ h
    injection h with h
    rw [← h]; rfl
  · injection h with h
    rw [← h]; rfl

theorem lattice_external (L : Lib) (root : Xml) (env : Env) (s : LatticeState) (h : L.parseLattice root env [] = .ok s) : ∀ e ∈ s.lattice, e.isExternal = true := by
  unfold parseLattice at h
  cases hn : need (root.child "lattice") with
  | error e => rw [hn] at h; cases h
  | ok node =>
    rw [hn] at h
    simp only [bind, Except.bind] at h
    have key : ∀ (l : List Xml) (s s' : LatticeState), l.foldlM L.latticeStep s = .ok s' → (∀ e ∈ s.lattice, e.isExternal = true) → ∀ e ∈ s'.lattice, e.isExternal = true := by
      intro l
      induction l with
      | nil =>
        intro s s' h hs
        injection h with h
        subst h
        exact hs
      | cons x l ih =>
        intro s s' h hs
        rw [List.foldlM_cons] at h
        cases hx : L.latticeStep s x with
        | error e => rw [hx] at h; cases h
        | ok s1 =>
          rw [hx] at h
          refine ih s1 s' h ?_
          unfold latticeStep at hx
          split_ifs at hx with hc
          · injection hx with hx
            subst hx
            exact hs
          · cases he : L.latticeElement s.env x with
            | error e => rw [he] at hx; cases hx
            | ok r =>
              rw [he] at hx
              injection hx with hx
              subst hx
              intro e hm
              rcases List.mem_append.1 hm with hm | hm
              · exact hs e hm
              · rw [List.mem_singleton] at hm
                subst hm
                exact element_external L he
    exact key _ _ _ h (by simp)

theorem parse_loaded (L : Lib) (doc : Xml) (p : Parsed) (h : L.parse doc = .ok p) :
    (∀ o ∈ p.observers.observers, L.Loaded o) ∧ ∀ e ∈ p.lattice.lattice, e.isExternal = true := by
  unfold parse at h
  simp only [bind, Except.bind, pure, Except.pure] at h
  cases h1 : need (doc.child "teufel") with
  | error e => rw [h1] at h; cases h
  | ok root =>
  rw [h1] at h
  simp only at h
  cases h2 : L.parseLattice root (L.start root) [] with
  | error e => rw [h2] at h; cases h
  | ok lat =>
  rw [h2] at h
  simp only at h
  cases h3 : L.parseBeam root lat.env with
  | error e => rw [h3] at h; cases h
  | ok be =>
  rw [h3] at h
  simp only at h
  cases h4 : L.parseTracking root be.env with
  | error e => rw [h4] at h; cases h
  | ok tr =>
  rw [h4] at h
  simp only at h
  cases h5 : L.parseObservers root tr.state.env with
  | error e => rw [h5] at h; cases h
  | ok ob =>
  rw [h5] at h
  injection h with h
  subst h
  refine ⟨?_, lattice_external L root _ _ h2⟩
  unfold parseObservers at h5
  cases h6 : need (root.child "observer") with
  | error e => rw [h6] at h5; cases h5
  | ok node =>
    rw [h6] at h5
    exact observers_fold L _ _ _ h5 (by simp)

theorem parse_fresh (L : Lib) (doc : Xml) (p : Parsed) (h : L.parse doc = .ok p) : ∀ o ∈ p.observers.observers, o.observer.Fresh :=
  fun o ho => ((parse_loaded L doc p h).1 o ho).1

end Lib

/-! ## Agreement -/

theorem Agree.rfl' {α : Type} {r : Except Err α} : Agree r r := by
  cases r <;> simp [Agree]

theorem Agree.bind {α β : Type} {r r' : Except Err α} {f g : α → Except Err β} (h : Agree r r') (hf : ∀ a, r = .ok a → Agree (f a) (g a)) : Agree (r >>= f) (r' >>= g) := by
  cases r with
  | error e =>
    cases r' with
    | error e' => trivial
    | ok a => exact h.elim
  | ok a =>
    cases r' with
    | error e' => exact h.elim
    | ok b =>
      have e : a = b := h
      subst e
      exact hf a rfl

theorem Agree.mapM {α β : Type} {f g : α → Except Err β} {l : List α} (h : ∀ a ∈ l, Agree (f a) (g a)) : Agree (l.mapM f) (l.mapM g) := by
  induction l with
  | nil => exact rfl
  | cons a l ih =>
    rw [List.mapM_cons, List.mapM_cons]
    refine Agree.bind (h a (by simp)) ?_
    intro b _
    refine Agree.bind (ih (fun x hx => h x (by simp [hx]))) ?_
    intro bs _
    exact rfl

end Teufel
