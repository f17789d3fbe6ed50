import Verif.Lemmas.Hybrid

/-! # The distributed program simulates tracking of a single list of particles -/

namespace Teufel
open Vec

/-- a beam with one bunch set up for Vay tracking -/
def oneBunch (dt : ℝ) (nots : Int) (ps : List Particle) : Beam := ⟨1, [⟨ps.length, ps⟩], nots, dt, .vay⟩

/-- state of the reference program: one master beam, one list of all tracked particles -/
structure Abs (σ ω : Type) where
  M : Beam
  T : List Particle
  dt : ℝ
  nots : Int
  s : σ
  out : ω

variable {σ ω : Type}

/-- the distributed state represented by a state of the reference program -/
def Abs.world (A : Abs σ ω) (TN N : Nat) : World σ ω :=
  ⟨(chunks TN N A.T).map (fun c => ⟨A.M, oneBunch A.dt A.nots c, A.s⟩), A.out⟩

/-- invariant -/
def Abs.Inv (A : Abs σ ω) : Prop := A.M.WF ∧ A.T.length = A.M.all.length

/-- one step of the reference program -/
noncomputable def absStep (R : Run σ ω) (TN : Nat) (A : Abs σ ω) (step : Nat) : Except Err (Abs σ ω) := do
  let T ← A.T.mapM (fun p => dropState (p.StepVay (R.lattice A.s)))
  let M ← A.M.setStepFromBuffer (T.flatMap Bunch.stepRecord)
  if M.NOTS ≠ step + 1 then .error .io
  let out ← R.stepOut (step + 1) M (oneBunch A.dt (A.nots + 1) (T.take TN)) A.out
  let s ← R.stepInter M A.s
  return ⟨M, T, A.dt, A.nots + 1, s, out⟩

theorem bunch_mapM (f : Particle → PRes) (c : List Particle) :
    dropState (Bunch.wrap ⟨c.length, c⟩ (forEach f c.length c)) = (c.mapM (fun p => dropState (f p))).map (fun c' => ⟨c.length, c'⟩) := by
  rw [← forEach_mapM]
  cases forEach f c.length c <;> rfl

theorem oneBunch_step (dt : ℝ) (nots : Int) (c : List Particle) (f : FieldFn) :
    dropState ((oneBunch dt nots c).doStep f) = (c.mapM (fun p => dropState (p.StepVay f))).map (fun c' => oneBunch dt (nots + 1) c') := by
  have h := bunch_mapM (fun p => p.StepVay f) c
  unfold Beam.doStep oneBunch
  simp only [Beam.StepVay, forEach, Bunch.StepVay]
  cases hw : Bunch.wrap ⟨c.length, c⟩ (forEach (fun p => p.StepVay f) c.length c) with
  | error e =>
    rw [hw] at h
    cases hm : c.mapM (fun p => dropState (p.StepVay f)) with
    | error e' =>
      rw [hm] at h
      obtain ⟨e1, b1⟩ := e
      simp only [dropState, Except.map] at h
      injection h with h
      rw [h]
      rfl
    | ok c' => rw [hm] at h; cases h
  | ok b =>
    rw [hw] at h
    cases hm : c.mapM (fun p => dropState (p.StepVay f)) with
    | error e' => rw [hm] at h; cases h
    | ok c' =>
      rw [hm] at h
      simp only [dropState, Except.map] at h
      injection h with h
      rw [h]
      have := mapM_except_length hm
      simp only [Beam.wrap, dropState, Except.map, this]

theorem oneBunch_buffer (dt : ℝ) (nots : Int) (c : List Particle) : (oneBunch dt nots c).bufferStep = .ok (c.flatMap Bunch.stepRecord) := by
  have h : Bunch.bufferStep ⟨c.length, c⟩ = .ok (c.flatMap Bunch.stepRecord) := by
    unfold Bunch.bufferStep
    rw [visited_all rfl]
    rfl
  have hv : visited 1 [(⟨c.length, c⟩ : Bunch)] = .ok [⟨c.length, c⟩] := rfl
  unfold Beam.bufferStep oneBunch
  simp only [hv]
  simp only [bind, Except.bind, List.mapM_cons, List.mapM_nil, h, pure, Except.pure, List.flatten_cons, List.flatten_nil, List.append_nil]

theorem gather (R : Run σ ω) (M : Beam) (hM : M.WF) (dt : ℝ) (nots : Int) (s : σ) (step : Nat) :
    ∀ (N k : Nat) (T : List Particle), T.length ≤ N * trackingNOP M.all.length R.nodes →
      ∃ bufs g, (((chunks (trackingNOP M.all.length R.nodes) N T).map (fun c => (⟨M, oneBunch dt nots c, s⟩ : Node σ))).zipIdx k).mapM
          (Node.contribution R step) = .ok bufs ∧ bufs.flatten = T.flatMap Bunch.stepRecord ++ g := by
  intro N
  induction N with
  | zero =>
    intro k T hT
    rw [Nat.zero_mul, Nat.le_zero] at hT
    rw [List.eq_nil_of_length_eq_zero hT]
    exact ⟨[], [], rfl, rfl⟩
  | succ N ih =>
    intro k T hT
    rw [chunks_succ, List.map_cons, List.zipIdx_cons, List.mapM_cons]
    have hT' : (T.drop (trackingNOP M.all.length R.nodes)).length ≤ N * trackingNOP M.all.length R.nodes := by
      rw [List.length_drop]; rw [Nat.succ_mul] at hT; omega
    obtain ⟨bufs, g, h1, h2⟩ := ih (k + 1) _ hT'
    have h3 : Node.contribution R step ((⟨M, oneBunch dt nots (T.take (trackingNOP M.all.length R.nodes)), s⟩ : Node σ), k)
        = .ok ((T.take (trackingNOP M.all.length R.nodes)).flatMap Bunch.stepRecord ++
            (List.range (trackingNOP M.all.length R.nodes * 10 - ((T.take (trackingNOP M.all.length R.nodes)).flatMap Bunch.stepRecord).length)).map (R.junk (step + 1) k)) := by
      unfold Node.contribution
      simp only [nop_all hM, oneBunch_buffer, bind, Except.bind]
      unfold intoBuffer
      rw [if_pos]
      rw [records_length, List.length_take]
      omega
    rw [h3, h1]
    refine ⟨_, ?_, rfl, ?_⟩
    · exact if (trackingNOP M.all.length R.nodes) ≤ T.length then g else
        (List.range (trackingNOP M.all.length R.nodes * 10 - ((T.take (trackingNOP M.all.length R.nodes)).flatMap Bunch.stepRecord).length)).map (R.junk (step + 1) k) ++ g
    · rw [List.flatten_cons, h2]
      conv_rhs => rw [← List.take_append_drop (trackingNOP M.all.length R.nodes) T, List.flatMap_append]
      rw [List.take_append_drop]
      by_cases hc : trackingNOP M.all.length R.nodes ≤ T.length
      · rw [if_pos hc, records_length, List.length_take, Nat.min_eq_left hc,
          show trackingNOP M.all.length R.nodes * 10 - 10 * trackingNOP M.all.length R.nodes = 0 by omega]
        simp
      · rw [if_neg hc, List.drop_eq_nil_of_le (by omega)]
        simp

theorem mapM_congr_mem {α β} (l : List α) (f g : α → Except Err β) (h : ∀ a ∈ l, f a = g a) : l.mapM f = l.mapM g := by
  induction l with
  | nil => rfl
  | cons a l ih => rw [List.mapM_cons, List.mapM_cons, h a (by simp), ih (fun b hb => h b (by simp [hb]))]

theorem mapM_map' {α β γ} (l : List α) (g : α → β) (f : β → Except Err γ) : (l.map g).mapM f = l.mapM (fun a => f (g a)) := by
  induction l with
  | nil => rfl
  | cons a l ih => rw [List.map_cons, List.mapM_cons, List.mapM_cons, ih]

/-- all nodes computing the same fallible value -/
theorem mapM_const {α β γ} (l : List α) (hl : l ≠ []) (x : Except Err β) (g : α → β → γ) :
    l.mapM (fun a => x.map (g a)) = x.map (fun b => l.map (fun a => g a b)) := by
  cases x with
  | ok b =>
    exact mapM_ok' _ (fun a => g a b) l (fun a _ => rfl)
  | error e =>
    cases l with
    | nil => exact absurd rfl hl
    | cons a l => rfl

theorem chunks_ne_nil {α} {TN N : Nat} (hN : 0 < N) (T : List α) : chunks TN N T ≠ [] := by
  obtain ⟨n, rfl⟩ := Nat.exists_eq_succ_of_ne_zero hN.ne'
  rw [chunks_succ]
  simp

/-- one step of the distributed program is one step of the reference program -/
theorem trackStep_abs (R : Run σ ω) (hN : 0 < R.nodes) (A : Abs σ ω) (hA : A.Inv) (step : Nat) :
    trackStep R (A.world (trackingNOP A.M.all.length R.nodes) R.nodes) step
      = (absStep R (trackingNOP A.M.all.length R.nodes) A step).map (fun A' => A'.world (trackingNOP A.M.all.length R.nodes) R.nodes)
    ∧ ∀ A', absStep R (trackingNOP A.M.all.length R.nodes) A step = .ok A' → A'.Inv ∧ A'.M.all.length = A.M.all.length := by
  obtain ⟨hM, hT⟩ := hA
  have hle : A.T.length ≤ R.nodes * trackingNOP A.M.all.length R.nodes := by
    rw [hT]; exact trackingNOP_ge _ _ hN
  -- all nodes advance
  have h1 : (A.world (trackingNOP A.M.all.length R.nodes) R.nodes).nodes.mapM (Node.advance R)
      = (A.T.mapM (fun p => dropState (p.StepVay (R.lattice A.s)))).map (fun T =>
          (chunks (trackingNOP A.M.all.length R.nodes) R.nodes T).map (fun c => (⟨A.M, oneBunch A.dt (A.nots + 1) c, A.s⟩ : Node σ))) := by
    unfold Abs.world
    simp only
    rw [mapM_map']
    have : ∀ c : List Particle, Node.advance R (⟨A.M, oneBunch A.dt A.nots c, A.s⟩ : Node σ)
        = (c.mapM (fun p => dropState (p.StepVay (R.lattice A.s)))).map (fun c' => ⟨A.M, oneBunch A.dt (A.nots + 1) c', A.s⟩) := by
      intro c
      unfold Node.advance
      simp only
      rw [oneBunch_step]
      cases c.mapM (fun p => dropState (p.StepVay (R.lattice A.s))) <;> rfl
    rw [mapM_congr_mem _ _ _ (fun c _ => this c), mapM_except_map, chunks_mapM _ _ _ _ hle]
    cases A.T.mapM (fun p => dropState (p.StepVay (R.lattice A.s))) <;> rfl
  unfold trackStep absStep
  rw [h1]
  cases hTm : A.T.mapM (fun p => dropState (p.StepVay (R.lattice A.s))) with
  | error e => exact ⟨rfl, fun A' h => by cases h⟩
  | ok T =>
    have hTl : T.length = A.T.length := (mapM_except_length hTm).1
    simp only [Except.map, bind, Except.bind]
    obtain ⟨bufs, g, hb1, hb2⟩ := gather R A.M hM A.dt (A.nots + 1) A.s step R.nodes 0 T (by omega)
    obtain ⟨M, hset, hMwf, hall, hnots, hdt, htr, hlen, _⟩ := setStep_list hM T (by omega)
    have hset0 : A.M.setStepFromBuffer (T.flatMap Bunch.stepRecord) = .ok M := by
      have := hset []
      rwa [List.append_nil] at this
    rw [hset0]
    rw [hb1]
    simp only
    rw [hb2, mapM_map']
    have h2 : ∀ c : List Particle, Node.receive step (T.flatMap Bunch.stepRecord ++ g) (⟨A.M, oneBunch A.dt (A.nots + 1) c, A.s⟩ : Node σ)
        = (if M.NOTS ≠ step + 1 then (.error .io : Except Err Beam) else .ok M).map (fun m => ⟨m, oneBunch A.dt (A.nots + 1) c, A.s⟩) := by
      intro c
      unfold Node.receive
      simp only [hset g, bind, Except.bind]
      split_ifs <;> rfl
    rw [mapM_congr_mem _ _ _ (fun c _ => h2 c), mapM_const _ (chunks_ne_nil hN T)]
    by_cases hcheck : M.NOTS ≠ step + 1
    · rw [if_pos hcheck, if_pos hcheck]
      exact ⟨rfl, fun A' h => by cases h⟩
    · rw [if_neg hcheck, if_neg hcheck]
      simp only [Except.map]
      have hz : ∀ (f : Beam → Beam → ω → Except Err ω) (out : ω),
          rankZero f ((chunks (trackingNOP A.M.all.length R.nodes) R.nodes T).map (fun c => (⟨M, oneBunch A.dt (A.nots + 1) c, A.s⟩ : Node σ))) out
            = f M (oneBunch A.dt (A.nots + 1) (T.take (trackingNOP A.M.all.length R.nodes))) out := by
        intro f out
        obtain ⟨n, hn⟩ := Nat.exists_eq_succ_of_ne_zero hN.ne'
        conv_lhs => rw [show chunks (trackingNOP A.M.all.length R.nodes) R.nodes T
          = T.take (trackingNOP A.M.all.length R.nodes) :: chunks (trackingNOP A.M.all.length R.nodes) n (T.drop (trackingNOP A.M.all.length R.nodes)) from by
            rw [← chunks_succ, ← Nat.succ_eq_add_one, ← hn]]
        rfl
      rw [hz]
      simp only [Abs.world]
      cases R.stepOut (step + 1) M (oneBunch A.dt (A.nots + 1) (T.take (trackingNOP A.M.all.length R.nodes))) A.out with
      | error e => exact ⟨rfl, fun A' h => by cases h⟩
      | ok out =>
        simp only [pure, Except.pure]
        rw [mapM_map']
        have h3 : ∀ c : List Particle, Node.interact R.stepInter (⟨M, oneBunch A.dt (A.nots + 1) c, A.s⟩ : Node σ)
            = (R.stepInter M A.s).map (fun s => ⟨M, oneBunch A.dt (A.nots + 1) c, s⟩) := fun c => rfl
        rw [mapM_congr_mem _ _ _ (fun c _ => h3 c), mapM_const _ (chunks_ne_nil hN T)]
        cases R.stepInter M A.s with
        | error e => exact ⟨rfl, fun A' h => by cases h⟩
        | ok s =>
          refine ⟨rfl, ?_⟩
          intro A' h
          injection h with h
          subst h
          exact ⟨⟨hMwf, by simp only; omega⟩, hlen⟩

/-- the reference program before the loop -/
noncomputable def absSetup (R : Run σ ω) (TN : Nat) (M : Beam) (s : σ) (out : ω) : Except Err (Abs σ ω) := do
  if M.tracker ≠ .vay then .error .io
  let T ← (M.all.map (fun p => p.copy.preAllocate (R.NOTS + 1))).mapM (fun p => dropState (p.InitVay M.dt (R.lattice s)))
  let out ← R.startOut M (oneBunch M.dt 0 (T.take TN)) out
  let s ← R.initInter M s
  return ⟨M, T, M.dt, 0, s, out⟩

theorem oneBunch_init (dt : ℝ) (nots : Int) (c : List Particle) (f : FieldFn) :
    dropState ((oneBunch dt nots c).setupTracking f) = (c.mapM (fun p => dropState (p.InitVay dt f))).map (fun c' => oneBunch dt 0 c') := by
  have h := bunch_mapM (fun p => p.InitVay dt f) c
  unfold Beam.setupTracking oneBunch
  simp only [Beam.InitVay, forEach, Bunch.InitVay]
  cases hw : Bunch.wrap ⟨c.length, c⟩ (forEach (fun p => p.InitVay dt f) c.length c) with
  | error e =>
    rw [hw] at h
    cases hm : c.mapM (fun p => dropState (p.InitVay dt f)) with
    | error e' =>
      rw [hm] at h
      obtain ⟨e1, b1⟩ := e
      simp only [dropState, Except.map] at h
      injection h with h
      rw [h]
      rfl
    | ok c' => rw [hm] at h; cases h
  | ok b =>
    rw [hw] at h
    cases hm : c.mapM (fun p => dropState (p.InitVay dt f)) with
    | error e' => rw [hm] at h; cases h
    | ok c' =>
      rw [hm] at h
      simp only [dropState, Except.map] at h
      injection h with h
      rw [h]
      have := mapM_except_length hm
      simp only [Beam.wrap, dropState, Except.map, this]

theorem zipIdx_replicate {α} (a : α) (N k : Nat) : (List.replicate N a).zipIdx k = (List.range' k N).map (fun r : Nat => (a, r)) := by
  induction N generalizing k with
  | zero => rfl
  | succ N ih => rw [List.replicate_succ, List.zipIdx_cons, ih, List.range'_succ, List.map_cons]

theorem replicate_of_forall {α} (l : List α) (a : α) (h : ∀ b ∈ l, b = a) : l = List.replicate l.length a :=
  List.eq_replicate_of_mem h

/-- the first master beam after the broadcast, as seen by every node -/
theorem setupMasters (ms : List Beam) (m0 : Beam) (hm0 : m0.WF) (hwf : ∀ m ∈ ms, Beam.WF m) (hblank : ∀ m ∈ ms, Beam.blank m = m0.blank) (NOTS : Nat) :
    ∃ M : Beam, M.WF ∧ M.all.length = m0.all.length ∧ M.tracker = m0.tracker ∧ M.dt = m0.dt ∧ M.NOTS = 0 ∧
      M.all = List.zipWith receive (m0.all.map (Particle.ready (NOTS + 1))) m0.all ∧
      M.B.map Bunch.getNOP = m0.B.map Bunch.getNOP ∧
      ∀ g, ms.mapM (fun m : Beam => setupMaster m (m0.all.flatMap Bunch.stepRecord ++ g) NOTS) = .ok (List.replicate ms.length M) := by
  -- the beam prepared for receiving
  have hprep : Beam.WF ({ m0 with NOTS := 0, B := m0.B.map (fun bu => { bu with P := bu.P.map (Particle.ready (NOTS + 1)) }) } : Beam) := by
    have h1 : dropState m0.clearTrajectories = _ := clear_eq hm0
    refine ⟨by simp [hm0.1], ?_⟩
    intro bu hbu
    simp only [List.mem_map] at hbu
    obtain ⟨c, hc, rfl⟩ := hbu
    refine ⟨by simp [(hm0.2 c hc).1], ?_⟩
    intro p hp
    simp only [List.mem_map] at hp
    obtain ⟨q, hq, rfl⟩ := hp
    exact (((hm0.2 c hc).2 q hq).exec .clear).exec (.preAllocate (NOTS + 1))
  have hall : Beam.all ({ m0 with NOTS := 0, B := m0.B.map (fun bu => { bu with P := bu.P.map (Particle.ready (NOTS + 1)) }) } : Beam)
      = m0.all.map (Particle.ready (NOTS + 1)) := by
    unfold Beam.all
    simp only [List.flatMap_map, List.map_flatMap]
  obtain ⟨M, h1, h2, h3, h4, h5, h6, h7, _, h8⟩ := setStep_list hprep m0.all (by rw [hall, List.length_map])
  refine ⟨{ M with NOTS := 0 }, h2, ?_, h6, h5, rfl, ?_, ?_, ?_⟩
  · show M.all.length = _
    rw [h7, hall, List.length_map]
  · show M.all = _
    rw [h3, hall]
  · show M.B.map Bunch.getNOP = _
    rw [h8]
    simp only [List.map_map]
    rfl
  · intro g
    have : ∀ m ∈ ms, setupMaster m (m0.all.flatMap Bunch.stepRecord ++ g) NOTS = .ok { M with NOTS := 0 } := by
      intro m hm
      rw [setupMaster_blank (hwf m hm) hm0 (hblank m hm), setupMaster_eq hm0, h1 g]
      rfl
    rw [mapM_ok' _ (fun _ => ({ M with NOTS := 0 } : Beam)) ms this, List.map_const']

theorem setupRun_abs (R : Run σ ω) (hN : 0 < R.nodes) (ms : List Beam) (hlen : ms.length = R.nodes) (hwf : ∀ m ∈ ms, Beam.WF m)
    (m0 : Beam) (hm0 : ms.head? = some m0) (hblank : ∀ m ∈ ms, Beam.blank m = m0.blank) (s : σ) (out : ω)
    (M : Beam) (hM : M.WF) (hMl : M.all.length = m0.all.length)
    (hsetup : ∀ g, ms.mapM (fun m : Beam => setupMaster m (m0.all.flatMap Bunch.stepRecord ++ g) R.NOTS) = .ok (List.replicate ms.length M)) :
    setupRun R ms s out = (absSetup R (trackingNOP M.all.length R.nodes) M s out).map (fun A => A.world (trackingNOP M.all.length R.nodes) R.nodes)
    ∧ ∀ A, absSetup R (trackingNOP M.all.length R.nodes) M s out = .ok A → A.Inv ∧ A.M = M ∧ A.nots = 0 := by
  cases ms with
  | nil => simp at hm0
  | cons m ms =>
    simp only [List.head?_cons, Option.some.injEq] at hm0
    subst hm0
    have hmw := hwf m (by simp)
    have hge : m.all.length ≤ R.nodes * trackingNOP m.all.length R.nodes := trackingNOP_ge _ _ hN
    have hcomm : R.nodes * trackingNOP m.all.length R.nodes = trackingNOP m.all.length R.nodes * R.nodes := Nat.mul_comm _ _
    unfold setupRun
    simp only [nop_all hmw, bufferStep_beam hmw, bind, Except.bind]
    rw [if_neg (by omega)]
    have hib : ∃ g, intoBuffer (trackingNOP m.all.length R.nodes * R.nodes * 10) (R.junk 0 0) (m.all.flatMap Bunch.stepRecord)
        = .ok (m.all.flatMap Bunch.stepRecord ++ g) := by
      unfold intoBuffer
      rw [if_pos (by rw [records_length]; omega)]
      exact ⟨_, rfl⟩
    obtain ⟨g, hg⟩ := hib
    simp only [pure, Except.pure]
    rw [hg]
    simp only
    rw [hsetup g, hlen]
    simp only
    rw [zipIdx_replicate, mapM_map']
    have hT : (M.all.map (fun p => p.copy.preAllocate ((R.NOTS : Int) + 1))).length ≤ R.nodes * trackingNOP M.all.length R.nodes := by
      rw [List.length_map]; exact trackingNOP_ge _ _ hN
    have hnode : ∀ r : Nat, setupNode R M s r =
        (if M.tracker ≠ .vay then (.error .io : Except Err Unit) else .ok ()).bind (fun _ =>
          (((M.all.map (fun p => p.copy.preAllocate ((R.NOTS : Int) + 1))).drop (r * trackingNOP M.all.length R.nodes)).take (trackingNOP M.all.length R.nodes)).mapM
            (fun p => dropState (p.InitVay M.dt (R.lattice s))) |>.map (fun c => (⟨M, oneBunch M.dt 0 c, s⟩ : Node σ))) := by
      intro r
      unfold setupNode
      simp only [nop_all hM, bind, Except.bind]
      rw [dealBunch_eq hM r R.NOTS R.nodes hN]
      simp only
      set c := (M.all.drop (r * trackingNOP M.all.length R.nodes)).take (trackingNOP M.all.length R.nodes) with hc
      have hcm : ((M.all.map (fun p => p.copy.preAllocate ((R.NOTS : Int) + 1))).drop (r * trackingNOP M.all.length R.nodes)).take (trackingNOP M.all.length R.nodes)
          = c.map (fun p => p.copy.preAllocate ((R.NOTS : Int) + 1)) := by
        rw [hc, List.map_take, List.map_drop]
      rw [hcm]
      have htb : ∀ tr, ({ M with tracker := tr } : Beam).tracker = tr := fun _ => rfl
      by_cases hv : M.tracker = .vay
      · rw [if_neg (by simp [hv])]
        simp only
        have : trackedBeam M ⟨c.length, c.map (fun p => p.copy.preAllocate ((R.NOTS : Int) + 1))⟩
            = oneBunch M.dt 0 (c.map (fun p => p.copy.preAllocate ((R.NOTS : Int) + 1))) := by
          unfold trackedBeam oneBunch
          simp [Beam.Add, Beam.empty, hv]
        rw [this, oneBunch_init]
        cases (c.map (fun p => p.copy.preAllocate ((R.NOTS : Int) + 1))).mapM (fun p => dropState (p.InitVay M.dt (R.lattice s))) <;> rfl
      · rw [if_pos hv]
        simp only
        have : dropState ((trackedBeam M ⟨c.length, c.map (fun p => p.copy.preAllocate ((R.NOTS : Int) + 1))⟩).setupTracking (R.lattice s)) = .error .io := by
          have ht : (trackedBeam M ⟨c.length, c.map (fun p => p.copy.preAllocate ((R.NOTS : Int) + 1))⟩).tracker = M.tracker := rfl
          unfold Beam.setupTracking
          rw [ht]
          cases hq : M.tracker with
          | none => rfl
          | euler => rfl
          | vay => exact absurd hq hv
        rw [this]
    rw [mapM_congr_mem _ _ _ (fun r _ => hnode r), ← List.range_eq_range']
    unfold absSetup
    by_cases hv : M.tracker = .vay
    · simp only [hv, ne_eq, not_true_eq_false, if_false, Except.bind, bind]
      rw [mapM_except_map]
      have := chunks_mapM (fun p => dropState (p.InitVay M.dt (R.lattice s))) (trackingNOP M.all.length R.nodes) R.nodes
        (M.all.map (fun p => p.copy.preAllocate ((R.NOTS : Int) + 1))) hT
      unfold chunks at this
      rw [mapM_map'] at this
      rw [this]
      cases hTm : (M.all.map (fun p => p.copy.preAllocate ((R.NOTS : Int) + 1))).mapM (fun p => dropState (p.InitVay M.dt (R.lattice s))) with
      | error e => exact ⟨rfl, fun A h => by cases h⟩
      | ok T =>
        have hTl := (mapM_except_length hTm).1
        rw [List.length_map] at hTl
        simp only [Except.map, pure, Except.pure]
        have hz : ∀ (f : Beam → Beam → ω → Except Err ω) (out : ω),
            rankZero f ((chunks (trackingNOP M.all.length R.nodes) R.nodes T).map (fun c => (⟨M, oneBunch M.dt 0 c, s⟩ : Node σ))) out
              = f M (oneBunch M.dt 0 (T.take (trackingNOP M.all.length R.nodes))) out := by
          intro f out
          obtain ⟨n, hn⟩ := Nat.exists_eq_succ_of_ne_zero hN.ne'
          conv_lhs => rw [show chunks (trackingNOP M.all.length R.nodes) R.nodes T
            = T.take (trackingNOP M.all.length R.nodes) :: chunks (trackingNOP M.all.length R.nodes) n (T.drop (trackingNOP M.all.length R.nodes)) from by
              rw [← chunks_succ, ← Nat.succ_eq_add_one, ← hn]]
          rfl
        unfold chunks at hz
        rw [hz]
        cases R.startOut M (oneBunch M.dt 0 (T.take (trackingNOP M.all.length R.nodes))) out with
        | error e => exact ⟨rfl, fun A h => by cases h⟩
        | ok out' =>
          simp only
          rw [mapM_map']
          have h3 : ∀ c : List Particle, Node.interact R.initInter (⟨M, oneBunch M.dt 0 c, s⟩ : Node σ)
              = (R.initInter M s).map (fun s => ⟨M, oneBunch M.dt 0 c, s⟩) := fun c => rfl
          rw [mapM_congr_mem _ _ _ (fun c _ => h3 c)]
          have hne := chunks_ne_nil (TN := trackingNOP M.all.length R.nodes) hN T
          unfold chunks at hne
          rw [mapM_const _ hne]
          cases R.initInter M s with
          | error e => exact ⟨rfl, fun A h => by cases h⟩
          | ok s' =>
            refine ⟨rfl, ?_⟩
            intro A h
            injection h with h
            subst h
            exact ⟨⟨hM, hTl⟩, rfl, rfl⟩
    · simp only [ne_eq, hv, not_false_eq_true, if_true, Except.bind, bind]
      refine ⟨?_, fun A h => by cases h⟩
      obtain ⟨n, hn⟩ := Nat.exists_eq_succ_of_ne_zero hN.ne'
      rw [hn, List.range_succ_eq_map]
      rfl

/-- the reference program after `k` steps -/
noncomputable def absRun (R : Run σ ω) (TN : Nat) (M : Beam) (s : σ) (out : ω) (k : Nat) : Except Err (Abs σ ω) := do
  let A ← absSetup R TN M s out
  (List.range k).foldlM (absStep R TN) A

theorem runSteps_abs (R : Run σ ω) (hN : 0 < R.nodes) (ms : List Beam) (hlen : ms.length = R.nodes) (hwf : ∀ m ∈ ms, Beam.WF m)
    (m0 : Beam) (hm0 : ms.head? = some m0) (hblank : ∀ m ∈ ms, Beam.blank m = m0.blank) (s : σ) (out : ω)
    (M : Beam) (hM : M.WF) (hMl : M.all.length = m0.all.length)
    (hsetup : ∀ g, ms.mapM (fun m : Beam => setupMaster m (m0.all.flatMap Bunch.stepRecord ++ g) R.NOTS) = .ok (List.replicate ms.length M)) (k : Nat) :
    runSteps R ms s out k = (absRun R (trackingNOP M.all.length R.nodes) M s out k).map (fun A => A.world (trackingNOP M.all.length R.nodes) R.nodes)
    ∧ ∀ A, absRun R (trackingNOP M.all.length R.nodes) M s out k = .ok A → A.Inv ∧ A.M.all.length = M.all.length := by
  obtain ⟨h1, h2⟩ := setupRun_abs R hN ms hlen hwf m0 hm0 hblank s out M hM hMl hsetup
  unfold runSteps absRun
  rw [h1]
  cases hs : absSetup R (trackingNOP M.all.length R.nodes) M s out with
  | error e => exact ⟨rfl, fun A h => by cases h⟩
  | ok A0 =>
    obtain ⟨hi, he, _⟩ := h2 A0 hs
    simp only [Except.map, bind, Except.bind]
    have key : ∀ k, ((List.range k).foldlM (trackStep R) (A0.world (trackingNOP M.all.length R.nodes) R.nodes)
          = ((List.range k).foldlM (absStep R (trackingNOP M.all.length R.nodes)) A0).map (fun A => A.world (trackingNOP M.all.length R.nodes) R.nodes))
        ∧ ∀ A, (List.range k).foldlM (absStep R (trackingNOP M.all.length R.nodes)) A0 = .ok A → A.Inv ∧ A.M.all.length = M.all.length := by
      intro k
      induction k with
      | zero =>
        refine ⟨rfl, ?_⟩
        intro A h
        injection h with h
        subst h
        exact ⟨hi, by rw [he]⟩
      | succ k ih =>
        obtain ⟨ih1, ih2⟩ := ih
        rw [List.range_succ, List.foldlM_append, List.foldlM_append, ih1]
        cases hk : (List.range k).foldlM (absStep R (trackingNOP M.all.length R.nodes)) A0 with
        | error e => exact ⟨rfl, fun A h => by cases h⟩
        | ok A =>
          obtain ⟨hAi, hAl⟩ := ih2 A hk
          have := trackStep_abs R hN A hAi k
          rw [hAl] at this
          simp only [Except.map, bind, Except.bind, List.foldlM_cons, List.foldlM_nil]
          rw [this.1]
          cases hst : absStep R (trackingNOP M.all.length R.nodes) A k with
          | error e => exact ⟨rfl, fun A h => by cases h⟩
          | ok A' =>
            refine ⟨rfl, ?_⟩
            intro A'' h
            injection h with h
            subst h
            obtain ⟨a, b⟩ := this.2 A' hst
            exact ⟨a, b⟩
    exact key k

end Teufel
