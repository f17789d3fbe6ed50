import Verif.Model.Hybrid
import Verif.Props.BeamExchange

/-! # Lemmas about the distributed tracking program -/

namespace Teufel
open Vec

/-! ## distribution of a list into chunks -/

/-- `T` cut into `N` chunks of `TN` elements -/
def chunks {α} (TN N : Nat) (T : List α) : List (List α) := (List.range N).map (fun r : Nat => (T.drop (r * TN)).take TN)

theorem chunks_succ {α} (TN N : Nat) (T : List α) : chunks TN (N + 1) T = T.take TN :: chunks TN N (T.drop TN) := by
  unfold chunks
  rw [List.range_succ_eq_map, List.map_cons, List.map_map]
  congr 1
  · simp
  · apply List.map_congr_left
    intro r _
    simp only [Function.comp, List.drop_drop]
    congr 2
    rw [Nat.succ_mul]; omega

theorem chunks_flatten {α} (TN N : Nat) (T : List α) (h : T.length ≤ N * TN) : (chunks TN N T).flatten = T := by
  induction N generalizing T with
  | zero =>
    simp only [Nat.zero_mul, Nat.le_zero] at h
    rw [List.eq_nil_of_length_eq_zero h]
    rfl
  | succ N ih =>
    rw [chunks_succ, List.flatten_cons, ih _ (by rw [List.length_drop]; rw [Nat.succ_mul] at h; omega), List.take_append_drop]

theorem chunks_map {α β} (f : α → β) (TN N : Nat) (T : List α) : chunks TN N (T.map f) = (chunks TN N T).map (List.map f) := by
  unfold chunks
  rw [List.map_map]
  apply List.map_congr_left
  intro r _
  simp [List.map_drop, List.map_take]

theorem mapM_except_map {α β γ} (l : List α) (h : α → Except Err β) (g : β → γ) :
    l.mapM (fun c => (h c).map g) = (l.mapM h).map (List.map g) := by
  induction l with
  | nil => rfl
  | cons a l ih =>
    rw [List.mapM_cons, List.mapM_cons, ih]
    cases h a with
    | error e => rfl
    | ok b => cases l.mapM h <;> rfl

theorem chunks_mapM {α β} (f : α → Except Err β) (TN N : Nat) (T : List α) (h : T.length ≤ N * TN) :
    (chunks TN N T).mapM (fun c => c.mapM f) = (T.mapM f).map (chunks TN N) := by
  induction N generalizing T with
  | zero =>
    simp only [Nat.zero_mul, Nat.le_zero] at h
    rw [List.eq_nil_of_length_eq_zero h]
    rfl
  | succ N ih =>
    rw [chunks_succ, List.mapM_cons, ih _ (by rw [List.length_drop]; rw [Nat.succ_mul] at h; omega)]
    conv_rhs => rw [← List.take_append_drop TN T, List.mapM_append]
    cases ha : (T.take TN).mapM f with
    | error e => rfl
    | ok a =>
      have hla := mapM_except_length ha
      cases hb : (T.drop TN).mapM f with
      | error e => rfl
      | ok b =>
        have hlb := mapM_except_length hb
        show Except.ok _ = Except.ok _
        congr 1
        rw [chunks_succ]
        rw [List.length_take] at hla
        rw [List.length_drop] at hlb
        have e1 : (a ++ b).take TN = a := by
          rcases Nat.lt_or_ge T.length TN with hlt | hge
          · have : b = [] := List.eq_nil_of_length_eq_zero (by omega)
            rw [this, List.append_nil, List.take_of_length_le (by omega)]
          · have : a.length = TN := by omega
            rw [← this, List.take_left]
        have e2 : (a ++ b).drop TN = b := by
          rcases Nat.lt_or_ge T.length TN with hlt | hge
          · have : b = [] := List.eq_nil_of_length_eq_zero (by omega)
            rw [this, List.append_nil, List.drop_eq_nil_of_le (by omega)]
          · have : a.length = TN := by omega
            rw [← this, List.drop_left]
        rw [e1, e2]

theorem trackingNOP_ge (n N : Nat) (hN : 0 < N) : n ≤ N * trackingNOP n N := by
  unfold trackingNOP
  have h1 := Nat.div_add_mod (n + N - 1) N
  have h2 := Nat.mod_lt (n + N - 1) hN
  omega

theorem trackingNOP_pos {n N : Nat} (hN : 0 < N) (hn : 0 < n) : 0 < trackingNOP n N := by
  unfold trackingNOP
  exact Nat.div_pos (by omega) hN

theorem trackingNOP_one (n : Nat) : trackingNOP n 1 = n := by unfold trackingNOP; simp

/-! ## the distribution loop -/

/-- what the distribution loop adds to the bunch of node `rank` -/
def dealt {α} (rank TN node cnt : Nat) (ps : List α) : List α :=
  if rank < node then [] else if rank = node then ps.take (TN - cnt) else (ps.drop ((rank - node) * TN - cnt)).take TN

theorem deal_fold (rank TN NOTS : Nat) (ps : List Particle) (hTN : 0 < TN ∨ ps = []) :
    ∀ (b : Bunch) (node cnt : Nat), (cnt < TN ∨ ps = []) →
      (ps.foldl (dealStep rank TN NOTS) ⟨b, node, cnt⟩).bunch =
        ⟨b.NOP + (dealt rank TN node cnt ps).length, b.P ++ (dealt rank TN node cnt ps).map (fun p => p.copy.preAllocate (NOTS + 1))⟩ := by
  induction ps with
  | nil =>
    intro b node cnt _
    have : dealt rank TN node cnt ([] : List Particle) = [] := by unfold dealt; split_ifs <;> simp
    rw [this]
    simp
  | cons p ps ih =>
    intro b node cnt hc
    have hc : cnt < TN := by simpa using hc
    have ih := ih (Or.inl (by omega))
    have hstep : dealStep rank TN NOTS ⟨b, node, cnt⟩ p =
        if cnt + 1 = TN then ⟨if rank = node then b.Add (p.copy.preAllocate (NOTS + 1)) else b, node + 1, 0⟩
        else ⟨if rank = node then b.Add (p.copy.preAllocate (NOTS + 1)) else b, node, cnt + 1⟩ := rfl
    rw [List.foldl_cons, hstep]
    rcases Nat.lt_trichotomy rank node with hlt | heq | hgt
    · -- an earlier node
      have h1 : dealt rank TN node cnt (p :: ps) = [] := by unfold dealt; rw [if_pos hlt]
      rw [if_neg (show ¬ rank = node by omega), h1]
      split_ifs with h2
      · rw [ih _ _ _ (Or.inl (by omega)), show dealt rank TN (node + 1) 0 ps = [] by unfold dealt; rw [if_pos (by omega)]]
      · rw [ih _ _ _ (Or.inl (by omega)), show dealt rank TN node (cnt + 1) ps = [] by unfold dealt; rw [if_pos (by omega)]]
    · subst heq
      have h1 : dealt rank TN rank cnt (p :: ps) = p :: ps.take (TN - (cnt + 1)) := by
        unfold dealt
        rw [if_neg (by omega), if_pos rfl, show TN - cnt = (TN - (cnt + 1)) + 1 by omega, List.take_succ_cons]
      rw [if_pos (show rank = rank from rfl), h1]
      split_ifs with h2
      · rw [ih _ _ _ (Or.inl (by omega)), show dealt rank TN (rank + 1) 0 ps = [] by unfold dealt; rw [if_pos (by omega)]]
        rw [show TN - (cnt + 1) = 0 by omega]
        simp [Bunch.Add]
      · rw [ih _ _ _ (Or.inl (by omega)), show dealt rank TN rank (cnt + 1) ps = ps.take (TN - (cnt + 1)) by
          unfold dealt; rw [if_neg (by omega), if_pos rfl]]
        simp [Bunch.Add]
        omega
    · have hk : (rank - node) * TN - cnt = ((rank - node) * TN - cnt - 1) + 1 := by
        have : TN ≤ (rank - node) * TN := Nat.le_mul_of_pos_left _ (by omega)
        omega
      have h1 : dealt rank TN node cnt (p :: ps) = (ps.drop ((rank - node) * TN - cnt - 1)).take TN := by
        unfold dealt
        rw [if_neg (by omega), if_neg (by omega), hk, List.drop_succ_cons]
        simp
      rw [if_neg (show ¬ rank = node by omega), h1]
      split_ifs with h2
      · rw [ih _ _ _ (Or.inl (by omega))]
        have : dealt rank TN (node + 1) 0 ps = (ps.drop ((rank - node) * TN - cnt - 1)).take TN := by
          unfold dealt
          rw [if_neg (by omega)]
          have e : (rank - node) * TN = (rank - (node + 1)) * TN + TN := by
            rw [show rank - node = (rank - (node + 1)) + 1 by omega, Nat.succ_mul]
          split_ifs with h3
          · have : (rank - node) * TN - cnt - 1 = 0 := by
              rw [show rank - node = 1 by omega, Nat.one_mul]; omega
            rw [this]; simp
          · rw [show (rank - node) * TN - cnt - 1 = (rank - (node + 1)) * TN - 0 by omega]
        rw [this]
      · rw [ih _ _ _ (Or.inl (by omega))]
        have : dealt rank TN node (cnt + 1) ps = (ps.drop ((rank - node) * TN - cnt - 1)).take TN := by
          unfold dealt
          rw [if_neg (by omega), if_neg (by omega), Nat.sub_sub]
        rw [this]

theorem traverse_all {b : Beam} (h : b.WF) : b.traverse = .ok b.all := by
  unfold Beam.traverse
  rw [visited_all h.1]
  show (do let pss ← b.B.mapM (fun bu : Bunch => visited bu.NOP bu.P); return pss.flatten) = _
  rw [mapM_ok' _ (fun bu : Bunch => bu.P) _ (fun bu hb => visited_all (h.2 bu hb).1)]
  rw [all_eq]
  rfl

theorem dealBunch_eq {m : Beam} (h : m.WF) (rank NOTS N : Nat) (hN : 0 < N) :
    dealBunch m rank (trackingNOP m.all.length N) NOTS =
      let c := (m.all.drop (rank * trackingNOP m.all.length N)).take (trackingNOP m.all.length N)
      .ok ⟨c.length, c.map (fun p => p.copy.preAllocate (NOTS + 1))⟩ := by
  unfold dealBunch
  rw [traverse_all h]
  have hpos : 0 < trackingNOP m.all.length N ∨ m.all = [] := by
    rcases Nat.eq_zero_or_pos m.all.length with h0 | h0
    · right; exact List.eq_nil_of_length_eq_zero h0
    · left; exact trackingNOP_pos hN h0
  show Except.ok _ = Except.ok _
  rw [deal_fold rank _ NOTS m.all hpos _ 0 0 hpos]
  have : dealt rank (trackingNOP m.all.length N) 0 0 m.all
      = (m.all.drop (rank * trackingNOP m.all.length N)).take (trackingNOP m.all.length N) := by
    unfold dealt
    rw [if_neg (by omega)]
    split_ifs with h1
    · rw [h1]; simp
    · simp
  rw [this]
  simp [Bunch.empty]

/-! ## loops over particles and exceptions -/

theorem forEach_mapM {α} (f : α → Except (Err × α) α) (ps : List α) :
    dropState (forEach f ps.length ps) = ps.mapM (fun p => dropState (f p)) := by
  induction ps with
  | nil => rfl
  | cons p ps ih =>
    rw [List.mapM_cons, ← ih]
    simp only [List.length_cons, forEach]
    cases f p with
    | error e => rfl
    | ok p' =>
      cases forEach f ps.length ps <;> rfl

theorem forEach_total {α} (g : α → α) (ps : List α) : forEach (fun p => .ok (g p)) ps.length ps = .ok (ps.map g) := by
  induction ps with
  | nil => rfl
  | cons p ps ih =>
    simp only [List.length_cons, forEach, ih]
    rfl

/-! ## loading a step into a beam -/

theorem split_lens (lens : List Nat) {α} (T : List α) (h : T.length = lens.sum) :
    ∃ src : List (List α), src.flatten = T ∧ src.map List.length = lens := by
  induction lens generalizing T with
  | nil =>
    simp at h
    exact ⟨[], by simp [h], rfl⟩
  | cons n lens ih =>
    rw [List.sum_cons] at h
    obtain ⟨src, h1, h2⟩ := ih (T.drop n) (by rw [List.length_drop]; omega)
    refine ⟨T.take n :: src, ?_, ?_⟩
    · rw [List.flatten_cons, h1, List.take_append_drop]
    · rw [List.map_cons, h2, List.length_take]
      congr 1
      omega

theorem zip_flatten (cs : List Bunch) (src : List (List Particle)) (h : cs.map (fun c => c.P.length) = src.map List.length) :
    (List.zipWith (fun (c : Bunch) (s : List Particle) => ({ c with P := List.zipWith receive c.P s } : Bunch)) cs src).flatMap (fun c => c.P)
      = List.zipWith receive (cs.flatMap (fun c => c.P)) src.flatten := by
  induction cs generalizing src with
  | nil => simp
  | cons c cs ih =>
    cases src with
    | nil => simp at h
    | cons s src =>
      simp only [List.map_cons, List.cons.injEq] at h
      rw [List.zipWith_cons_cons, List.flatMap_cons, List.flatMap_cons, List.flatten_cons, ih _ h.2, List.zipWith_append h.1]

/-- loading the current points of the particles `T` -/
theorem setStep_list {c : Beam} (h : c.WF) (T : List Particle) (hT : T.length = c.all.length) :
    ∃ c' : Beam, (∀ rest, c.setStepFromBuffer (T.flatMap Bunch.stepRecord ++ rest) = .ok c') ∧ c'.WF ∧
      c'.all = List.zipWith receive c.all T ∧ c'.NOTS = c.NOTS + 1 ∧ c'.dt = c.dt ∧ c'.tracker = c.tracker ∧
      c'.all.length = c.all.length ∧ c'.NOB = c.NOB ∧ c'.B.map Bunch.getNOP = c.B.map Bunch.getNOP := by
  obtain ⟨src, h1, h2⟩ := split_lens (c.B.map (fun c => c.P.length)) T (by rw [hT, Beam.all, List.length_flatMap])
  have hset := fun rest => beam_setStep h src h2.symm rest
  rw [h1] at hset
  refine ⟨_, hset, Beam.wf_setStep h (hset []), ?_, rfl, rfl, rfl, ?_, rfl, ?_⟩
  · unfold Beam.all
    simp only
    rw [zip_flatten _ _ h2.symm, h1]
  · unfold Beam.all
    simp only
    rw [zip_flatten _ _ h2.symm, h1, List.length_zipWith]
    have : T.length = (c.B.flatMap (fun bu => bu.P)).length := hT
    omega
  · have hl : c.B.length = src.length := by
      have := congrArg List.length h2
      simpa using this.symm
    simp only
    apply List.ext_getElem (by simp [hl])
    intro i h3 h4
    simp [Bunch.getNOP]

/-! ## the broadcast -/

/-- everything of a particle except for its current point and its trajectory -/
noncomputable def Particle.blank (p : Particle) : Particle := p.clearTrajectory.setCurrentPoint 0 0 0 0

/-- everything of a beam except for the current points and trajectories of its particles -/
noncomputable def Beam.blank (b : Beam) : Beam :=
  { b with NOTS := 0, B := b.B.map (fun bu => { bu with P := bu.P.map Particle.blank }) }

theorem setLoop_blank (ps : List Particle) (buf : List ℝ) :
    Bunch.setLoop ps.length ps buf = Bunch.setLoop ps.length (ps.map (fun p => p.setCurrentPoint 0 0 0 0)) buf := by
  induction ps generalizing buf with
  | nil => rfl
  | cons p ps ih =>
    match buf with
    | t :: x :: y :: z :: px :: py :: pz :: ax :: ay :: az :: rest =>
      simp only [List.length_cons, List.map_cons, Bunch.setLoop]
      rw [ih rest]
      rfl
    | [] => rfl
    | [_] => rfl
    | [_, _] => rfl
    | [_, _, _] => rfl
    | [_, _, _, _] => rfl
    | [_, _, _, _, _] => rfl
    | [_, _, _, _, _, _] => rfl
    | [_, _, _, _, _, _, _] => rfl
    | [_, _, _, _, _, _, _, _] => rfl
    | [_, _, _, _, _, _, _, _, _] => rfl

theorem beam_setLoop_blank (bs : List Bunch) (h : ∀ c ∈ bs, c.NOP = c.P.length) (buf : List ℝ) :
    Beam.setLoop bs.length bs buf
      = Beam.setLoop bs.length (bs.map (fun bu : Bunch => { bu with P := bu.P.map (fun p => p.setCurrentPoint 0 0 0 0) })) buf := by
  induction bs generalizing buf with
  | nil => rfl
  | cons c bs ih =>
    simp only [List.length_cons, List.map_cons, Beam.setLoop]
    have : c.setStepFromBuffer buf
        = ({ c with P := c.P.map (fun p => p.setCurrentPoint 0 0 0 0) } : Bunch).setStepFromBuffer buf := by
      unfold Bunch.setStepFromBuffer
      simp only [h c (by simp)]
      rw [setLoop_blank]
    rw [this]
    cases Bunch.setStepFromBuffer ({ c with P := c.P.map (fun p => p.setCurrentPoint 0 0 0 0) } : Bunch) buf with
    | error e => rfl
    | ok r =>
      simp only [bind, Except.bind]
      rw [ih (fun q hq => h q (by simp [hq]))]

theorem clear_eq {b : Beam} (h : b.WF) : dropState b.clearTrajectories
    = .ok { b with NOTS := 0, B := b.B.map (fun bu => { bu with P := bu.P.map Particle.clearTrajectory }) } := by
  unfold Beam.clearTrajectories
  have : forEach Bunch.clearTrajectories b.NOB b.B = .ok (b.B.map (fun bu => { bu with P := bu.P.map Particle.clearTrajectory })) := by
    rw [h.1]
    have hb : ∀ bu ∈ b.B, Bunch.clearTrajectories bu = .ok { bu with P := bu.P.map Particle.clearTrajectory } := by
      intro bu hbu
      unfold Bunch.clearTrajectories
      rw [(h.2 bu hbu).1, forEach_total]
      simp only [Bunch.wrap, (h.2 bu hbu).1]
    revert hb
    generalize b.B = bs
    intro hb
    induction bs with
    | nil => rfl
    | cons c bs ih =>
      simp only [List.length_cons, forEach, hb c (by simp), ih (fun q hq => hb q (by simp [hq]))]
      rfl
  rw [this]
  rfl

theorem prealloc_eq {b : Beam} (h : ∀ bu ∈ b.B, bu.NOP = bu.P.length) (h' : b.NOB = b.B.length) (n : Int) : dropState (b.preAllocate n)
    = .ok { b with B := b.B.map (fun bu => { bu with P := bu.P.map (fun p => p.preAllocate n) }) } := by
  unfold Beam.preAllocate
  have : forEach (fun bu : Bunch => bu.preAllocate n) b.NOB b.B
      = .ok (b.B.map (fun bu => { bu with P := bu.P.map (fun p => p.preAllocate n) })) := by
    rw [h']
    have hb : ∀ bu ∈ b.B, Bunch.preAllocate bu n = .ok { bu with P := bu.P.map (fun p => p.preAllocate n) } := by
      intro bu hbu
      unfold Bunch.preAllocate
      rw [h bu hbu, forEach_total]
      simp only [Bunch.wrap, h bu hbu]
    revert hb
    generalize b.B = bs
    intro hb
    induction bs with
    | nil => rfl
    | cons c bs ih =>
      simp only [List.length_cons, forEach, hb c (by simp), ih (fun q hq => hb q (by simp [hq]))]
      rfl
  rw [this]
  rfl

/-- particle ready to receive its first point -/
noncomputable def Particle.ready (n : Int) (p : Particle) : Particle := p.clearTrajectory.preAllocate n

theorem setupMaster_eq {m : Beam} (h : m.WF) (buf : List ℝ) (n : Nat) :
    setupMaster m buf n = ((({ m with NOTS := 0, B := m.B.map (fun bu => { bu with P := bu.P.map (Particle.ready (n + 1)) }) } : Beam)).setStepFromBuffer buf).map
      (fun m => { m with NOTS := 0 }) := by
  unfold setupMaster
  rw [clear_eq h]
  simp only [bind, Except.bind]
  rw [prealloc_eq]
  · simp only [List.map_map]
    have : ((fun bu : Bunch => { bu with P := bu.P.map (fun p => p.preAllocate ((n : Int) + 1)) }) ∘ fun bu : Bunch => { bu with P := bu.P.map Particle.clearTrajectory })
        = fun bu : Bunch => { bu with P := bu.P.map (Particle.ready ((n : Int) + 1)) } := by
      funext bu
      simp only [Function.comp, List.map_map]
      rfl
    rw [this]
    generalize Beam.setStepFromBuffer _ buf = r
    cases r <;> rfl
  · intro bu hbu
    simp only [List.mem_map] at hbu
    obtain ⟨c, hc, rfl⟩ := hbu
    simp [(h.2 c hc).1]
  · simp [h.1]

theorem setupMaster_blank {m m0 : Beam} (h : m.WF) (h0 : m0.WF) (hb : m.blank = m0.blank) (buf : List ℝ) (n : Nat) :
    setupMaster m buf n = setupMaster m0 buf n := by
  have key : ∀ {b : Beam}, b.WF → setupMaster b buf n =
      ((Beam.setLoop b.blank.B.length (b.blank.B.map (fun bu => { bu with P := bu.P.map (Particle.preAllocate · ((n : Int) + 1)) })) buf).map
        (fun r => ({ b.blank with B := r.1, NOTS := 0 } : Beam))) := by
    intro b hw
    rw [setupMaster_eq hw]
    unfold Beam.setStepFromBuffer
    simp only
    rw [hw.1]
    have hl : b.B.length = (b.B.map (fun bu : Bunch => ({ bu with P := bu.P.map (Particle.ready ((n : Int) + 1)) } : Bunch))).length := by simp
    rw [hl, beam_setLoop_blank]
    · simp only [List.map_map, List.length_map]
      have e : ((fun bu : Bunch => ({ bu with P := bu.P.map (fun p => p.setCurrentPoint 0 0 0 0) } : Bunch)) ∘ fun bu : Bunch => { bu with P := bu.P.map (Particle.ready ((n : Int) + 1)) })
          = ((fun bu : Bunch => ({ bu with P := bu.P.map (Particle.preAllocate · ((n : Int) + 1)) } : Bunch)) ∘ fun bu : Bunch => { bu with P := bu.P.map Particle.blank }) := by
        funext bu
        simp only [Function.comp, List.map_map]
        rfl
      rw [e]
      simp only [Beam.blank, List.map_map, List.length_map]
      rw [hw.1]
      generalize Beam.setLoop _ _ buf = r
      cases r <;> rfl
    · intro c hc
      simp only [List.mem_map] at hc
      obtain ⟨d, hd, rfl⟩ := hc
      simp [(hw.2 d hd).1]
  rw [key h, key h0, hb]

end Teufel
