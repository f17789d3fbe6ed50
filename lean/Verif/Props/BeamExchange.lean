import Verif.Props.BunchBeam

/-! # C32, C33: exchange of tracking steps and probe particles -/

namespace Teufel
open Vec

/-- observation: particle `j` of bunch `i` is `p` -/
def Beam.Holds (b : Beam) (i j : Nat) (p : Particle) : Prop :=
  ∃ bu, b.getBunch i = .ok (some bu) ∧ bu.getParticle j = .ok (some p)

theorem holds_iff {b : Beam} (h : b.WF) (i j : Nat) (p : Particle) :
    b.Holds i j p ↔ ∃ bu, b.B[i]? = some bu ∧ bu.P[j]? = some p := by
  unfold Beam.Holds
  rw [getBunch_spec h]
  simp only [Int.natCast_nonneg, if_true, Int.toNat_natCast]
  constructor
  · rintro ⟨bu, h1, h2⟩
    injection h1 with h1
    rw [getParticle_spec (h.2 bu (List.mem_of_getElem? h1))] at h2
    simp only [Int.natCast_nonneg, if_true, Int.toNat_natCast] at h2
    injection h2 with h2
    exact ⟨bu, h1, h2⟩
  · rintro ⟨bu, h1, h2⟩
    refine ⟨bu, by rw [h1], ?_⟩
    rw [getParticle_spec (h.2 bu (List.mem_of_getElem? h1))]
    simp [h2]

/-- same number of bunches with the same numbers of particles -/
def Beam.SameStructure (b c : Beam) : Prop :=
  b.getNOB = c.getNOB ∧ ∀ (i : Nat) (bu cu : Bunch), b.getBunch i = .ok (some bu) → c.getBunch i = .ok (some cu) → bu.getNOP = cu.getNOP

/-- all particles of a beam, bunch by bunch -/
def Beam.all (b : Beam) : List Particle := b.B.flatMap (fun bu => bu.P)

theorem bufferStep_bunch {b : Bunch} (h : b.WF) : b.bufferStep = .ok (b.P.flatMap Bunch.stepRecord) := by
  unfold Bunch.bufferStep
  rw [visited_all h.1]; rfl

theorem bufferStep_beam {b : Beam} (h : b.WF) : b.bufferStep = .ok (b.all.flatMap Bunch.stepRecord) := by
  unfold Beam.bufferStep
  rw [visited_all h.1]
  show (do let recs ← b.B.mapM Bunch.bufferStep; return recs.flatten) = _
  rw [mapM_ok' _ (fun bu => bu.P.flatMap Bunch.stepRecord) _ (fun bu hb => bufferStep_bunch (h.2 bu hb))]
  show Except.ok _ = Except.ok _
  congr 1
  unfold Beam.all
  rw [List.flatMap_assoc]
  simp [List.flatMap]

theorem stepRecord_length (p : Particle) : (Bunch.stepRecord p).length = 10 := rfl

theorem records_length (l : List Particle) : (l.flatMap Bunch.stepRecord).length = 10 * l.length := by
  induction l with
  | nil => rfl
  | cons p l ih => rw [List.flatMap_cons, List.length_append, ih, stepRecord_length]; simp; omega

theorem records_get (l : List Particle) (j : Nat) (p : Particle) (h : l[j]? = some p) :
    ((l.flatMap Bunch.stepRecord).drop (10 * j)).take 10 = Bunch.stepRecord p := by
  induction l generalizing j with
  | nil => simp at h
  | cons q l ih =>
    cases j with
    | zero =>
      simp at h
      subst h
      rw [List.flatMap_cons, Nat.mul_zero, List.drop_zero, List.take_append_of_le_length (by rw [stepRecord_length])]
      exact List.take_of_length_le (by rw [stepRecord_length])
    | succ j =>
      simp only [List.getElem?_cons_succ] at h
      rw [List.flatMap_cons, List.drop_append, List.drop_eq_nil_of_le (by rw [stepRecord_length]; omega), List.nil_append,
        show 10 * (j + 1) - (Bunch.stepRecord q).length = 10 * j by rw [stepRecord_length]; omega]
      exact ih j h

theorem vecAt_last {α} (l : List α) (a : α) (n : Nat) (h : l.length = n) : Particle.vecAt (l ++ [a]) ((n : Int).toNat) = .ok a := by
  subst h
  simp [Particle.vecAt]

theorem vecAt_init {α} (l : List α) (a : α) (n k : Nat) (h : l.length = n) (hk : k < n) :
    Particle.vecAt (l ++ [a]) ((k : Int).toNat) = Particle.vecAt l ((k : Int).toNat) := by
  subst h
  simp only [Particle.vecAt, Int.toNat_natCast]
  rw [List.getElem?_append_left hk]

/-- particle `p` after receiving the current point of `s` -/
def receive (p s : Particle) : Particle :=
  (p.setCurrentPoint s.tCur s.XCur s.PCur s.ACur).storeTrajectoryPoint s.tCur s.XCur s.PCur s.ACur

theorem setLoop_records (ps src : List Particle) (h : ps.length = src.length) (rest : List ℝ) :
    Bunch.setLoop ps.length ps (src.flatMap Bunch.stepRecord ++ rest) = .ok (List.zipWith receive ps src, rest) := by
  induction ps generalizing src with
  | nil =>
    simp at h
    have : src = [] := List.eq_nil_of_length_eq_zero h.symm
    subst this
    rfl
  | cons p ps ih =>
    cases src with
    | nil => simp at h
    | cons s src =>
      simp only [List.length_cons, Nat.add_right_cancel_iff] at h
      have := ih src h
      rw [List.flatMap_cons, List.append_assoc]
      simp only [Bunch.stepRecord, Particle.comps, List.cons_append, List.nil_append, List.length_cons, Bunch.setLoop]
      rw [this]
      rfl

theorem bunch_setStep {c : Bunch} (h : c.WF) (src : List Particle) (hs : c.P.length = src.length) (rest : List ℝ) :
    c.setStepFromBuffer (src.flatMap Bunch.stepRecord ++ rest) = .ok ({ c with P := List.zipWith receive c.P src }, rest) := by
  unfold Bunch.setStepFromBuffer
  rw [h.1, setLoop_records _ _ hs]
  rfl

theorem beam_setLoop (cs : List Bunch) (hc : ∀ c ∈ cs, Bunch.WF c) (src : List (List Particle))
    (hs : cs.map (fun c => c.P.length) = src.map List.length) (rest : List ℝ) :
    Beam.setLoop cs.length cs (src.flatten.flatMap Bunch.stepRecord ++ rest)
      = .ok (List.zipWith (fun (c : Bunch) (s : List Particle) => { c with P := List.zipWith receive c.P s }) cs src, rest) := by
  induction cs generalizing src with
  | nil =>
    simp at hs
    subst hs
    rfl
  | cons c cs ih =>
    cases src with
    | nil => simp at hs
    | cons s src =>
      simp only [List.map_cons, List.cons.injEq] at hs
      simp only [List.length_cons, Beam.setLoop]
      rw [List.flatten_cons, List.flatMap_append, List.append_assoc, bunch_setStep (hc c (by simp)) s hs.1]
      simp only [bind, Except.bind]
      rw [ih (fun q hq => hc q (by simp [hq])) src hs.2]
      rfl

theorem all_eq (b : Beam) : b.all = (b.B.map (fun bu => bu.P)).flatten := by simp [Beam.all, List.flatMap]

theorem beam_setStep {c : Beam} (h : c.WF) (src : List (List Particle)) (hs : c.B.map (fun c => c.P.length) = src.map List.length) (rest : List ℝ) :
    c.setStepFromBuffer (src.flatten.flatMap Bunch.stepRecord ++ rest) = .ok { c with
      B := List.zipWith (fun (c : Bunch) (s : List Particle) => { c with P := List.zipWith receive c.P s }) c.B src
      NOTS := c.NOTS + 1 } := by
  unfold Beam.setStepFromBuffer
  rw [h.1, beam_setLoop _ h.2 _ hs]
  rfl

theorem nop_all {b : Beam} (h : b.WF) : b.getNOP = .ok b.all.length := by
  unfold Beam.getNOP
  rw [visited_all h.1]
  simp only [Except.map, foldl_sum_nat, zero_add, Beam.all, List.length_flatMap]
  congr 2
  apply List.map_congr_left
  intro bu hbu
  exact (h.2 bu hbu).1

theorem all_index {b : Beam} (h : b.WF) {i j : Nat} {p : Particle} (hp : b.Holds i j p) :
    b.all[((b.B.take i).map Bunch.getNOP).sum + j]? = some p := by
  rw [holds_iff h] at hp
  obtain ⟨bu, h1, h2⟩ := hp
  have hlt : i < b.B.length := (List.getElem?_eq_some_iff.mp h1).1
  have hb : b.B = b.B.take i ++ bu :: b.B.drop (i + 1) := by
    have e : b.B[i] = bu := by rw [List.getElem?_eq_getElem hlt] at h1; exact Option.some.inj h1
    conv_lhs => rw [← List.take_append_drop i b.B]
    rw [List.drop_eq_getElem_cons hlt, e]
  have hlen : ((b.B.take i).map Bunch.getNOP).sum = ((b.B.take i).flatMap (fun bu => bu.P)).length := by
    rw [List.length_flatMap]
    congr 1
    apply List.map_congr_left
    intro c hc
    exact (h.2 c (List.mem_of_mem_take hc)).1
  unfold Beam.all
  rw [hlen, show b.B.flatMap (fun bu => bu.P) = (b.B.take i ++ bu :: b.B.drop (i + 1)).flatMap (fun bu => bu.P) from congrArg _ hb,
    List.flatMap_append, List.flatMap_cons, List.getElem?_append_right (by omega), Nat.add_sub_cancel_left, List.getElem?_append_left]
  · exact h2
  · exact (List.getElem?_eq_some_iff.mp h2).1

/-- C32: `bufferStep` writes exactly `getStepBufferSize` values: ten per particle (time, position, momentum,
acceleration), particle after particle and bunch after bunch. -/
theorem C32_buffer {b : Beam} (hr : b.Reachable) :
    ∃ n buf, b.getNOP = .ok n ∧ b.getStepBufferSize = .ok (10 * n) ∧ b.bufferStep = .ok buf ∧ buf.length = 10 * n ∧
      ∀ i j p, b.Holds i j p →
        ∃ k, k = ((b.B.take i).map Bunch.getNOP).sum + j ∧
          (buf.drop (10 * k)).take 10 = [p.tCur, p.XCur.x, p.XCur.y, p.XCur.z, p.PCur.x, p.PCur.y, p.PCur.z, p.ACur.x, p.ACur.y, p.ACur.z] := by
  have h := Beam.wf_reachable hr
  refine ⟨b.all.length, _, nop_all h, by simp only [Beam.getStepBufferSize, nop_all h, Except.map]; rw [mul_comm], bufferStep_beam h, records_length _, ?_⟩
  intro i j p hp
  exact ⟨_, rfl, records_get b.all _ _ (all_index h hp)⟩

/-- C32: loading the step buffer of beam `b` into a beam `c` of the same structure gives every particle of `c` the
time, position, momentum and acceleration of its counterpart in `b` as current and as new last trajectory point,
keeping all earlier points; the step counter increases by one; further data in the buffer are not read. -/
theorem C32_load {b c : Beam} (hb : b.Reachable) (hc : c.Reachable) (hs : b.SameStructure c) (rest : List ℝ) :
    ∃ buf c', b.bufferStep = .ok buf ∧ c.setStepFromBuffer (buf ++ rest) = .ok c' ∧ c'.NOTS = c.NOTS + 1 ∧
      c'.SameStructure c ∧
      ∀ i j p q, b.Holds i j p → c.Holds i j q → ∃ q', c'.Holds i j q' ∧
        q'.tCur = p.tCur ∧ q'.XCur = p.XCur ∧ q'.PCur = p.PCur ∧ q'.ACur = p.ACur ∧
        q'.getNP = q.getNP + 1 ∧ q'.Charge = q.Charge ∧ q'.Mass = q.Mass ∧
        q'.TrajTime q.getNP = .ok p.tCur ∧ q'.TrajPoint q.getNP = .ok p.XCur ∧
        q'.TrajMomentum q.getNP = .ok p.PCur ∧ q'.TrajAccel q.getNP = .ok p.ACur ∧
        ∀ k : Nat, k < q.getNP → q'.TrajTime k = q.TrajTime k ∧ q'.TrajPoint k = q.TrajPoint k ∧
          q'.TrajMomentum k = q.TrajMomentum k ∧ q'.TrajAccel k = q.TrajAccel k := by
  have h := Beam.wf_reachable hb
  have h' := Beam.wf_reachable hc
  have hlen : b.B.length = c.B.length := by rw [← h.1, ← h'.1]; exact hs.1
  have hmap : c.B.map (fun c => c.P.length) = (b.B.map (fun bu => bu.P)).map List.length := by
    apply List.ext_getElem?
    intro i
    rw [List.map_map]
    by_cases hi : i < c.B.length
    · have hi' : i < b.B.length := by omega
      simp only [List.getElem?_map, List.getElem?_eq_getElem hi, List.getElem?_eq_getElem hi', Option.map_some, Function.comp]
      have := hs.2 i b.B[i] c.B[i] (by rw [getBunch_spec h]; simp [List.getElem?_eq_getElem hi'])
        (by rw [getBunch_spec h']; simp [List.getElem?_eq_getElem hi])
      simp only [Bunch.getNOP] at this
      rw [(h.2 _ (List.getElem_mem hi')).1, (h'.2 _ (List.getElem_mem hi)).1] at this
      rw [this]
    · rw [List.getElem?_eq_none (by simp; omega), List.getElem?_eq_none (by simp; omega)]
  have hset := beam_setStep h' _ hmap rest
  rw [← all_eq] at hset
  have hwf := Beam.wf_setStep h' hset
  refine ⟨_, _, bufferStep_beam h, hset, rfl, ⟨rfl, ?_⟩, ?_⟩
  · intro i bu cu e1 e2
    rw [getBunch_spec hwf] at e1
    rw [getBunch_spec h'] at e2
    simp only [Int.natCast_nonneg, if_true, Int.toNat_natCast] at e1 e2
    injection e1 with e1
    injection e2 with e2
    rw [List.getElem?_zipWith, e2] at e1
    cases hbi : (b.B.map (fun bu => bu.P))[i]? with
    | none => simp [hbi] at e1
    | some s => simp [hbi] at e1; rw [← e1]; rfl
  · intro i j p q hp hq
    rw [holds_iff h] at hp
    rw [holds_iff h'] at hq
    obtain ⟨bu, b1, b2⟩ := hp
    obtain ⟨cu, c1, c2⟩ := hq
    have hqr : q.Cons := cons_reachable ((h'.2 cu (List.mem_of_getElem? c1)).2 q (List.mem_of_getElem? c2))
    refine ⟨receive q p, ?_, rfl, rfl, rfl, rfl, rfl, rfl, rfl, ?_⟩
    · rw [holds_iff hwf]
      refine ⟨{ cu with P := List.zipWith receive cu.P bu.P }, ?_, ?_⟩
      · simp [List.getElem?_zipWith, c1, b1]
      · simp [List.getElem?_zipWith, c2, b2]
    · obtain ⟨e1, e2, e3, e4⟩ := hqr
      refine ⟨?_, ?_, ?_, ?_, ?_⟩
      · exact (if_pos (show ((q.NP : Int) ≥ 0 ∧ (q.NP : Int) < ((q.NP + 1 : Nat) : Int)) by omega)).trans (vecAt_last _ _ _ e1)
      · exact (if_pos (show ((q.NP : Int) ≥ 0 ∧ (q.NP : Int) < ((q.NP + 1 : Nat) : Int)) by omega)).trans (vecAt_last _ _ _ e2)
      · exact (if_pos (show ((q.NP : Int) ≥ 0 ∧ (q.NP : Int) < ((q.NP + 1 : Nat) : Int)) by omega)).trans (vecAt_last _ _ _ e3)
      · exact (if_pos (show ((q.NP : Int) ≥ 0 ∧ (q.NP : Int) < ((q.NP + 1 : Nat) : Int)) by omega)).trans (vecAt_last _ _ _ e4)
      · intro k hk
        change k < q.NP at hk
        have hk' : (k : Int) ≥ 0 ∧ (k : Int) < ((q.NP + 1 : Nat) : Int) := by omega
        have hk'' : (k : Int) ≥ 0 ∧ (k : Int) < (q.NP : Int) := by omega
        refine ⟨?_, ?_, ?_, ?_⟩
        · exact (if_pos hk').trans ((vecAt_init _ _ _ _ e1 hk).trans (if_pos hk'').symm)
        · exact (if_pos hk').trans ((vecAt_init _ _ _ _ e2 hk).trans (if_pos hk'').symm)
        · exact (if_pos hk').trans ((vecAt_init _ _ _ _ e3 hk).trans (if_pos hk'').symm)
        · exact (if_pos hk').trans ((vecAt_init _ _ _ _ e4 hk).trans (if_pos hk'').symm)

/-- non-vacuity of C32: a beam has the structure of itself, and holds particles -/
example : demoBeam.SameStructure demoBeam ∧ ∃ p, demoBeam.Holds 1 1 p := by
  refine ⟨⟨rfl, fun i bu cu h1 h2 => by rw [h1] at h2; injection h2 with h2; injection h2 with h2; rw [h2]⟩, Particle.new 1 1, ?_⟩
  rw [holds_iff (Beam.wf_reachable demoBeam_reachable)]
  exact ⟨Bunch.ofCount 2 1 1, rfl, rfl⟩

/-! ## C33 -/

/-- specification: round-robin order of the addresses (bunch, particle): first the particles number 0 of all bunches,
then the particles number 1 of all bunches that have one, and so on -/
def RoundRobin (a c : Nat × Nat) : Prop := a.2 < c.2 ∨ (a.2 = c.2 ∧ a.1 < c.1)

/-- address `n` exists -/
def addrOk (lens : List Nat) (n : Nat) : Bool := decide (n / lens.length < lens.getD (n % lens.length) 0)

theorem probe_loop {b : Beam} (h : b.WF) (hN : 0 < b.NOB) (get : Nat × Nat → Particle)
    (hget : ∀ i j p, b.Holds i j p → get (i, j) = p) :
    ∀ fuel n k, b.probeLoop fuel (n % b.NOB) (n / b.NOB) k =
      let sel := (List.range' n fuel).filter (addrOk (b.B.map Bunch.getNOP))
      if k ≤ sel.length then .ok ((sel.take k).flatMap (fun m => (get (m % b.NOB, m / b.NOB)).bufferProbe)) else .error .diverge := by
  intro fuel
  induction fuel with
  | zero =>
    intro n k
    cases k with
    | zero => simp [Beam.probeLoop]
    | succ k => simp [Beam.probeLoop]
  | succ fuel ih =>
    intro n k
    cases k with
    | zero => simp [Beam.probeLoop]
    | succ k =>
      have hib : n % b.NOB < b.B.length := by rw [← h.1]; exact Nat.mod_lt _ hN
      obtain ⟨bu, hbu⟩ : ∃ bu, b.B[n % b.NOB]? = some bu := ⟨_, List.getElem?_eq_getElem hib⟩
      have hwf := h.2 bu (List.mem_of_getElem? hbu)
      -- the next address
      have hnext : (if n % b.NOB + 1 = b.NOB then 0 else n % b.NOB + 1) = (n + 1) % b.NOB ∧
          (if n % b.NOB + 1 = b.NOB then n / b.NOB + 1 else n / b.NOB) = (n + 1) / b.NOB := by
        have hd := Nat.div_add_mod n b.NOB
        have hm := Nat.mod_lt n hN
        by_cases hc : n % b.NOB + 1 = b.NOB
        · rw [if_pos hc, if_pos hc]
          have e : n + 1 = b.NOB * (n / b.NOB + 1) := by rw [Nat.mul_add]; omega
          rw [e]
          exact ⟨(Nat.mul_mod_right _ _).symm, (Nat.mul_div_cancel_left _ hN).symm⟩
        · rw [if_neg hc, if_neg hc]
          have e : n + 1 = b.NOB * (n / b.NOB) + (n % b.NOB + 1) := by omega
          have hlt : n % b.NOB + 1 < b.NOB := by omega
          constructor
          · exact ((congrArg (· % b.NOB) e).trans ((Nat.mul_add_mod _ _ _).trans (Nat.mod_eq_of_lt hlt))).symm
          · exact ((congrArg (· / b.NOB) e).trans ((Nat.mul_add_div hN _ _).trans (by rw [Nat.div_eq_of_lt hlt, Nat.add_zero]))).symm
      have hok : addrOk (b.B.map Bunch.getNOP) n = decide (n / b.NOB < bu.getNOP) := by
        unfold addrOk
        rw [List.length_map, ← h.1]
        simp [List.getD, hbu]
      simp only [Beam.probeLoop, hbu]
      rw [hnext.1, hnext.2]
      rw [List.range'_succ]
      by_cases hlt : n / b.NOB < bu.getNOP
      · rw [if_pos hlt, getParticle_spec hwf]
        simp only [Int.natCast_nonneg, if_true, Int.toNat_natCast]
        have hj : n / b.NOB < bu.P.length := by rw [← hwf.1]; exact hlt
        have hg : get (n % b.NOB, n / b.NOB) = bu.P[n / b.NOB] :=
          hget _ _ _ ((holds_iff h _ _ _).mpr ⟨bu, hbu, List.getElem?_eq_getElem hj⟩)
        simp only [List.getElem?_eq_getElem hj]
        rw [ih (n + 1) k, List.filter_cons_of_pos (by rw [hok]; simpa using hlt)]
        simp only [List.length_cons, Nat.add_le_add_iff_right]
        by_cases hk : k ≤ ((List.range' (n + 1) fuel).filter (addrOk (b.B.map Bunch.getNOP))).length
        · rw [if_pos hk, if_pos hk, List.take_succ_cons, List.flatMap_cons, hg]
          rfl
        · rw [if_neg hk, if_neg hk]
          rfl
      · rw [if_neg hlt, ih (n + 1) (k + 1), List.filter_cons_of_neg (by rw [hok]; simpa using hlt)]

theorem card_addr (lens : List Nat) (hpos : 0 < lens.length) (M : Nat) (hM : ∀ x ∈ lens, x ≤ M) :
    ((List.range (lens.length * M)).filter (addrOk lens)).length = lens.sum := by
  have e1 : ((List.range (lens.length * M)).filter (addrOk lens)).length
      = ((Finset.range (lens.length * M)).filter (fun n => addrOk lens n = true)).card := by
    rw [← List.toFinset_card_of_nodup (List.Nodup.filter _ List.nodup_range)]
    congr 1
    ext n
    simp
  rw [e1]
  have e2 : lens.sum = (Finset.sigma (Finset.range lens.length) (fun i => Finset.range (lens.getD i 0))).card := by
    rw [Finset.card_sigma]
    simp only [Finset.card_range]
    rw [← Fin.sum_univ_eq_sum_range (fun i => lens.getD i 0)]
    conv_lhs => rw [← List.ofFn_getElem (xs := lens)]
    rw [List.sum_ofFn]
    apply Finset.sum_congr rfl
    intro i _
    simp [List.getD, List.getElem?_eq_getElem i.2]
  rw [e2]
  have hle : ∀ i, lens.getD i 0 ≤ M := by
    intro i
    unfold List.getD
    cases h : lens[i]? with
    | none => simp
    | some v => exact hM v (List.mem_of_getElem? h)
  refine Finset.card_nbij' (fun n => ⟨n % lens.length, n / lens.length⟩) (fun a => lens.length * a.2 + a.1) ?_ ?_ ?_ ?_
  · intro n hn
    simp [addrOk] at hn ⊢
    exact ⟨Nat.mod_lt _ hpos, hn.2⟩
  · rintro ⟨i, j⟩ ha
    simp only [Finset.coe_sigma, Set.mem_sigma_iff, Finset.coe_range, Set.mem_Iio] at ha
    have hm : (lens.length * j + i) % lens.length = i := by rw [Nat.mul_add_mod, Nat.mod_eq_of_lt ha.1]
    have hd : (lens.length * j + i) / lens.length = j := by rw [Nat.mul_add_div hpos, Nat.div_eq_of_lt ha.1, Nat.add_zero]
    simp only [Finset.coe_filter, Finset.mem_range, Set.mem_setOf_eq, addrOk, hm, hd, decide_eq_true_eq]
    refine ⟨?_, ha.2⟩
    have : j + 1 ≤ M := lt_of_lt_of_le ha.2 (hle i)
    calc lens.length * j + i < lens.length * j + lens.length := by have := ha.1; omega
      _ = lens.length * (j + 1) := by ring
      _ ≤ lens.length * M := Nat.mul_le_mul_left _ this
  · intro n _
    exact Nat.div_add_mod n lens.length
  · rintro ⟨i, j⟩ ha
    simp only [Finset.coe_sigma, Set.mem_sigma_iff, Finset.coe_range, Set.mem_Iio] at ha
    have hm : (lens.length * j + i) % lens.length = i := by rw [Nat.mul_add_mod, Nat.mod_eq_of_lt ha.1]
    have hd : (lens.length * j + i) / lens.length = j := by rw [Nat.mul_add_div hpos, Nat.div_eq_of_lt ha.1, Nat.add_zero]
    simp only [hm, hd]

theorem addr_stable (lens : List Nat) (hpos : 0 < lens.length) (M : Nat) (hM : ∀ x ∈ lens, x ≤ M) (fuel : Nat) (hf : lens.length * M ≤ fuel) :
    (List.range fuel).filter (addrOk lens) = (List.range (lens.length * M)).filter (addrOk lens) := by
  obtain ⟨d, rfl⟩ := Nat.exists_eq_add_of_le hf
  rw [List.range_add, List.filter_append]
  have : ((List.range d).map (fun x => lens.length * M + x)).filter (addrOk lens) = [] := by
    rw [List.filter_eq_nil_iff]
    intro n hn
    simp only [List.mem_map] at hn
    obtain ⟨x, _, rfl⟩ := hn
    have h1 : M ≤ (lens.length * M + x) / lens.length := by
      rw [Nat.mul_add_div hpos]; exact Nat.le_add_right _ _
    unfold addrOk List.getD
    cases h : lens[(lens.length * M + x) % lens.length]? with
    | none => simp
    | some v => have := hM v (List.mem_of_getElem? h); simp; omega
  rw [this, List.append_nil]

theorem addr_le (lens : List Nat) (hpos : 0 < lens.length) (fuel : Nat) :
    ((List.range fuel).filter (addrOk lens)).length ≤ lens.sum := by
  have hM : ∀ x ∈ lens, x ≤ lens.sum := fun x hx => List.single_le_sum (by simp) x hx
  rw [← card_addr lens hpos _ hM, ← addr_stable lens hpos _ hM (fuel + lens.length * lens.sum) (by omega)]
  apply List.Sublist.length_le
  apply List.Sublist.filter
  rw [List.range_add]
  exact List.sublist_append_left _ _

theorem bufferProbe_length (p : Particle) : p.bufferProbe.length = 16 := rfl

theorem probes_length (l : List Particle) : (l.flatMap Particle.bufferProbe).length = 16 * l.length := by
  induction l with
  | nil => rfl
  | cons p l ih => rw [List.flatMap_cons, List.length_append, ih, bufferProbe_length]; simp; omega

theorem rr_lt {N m n : Nat} (hN : 0 < N) : m < n ↔ RoundRobin (m % N, m / N) (n % N, n / N) := by
  unfold RoundRobin
  simp only
  have h1 := Nat.div_add_mod m N
  have h2 := Nat.div_add_mod n N
  have h3 := Nat.mod_lt m hN
  have h4 := Nat.mod_lt n hN
  constructor
  · intro h
    rcases Nat.lt_trichotomy (m / N) (n / N) with h' | h' | h'
    · exact Or.inl h'
    · right; rw [h'] at h1; exact ⟨h', by omega⟩
    · exact absurd (Nat.div_le_div_right (c := N) h.le) (by omega)
  · rintro (h | ⟨h, h'⟩)
    · by_contra hc
      exact absurd (Nat.div_le_div_right (c := N) (not_lt.mp hc)) (by omega)
    · rw [h] at h1; omega

/-- C33: when the beam has at least `number` particles the buffering finishes.  It writes 16 values for each of
`number` particles, which are at pairwise different addresses, in strictly increasing round-robin order, and no
existing particle is passed over. -/
theorem C33_probe {b : Beam} (hr : b.Reachable) (total number : Nat) (ht : b.getNOP = .ok total) (hn : number ≤ total) :
    ∃ (fuel₀ : Nat) (addr : List (Nat × Nat)) (ps : List Particle), addr.length = number ∧ ps.length = number ∧
      addr.Nodup ∧ addr.Pairwise RoundRobin ∧
      (∀ (k : Nat) (a : Nat × Nat) (p : Particle), addr[k]? = some a → ps[k]? = some p → b.Holds a.1 a.2 p) ∧
      (∀ i j p, b.Holds i j p → ∀ a ∈ addr, RoundRobin (i, j) a → (i, j) ∈ addr) ∧
      ∀ fuel, fuel₀ ≤ fuel → b.bufferProbe number fuel = .ok (ps.flatMap Particle.probeRecord) ∧
        (ps.flatMap Particle.probeRecord).length = Beam.getProbeBufferSize number := by
  have hdoc : Particle.probeRecord = Particle.bufferProbe := rfl
  rw [hdoc]
  have h := Beam.wf_reachable hr
  have hlens : (b.B.map Bunch.getNOP).sum = total := by
    rw [nop_all h] at ht
    injection ht with ht
    rw [← ht, Beam.all, List.length_flatMap]
    congr 1
    apply List.map_congr_left
    intro c hc
    exact (h.2 c hc).1
  rcases Nat.eq_zero_or_pos number with h0 | h0
  · subst h0
    refine ⟨0, [], [], rfl, rfl, List.nodup_nil, List.Pairwise.nil, by simp, by simp, fun fuel _ => ⟨?_, rfl⟩⟩
    cases fuel <;> rfl
  · have hN : 0 < b.NOB := by
      rcases Nat.eq_zero_or_pos b.NOB with hz | hz
      · rw [h.1] at hz
        rw [List.eq_nil_of_length_eq_zero hz] at hlens
        simp at hlens
        omega
      · exact hz
    have hlen : (b.B.map Bunch.getNOP).length = b.NOB := by rw [List.length_map, h.1]
    have hM : ∀ x ∈ b.B.map Bunch.getNOP, x ≤ (b.B.map Bunch.getNOP).sum := fun x hx => List.single_le_sum (by simp) x hx
    have hpos : 0 < (b.B.map Bunch.getNOP).length := by omega
    -- the particle at an address
    let get : Nat × Nat → Particle := fun a => ((b.B[a.1]?.bind (fun bu => bu.P[a.2]?))).getD (Particle.new 0 0)
    have hget : ∀ i j p, b.Holds i j p → get (i, j) = p := by
      intro i j p hp
      obtain ⟨bu, h1, h2⟩ := (holds_iff h i j p).mp hp
      simp [get, h1, h2]
    have hhold : ∀ n, addrOk (b.B.map Bunch.getNOP) n = true → b.Holds (n % b.NOB) (n / b.NOB) (get (n % b.NOB, n / b.NOB)) := by
      intro n hok
      have hib : n % b.NOB < b.B.length := by rw [← h.1]; exact Nat.mod_lt _ hN
      have hbu := List.getElem?_eq_getElem hib
      have hj : n / b.NOB < b.B[n % b.NOB].P.length := by
        rw [← (h.2 _ (List.getElem_mem hib)).1]
        unfold addrOk at hok
        rw [hlen] at hok
        have hok' : n / b.NOB < b.B[n % b.NOB].getNOP := by simpa [List.getD, hbu] using hok
        exact hok'
      rw [holds_iff h]
      exact ⟨_, hbu, by simp [get, hbu, List.getElem?_eq_getElem hj]⟩
    have hok : ∀ i j p, b.Holds i j p → i < b.NOB ∧ addrOk (b.B.map Bunch.getNOP) (b.NOB * j + i) = true ∧
        (b.NOB * j + i) % b.NOB = i ∧ (b.NOB * j + i) / b.NOB = j := by
      intro i j p hp
      obtain ⟨bu, h1, h2⟩ := (holds_iff h i j p).mp hp
      have hi : i < b.NOB := by rw [h.1]; exact (List.getElem?_eq_some_iff.mp h1).1
      have hm : (b.NOB * j + i) % b.NOB = i := by rw [Nat.mul_add_mod, Nat.mod_eq_of_lt hi]
      have hd : (b.NOB * j + i) / b.NOB = j := by rw [Nat.mul_add_div hN, Nat.div_eq_of_lt hi, Nat.add_zero]
      refine ⟨hi, ?_, hm, hd⟩
      unfold addrOk
      rw [hlen, hm, hd]
      have : j < bu.getNOP := by
        rw [show bu.getNOP = bu.P.length from (h.2 bu (List.mem_of_getElem? h1)).1]
        exact (List.getElem?_eq_some_iff.mp h2).1
      simpa [List.getD, h1] using this
    let sel := (List.range (b.NOB * (b.B.map Bunch.getNOP).sum)).filter (addrOk (b.B.map Bunch.getNOP))
    have hsel : sel.length = total := by
      have := card_addr _ hpos _ hM
      rw [hlen] at this
      exact this.trans hlens
    have hsorted : sel.Pairwise (· < ·) := List.Pairwise.filter _ List.pairwise_lt_range
    let taken := sel.take number
    have htl : taken.length = number := by simp [taken, hsel, hn]
    have htp : taken.Pairwise (· < ·) := hsorted.sublist (List.take_sublist _ _)
    have hrr : (taken.map (fun m => (m % b.NOB, m / b.NOB))).Pairwise RoundRobin := by
      rw [List.pairwise_map]
      exact htp.imp (fun hlt => (rr_lt hN).mp hlt)
    refine ⟨b.NOB * (b.B.map Bunch.getNOP).sum, taken.map (fun m => (m % b.NOB, m / b.NOB)),
      taken.map (fun m => get (m % b.NOB, m / b.NOB)), by simp [htl], by simp [htl], ?_, hrr, ?_, ?_, ?_⟩
    · refine hrr.imp ?_
      intro a c hac e
      subst e
      rcases hac with h' | h' <;> omega
    · intro k a p ha hp
      rw [List.getElem?_map] at ha hp
      cases hk : taken[k]? with
      | none => simp [hk] at ha
      | some m =>
        simp only [hk, Option.map_some, Option.some.injEq] at ha hp
        subst ha; subst hp
        apply hhold
        exact (List.mem_filter.mp (List.mem_of_mem_take (List.mem_of_getElem? hk))).2
    · intro i j p hp a ha hrra
      obtain ⟨hi, hb1, hm, hd⟩ := hok i j p hp
      simp only [List.mem_map] at ha ⊢
      obtain ⟨m, hmem, rfl⟩ := ha
      refine ⟨b.NOB * j + i, ?_, by rw [hm, hd]⟩
      have hlt : b.NOB * j + i < m := by
        rw [rr_lt hN, hm, hd]; exact hrra
      have hm' := List.mem_filter.mp (List.mem_of_mem_take hmem)
      have hin : b.NOB * j + i ∈ sel := List.mem_filter.mpr ⟨List.mem_range.mpr (lt_trans hlt (List.mem_range.mp hm'.1)), hb1⟩
      -- it is before m in a sorted list, hence taken
      obtain ⟨k, hk, hke⟩ := List.mem_iff_getElem.mp hin
      obtain ⟨l, hl, hle⟩ := List.mem_iff_getElem.mp hmem
      have hl' : l < number := by omega
      have hle' : sel[l]'(by omega) = m := by rw [← hle]; simp [taken]
      have hkl : k < l := by
        by_contra hc
        rcases Nat.lt_or_eq_of_le (not_lt.mp hc) with h' | h'
        · have := List.pairwise_iff_getElem.mp hsorted l k (by omega) hk h'
          omega
        · subst h'; omega
      rw [List.mem_iff_getElem]
      exact ⟨k, by omega, by simp [taken, hke]⟩
    · intro fuel hf
      have hloop := probe_loop h hN get hget fuel 0 number
      rw [Nat.zero_mod, Nat.zero_div] at hloop
      have hst := addr_stable _ hpos _ hM fuel (by rw [hlen]; exact hf)
      rw [hlen] at hst
      rw [← List.range_eq_range'] at hloop
      simp only [hst] at hloop
      rw [if_pos (show number ≤ sel.length by omega)] at hloop
      constructor
      · unfold Beam.bufferProbe
        rw [hloop, List.flatMap_map]
      · rw [probes_length]
        simp [htl, Beam.getProbeBufferSize, mul_comm]

/-- C33: a request for more particles than the beam has never finishes (the loop keeps searching). -/
theorem C33_probe_excess {b : Beam} (hr : b.Reachable) (total number : Nat) (ht : b.getNOP = .ok total) (hn : total < number)
    (hN : 0 < b.getNOB) (fuel : Nat) : b.bufferProbe number fuel = .error .diverge := by
  have h := Beam.wf_reachable hr
  have hlens : (b.B.map Bunch.getNOP).sum = total := by
    rw [nop_all h] at ht
    injection ht with ht
    rw [← ht, Beam.all, List.length_flatMap]
    congr 1
    apply List.map_congr_left
    intro c hc
    exact (h.2 c hc).1
  let get : Nat × Nat → Particle := fun a => ((b.B[a.1]?.bind (fun bu => bu.P[a.2]?))).getD (Particle.new 0 0)
  have hget : ∀ i j p, b.Holds i j p → get (i, j) = p := by
    intro i j p hp
    obtain ⟨bu, h1, h2⟩ := (holds_iff h i j p).mp hp
    simp [get, h1, h2]
  have hloop := probe_loop h hN get hget fuel 0 number
  rw [Nat.zero_mod, Nat.zero_div, ← List.range_eq_range'] at hloop
  unfold Beam.bufferProbe
  rw [hloop]
  have := addr_le (b.B.map Bunch.getNOP) (by rw [List.length_map, ← h.1]; exact hN) fuel
  simp only
  rw [if_neg (by omega)]

/-- non-vacuity of C33: the demonstration beam has three particles -/
example : demoBeam.getNOP = .ok 3 ∧ demoBeam.Reachable ∧ 0 < demoBeam.getNOB := ⟨rfl, demoBeam_reachable, by decide⟩

end Teufel
