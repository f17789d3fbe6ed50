import Verif.Lemmas.HybridSim
import Mathlib.Algebra.Order.Floor.Semiring
import Mathlib.Data.Rat.Floor

/-! # C35, C36: distribution of the particles over the nodes, distributed tracking -/

namespace Teufel
open Vec

variable {σ ω : Type}

theorem trackingNOP_ceil (n N : Nat) (hN : 0 < N) : trackingNOP n N = ⌈(n : ℚ) / (N : ℚ)⌉₊ := by
  have hq : (0 : ℚ) < N := by exact_mod_cast hN
  apply le_antisymm
  · have h1 : (n : ℚ) ≤ ⌈(n : ℚ) / (N : ℚ)⌉₊ * N := by
      rw [← div_le_iff₀ hq]
      exact Nat.le_ceil _
    have h2 : n ≤ ⌈(n : ℚ) / (N : ℚ)⌉₊ * N := by exact_mod_cast h1
    unfold trackingNOP
    apply Nat.lt_succ_iff.mp
    rw [Nat.div_lt_iff_lt_mul hN, Nat.succ_mul]
    omega
  · rw [Nat.ceil_le, div_le_iff₀ hq]
    have := trackingNOP_ge n N hN
    rw [Nat.mul_comm] at this
    exact_mod_cast this

/-- C35: for any number of nodes the particles of the beam are cut into consecutive pieces: putting the bunches
tracked by node 0, 1, ... behind each other gives a copy of every particle of the beam exactly once, in the
order of the beam, and no node has more than the rounded up mean number of particles. -/
theorem C35_distribution {m : Beam} (hr : m.Reachable) (total N NOTS : Nat) (ht : m.getNOP = .ok total) (hN : 0 < N) :
    ∃ parts : List Bunch, parts.length = N ∧
      (∀ r part, parts[r]? = some part → dealBunch m r (trackingNOP total N) NOTS = .ok part) ∧
      parts.flatMap (fun b => b.P) = (m.B.flatMap (fun b => b.P)).map (fun p => p.copy.preAllocate (NOTS + 1)) ∧
      ∀ part ∈ parts, part.getNOP = part.P.length ∧ part.getNOP ≤ ⌈(total : ℚ) / (N : ℚ)⌉₊ := by
  have h := Beam.wf_reachable hr
  have htot : total = m.all.length := by
    rw [nop_all h] at ht
    injection ht with ht
    exact ht.symm
  subst htot
  rw [← trackingNOP_ceil _ _ hN]
  refine ⟨(chunks (trackingNOP m.all.length N) N (m.all.map (fun p => p.copy.preAllocate (NOTS + 1)))).map (fun c => ⟨c.length, c⟩), ?_, ?_, ?_, ?_⟩
  · simp [chunks]
  · intro r part hp
    rw [List.getElem?_map] at hp
    cases hc : (chunks (trackingNOP m.all.length N) N (m.all.map (fun p => p.copy.preAllocate (NOTS + 1))))[r]? with
    | none => simp [hc] at hp
    | some c =>
      simp only [hc, Option.map_some, Option.some.injEq] at hp
      unfold chunks at hc
      rw [List.getElem?_map] at hc
      have hr' : r < N := by
        by_contra hn
        rw [List.getElem?_eq_none (by simp; omega)] at hc
        simp at hc
      rw [List.getElem?_range hr'] at hc
      simp only [Option.map_some, Option.some.injEq] at hc
      rw [dealBunch_eq h r NOTS N hN, ← hp, ← hc]
      simp only [List.map_take, List.map_drop, List.length_take, List.length_drop, List.length_map]
  · rw [List.flatMap_map]
    have := chunks_flatten (trackingNOP m.all.length N) N (m.all.map (fun p => p.copy.preAllocate ((NOTS : Int) + 1)))
      (by rw [List.length_map]; exact trackingNOP_ge _ _ hN)
    rw [show (fun a : List Particle => (⟨a.length, a⟩ : Bunch).P) = id from rfl, ← List.flatten_eq_flatMap]
    exact this
  · intro part hp
    simp only [List.mem_map, chunks, List.mem_range] at hp
    obtain ⟨c, ⟨r, _, rfl⟩, rfl⟩ := hp
    exact ⟨rfl, by simp only [Bunch.getNOP, List.length_take]; omega⟩

/-- non-vacuity of C35: three particles in two bunches on two nodes -/
example : demoBeam.Reachable ∧ demoBeam.getNOP = .ok 3 ∧ trackingNOP 3 2 = 2 ∧
    (dealBunch demoBeam 0 2 5).map Bunch.getNOP = .ok 2 ∧ (dealBunch demoBeam 1 2 5).map Bunch.getNOP = .ok 1 :=
  ⟨demoBeam_reachable, rfl, rfl, rfl, rfl⟩

/-! ## C36 -/

/-- the output objects of a run only look at the master beam -/
def Run.MasterOut (R : Run σ ω) : Prop :=
  (∀ m t t' o, R.startOut m t o = R.startOut m t' o) ∧ ∀ k m t t' o, R.stepOut k m t o = R.stepOut k m t' o

theorem absRun_indep (R R' : Run σ ω) (hR : R.MasterOut) (TN TN' : Nat) (M : Beam) (s : σ) (out : ω) (k : Nat)
    (h1 : R'.NOTS = R.NOTS) (h2 : R'.lattice = R.lattice) (h3 : R'.initInter = R.initInter) (h4 : R'.stepInter = R.stepInter)
    (h5 : R'.startOut = R.startOut) (h6 : R'.stepOut = R.stepOut) :
    absRun R' TN' M s out k = absRun R TN M s out k := by
  have hs : ∀ A step, absStep R' TN' A step = absStep R TN A step := by
    intro A step
    unfold absStep
    rw [h2, h4, h6]
    simp only [fun k m t o => hR.2 k m t Beam.empty o]
  have h0 : absSetup R' TN' M s out = absSetup R TN M s out := by
    unfold absSetup
    rw [h1, h2, h3, h5]
    simp only [fun m t o => hR.1 m t Beam.empty o]
  unfold absRun
  rw [h0]
  congr 1
  funext A
  congr 1
  funext A step
  exact hs A step

/-- C36: after every number of tracking steps all nodes have identical master beams and interaction fields; they,
the output and all tracked particles are those of a run with a single node.  An error ends the distributed run
exactly if it ends the run on a single node, with the same error.  `ms` are the beams parsed by the nodes, which
may differ in the particle coordinates; the contents of uninitialised buffers (`junk`) are irrelevant. -/
theorem C36_nodes (R : Run σ ω) (hR : R.MasterOut) (hN : 0 < R.nodes) (ms : List Beam) (hlen : ms.length = R.nodes)
    (hreach : ∀ m ∈ ms, Beam.Reachable m) (m0 : Beam) (hm0 : ms.head? = some m0) (hblank : ∀ m ∈ ms, Beam.blank m = m0.blank)
    (s : σ) (out : ω) (junk₁ : Nat → Nat → Nat → ℝ) (k : Nat) :
    match runSteps R ms s out k, runSteps { R with nodes := 1, junk := junk₁ } [m0] s out k with
    | .ok w, .ok w₁ => w.nodes.length = R.nodes ∧ w₁.nodes.length = 1 ∧ w.out = w₁.out ∧
        (∀ n ∈ w.nodes, ∀ n₁ ∈ w₁.nodes, n.master = n₁.master ∧ n.inter = n₁.inter) ∧
        w.nodes.flatMap (fun n => n.tracked.all) = w₁.nodes.flatMap (fun n => n.tracked.all)
    | .error e, .error e₁ => e = e₁
    | _, _ => False := by
  have hwf : ∀ m ∈ ms, Beam.WF m := fun m hm => Beam.wf_reachable (hreach m hm)
  have hm0mem : m0 ∈ ms := List.mem_of_head? hm0
  have hm0wf := hwf m0 hm0mem
  obtain ⟨M, hM, hMl, _, _, _, hMall, _, hset⟩ := setupMasters ms m0 hm0wf hwf hblank R.NOTS
  obtain ⟨M', hM', hMl', _, _, _, hMall', _, hset'⟩ := setupMasters [m0] m0 hm0wf (by simpa using hm0wf) (by simp) R.NOTS
  have hMM : M' = M := by
    have e1 := hset' []
    have e2 := hset []
    have f1 : setupMaster m0 (m0.all.flatMap Bunch.stepRecord ++ []) R.NOTS = .ok M' := by
      rw [List.mapM_cons] at e1
      cases hx : setupMaster m0 (m0.all.flatMap Bunch.stepRecord ++ []) R.NOTS with
      | error e => rw [hx] at e1; cases e1
      | ok b =>
        rw [hx] at e1
        simp only [bind, Except.bind, List.mapM_nil, pure, Except.pure] at e1
        injection e1 with e1
        simp only [List.length_cons, List.length_nil, zero_add, List.replicate_one, List.cons.injEq, and_true] at e1
        rw [e1]
    have f2 : setupMaster m0 (m0.all.flatMap Bunch.stepRecord ++ []) R.NOTS = .ok M := by
      cases ms with
      | nil => simp at hm0
      | cons m ms =>
        simp only [List.head?_cons, Option.some.injEq] at hm0
        subst hm0
        rw [List.mapM_cons] at e2
        cases hx : setupMaster m (m.all.flatMap Bunch.stepRecord ++ []) R.NOTS with
        | error e => rw [hx] at e2; cases e2
        | ok b =>
          rw [hx] at e2
          simp only [bind, Except.bind, pure, Except.pure] at e2
          split at e2
          · cases e2
          · injection e2 with e2
            rw [List.length_cons, List.replicate_succ] at e2
            injection e2 with e2 _
            rw [e2]
    rw [f1] at f2
    injection f2
  subst hMM
  have hr := runSteps_abs R hN ms hlen hwf m0 hm0 hblank s out M' hM hMl hset k
  have hr₁ := runSteps_abs { R with nodes := 1, junk := junk₁ } (by simp) [m0] rfl (by simpa using hm0wf) m0 rfl (by simp) s out M' hM' hMl' hset' k
  have hab := absRun_indep R { R with nodes := 1, junk := junk₁ } hR (trackingNOP M'.all.length R.nodes) (trackingNOP M'.all.length 1) M' s out k
    rfl rfl rfl rfl rfl rfl
  simp only at hr₁
  rw [hr.1, hr₁.1, hab]
  cases hA : absRun R (trackingNOP M'.all.length R.nodes) M' s out k with
  | error e => rfl
  | ok A =>
    obtain ⟨hAi, hAl⟩ := hr.2 A hA
    simp only [Except.map]
    have hflat : ∀ N, 0 < N → (A.world (trackingNOP M'.all.length N) N).nodes.flatMap (fun n => n.tracked.all) = A.T := by
      intro N hN
      unfold Abs.world
      simp only [List.flatMap_map]
      have : (fun c : List Particle => (oneBunch A.dt A.nots c).all) = id := by
        funext c
        simp [oneBunch, Beam.all]
      rw [this, ← List.flatten_eq_flatMap, chunks_flatten]
      rw [hAi.2, hAl]
      exact trackingNOP_ge _ _ hN
    refine ⟨by simp [Abs.world, chunks], by simp [Abs.world, chunks], rfl, ?_, ?_⟩
    · intro n hn n₁ hn₁
      simp only [Abs.world, List.mem_map] at hn hn₁
      obtain ⟨c, _, rfl⟩ := hn
      obtain ⟨c₁, _, rfl⟩ := hn₁
      exact ⟨rfl, rfl⟩
    · rw [hflat _ hN, hflat 1 (by simp)]

end Teufel
