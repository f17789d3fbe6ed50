import Verif.Props.Watches

/-!
# C70: the probe log and the number of nodes
-/

namespace Teufel
open Vec

variable {σ ω : Type}

theorem oneBunch_nop (dt : ℝ) (nots : Int) (c : List Particle) : (oneBunch dt nots c).getNOP = .ok c.length := by
  unfold Beam.getNOP oneBunch
  simp [visited, Bunch.getNOP, Except.map, bind, Except.bind, pure, Except.pure]

theorem oneBunch_probe (dt : ℝ) (nots : Int) (c : List Particle) : ∀ (fuel ii k : Nat), ii + k ≤ c.length →
    (oneBunch dt nots c).probeLoop fuel 0 ii k = if k ≤ fuel then .ok (((c.drop ii).take k).flatMap Particle.bufferProbe) else .error .diverge := by
  intro fuel
  induction fuel with
  | zero =>
    intro ii k hk
    cases k with
    | zero => simp [Beam.probeLoop]
    | succ k => simp [Beam.probeLoop]
  | succ fuel ih =>
    intro ii k hk
    cases k with
    | zero => simp [Beam.probeLoop]
    | succ k =>
      have hii : ii < c.length := by omega
      have hg : (⟨c.length, c⟩ : Bunch).getParticle ii = .ok (some c[ii]) := by
        unfold Bunch.getParticle
        simp [List.getElem?_eq_getElem hii, Particle.vecAt, Except.map, hii]
      unfold Beam.probeLoop
      have hB : (oneBunch dt nots c).B[0]? = some ⟨c.length, c⟩ := rfl
      have hnob : 0 + 1 = (oneBunch dt nots c).NOB := rfl
      rw [hB]
      simp only
      rw [if_pos hnob, if_pos hnob, if_pos (show ii < (⟨c.length, c⟩ : Bunch).getNOP from hii), hg]
      simp only
      rw [ih (ii + 1) k (by omega), List.drop_eq_getElem_cons hii, List.take_succ_cons, List.flatMap_cons]
      by_cases hf : k ≤ fuel
      · rw [if_pos hf, if_pos (by omega)]; rfl
      · rw [if_neg hf, if_neg (by omega)]; rfl

/-- loggers that look at no more than `n` particles of the tracked beam -/
def LooksAt (n : Nat) (l : Logger) : Prop := ∀ L, l = .probe L → L.NOP ≤ n

theorem logger_update_first (junk : Nat → ℝ) (fuel : Nat) (m : Beam) (dt : ℝ) (nots : Int) {n : Nat} {c c' : List Particle} (h1 : n ≤ c.length) (h2 : n ≤ c'.length)
    (h : c.take n = c'.take n) {l : Logger} (hl : LooksAt n l) :
    l.update junk fuel m (oneBunch dt nots c) = l.update junk fuel m (oneBunch dt nots c') := by
  cases l with
  | param i L => rfl
  | traj i L => rfl
  | probe L =>
    have hn := hl L rfl
    simp only [Logger.update, ProbeLog.update, Beam.bufferProbe]
    rw [oneBunch_probe dt nots c fuel 0 L.NOP (by omega), oneBunch_probe dt nots c' fuel 0 L.NOP (by omega), List.drop_zero, List.drop_zero]
    have : c.take L.NOP = c'.take L.NOP := by
      have e := congrArg (List.take L.NOP) h
      rwa [List.take_take, List.take_take, Nat.min_eq_left hn] at e
    rw [this]

theorem logger_update_looks {junk : Nat → ℝ} {fuel : Nat} {m t : Beam} {n : Nat} {l l' : Logger} (hl : LooksAt n l)
    (h : l.update junk fuel m t = .ok l') : LooksAt n l' := by
  intro L' e
  subst e
  cases l with
  | param i L =>
    simp only [Logger.update] at h
    cases hv : Particle.vecAt m.B i with
    | error e => rw [hv] at h; cases h
    | ok bu => rw [hv] at h; cases h
  | traj i L =>
    simp only [Logger.update] at h
    cases hv : Particle.vecAt m.B i with
    | error e => rw [hv] at h; cases h
    | ok bu =>
      rw [hv] at h
      simp only [bind, Except.bind] at h
      cases hu : L.update junk bu with
      | error e => rw [hu] at h; cases h
      | ok L1 => rw [hu] at h; cases h
  | probe L =>
    have hn := hl L rfl
    simp only [Logger.update, ProbeLog.update] at h
    cases hv : t.bufferProbe L.NOP fuel with
    | error e => rw [hv] at h; cases h
    | ok vals =>
      rw [hv] at h
      simp only [bind, Except.bind] at h
      by_cases hs : vals.length ≤ Beam.getProbeBufferSize L.NOP
      · rw [if_pos hs] at h
        simp only [Except.map, pure, Except.pure] at h
        injection h with h
        injection h with h
        rw [← h]
        exact hn
      · rw [if_neg hs] at h; cases h

theorem mapM_mem_ok {α β} {f : α → Except Err β} {l : List α} {l' : List β} (h : l.mapM f = .ok l') {b : β} (hb : b ∈ l') :
    ∃ a ∈ l, f a = .ok b := by
  induction l generalizing l' with
  | nil =>
    rw [List.mapM_nil] at h
    simp only [pure, Except.pure] at h
    injection h with h
    subst h
    simp at hb
  | cons x l ih =>
    rw [List.mapM_cons] at h
    simp only [bind, Except.bind, pure, Except.pure] at h
    cases hx : f x with
    | error e => rw [hx] at h; cases h
    | ok y =>
      rw [hx] at h
      simp only at h
      cases hl : l.mapM f with
      | error e => rw [hl] at h; cases h
      | ok ys =>
        rw [hl] at h
        simp only at h
        injection h with h
        subst h
        rcases List.mem_cons.1 hb with rfl | hb
        · exact ⟨x, by simp, hx⟩
        · obtain ⟨a, ha, hfa⟩ := ih hl hb
          exact ⟨a, by simp [ha], hfa⟩

theorem start_first (junk : Nat → ℝ) (fuel : Nat) (m : Beam) (dt : ℝ) (nots : Int) {n : Nat} {c c' : List Particle} (h1 : n ≤ c.length) (h2 : n ≤ c'.length)
    (h : c.take n = c'.take n) {o : Output} (ho : ∀ l ∈ o.loggers, LooksAt n l) :
    Output.start junk fuel m (oneBunch dt nots c) o = Output.start junk fuel m (oneBunch dt nots c') o := by
  unfold Output.start
  cases hw : writeWatches 0 m o with
  | error e => rfl
  | ok o1 =>
    simp only [bind, Except.bind]
    rw [(writeWatches_loggers hw).1, mapM_congr_mem _ _ _ (fun l hl => logger_update_first junk fuel m dt nots h1 h2 h (ho l hl))]

theorem start_looks {junk : Nat → ℝ} {fuel : Nat} {m t : Beam} {n : Nat} {o o' : Output} (ho : ∀ l ∈ o.loggers, LooksAt n l)
    (h : Output.start junk fuel m t o = .ok o') : ∀ l ∈ o'.loggers, LooksAt n l := by
  unfold Output.start at h
  cases hw : writeWatches 0 m o with
  | error e => rw [hw] at h; cases h
  | ok o1 =>
    rw [hw] at h
    simp only [bind, Except.bind] at h
    cases hm : o1.loggers.mapM (Logger.update junk fuel m t) with
    | error e => rw [hm] at h; cases h
    | ok ls =>
      rw [hm] at h
      simp only [pure, Except.pure] at h
      injection h with h
      subst h
      intro l hl
      obtain ⟨a, ha, hu⟩ := mapM_mem_ok hm hl
      rw [(writeWatches_loggers hw).1] at ha
      exact logger_update_looks (ho a ha) hu

theorem step_first (junk : Nat → ℝ) (fuel k : Nat) (m : Beam) (dt : ℝ) (nots : Int) {n : Nat} {c c' : List Particle} (h1 : n ≤ c.length) (h2 : n ≤ c'.length)
    (h : c.take n = c'.take n) {o : Output} (ho : ∀ l ∈ o.loggers, LooksAt n l) :
    Output.step junk fuel k m (oneBunch dt nots c) o = Output.step junk fuel k m (oneBunch dt nots c') o := by
  unfold Output.step
  have : ∀ l ∈ o.loggers, Logger.maybe junk fuel k m (oneBunch dt nots c) l = Logger.maybe junk fuel k m (oneBunch dt nots c') l := by
    intro l hl
    unfold Logger.maybe
    rw [logger_update_first junk fuel m dt nots h1 h2 h (ho l hl)]
  rw [mapM_congr_mem _ _ _ this]

theorem step_looks {junk : Nat → ℝ} {fuel k : Nat} {m t : Beam} {n : Nat} {o o' : Output} (ho : ∀ l ∈ o.loggers, LooksAt n l)
    (h : Output.step junk fuel k m t o = .ok o') : ∀ l ∈ o'.loggers, LooksAt n l := by
  unfold Output.step at h
  cases hm : o.loggers.mapM (Logger.maybe junk fuel k m t) with
  | error e => rw [hm] at h; cases h
  | ok ls =>
    rw [hm] at h
    simp only [bind, Except.bind] at h
    intro l hl
    rw [(writeWatches_loggers h).1] at hl
    obtain ⟨a, ha, hu⟩ := mapM_mem_ok hm hl
    unfold Logger.maybe at hu
    cases hr : logRequested a.stepsize k with
    | error e => rw [hr] at hu; cases hu
    | ok b =>
      rw [hr] at hu
      simp only [bind, Except.bind] at hu
      cases b with
      | true => exact logger_update_looks (ho a ha) hu
      | false =>
        have e : a = l := by
          have : (Except.ok a : Except Err Logger) = .ok l := hu
          injection this
        rw [← e]
        exact ho a ha

/-- output that looks at the first `n` particles of the tracked beam of rank 0 only -/
structure Run.FirstOut (R : Run σ ω) (n : Nat) (I₀ I : ω → Prop) : Prop where
  start : ∀ m dt nots c c' o, n ≤ List.length c → n ≤ List.length c' → c.take n = c'.take n → I₀ o →
    R.startOut m (oneBunch dt nots c) o = R.startOut m (oneBunch dt nots c') o
  startKeeps : ∀ m dt nots c o o', n ≤ List.length c → I₀ o → R.startOut m (oneBunch dt nots c) o = .ok o' → I o'
  step : ∀ k m dt nots c c' o, n ≤ List.length c → n ≤ List.length c' → c.take n = c'.take n → I o →
    R.stepOut k m (oneBunch dt nots c) o = R.stepOut k m (oneBunch dt nots c') o
  stepKeeps : ∀ k m t o o', I o → R.stepOut k m t o = .ok o' → I o'

theorem absRun_first (R R' : Run σ ω) {n : Nat} {I₀ I : ω → Prop} (hR : R.FirstOut n I₀ I) (TN TN' : Nat) (M : Beam) (s : σ) (out : ω) (hI : I₀ out) (k : Nat)
    (h1 : R'.NOTS = R.NOTS) (h2 : R'.lattice = R.lattice) (h3 : R'.initInter = R.initInter) (h4 : R'.stepInter = R.stepInter)
    (h5 : R'.startOut = R.startOut) (h6 : R'.stepOut = R.stepOut) (n1 : n ≤ TN) (n2 : n ≤ TN') (n3 : n ≤ M.all.length) :
    absRun R' TN' M s out k = absRun R TN M s out k := by
  have hlen : ∀ (a : Nat) (T : List Particle), T.length = M.all.length → n ≤ a → n ≤ (T.take a).length := by
    intro a T hT ha
    rw [List.length_take]
    omega
  have htake : ∀ (a b : Nat) (T : List Particle), n ≤ a → n ≤ b → (T.take a).take n = (T.take b).take n := by
    intro a b T ha hb
    rw [List.take_take, List.take_take, Nat.min_eq_left ha, Nat.min_eq_left hb]
  have h0 : absSetup R' TN' M s out = absSetup R TN M s out ∧ ∀ A, absSetup R TN M s out = .ok A → A.T.length = M.all.length ∧ I A.out := by
    unfold absSetup
    rw [h1, h2, h3, h5]
    by_cases hv : M.tracker = .vay
    · simp only [hv, ne_eq, not_true_eq_false, if_false, bind, Except.bind, pure, Except.pure]
      cases hT : (M.all.map (fun p => p.copy.preAllocate ((R.NOTS : Int) + 1))).mapM (fun p => dropState (p.InitVay M.dt (R.lattice s))) with
      | error e => exact ⟨rfl, fun A h => by cases h⟩
      | ok T =>
        have hTl := (mapM_except_length hT).1
        rw [List.length_map] at hTl
        simp only
        rw [hR.start M M.dt 0 _ _ out (hlen TN' T hTl n2) (hlen TN T hTl n1) (htake _ _ _ n2 n1) hI]
        refine ⟨rfl, fun A h => ?_⟩
        cases ho : R.startOut M (oneBunch M.dt 0 (T.take TN)) out with
        | error e => rw [ho] at h; cases h
        | ok o =>
          rw [ho] at h
          simp only at h
          cases hi : R.initInter M s with
          | error e => rw [hi] at h; cases h
          | ok s' =>
            rw [hi] at h
            simp only at h
            injection h with h
            subst h
            exact ⟨hTl, hR.startKeeps _ _ _ _ _ _ (hlen TN T hTl n1) hI ho⟩
    · simp only [ne_eq, hv, not_false_eq_true, if_true, bind, Except.bind]
      exact ⟨trivial, fun A h => by cases h⟩
  have hs : ∀ A step, A.T.length = M.all.length → I A.out → absStep R' TN' A step = absStep R TN A step ∧
      ∀ A', absStep R TN A step = .ok A' → A'.T.length = M.all.length ∧ I A'.out := by
    intro A step hA hIA
    unfold absStep
    rw [h2, h4, h6]
    simp only [bind, Except.bind, pure, Except.pure]
    cases hT : A.T.mapM (fun p => dropState (p.StepVay (R.lattice A.s))) with
    | error e => exact ⟨rfl, fun A h => by cases h⟩
    | ok T =>
      have hTl := (mapM_except_length hT).1.trans hA
      simp only
      cases hM : A.M.setStepFromBuffer (T.flatMap Bunch.stepRecord) with
      | error e => exact ⟨rfl, fun A h => by cases h⟩
      | ok M' =>
        simp only
        by_cases hn : M'.NOTS ≠ (step : Int) + 1
        · rw [if_pos hn, if_pos hn]
          exact ⟨rfl, fun A h => by cases h⟩
        · rw [if_neg hn, if_neg hn]
          rw [hR.step (step + 1) M' A.dt (A.nots + 1) _ _ A.out (hlen TN' T hTl n2) (hlen TN T hTl n1) (htake _ _ _ n2 n1) hIA]
          refine ⟨rfl, fun A' h => ?_⟩
          cases ho : R.stepOut (step + 1) M' (oneBunch A.dt (A.nots + 1) (T.take TN)) A.out with
          | error e => rw [ho] at h; cases h
          | ok o =>
            rw [ho] at h
            simp only at h
            cases hi : R.stepInter M' A.s with
            | error e => rw [hi] at h; cases h
            | ok s' =>
              rw [hi] at h
              simp only at h
              injection h with h
              subst h
              exact ⟨hTl, hR.stepKeeps _ _ _ _ _ hIA ho⟩
  unfold absRun
  rw [h0.1]
  cases hA0 : absSetup R TN M s out with
  | error e => rfl
  | ok A0 =>
    obtain ⟨a1, a2⟩ := h0.2 A0 hA0
    simp only [bind, Except.bind]
    suffices H : ∀ k, (List.range k).foldlM (absStep R' TN') A0 = (List.range k).foldlM (absStep R TN) A0 ∧
        ∀ A, (List.range k).foldlM (absStep R TN) A0 = .ok A → A.T.length = M.all.length ∧ I A.out from (H k).1
    intro k
    induction k with
    | zero =>
      refine ⟨rfl, fun A h => ?_⟩
      injection h with h
      subst h
      exact ⟨a1, a2⟩
    | succ k ih =>
      rw [List.range_succ, List.foldlM_append, List.foldlM_append, ih.1]
      cases hk : (List.range k).foldlM (absStep R TN) A0 with
      | error e => exact ⟨rfl, fun A h => by cases h⟩
      | ok A =>
        obtain ⟨b1, b2⟩ := ih.2 A hk
        obtain ⟨c1, c2⟩ := hs A k b1 b2
        simp only [bind, Except.bind, List.foldlM_cons, List.foldlM_nil]
        rw [c1]
        cases hst : absStep R TN A k with
        | error e => exact ⟨rfl, fun A h => by cases h⟩
        | ok A' =>
          refine ⟨rfl, fun A'' h => ?_⟩
          injection h with h
          subst h
          exact c2 A' hst

/-- the program with a probe logger for `number` particles looks at so many particles of rank 0 -/
theorem withProbe_first (R : Run σ Unit) (junk : Nat → ℝ) (fuel st number : Nat) :
    (R.withProbe junk fuel st number).FirstOut number (fun o => ∀ l ∈ o.loggers, LooksAt number l) (fun o => ∀ l ∈ o.loggers, LooksAt number l) := by
  have hnew : ∀ (dt : ℝ) (nots : Int) (c : List Particle), number ≤ c.length →
      ProbeLog.new (oneBunch dt nots c) st number = .ok ⟨st, number, Beam.getProbeBufferSize 1, 0, []⟩ := by
    intro dt nots c hc
    unfold ProbeLog.new
    rw [oneBunch_nop]
    simp only [bind, Except.bind, pure, Except.pure]
    congr 2
    split_ifs <;> omega
  have hadd : ∀ (o : Output), (∀ l ∈ o.loggers, LooksAt number l) → ∀ l ∈ o.loggers ++ [.probe ⟨st, number, Beam.getProbeBufferSize 1, 0, []⟩], LooksAt number l := by
    intro o ho l hl
    rcases List.mem_append.1 hl with hl | hl
    · exact ho l hl
    · rw [List.mem_singleton] at hl
      subst hl
      intro L hL
      injection hL with hL
      subst hL
      exact le_rfl
  refine ⟨?_, ?_, ?_, ?_⟩
  · intro m dt nots c c' o h1 h2 h ho
    show Output.startProbe junk fuel st number m _ o = Output.startProbe junk fuel st number m _ o
    unfold Output.startProbe
    rw [hnew dt nots c h1, hnew dt nots c' h2]
    simp only [bind, Except.bind]
    exact start_first junk fuel m dt nots h1 h2 h (hadd o ho)
  · intro m dt nots c o o' h1 ho h
    replace h : Output.startProbe junk fuel st number m _ o = .ok o' := h
    unfold Output.startProbe at h
    rw [hnew dt nots c h1] at h
    simp only [bind, Except.bind] at h
    exact start_looks (hadd o ho) h
  · intro k m dt nots c c' o h1 h2 h ho
    exact step_first junk fuel k m dt nots h1 h2 h ho
  · intro k m t o o' ho h
    exact step_looks ho h

theorem trackingNOP_le (n N : Nat) (hN : 0 < N) : trackingNOP n N ≤ n := by
  unfold trackingNOP
  rcases Nat.eq_zero_or_pos n with rfl | hn
  · rw [Nat.div_eq_of_lt (by omega)]
  · have : (n + N - 1) / N < n + 1 := by
      rw [Nat.div_lt_iff_lt_mul hN]
      have h1 := Nat.le_mul_of_pos_right n hN
      have h2 : (n + 1) * N = n * N + N := by ring
      omega
    omega

/-- outcome of a run on several nodes compared to the outcome on one node -/
def SameOutput (r r₁ : Except Err (World σ Output)) : Prop :=
  match r, r₁ with
  | .ok w, .ok w₁ => w.out = w₁.out
  | .error e, .error e₁ => e = e₁
  | _, _ => False

theorem probe_nodes (R R₁ : Run σ Unit) (r0 : R₁.nodes = 1) (r1 : R₁.NOTS = R.NOTS) (r2 : R₁.lattice = R.lattice) (r3 : R₁.initInter = R.initInter) (r4 : R₁.stepInter = R.stepInter) (junk : Nat → ℝ) (fuel st number : Nat) (hN : 0 < R.nodes) (ms : List Beam) (hlen : ms.length = R.nodes)
    (hreach : ∀ m ∈ ms, Beam.Reachable m) (m0 : Beam) (hm0 : ms.head? = some m0) (hblank : ∀ m ∈ ms, Beam.blank m = m0.blank)
    (total : Nat) (ht : m0.getNOP = .ok total) (hnum : number ≤ ⌈(total : ℚ) / R.nodes⌉₊) (s : σ) (out : Output) (hout : ∀ L, Logger.probe L ∉ out.loggers)
    (k : Nat) :
    SameOutput (runSteps (R.withProbe junk fuel st number) ms s out k)
      (runSteps (R₁.withProbe junk fuel st number) [m0] s out k) := by
  have hwf : ∀ m ∈ ms, Beam.WF m := fun m hm => Beam.wf_reachable (hreach m hm)
  have hm0mem : m0 ∈ ms := List.mem_of_head? hm0
  have hm0wf := hwf m0 hm0mem
  obtain ⟨M, hM, hMl, _, _, _, hMall, _, hset⟩ := setupMasters ms m0 hm0wf hwf hblank R.NOTS
  have hset' : ∀ g, [m0].mapM (fun m : Beam => setupMaster m (m0.all.flatMap Bunch.stepRecord ++ g) R.NOTS) = .ok (List.replicate [m0].length M) := by
    intro g
    have e := hset g
    cases ms with
    | nil => simp at hm0
    | cons m ms =>
      simp only [List.head?_cons, Option.some.injEq] at hm0
      subst hm0
      rw [List.mapM_cons] at e
      cases hx : setupMaster m (m.all.flatMap Bunch.stepRecord ++ g) R.NOTS with
      | error e' => rw [hx] at e; cases e
      | ok b =>
        rw [hx] at e
        simp only [bind, Except.bind, pure, Except.pure] at e
        split at e
        · cases e
        · injection e with e
          rw [List.length_cons, List.replicate_succ] at e
          injection e with e _
          rw [List.mapM_cons, hx, e]
          rfl
  have htot : total = M.all.length := by
    rw [nop_all hm0wf] at ht
    injection ht with ht
    rw [hMl, ht]
  rw [← trackingNOP_ceil _ _ hN, htot] at hnum
  have hle := trackingNOP_le M.all.length R.nodes hN
  have hr := runSteps_abs (R.withProbe junk fuel st number) hN ms hlen hwf m0 hm0 hblank s out M hM hMl hset k
  have hr₁ := runSteps_abs (R₁.withProbe junk fuel st number) (show 0 < R₁.nodes by omega) [m0] (by show 1 = R₁.nodes; omega) (by simpa using hm0wf) m0 rfl (by simp) s out M hM hMl (fun g => by rw [show (R₁.withProbe junk fuel st number).NOTS = R.NOTS from r1]; exact hset' g) k
  have hI : ∀ l ∈ out.loggers, LooksAt number l := by
    intro l hl L e
    subst e
    exact absurd hl (hout L)
  have hab := absRun_first (R.withProbe junk fuel st number) (R₁.withProbe junk fuel st number) (withProbe_first R junk fuel st number)
    (trackingNOP M.all.length R.nodes) (trackingNOP M.all.length 1) M s out hI k r1 r2 r3 r4 rfl rfl hnum (by rw [trackingNOP_one]; omega) (by omega)
  rw [hr.1, hr₁.1]
  have e1 : (R₁.withProbe junk fuel st number).nodes = 1 := r0
  have e2 : (R.withProbe junk fuel st number).nodes = R.nodes := rfl
  rw [e1, e2, hab]
  cases hA : absRun (R.withProbe junk fuel st number) (trackingNOP M.all.length R.nodes) M s out k with
  | error e => rfl
  | ok A => rfl

/-- **C70 (partial).** Whatever the number of nodes, a run with a probe log writes the same logs and watch points as a run
on a single node, provided that no more particles are requested than are tracked by the first node.
Missing: requests for more particles, see below. -/
theorem C70_nodes_partial (R : Run σ Unit) (junk : Nat → ℝ) (fuel st number : Nat) (hN : 0 < R.nodes) (ms : List Beam) (hlen : ms.length = R.nodes)
    (hreach : ∀ m ∈ ms, Beam.Reachable m) (m0 : Beam) (hm0 : ms.head? = some m0) (hblank : ∀ m ∈ ms, Beam.blank m = m0.blank)
    (total : Nat) (ht : m0.getNOP = .ok total) (hnum : number ≤ ⌈(total : ℚ) / R.nodes⌉₊) (s : σ) (out : Output) (hout : ∀ L, Logger.probe L ∉ out.loggers)
    (junk₁ : Nat → Nat → Nat → ℝ) (k : Nat) :
    SameOutput (runSteps (R.withProbe junk fuel st number) ms s out k)
      (runSteps ({ R with nodes := 1, junk := junk₁ }.withProbe junk fuel st number) [m0] s out k) :=
  probe_nodes R { R with nodes := 1, junk := junk₁ } rfl rfl rfl rfl rfl junk fuel st number hN ms hlen hreach m0 hm0 hblank total ht hnum s out hout k

/-! ## more particles than the first node tracks -/

/-- the first node's output holds exactly one logger: a probe logger for `n` particles -/
def OneProbe (st n : Nat) (o : Output) : Prop := ∃ L : ProbeLog, o.loggers = [.probe L] ∧ o.watches = [] ∧ L.NOP = n ∧ L.stepsize = st

theorem probe_update_ok {dt : ℝ} {nots : Int} {c : List Particle} {L : ProbeLog} {fuel : Nat} (h1 : L.NOP ≤ c.length) (h2 : L.NOP ≤ fuel) :
    ∃ L', L.update fuel (oneBunch dt nots c) = .ok L' ∧ L'.NOP = L.NOP ∧ L'.stepsize = L.stepsize := by
  unfold ProbeLog.update Beam.bufferProbe
  rw [oneBunch_probe dt nots c fuel 0 L.NOP (by omega), if_pos h2]
  simp only [bind, Except.bind]
  have hl : ((c.drop 0).take L.NOP).length = L.NOP := by rw [List.drop_zero, List.length_take]; omega
  have hs : (((c.drop 0).take L.NOP).flatMap Particle.bufferProbe).length = L.NOP * 16 := by
    rw [List.length_flatMap]
    have : ∀ p ∈ (c.drop 0).take L.NOP, p.bufferProbe.length = 16 := fun p _ => rfl
    rw [List.map_congr_left this]
    rw [List.map_const', List.sum_replicate, hl, smul_eq_mul]
  rw [if_pos (by rw [hs]; unfold Beam.getProbeBufferSize; omega)]
  exact ⟨_, rfl, rfl, rfl⟩

theorem probe_progress (R : Run Unit Unit) (hl : ∀ s t x, ∃ F, R.lattice s t x = .ok F) (hi : ∀ m s, ∃ s', R.initInter m s = .ok s') (hs : ∀ m s, ∃ s', R.stepInter m s = .ok s')
    (junk : Nat → ℝ) (fuel st number : Nat) (hst : 1 ≤ st) (hfuel : number ≤ fuel) (hN : 0 < R.nodes) (k : Nat) :
    ∃ w, runSteps (R.withProbe junk fuel st number) (List.replicate R.nodes demoVay) () ⟨[], [], []⟩ k = .ok w ∧ OneProbe st (min number (min (trackingNOP 3 R.nodes) 3)) w.out := by
  have hsum : (demoVay.B.map Bunch.getNOP).sum = 3 := rfl
  refine C36_progress (R.withProbe junk fuel st number) demoVay (fun o => o = ⟨[], [], []⟩) (OneProbe st (min number (min (trackingNOP 3 R.nodes) 3)))
    ⟨?_, ?_, hi, hs⟩ hl hN _ (by simp; rfl) ?_ ?_ ?_ rfl demoVay_mass () _ rfl k
  · rintro m t o _ _ ⟨dt, nots, ps, rfl, hps⟩ rfl
    show ∃ o', Output.startProbe junk fuel st number m _ _ = .ok o' ∧ _
    rw [hsum] at hps
    replace hps : ps.length = min (trackingNOP 3 R.nodes) 3 := hps
    unfold Output.startProbe ProbeLog.new Output.start
    rw [oneBunch_nop]
    simp only [bind, Except.bind, pure, Except.pure, List.nil_append]
    have hw : writeWatches 0 m ⟨[.probe ⟨st, if ps.length > number then number else ps.length, Beam.getProbeBufferSize 1, 0, []⟩], [], []⟩ =
        .ok ⟨[.probe ⟨st, if ps.length > number then number else ps.length, Beam.getProbeBufferSize 1, 0, []⟩], [], []⟩ := rfl
    rw [hw]
    simp only
    obtain ⟨L', u1, u2, u3⟩ := probe_update_ok (dt := dt) (nots := nots) (c := ps) (fuel := fuel)
      (L := ⟨st, if ps.length > number then number else ps.length, Beam.getProbeBufferSize 1, 0, []⟩)
      (by simp only; split_ifs <;> omega) (by simp only; split_ifs <;> omega)
    simp only [List.mapM_cons, List.mapM_nil, Logger.update, u1, Except.map, bind, Except.bind, pure, Except.pure]
    refine ⟨_, rfl, L', rfl, rfl, ?_, u3⟩
    rw [u2, ← hps]
    simp only
    split_ifs <;> omega
  · rintro k m t o hk _ _ ⟨dt, nots, ps, rfl, hps⟩ ⟨L, l1, l2, l3, l4⟩
    show ∃ o', Output.step junk fuel k m _ o = .ok o' ∧ _
    rw [hsum] at hps
    replace hps : ps.length = min (trackingNOP 3 R.nodes) 3 := hps
    obtain ⟨L', u1, u2, u3⟩ := probe_update_ok (dt := dt) (nots := nots) (c := ps) (fuel := fuel) (L := L) (by omega) (by omega)
    have hw : ∀ ls, writeWatches k m { o with loggers := ls } = .ok { o with loggers := ls } := by
      intro ls
      unfold writeWatches
      simp [l2, pure, Except.pure, bind, Except.bind]
    have hmaybe : ∃ L'', Logger.maybe junk fuel k m (oneBunch dt nots ps) (.probe L) = .ok (.probe L'') ∧ L''.NOP = L.NOP ∧ L''.stepsize = L.stepsize := by
      have e : (Logger.probe L).stepsize = st := l4
      unfold Logger.maybe logRequested
      rw [e, if_neg (by omega)]
      simp only [bind, Except.bind]
      by_cases hd : k % st = 0
      · simp only [hd, decide_true, if_true, Logger.update, u1, Except.map]
        exact ⟨L', rfl, u2, u3⟩
      · simp only [hd, decide_false, pure, Except.pure]
        exact ⟨L, rfl, rfl, rfl⟩
    obtain ⟨L'', m1, m2, m3⟩ := hmaybe
    unfold Output.step
    rw [l1]
    simp only [List.mapM_cons, List.mapM_nil, m1, bind, Except.bind, pure, Except.pure]
    rw [hw]
    exact ⟨_, rfl, L'', rfl, l2, m2.trans l3, m3.trans l4⟩
  · intro m hm
    rw [List.eq_of_mem_replicate hm]
    exact demoVay_reachable
  · rw [List.head?_replicate, if_neg (by omega)]
  · intro m hm
    rw [List.eq_of_mem_replicate hm]

/-- The full statement: no bound on the number of particles requested. -/
def ProbeLogIndependentOfNodes : Prop :=
  ∀ (R : Run Unit Unit) (junk : Nat → ℝ) (fuel st number : Nat) (ms : List Beam) (m0 : Beam) (out : Output) (junk₁ : Nat → Nat → Nat → ℝ) (k : Nat),
    0 < R.nodes → ms.length = R.nodes → (∀ m ∈ ms, Beam.Reachable m) → ms.head? = some m0 → (∀ m ∈ ms, Beam.blank m = m0.blank) → number ≤ fuel →
    (∀ L, Logger.probe L ∉ out.loggers) →
    SameOutput (runSteps (R.withProbe junk fuel st number) ms () out k)
      (runSteps ({ R with nodes := 1, junk := junk₁ }.withProbe junk fuel st number) [m0] () out k)

/-- **C70, full statement refuted.** The log of three particles contains all three if there is one node and two of them if
there are two. -/
theorem C70_full_statement_false : ¬ ProbeLogIndependentOfNodes := by
  intro H
  have h := H demoRun0 (fun _ => 0) 3 1 3 [demoVay, demoVay] demoVay ⟨[], [], []⟩ (fun _ _ _ => 0) 0 (by decide) rfl
    (by intro m hm; simp at hm; rw [hm]; exact demoVay_reachable) rfl (by intro m hm; simp at hm; rw [hm]) le_rfl (by simp)
  obtain ⟨w, hw, L, l1, _, l2, _⟩ := probe_progress demoRun0 (fun _ _ _ => ⟨0, rfl⟩) (fun _ _ => ⟨_, rfl⟩) (fun _ _ => ⟨_, rfl⟩) (fun _ => 0) 3 1 3 le_rfl le_rfl (by decide) 0
  obtain ⟨w', hw', L', l1', _, l2', _⟩ := probe_progress { demoRun0 with nodes := 1, junk := fun _ _ _ => 0 } (fun _ _ _ => ⟨0, rfl⟩) (fun _ _ => ⟨_, rfl⟩) (fun _ _ => ⟨_, rfl⟩) (fun _ => 0) 3 1 3 le_rfl le_rfl (by decide) 0
  have e1 : List.replicate demoRun0.nodes demoVay = [demoVay, demoVay] := rfl
  have e2 : List.replicate ({ demoRun0 with nodes := 1, junk := fun _ _ _ => 0 } : Run Unit Unit).nodes demoVay = [demoVay] := rfl
  rw [e1] at hw
  rw [e2] at hw'
  rw [hw, hw'] at h
  have h' : w.out = w'.out := h
  rw [h', l1'] at l1
  injection l1 with l1 _
  injection l1 with l1
  rw [← l1, l2'] at l2
  have t1 : trackingNOP 3 demoRun0.nodes = 2 := rfl
  have t2 : trackingNOP 3 ({ demoRun0 with nodes := 1, junk := fun _ _ _ => 0 } : Run Unit Unit).nodes = 3 := rfl
  rw [t1, t2] at l2
  omega

/-- two particles can be logged with two nodes -/
example (k : Nat) : 2 ≤ ⌈((3 : ℕ) : ℚ) / (demoRun0.nodes : ℕ)⌉₊ ∧ demoVay.getNOP = .ok 3 ∧
    ∃ w, runSteps (demoRun0.withProbe (fun _ => 0) 9 1 2) [demoVay, demoVay] () ⟨[], [], []⟩ k = .ok w ∧ OneProbe 1 2 w.out := by
  refine ⟨?_, rfl, ?_⟩
  · rw [← trackingNOP_ceil _ _ (by decide)]
    decide
  · exact probe_progress demoRun0 (fun _ _ _ => ⟨0, rfl⟩) (fun _ _ => ⟨_, rfl⟩) (fun _ _ => ⟨_, rfl⟩) (fun _ => 0) 9 1 2 le_rfl (by omega) (by decide) k

/-- C33: the probe logger never requests more particles than there are.  Constructed for a beam `b`, with any number of
particles asked for, it records `min(number, NOP)` of them; every update, with `b` or any other beam of as many
particles, finishes and appends one record of 16 values per particle, which fills its buffer exactly. -/
theorem C33_logger {b c : Beam} (hc : c.Reachable) (st number total : Nat)
    (hb : b.getNOP = .ok total) (hn : c.getNOP = .ok total) :
    ∃ L, ProbeLog.new b st number = .ok L ∧ L.NOP = min number total ∧ L.NOTS = 0 ∧
      ∀ L₁ : ProbeLog, L₁.NOP = L.NOP → ∃ fuel₀, ∀ fuel, fuel₀ ≤ fuel → ∃ vals,
        L₁.update fuel c = .ok { L₁ with data := L₁.data ++ [vals], NOTS := L₁.NOTS + 1 } ∧
        vals.length = 16 * min number total ∧ vals.length = Beam.getProbeBufferSize L₁.NOP := by
  refine ⟨⟨st, min number total, Beam.getProbeBufferSize 1, 0, []⟩, ?_, rfl, rfl, ?_⟩
  · unfold ProbeLog.new
    rw [hb]
    simp only [bind, Except.bind, pure, Except.pure]
    by_cases h : total > number
    · rw [if_pos h, min_eq_left (by omega)]
    · rw [if_neg h, min_eq_right (by omega)]
  · intro L₁ h1
    have h1 : L₁.NOP = min number total := h1
    obtain ⟨fuel₀, addr, ps, _, _, _, _, _, _, hf⟩ := C33_probe hc total (min number total) hn (min_le_right _ _)
    refine ⟨fuel₀, fun fuel hfu => ⟨ps.flatMap Particle.probeRecord, ?_, ?_, ?_⟩⟩
    · obtain ⟨e1, e2⟩ := hf fuel hfu
      unfold ProbeLog.update
      rw [h1, e1]
      simp only [bind, Except.bind, pure, Except.pure]
      rw [if_pos (le_of_eq e2)]
    · rw [(hf fuel hfu).2, Beam.getProbeBufferSize, mul_comm]
    · rw [(hf fuel hfu).2, h1]

/-- a logger asked for a hundred of three particles -/
example : demoBeam.Reachable ∧ demoBeam.getNOP = .ok 3 ∧ min 100 3 = 3 := ⟨demoBeam_reachable, rfl, rfl⟩

end Teufel
