import Verif.Lemmas.VayRun

/-! # C06 - C09: particle messages, shifting and mirroring -/

namespace Teufel
open Vec

/-! ## C06 -/

/-- C06: packing a particle that has a trajectory writes exactly 12 values, and the particle rebuilt from
them holds exactly one point, equal to the last point of the original, with the same charge and mass. -/
theorem C06_round_trip (p : Particle) (hp : p.Reachable) (hn : 1 ≤ p.getNP) :
    ∃ buf p', p.serialize = .ok buf ∧ buf.length = 12 ∧ Particle.fromBuffer buf = .ok p' ∧
      p'.getNP = 1 ∧ p'.Charge = p.Charge ∧ p'.Mass = p.Mass ∧
      p'.TrajTime 0 = p.TrajTime (p.getNP - 1 : Nat) ∧ p'.TrajPoint 0 = p.TrajPoint (p.getNP - 1 : Nat) ∧
      p'.TrajMomentum 0 = p.TrajMomentum (p.getNP - 1 : Nat) ∧ p'.TrajAccel 0 = p.TrajAccel (p.getNP - 1 : Nat) ∧
      .ok p'.tCur = p.TrajTime (p.getNP - 1 : Nat) ∧ .ok p'.XCur = p.TrajPoint (p.getNP - 1 : Nat) ∧
      .ok p'.PCur = p.TrajMomentum (p.getNP - 1 : Nat) ∧ .ok p'.ACur = p.TrajAccel (p.getNP - 1 : Nat) := by
  have hcons := cons_reachable hp
  have ⟨h1, h2, h3, h4⟩ := hcons
  simp only [Particle.getNP] at *
  have e1 : p.Time ≠ [] := by intro h; rw [h] at h1; simp at h1; omega
  have e2 : p.X ≠ [] := by intro h; rw [h] at h2; simp at h2; omega
  have e3 : p.P ≠ [] := by intro h; rw [h] at h3; simp at h3; omega
  have e4 : p.A ≠ [] := by intro h; rw [h] at h4; simp at h4; omega
  have g1 := List.getLast?_eq_getLast_of_ne_nil e1
  have g2 := List.getLast?_eq_getLast_of_ne_nil e2
  have g3 := List.getLast?_eq_getLast_of_ne_nil e3
  have g4 := List.getLast?_eq_getLast_of_ne_nil e4
  have a1 := TrajTime_of_get hcons (Particle.last_get h1 g1)
  have a2 := TrajPoint_of_get hcons (Particle.last_get h2 g2)
  have a3 := TrajMomentum_of_get hcons (Particle.last_get h3 g3)
  have a4 := TrajAccel_of_get hcons (Particle.last_get h4 g4)
  refine ⟨[p.Charge, p.Mass, p.Time.getLast e1] ++ Particle.comps (p.X.getLast e2) ++ Particle.comps (p.P.getLast e3) ++ Particle.comps (p.A.getLast e4),
    (Particle.new p.Charge p.Mass).initTrajectory (p.Time.getLast e1) (p.X.getLast e2) (p.P.getLast e3) (p.A.getLast e4), ?_, ?_, ?_, ?_⟩
  · simp only [Particle.serialize]
    rw [if_pos (by omega)]
    simp only [g1, g2, g3, g4]
  · simp [Particle.comps]
  · simp [Particle.comps, Particle.fromBuffer]
  · rw [a1, a2, a3, a4]
    simp [Particle.initTrajectory, Particle.new, Particle.TrajTime, Particle.TrajPoint, Particle.TrajMomentum, Particle.TrajAccel, Particle.vecAt]

/-- C06: a particle without trajectory is packed with zeros, so the rebuilt particle sits at rest at the
origin at time zero (the absence of a trajectory is not transmitted). -/
theorem C06_empty (p : Particle) (hn : p.getNP = 0) :
    ∃ buf p', p.serialize = .ok buf ∧ buf = [p.Charge, p.Mass] ++ List.replicate 10 0 ∧
      Particle.fromBuffer buf = .ok p' ∧ p'.getNP = 1 ∧ p'.TrajTime 0 = .ok 0 ∧ p'.TrajPoint 0 = .ok 0 ∧
      p'.TrajMomentum 0 = .ok 0 ∧ p'.TrajAccel 0 = .ok 0 := by
  simp only [Particle.getNP] at *
  refine ⟨_, (Particle.new p.Charge p.Mass).initTrajectory 0 0 0 0, by simp only [Particle.serialize]; rw [if_neg (by omega)]; rfl, rfl, ?_, ?_⟩
  · rfl
  · simp [Particle.initTrajectory, Particle.TrajTime, Particle.TrajPoint, Particle.TrajMomentum, Particle.TrajAccel, Particle.vecAt]

/-! ## C07 -/

theorem mapM_ok {α β} (f : α → Except Err β) (g : α → β) (l : List α) (h : ∀ a ∈ l, f a = .ok (g a)) :
    l.mapM f = .ok (l.map g) := by
  induction l with
  | nil => rfl
  | cons a l ih =>
    rw [List.mapM_cons, h a (by simp), ih (fun b hb => h b (by simp [hb]))]
    rfl

/-- the record of the n-th point, read from four lists of equal length -/
noncomputable def recOf (pt : ((ℝ × Vec) × Vec) × Vec) : List ℝ :=
  [pt.1.1.1] ++ Particle.comps pt.1.1.2 ++ Particle.comps pt.1.2 ++ Particle.comps pt.2

theorem readTraj_recs (pts : List (((ℝ × Vec) × Vec) × Vec)) (q : Particle) (rest : List ℝ) :
    q.readTraj pts.length ((pts.map recOf).flatten ++ rest) = .ok { q with
      NP := q.NP + pts.length
      Time := q.Time ++ pts.map (·.1.1.1), X := q.X ++ pts.map (·.1.1.2), P := q.P ++ pts.map (·.1.2), A := q.A ++ pts.map (·.2) } := by
  induction pts generalizing q with
  | nil => simp [Particle.readTraj]
  | cons pt pts ih =>
    obtain ⟨⟨⟨t, x⟩, pm⟩, a⟩ := pt
    simp only [List.map_cons, List.flatten_cons, List.length_cons, recOf, Particle.comps, List.cons_append, List.nil_append, List.append_assoc]
    rw [Particle.readTraj, ih]
    simp only [Particle.storeTrajectoryPoint]
    congr 2
    · omega
    · simp
    · simp
    · simp
    · simp

theorem serializeTraj_eq (p : Particle) (hc : p.Cons) :
    p.serializeTraj = .ok ([p.Charge, p.Mass, p.dt, p.qm, p.qmt2] ++ Particle.comps p.VYp ++ [p.VYgamma] ++
      ((((p.Time.zip p.X).zip p.P).zip p.A).map recOf).flatten) := by
  obtain ⟨h1, h2, h3, h4⟩ := hc
  set pts := (((p.Time.zip p.X).zip p.P).zip p.A) with hpts
  have hlen : pts.length = p.NP := by simp [hpts, h1, h2, h3, h4]
  have hr : (List.range p.NP).mapM p.trajRecord = .ok (pts.map recOf) := by
    rw [mapM_ok p.trajRecord (fun i => ((pts[i]?).map recOf).getD [])]
    · congr 1
      apply List.ext_getElem?
      intro i
      by_cases hi : i < p.NP
      · simp [hi, hlen]
      · simp [hi, hlen]
    · intro i hi
      have hi : i < p.NP := List.mem_range.mp hi
      have k1 : p.Time[i]? = some (p.Time[i]'(by omega)) := List.getElem?_eq_getElem _
      have k2 : p.X[i]? = some (p.X[i]'(by omega)) := List.getElem?_eq_getElem _
      have k3 : p.P[i]? = some (p.P[i]'(by omega)) := List.getElem?_eq_getElem _
      have k4 : p.A[i]? = some (p.A[i]'(by omega)) := List.getElem?_eq_getElem _
      have k5 : pts[i]? = some (((p.Time[i]'(by omega), p.X[i]'(by omega)), p.P[i]'(by omega)), p.A[i]'(by omega)) := by
        rw [List.getElem?_eq_getElem (by omega)]; simp [hpts]
      simp only [Particle.trajRecord, Particle.vecAt, k1, k2, k3, k4, k5, bind, Except.bind, pure, Except.pure, Option.map_some, Option.getD_some, recOf]
  simp only [Particle.serializeTraj, hr, bind, Except.bind, pure, Except.pure]

/-- C07: the message holds exactly the advertised number of values, and rebuilding restores charge, mass,
tracker state and every trajectory point; the current point of the rebuilt particle is the last point. -/
theorem C07_round_trip (p : Particle) (hp : p.Reachable) (hn : 1 ≤ p.getNP) (junk nPre : Int) :
    ∃ buf p', p.serializeTraj = .ok buf ∧ buf.length = p.TrajBufSize ∧
      Particle.fromTraj junk buf p.getNP nPre = .ok p' ∧
      p'.getNP = p.getNP ∧ p'.Charge = p.Charge ∧ p'.Mass = p.Mass ∧ p'.dt = p.dt ∧ p'.qm = p.qm ∧ p'.qmt2 = p.qmt2 ∧
      p'.VYp = p.VYp ∧ p'.VYgamma = p.VYgamma ∧
      (∀ i : Int, p'.TrajTime i = p.TrajTime i ∧ p'.TrajPoint i = p.TrajPoint i ∧
        p'.TrajMomentum i = p.TrajMomentum i ∧ p'.TrajAccel i = p.TrajAccel i) ∧
      .ok p'.tCur = p.TrajTime (p.getNP - 1 : Nat) ∧ .ok p'.XCur = p.TrajPoint (p.getNP - 1 : Nat) ∧
      .ok p'.PCur = p.TrajMomentum (p.getNP - 1 : Nat) ∧ .ok p'.ACur = p.TrajAccel (p.getNP - 1 : Nat) := by
  have hcons := cons_reachable hp
  have ⟨h1, h2, h3, h4⟩ := hcons
  have hs := serializeTraj_eq p hcons
  simp only [Particle.getNP] at *
  set pts := (((p.Time.zip p.X).zip p.P).zip p.A) with hpts
  have hlen : pts.length = p.NP := by simp [hpts, h1, h2, h3, h4]
  have m1 : pts.map (·.1.1.1) = p.Time := by
    apply List.ext_getElem (by simp [hlen, h1])
    intro i _ _; simp [hpts]
  have m2 : pts.map (·.1.1.2) = p.X := by
    apply List.ext_getElem (by simp [hlen, h2])
    intro i _ _; simp [hpts]
  have m3 : pts.map (·.1.2) = p.P := by
    apply List.ext_getElem (by simp [hlen, h3])
    intro i _ _; simp [hpts]
  have m4 : pts.map (·.2) = p.A := by
    apply List.ext_getElem (by simp [hlen, h4])
    intro i _ _; simp [hpts]
  have e1 : p.Time ≠ [] := by intro h; rw [h] at h1; simp at h1; omega
  have e2 : p.X ≠ [] := by intro h; rw [h] at h2; simp at h2; omega
  have e3 : p.P ≠ [] := by intro h; rw [h] at h3; simp at h3; omega
  have e4 : p.A ≠ [] := by intro h; rw [h] at h4; simp at h4; omega
  have g1 := List.getLast?_eq_getLast_of_ne_nil e1
  have g2 := List.getLast?_eq_getLast_of_ne_nil e2
  have g3 := List.getLast?_eq_getLast_of_ne_nil e3
  have g4 := List.getLast?_eq_getLast_of_ne_nil e4
  have a1 := TrajTime_of_get hcons (Particle.last_get h1 g1)
  have a2 := TrajPoint_of_get hcons (Particle.last_get h2 g2)
  have a3 := TrajMomentum_of_get hcons (Particle.last_get h3 g3)
  have a4 := TrajAccel_of_get hcons (Particle.last_get h4 g4)
  refine ⟨_, { p with Npre := if nPre > 0 then nPre else junk, tCur := p.Time.getLast e1, XCur := p.X.getLast e2, PCur := p.P.getLast e3, ACur := p.A.getLast e4, ECur := 0, BCur := 0 }, hs, ?_, ?_, ?_⟩
  · have : ((pts.map recOf).flatten).length = 10 * pts.length := by
      clear_value pts
      clear hlen hs m1 m2 m3 m4 hpts
      induction pts with
      | nil => rfl
      | cons a l ih => 
        rw [List.map_cons, List.flatten_cons, List.length_append, ih]
        simp [recOf, Particle.comps]; omega
    rw [List.length_append, this, hlen]
    simp [Particle.comps, Particle.TrajBufSize]
  · have hr := readTraj_recs pts { Particle.new p.Charge p.Mass with
        dt := p.dt, qm := p.qm, qmt2 := p.qmt2, VYp := ⟨p.VYp.x, p.VYp.y, p.VYp.z⟩, VYgamma := p.VYgamma
        Npre := if nPre > 0 then nPre else junk } []
    rw [hlen, m1, m2, m3, m4, List.append_nil] at hr
    simp only [Particle.fromTraj, Particle.comps, List.cons_append, List.nil_append]
    simp only [Particle.new, List.nil_append, Nat.zero_add, Int.toNat_natCast, bind, Except.bind] at hr ⊢
    rw [hr]
    simp only [g1, g2, g3, g4]
  · rw [a1, a2, a3, a4]
    simp [Particle.TrajTime, Particle.TrajPoint, Particle.TrajMomentum, Particle.TrajAccel]

/-- C07: a particle that has just been initialised or stepped, packed and rebuilt, continues exactly as
the original: one more step with any field gives the same object up to the pre-allocation size. -/
theorem C07_resume (p p' : Particle) (hp : p.Reachable) (hE : p.AtEnd) (junk nPre : Int) (buf : List ℝ)
    (hb : p.serializeTraj = .ok buf) (hr : Particle.fromTraj junk buf p.getNP nPre = .ok p')
    (fs : List FieldFn) (q : Particle) (hne : fs ≠ []) (hq : p.steps fs = .ok q) :
    p'.steps fs = .ok { q with Npre := p'.Npre } := by
  have hcons := cons_reachable hp
  obtain ⟨buf', p'', h1, -, h3, h4, h5, h6, h7, h8, h9, h10, h11, h12, h13, h14, h15, h16⟩ :=
    C07_round_trip p hp hE.1 junk nPre
  rw [hb] at h1; injection h1 with h1; subst h1
  rw [hr] at h3; injection h3 with h3; subst h3
  have hcons' : p'.Cons := cons_fresh (Or.inr (Or.inr (Or.inr (Or.inr ⟨_, _, _, _, hr⟩))))
  simp only [Particle.getNP] at *
  have tl : p'.Time = p.Time := by
    apply List.ext_getElem (by rw [hcons.1, hcons'.1, h4])
    intro i hi1 hi2
    have a := TrajTime_of_get hcons (List.getElem?_eq_getElem hi2)
    have b := TrajTime_of_get hcons' (List.getElem?_eq_getElem hi1)
    rw [(h12 i).1, a] at b; injection b with b; exact b.symm
  have xl : p'.X = p.X := by
    apply List.ext_getElem (by rw [hcons.2.1, hcons'.2.1, h4])
    intro i hi1 hi2
    have a := TrajPoint_of_get hcons (List.getElem?_eq_getElem hi2)
    have b := TrajPoint_of_get hcons' (List.getElem?_eq_getElem hi1)
    rw [(h12 i).2.1, a] at b; injection b with b; exact b.symm
  have pl : p'.P = p.P := by
    apply List.ext_getElem (by rw [hcons.2.2.1, hcons'.2.2.1, h4])
    intro i hi1 hi2
    have a := TrajMomentum_of_get hcons (List.getElem?_eq_getElem hi2)
    have b := TrajMomentum_of_get hcons' (List.getElem?_eq_getElem hi1)
    rw [(h12 i).2.2.1, a] at b; injection b with b; exact b.symm
  have al : p'.A = p.A := by
    apply List.ext_getElem (by rw [hcons.2.2.2, hcons'.2.2.2, h4])
    intro i hi1 hi2
    have a := TrajAccel_of_get hcons (List.getElem?_eq_getElem hi2)
    have b := TrajAccel_of_get hcons' (List.getElem?_eq_getElem hi1)
    rw [(h12 i).2.2.2, a] at b; injection b with b; exact b.symm
  obtain ⟨_, l1, l2, l3, l4⟩ := hE
  have tc : p'.tCur = p.tCur := by
    rw [TrajTime_of_get hcons (Particle.last_get hcons.1 l1)] at h13; injection h13
  have xc : p'.XCur = p.XCur := by
    rw [TrajPoint_of_get hcons (Particle.last_get hcons.2.1 l2)] at h14; injection h14
  have pc : p'.PCur = p.PCur := by
    rw [TrajMomentum_of_get hcons (Particle.last_get hcons.2.2.1 l3)] at h15; injection h15
  have ac : p'.ACur = p.ACur := by
    rw [TrajAccel_of_get hcons (Particle.last_get hcons.2.2.2 l4)] at h16; injection h16
  have hp' : p' = { p with Npre := p'.Npre, ECur := p'.ECur, BCur := p'.BCur } := by
    apply Particle.ext <;> simp [*]
  -- a single step
  have one : ∀ (a b : Particle) (n : Int) (e1 e2 : Vec) (f : FieldFn), a.StepVay f = .ok b →
      ({ a with Npre := n, ECur := e1, BCur := e2 } : Particle).StepVay f = .ok { b with Npre := n } := by
    intro a b n e1 e2 f h
    obtain ⟨EB, hf, rfl⟩ := Particle.StepVay_ok h
    simp only [Particle.StepVay, hf, Particle.storeTrajectoryPoint]
  have many : ∀ (gs : List FieldFn) (a b : Particle) (n : Int), a.steps gs = .ok b →
      ({ a with Npre := n } : Particle).steps gs = .ok { b with Npre := n } := by
    intro gs
    induction gs with
    | nil => intro a b n h; rw [Particle.steps_nil] at h ⊢; injection h with h; rw [h]
    | cons f gs ih =>
      intro a b n h
      obtain ⟨s, s1, s2⟩ := Particle.steps_cons_ok h
      have := one a s n a.ECur a.BCur f s1
      simp only [Particle.steps, List.foldlM_cons]
      have e : ({ a with Npre := n } : Particle) = { a with Npre := n, ECur := a.ECur, BCur := a.BCur } := rfl
      rw [e, this]
      exact ih s b n s2
  match fs, hne with
  | f :: gs, _ =>
    obtain ⟨s, s1, s2⟩ := Particle.steps_cons_ok hq
    have h1 := one p s p'.Npre p'.ECur p'.BCur f s1
    rw [← hp'] at h1
    simp only [Particle.steps, List.foldlM_cons]
    rw [h1]
    exact many gs s q p'.Npre s2

/-- C07: a message describing a particle without trajectory points cannot be restored: the constructor
reads the last element of empty vectors. -/
theorem C07_empty_not_restorable (p : Particle) (hp : p.Reachable) (hn : p.getNP = 0) (junk nPre : Int) :
    ∃ buf, p.serializeTraj = .ok buf ∧ buf.length = 9 ∧ Particle.fromTraj junk buf 0 nPre = .error .ub := by
  have hcons := cons_reachable hp
  have ⟨h1, h2, h3, h4⟩ := hcons
  have hs := serializeTraj_eq p hcons
  simp only [Particle.getNP] at *
  rw [hn] at h1 h2 h3 h4
  have e1 := List.length_eq_zero_iff.mp h1
  rw [e1] at hs
  refine ⟨_, hs, by simp [Particle.comps], ?_⟩
  simp [Particle.fromTraj, Particle.comps, Particle.readTraj, Particle.new, bind, Except.bind]

/-! ## C08 -/

theorem mapButLast_get {α} (n : Nat) (f : α → α) (l : List α) (i : Nat) (a : α) (h : l[i]? = some a) :
    (Particle.mapButLast n f l)[i]? = some (if i + 1 < n then f a else a) := by
  simp [Particle.mapButLast, h]

theorem Shift_eq (p : Particle) (hc : p.Cons) (d : Vec) (f : ℝ) : p.Shift d f = .ok { p with
      XCur := p.XCur + d
      X := Particle.mapButLast p.NP (· + d) p.X
      Charge := p.Charge * f, qm := p.qm * f, qmt2 := p.qmt2 * f } := by
  have ⟨h1, h2, h3, h4⟩ := hc
  simp only [Particle.Shift]; rw [if_pos (by omega)]

theorem Mirror_eq (p : Particle) (hc : p.Cons) (o n : Vec) (f : ℝ) : p.Mirror o n f = .ok { p with
      XCur := Particle.mirrorPoint o n.normalize p.XCur
      PCur := Particle.mirrorDir n.normalize p.PCur
      ACur := Particle.mirrorDir n.normalize p.ACur
      X := Particle.mapButLast p.NP (Particle.mirrorPoint o n.normalize) p.X
      P := Particle.mapButLast p.NP (Particle.mirrorDir n.normalize) p.P
      A := Particle.mapButLast p.NP (Particle.mirrorDir n.normalize) p.A
      Charge := p.Charge * f, qm := p.qm * f, qmt2 := p.qmt2 * f } := by
  have ⟨h1, h2, h3, h4⟩ := hc
  simp only [Particle.Mirror]; rw [if_pos (by omega)]

/-- C08 (partial): a shift moves the current point and every recorded point *except the last one* by the
given displacement; charge and charge-to-mass terms are scaled by the given factor. What is missing
from C08 is the last recorded point, see `C08_last_point_stays`. -/
theorem C08_shift_partial (p : Particle) (hp : p.Reachable) (d : Vec) (f : ℝ) :
    ∃ p', p.Shift d f = .ok p' ∧ p'.getNP = p.getNP ∧ p'.XCur = p.XCur + d ∧ p'.PCur = p.PCur ∧ p'.ACur = p.ACur ∧
      p'.Charge = p.Charge * f ∧ p'.Mass = p.Mass ∧ p'.qm = p.qm * f ∧ p'.qmt2 = p.qmt2 * f ∧
      (∀ i : Nat, ∀ x, p.TrajPoint i = .ok x → i + 1 < p.getNP → p'.TrajPoint i = .ok (x + d)) ∧
      (∀ i : Int, p'.TrajTime i = p.TrajTime i ∧ p'.TrajMomentum i = p.TrajMomentum i ∧ p'.TrajAccel i = p.TrajAccel i) := by
  have hcons := cons_reachable hp
  have ⟨h1, h2, h3, h4⟩ := hcons
  refine ⟨_, Shift_eq p hcons d f, rfl, rfl, rfl, rfl, rfl, rfl, rfl, rfl, ?_, ?_⟩
  · intro i x hx hi
    simp only [Particle.getNP] at hi
    have := mapButLast_get p.NP (· + d) p.X i x (get_of_TrajPoint hx)
    rw [if_pos hi] at this
    refine (if_pos ⟨by omega, ?_⟩).trans ?_
    · simp only [Particle.vecAt, Int.toNat_natCast, this]
    · show (i : Int) < p.NP; omega
  · intro i; exact ⟨rfl, rfl, rfl⟩

/-- C08 fails for the last recorded point: it is never displaced, for any particle, displacement and factor. -/
theorem C08_last_point_stays (p : Particle) (hp : p.Reachable) (hn : 1 ≤ p.getNP) (d : Vec) (f : ℝ) :
    ∃ p', p.Shift d f = .ok p' ∧ p'.TrajPoint (p.getNP - 1 : Nat) = p.TrajPoint (p.getNP - 1 : Nat) := by
  have hcons := cons_reachable hp
  have ⟨h1, h2, h3, h4⟩ := hcons
  refine ⟨_, Shift_eq p hcons d f, ?_⟩
  simp only [Particle.getNP] at *
  have g : p.X[p.NP - 1]? = some (p.X[p.NP - 1]'(by omega)) := List.getElem?_eq_getElem _
  have := mapButLast_get p.NP (· + d) p.X _ _ g
  rw [if_neg (by omega)] at this
  rw [TrajPoint_of_get hcons g]
  refine (if_pos ⟨by omega, ?_⟩).trans ?_
  · simp only [Particle.vecAt, Int.toNat_natCast, this]
  · show ((p.NP - 1 : Nat) : Int) < p.NP; omega

/-- C08 is violated: the full statement is false, witnessed by an electron with a single point. -/
theorem C08_full_statement_false :
    ¬ ∀ (p : Particle), p.Reachable → ∀ (d : Vec) (f : ℝ), ∃ p', p.Shift d f = .ok p' ∧
      ∀ i : Nat, ∀ x, p.TrajPoint i = .ok x → p'.TrajPoint i = .ok (x + d) := by
  intro h
  let p : Particle := POp.exec Particle.default (.init 0 0 0 0)
  have hr : p.Reachable := ⟨_, [.init 0 0 0 0], Or.inr (Or.inr (Or.inl rfl)), rfl⟩
  obtain ⟨p', h1, h2⟩ := h p hr ⟨1, 0, 0⟩ 1
  obtain ⟨p'', h3, h4⟩ := C08_last_point_stays p hr (Nat.le_refl 1) ⟨1, 0, 0⟩ 1
  rw [h1] at h3; injection h3 with h3; subst h3
  have e : p.TrajPoint (0 : Nat) = .ok 0 := by
    simp [p, POp.exec, POp.result, Particle.initTrajectory, Particle.TrajPoint, Particle.vecAt]
  have h5 := h2 0 0 e
  have h6 : p'.TrajPoint (0 : Nat) = p.TrajPoint (0 : Nat) := h4
  rw [h6, e] at h5
  injection h5 with h5
  have := congrArg Vec.x h5
  simp at this

/-- C08, consequence: tracking a shifted particle restarts from the unshifted last point. -/
theorem C08_shift_lost_by_tracking (p p' p1 : Particle) (hp : p.Reachable) (d : Vec) (f dt : ℝ) (field : FieldFn) (x : Vec)
    (hx : p.TrajPoint (p.getNP - 1 : Nat) = .ok x)
    (h1 : p.Shift d f = .ok p') (h2 : p'.InitVay dt field = .ok p1) : p1.XCur = x := by
  have hcons := cons_reachable hp
  have hn : 1 ≤ p'.NP := (Particle.InitVay_ok h2).1
  obtain ⟨p'', h3, h4, -⟩ := C08_shift_partial p hp d f
  rw [h1] at h3; injection h3 with h3; subst h3
  simp only [Particle.getNP] at *
  obtain ⟨p'', h5, h6⟩ := C08_last_point_stays p hp (by simp only [Particle.getNP]; omega) d f
  rw [h1] at h5; injection h5 with h5; subst h5
  simp only [Particle.getNP] at h6
  rw [hx] at h6
  have hc' : p'.Cons := by
    have := cons_exec p (.shift d f) hcons
    simp only [POp.exec, POp.result, h1] at this; exact this
  obtain ⟨_, _, t, x', pm, EB, hT, hX, hP, hA, hf, rfl⟩ := Particle.InitVay_ok h2
  have a := Particle.last_get hc'.2.1 hX
  rw [h4] at a
  have b := get_of_TrajPoint h6
  rw [a] at b; injection b

/-! ## C09 -/

/-- specification: mirror image of a point at the plane through `o` with normal `n` (any length) -/
noncomputable def mirrorImage (o n x : Vec) : Vec := x - n * (2 * dot (x - o) n / dot n n)

/-- specification: mirror image of a direction -/
noncomputable def mirrorImageDir (n v : Vec) : Vec := v - n * (2 * dot v n / dot n n)

theorem normalize_pair {n : Vec} (hn : n ≠ 0) (c : ℝ) (v : Vec) :
    n.normalize * (dot v n.normalize) * c = n * (c * dot v n / dot n n) := by
  have h : dot n n = norm n * norm n := by rw [Vec.norm_mul_self]; rfl
  have hp := Vec.norm_pos hn
  rw [normalize_eq, dot_div_right, h]
  ext <;> simp <;> field_simp

theorem mirrorPoint_eq {n : Vec} (hn : n ≠ 0) (o x : Vec) : Particle.mirrorPoint o n.normalize x = mirrorImage o n x := by
  have e : dot (o - x) n = - dot (x - o) n := by simp [dot]; ring
  simp only [Particle.mirrorPoint, mirrorImage]
  rw [normalize_pair hn, e]
  norm_num
  ext <;> simp <;> ring

theorem mirrorDir_eq {n : Vec} (hn : n ≠ 0) (v : Vec) : Particle.mirrorDir n.normalize v = mirrorImageDir n v := by
  simp only [Particle.mirrorDir, mirrorImageDir]
  rw [normalize_pair hn]
  norm_num

/-- C09 (partial): mirroring maps the current point and every recorded point, momentum and acceleration
*except those of the last recorded point* to their mirror images. Missing: the last recorded point,
see `C09_last_point_stays`; the momentum carried between steps, see `C09_carried_momentum_stays`. -/
theorem C09_mirror_partial (p : Particle) (hp : p.Reachable) (o n : Vec) (hn : n ≠ 0) (f : ℝ) :
    ∃ p', p.Mirror o n f = .ok p' ∧ p'.getNP = p.getNP ∧
      p'.XCur = mirrorImage o n p.XCur ∧ p'.PCur = mirrorImageDir n p.PCur ∧ p'.ACur = mirrorImageDir n p.ACur ∧
      p'.Charge = p.Charge * f ∧ p'.Mass = p.Mass ∧ p'.qm = p.qm * f ∧ p'.qmt2 = p.qmt2 * f ∧
      (∀ i : Nat, i + 1 < p.getNP → ∀ x m a, p.TrajPoint i = .ok x → p.TrajMomentum i = .ok m → p.TrajAccel i = .ok a →
        p'.TrajPoint i = .ok (mirrorImage o n x) ∧ p'.TrajMomentum i = .ok (mirrorImageDir n m) ∧
        p'.TrajAccel i = .ok (mirrorImageDir n a)) ∧
      (∀ i : Int, p'.TrajTime i = p.TrajTime i) := by
  have hcons := cons_reachable hp
  have ⟨h1, h2, h3, h4⟩ := hcons
  refine ⟨_, Mirror_eq p hcons o n f, rfl, mirrorPoint_eq hn _ _, mirrorDir_eq hn _, mirrorDir_eq hn _, rfl, rfl, rfl, rfl, ?_, ?_⟩
  · intro i hi x m a hx hm ha
    simp only [Particle.getNP] at hi
    have e1 := mapButLast_get p.NP (Particle.mirrorPoint o n.normalize) p.X i x (get_of_TrajPoint hx)
    have e2 := mapButLast_get p.NP (Particle.mirrorDir n.normalize) p.P i m (get_of_TrajMomentum hm)
    have e3 := mapButLast_get p.NP (Particle.mirrorDir n.normalize) p.A i a (get_of_TrajAccel ha)
    rw [if_pos hi] at e1 e2 e3
    rw [mirrorPoint_eq hn] at e1
    rw [mirrorDir_eq hn] at e2 e3
    have hlt : (i : Int) ≥ 0 ∧ (i : Int) < (p.NP : Int) := by omega
    refine ⟨(if_pos hlt).trans ?_, (if_pos hlt).trans ?_, (if_pos hlt).trans ?_⟩
    · simp only [Particle.vecAt, Int.toNat_natCast, e1]
    · simp only [Particle.vecAt, Int.toNat_natCast, e2]
    · simp only [Particle.vecAt, Int.toNat_natCast, e3]
  · intro i; rfl

/-- C09: the mirror image used above has the same distance to the plane on the other side, the foot point
is preserved, distances between points are preserved, and mirroring twice is the identity. -/
theorem C09_reflection_geometry (o n : Vec) (hn : n ≠ 0) (x y v : Vec) :
    dot (mirrorImage o n x - o) n = - dot (x - o) n ∧
    norm (mirrorImage o n x - mirrorImage o n y) = norm (x - y) ∧
    mirrorImage o n (mirrorImage o n x) = x ∧
    mirrorImageDir n (mirrorImageDir n v) = v ∧ norm (mirrorImageDir n v) = norm v := by
  have hnn : dot n n ≠ 0 := by
    intro h; exact hn (Vec.abs2nd_eq_zero.mp h)
  have refl : ∀ v, mirrorImageDir n (mirrorImageDir n v) = v := by
    intro v
    have : dot (mirrorImageDir n v) n = - dot v n := by
      simp only [mirrorImageDir, dot_sub_left, dot_mul_left]; field_simp; ring
    rw [mirrorImageDir, this]
    simp only [mirrorImageDir]
    ext <;> simp <;> ring
  have iso : ∀ v, (mirrorImageDir n v).abs2nd = v.abs2nd := by
    intro v
    have : (mirrorImageDir n v).abs2nd = v.abs2nd - 2 * (2 * dot v n / dot n n) * dot v n + (2 * dot v n / dot n n)^2 * dot n n := by
      simp only [mirrorImageDir, abs2nd, dot, sub_x, sub_y, sub_z, mul_x, mul_y, mul_z]; ring
    rw [this]; field_simp; ring
  have hd : dot (mirrorImage o n x - o) n = - dot (x - o) n := by
    have : mirrorImage o n x - o = mirrorImageDir n (x - o) := by
      simp only [mirrorImage, mirrorImageDir]; ext <;> simp <;> ring
    rw [this]; simp only [mirrorImageDir, dot_sub_left, dot_mul_left]; field_simp; ring
  refine ⟨hd, ?_, ?_, refl v, ?_⟩
  · have : mirrorImage o n x - mirrorImage o n y = mirrorImageDir n (x - y) := by
      simp only [mirrorImage, mirrorImageDir, dot_sub_left]
      ext <;> simp <;> ring
    rw [this, Vec.norm_def, iso, ← Vec.norm_def]
  · rw [mirrorImage, hd]
    simp only [mirrorImage]
    ext <;> simp <;> ring
  · rw [Vec.norm_def, iso, ← Vec.norm_def]

/-- C09 fails for the last recorded point: position, momentum and acceleration stay as they were. -/
theorem C09_last_point_stays (p : Particle) (hp : p.Reachable) (hn : 1 ≤ p.getNP) (o n : Vec) (f : ℝ) :
    ∃ p', p.Mirror o n f = .ok p' ∧
      p'.TrajPoint (p.getNP - 1 : Nat) = p.TrajPoint (p.getNP - 1 : Nat) ∧
      p'.TrajMomentum (p.getNP - 1 : Nat) = p.TrajMomentum (p.getNP - 1 : Nat) ∧
      p'.TrajAccel (p.getNP - 1 : Nat) = p.TrajAccel (p.getNP - 1 : Nat) := by
  have hcons := cons_reachable hp
  have ⟨h1, h2, h3, h4⟩ := hcons
  refine ⟨_, Mirror_eq p hcons o n f, ?_⟩
  simp only [Particle.getNP] at *
  have key : ∀ (g : Vec → Vec) (l : List Vec), l.length = p.NP →
      (Particle.mapButLast p.NP g l)[p.NP - 1]? = l[p.NP - 1]? := by
    intro g l hl
    have e : l[p.NP - 1]? = some (l[p.NP - 1]'(by omega)) := List.getElem?_eq_getElem _
    rw [mapButLast_get p.NP g l _ _ e, if_neg (by omega), e]
  refine ⟨?_, ?_, ?_⟩
  · simp only [Particle.TrajPoint, Particle.vecAt, Int.toNat_natCast]; rw [key _ _ h2]
  · simp only [Particle.TrajMomentum, Particle.vecAt, Int.toNat_natCast]; rw [key _ _ h3]
  · simp only [Particle.TrajAccel, Particle.vecAt, Int.toNat_natCast]; rw [key _ _ h4]

/-- C09: the momentum carried from step to step is not mirrored, so the next step of a mirrored particle
moves along the unmirrored velocity. -/
theorem C09_carried_momentum_stays (p p' q : Particle) (hp : p.Reachable) (o n : Vec) (f : ℝ) (field : FieldFn)
    (h1 : p.Mirror o n f = .ok p') (h2 : p'.StepVay field = .ok q) :
    q.XCur - p'.XCur = p.VYp / p.VYgamma * SpeedOfLight * p.dt := by
  have hcons := cons_reachable hp
  have ⟨k1, k2, k3, k4⟩ := hcons
  simp only [Particle.Mirror] at h1
  rw [if_pos (by omega)] at h1
  injection h1 with h1; subst h1
  obtain ⟨EB, _, rfl⟩ := Particle.StepVay_ok h2
  simp only [Particle.storeTrajectoryPoint]
  exact add_sub_cancel_left _ _

/-- C09 is violated: the full statement is false, witnessed by an electron with a single point. -/
theorem C09_full_statement_false :
    ¬ ∀ (p : Particle), p.Reachable → ∀ (o n : Vec) (f : ℝ), n ≠ 0 → ∃ p', p.Mirror o n f = .ok p' ∧
      ∀ i : Nat, ∀ x, p.TrajPoint i = .ok x → p'.TrajPoint i = .ok (mirrorImage o n x) := by
  intro h
  let p : Particle := POp.exec Particle.default (.init 0 ⟨1, 0, 0⟩ 0 0)
  have hr : p.Reachable := ⟨_, [.init 0 ⟨1, 0, 0⟩ 0 0], Or.inr (Or.inr (Or.inl rfl)), rfl⟩
  obtain ⟨p', h1, h2⟩ := h p hr 0 ⟨1, 0, 0⟩ 1 (by intro h; have := congrArg Vec.x h; simp at this)
  obtain ⟨p'', h3, h4, -⟩ := C09_last_point_stays p hr (Nat.le_refl 1) 0 ⟨1, 0, 0⟩ 1
  rw [h1] at h3; injection h3 with h3; subst h3
  have e : p.TrajPoint (0 : Nat) = .ok ⟨1, 0, 0⟩ := by
    simp [p, POp.exec, POp.result, Particle.initTrajectory, Particle.TrajPoint, Particle.vecAt]
  have h5 := h2 0 _ e
  have h6 : p'.TrajPoint (0 : Nat) = p.TrajPoint (0 : Nat) := h4
  rw [h6, e] at h5
  injection h5 with h5
  have := congrArg Vec.x h5
  simp [mirrorImage, dot] at this
  norm_num at this

/-- non-vacuity: a reachable particle with two points, and a tilted mirror -/
example : ∃ p : Particle, p.Reachable ∧ p.getNP = 2 ∧ (⟨1, 1, 0⟩ : Vec) ≠ 0 := by
  refine ⟨[POp.init 0 0 ⟨0,0,1⟩ 0, .store 1 ⟨0,0,1⟩ ⟨0,0,1⟩ 0].foldl POp.exec Particle.default, ⟨_, _, Or.inr (Or.inr (Or.inl rfl)), rfl⟩, rfl, ?_⟩
  intro h; have := congrArg Vec.x h; simp at this

/-- non-vacuity for `C07_resume`: a particle after initialisation and one step satisfies `AtEnd` -/
example : ∃ p : Particle, p.Reachable ∧ p.AtEnd := by
  refine ⟨[POp.init 0 0 ⟨0,0,1⟩ 0, .initVay 1 (fun _ _ => .ok 0), .stepVay (fun _ _ => .ok 0)].foldl POp.exec Particle.default,
    ⟨_, _, Or.inr (Or.inr (Or.inl rfl)), rfl⟩, ?_⟩
  simp [POp.exec, POp.result, Particle.initTrajectory, Particle.InitVay, Particle.StepVay, Particle.storeTrajectoryPoint,
    Particle.default, Particle.new, Particle.AtEnd]

end Teufel
