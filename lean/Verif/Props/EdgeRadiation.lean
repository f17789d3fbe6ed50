import Verif.Lemmas.EdgeSignal
import Verif.Props.Edges
import Verif.Props.EdgeFiles
import Verif.Props.Kinks

/-!
# C121: the radiation recorded from particles passing hard-edge dipoles converges to the exact field

At the faces of a hard-edge dipole the acceleration of a particle jumps, and with it the radiation field.  `Faced`, `LatticeFaces` and `EdgeMotion` (Spec/Edges)
describe the beam line and the exact motion, `Seen` (Spec/Radiation) the Liénard-Wiechert field of the exact motion.
-/

namespace Teufel
open Vec

namespace Edge

/-- the stored acceleration is that in the field at the stored point -/
theorem stored_accel {a a1 a2 : Particle} (ha : a.Reachable) {h : ℝ} {field : FieldFn} {n : ℕ} (h1 : a.InitVay h field = .ok a1)
    (h2 : a1.steps (List.replicate n field) = .ok a2) {k : ℕ} (hk : k ≤ n) :
    ∃ t X P EB, a2.TrajTime (a.getNP - 1 + k : Nat) = .ok t ∧ a2.TrajPoint (a.getNP - 1 + k : Nat) = .ok X ∧ a2.TrajMomentum (a.getNP - 1 + k : Nat) = .ok P ∧
      field t X = .ok EB ∧ a2.TrajAccel (a.getNP - 1 + k : Nat) = .ok (acc (a.Charge / a.Mass * InvRestMass) P EB) := by
  have c1 := Particle.cons_init (cons_reachable ha) h1
  have c2 : a2.Cons := (Particle.steps_facts h2).1 c1
  have hN1 : a1.NP = a.NP := by obtain ⟨_, _, t, x, pm, EB, _, _, _, _, _, rfl⟩ := Particle.InitVay_ok h1; rfl
  have start : a1.qm = a.Charge / a.Mass * InvRestMass ∧ ∃ EB, field a1.tCur a1.XCur = .ok EB ∧ a1.ACur = acc a1.qm a1.PCur EB := by
    obtain ⟨_, _, t, x, pm, EB, _, _, _, _, hf, rfl⟩ := Particle.InitVay_ok h1
    exact ⟨rfl, EB, hf, vayAccel_eq _ _ EB⟩
  have key : ∀ (m : ℕ) (b c : Particle), (∃ EB, field b.tCur b.XCur = .ok EB ∧ b.ACur = acc b.qm b.PCur EB) → b.steps (List.replicate m field) = .ok c →
      c.qm = b.qm ∧ ∃ EB, field c.tCur c.XCur = .ok EB ∧ c.ACur = acc c.qm c.PCur EB := by
    intro m
    induction m with
    | zero => intro b c hb hs; rw [List.replicate_zero, Particle.steps_nil] at hs; injection hs with hs; rw [← hs]; exact ⟨rfl, hb⟩
    | succ m ih =>
      intro b c hb hs
      rw [List.replicate_succ] at hs
      obtain ⟨q, hq1, hq2⟩ := Particle.steps_cons_ok hs
      obtain ⟨EB, hf, e⟩ := Particle.StepVay_ok hq1
      have hq : q.qm = b.qm ∧ ∃ EB, field q.tCur q.XCur = .ok EB ∧ q.ACur = acc q.qm q.PCur EB := by
        rw [e]
        exact ⟨rfl, EB, hf, vayAccel_eq _ _ EB⟩
      obtain ⟨i1, i2⟩ := ih q c hq.2 hq2
      exact ⟨i1.trans hq.1, i2⟩
  obtain ⟨q, q1, q2, gt, gx, gp, ga⟩ := Particle.run_index c1 (Particle.atEnd_init h1) h2 k (by simpa using hk)
  rw [hN1] at gt gx gp ga
  rw [List.take_replicate, min_eq_left hk] at q1
  obtain ⟨k1, EB, k2, k3⟩ := key k a1 q start.2 q1
  refine ⟨_, _, _, EB, TrajTime_of_get c2 gt, TrajPoint_of_get c2 gx, TrajMomentum_of_get c2 gp, k2, ?_⟩
  have := TrajAccel_of_get c2 ga
  rw [k3, k1, start.1] at this
  exact this

end Edge

set_option maxHeartbeats 1000000 in
/-- C121, in any beam line: the recorded samples converge - with the first order of the time step - to the averages of the field formula in which the
rate of change of the momentum divided by γ stands for the acceleration.  The field needs to be known only for signals sent away from the faces. -/
theorem C121_limit (lat : Lattice) (faces : List (Vec × Vec)) (hl : LatticeFaces lat faces) (qm q : ℝ) (x p : ℝ → Vec) (t0 T : ℝ) (hT : 0 ≤ T)
    (hm : EdgeMotion qm lat.field faces x p t0 T) (obs : Vec) (hobs : ∀ t, t0 ≤ t → t ≤ t0 + T → obs ≠ x t) (φ : EMField → ℝ) (hφ : Particle.IsComponent φ) :
    ∃ C h0 : ℝ, 0 < h0 ∧ ∀ h : ℝ, 0 < h → h ≤ h0 → ∀ n : ℕ, n * h ≤ T →
      ∀ a : Particle, a.Reachable → a.getNP = 1 → a.Mass ≠ 0 → a.Charge / a.Mass * InvRestMass = qm → a.Charge * ElementaryCharge = q →
        a.TrajTime 0 = .ok t0 → a.TrajPoint 0 = .ok (x t0) → a.TrajMomentum 0 = .ok (p t0) →
        ∃ a1 a2, a.InitVay h lat.field = .ok a1 ∧ a1.steps (List.replicate n lat.field) = .ok a2 ∧
          ∀ tr : FieldTrace, tr.WF → 0 < tr.dt → 2 ≤ tr.N → ∃ tr', a2.integrateFieldTrace obs tr = .ok tr' ∧
            ∀ S : ℝ → EMField, (∀ t, t0 ≤ t → t ≤ t0 + T → (∀ f ∈ faces, ¬ OnFace (x t) f) → ∀ v, HasVelocity p v t →
              S (arrival x obs t) = LW q (x t) (betaOf (p t)) (v / Real.sqrt (1 + Vec.norm (p t) ^ 2)) obs) →
              ∀ (i : Nat) (f f' : EMField), tr.getField i = .ok f → tr'.getField i = .ok f' →
                |φ f' - φ f - (∫ θ in Set.Icc (arrival x obs t0) (arrival x obs (t0 + n * h)) ∩
                  Set.Icc (tr.t0 + ((i : ℝ) - 1 / 2) * tr.dt) (tr.t0 + ((i : ℝ) + 1 / 2) * tr.dt), φ (S θ)) / tr.dt| ≤ C / tr.dt * h := by
  have hc := SpeedOfLight_pos
  have H : Way x p t0 T obs := ⟨fun t h => hm.position t h.1 h.2, fun t h => hobs t h.1 h.2, hT⟩
  obtain ⟨fld, Z, κ, M, L, Mx, Mp, Ps⟩ := Edge.passed hT hm (Edge.lattice_bounded hl) (Edge.lattice_sided hl)
  obtain ⟨δ, K1, hsent⟩ := Ps.sent H q hφ
  obtain ⟨C0, hh, hh0, conv⟩ := C120_first_order lat faces hl qm x p t0 T hT hm
  obtain ⟨d, hd, hdist⟩ := H.distance
  -- constants
  set C := |C0| with hCdef
  have hC : 0 ≤ C := abs_nonneg _
  obtain ⟨Nf, hNf0, hNf⟩ : ∃ Nf : ℝ, 0 ≤ Nf ∧ ∀ f ∈ faces, f.2.norm ≤ Nf := by
    clear hl hm conv Ps
    induction faces with
    | nil => exact ⟨0, le_rfl, by simp⟩
    | cons f l ih =>
      obtain ⟨N, h1, h2⟩ := ih
      refine ⟨max N f.2.norm, h1.trans (le_max_left _ _), fun g hg => ?_⟩
      rcases List.mem_cons.mp hg with rfl | hg
      · exact le_max_right _ _
      · exact (h2 g hg).trans (le_max_left _ _)
  have hκ := Ps.κ_pos
  set D := (C * Nf + 1) / κ with hD
  have hD0 : 0 < D := by positivity
  have hDC : C * Nf < κ * D := by rw [hD, mul_div_cancel₀ _ hκ.ne']; linarith
  have hF := Ps.F_nonneg
  set Ca := |qm| * ((1 / SpeedOfLight + 1) * (L * C) + 2 * M * C) with hCa
  have hCa0 : 0 ≤ Ca := by
    have := Ps.L_nonneg
    have := Ps.M_nonneg
    positivity
  obtain ⟨K2, hK2, hpair⟩ := source_pairs q obs (M := |Mx| + |Mp| + Edge.Passed.F qm M + 1) (C := C + Ca) (by positivity) (by positivity : 0 < d / 2) hφ
  set K := K1 + K2 + C / SpeedOfLight with hK
  have hK1 := hsent.K_nonneg
  have hCc : 0 ≤ C / SpeedOfLight := by positivity
  have hsK : SentJ (arrival x obs) (fun t => φ (lwOf q obs (x t) (p t) (Edge.acc qm (p t) (fld t)))) Z t0 T δ K := by
    have hle : K1 ≤ K := by linarith
    exact ⟨hsent.δ_pos, hK1.trans hle, hT, hsent.mem, hsent.lower, fun s hs t ht => (hsent.upper s hs t ht).trans (mul_le_mul_of_nonneg_right hle (abs_nonneg _)),
      fun s hs => (hsent.bound s hs).trans hle, fun s hs t ht hz => (hsent.lip s hs t ht hz).trans (mul_le_mul_of_nonneg_right hle (abs_nonneg _))⟩
  set hmax := min (min hh 1) (min (1 / D) (min (1 / (C + 1)) (d / (2 * (C + 1))))) with hmaxdef
  have hmax0 : 0 < hmax := lt_min (lt_min hh0 one_pos) (lt_min (by positivity) (lt_min (by positivity) (by positivity)))
  refine ⟨jumpC δ K T D Z.length, hmax, hmax0, ?_⟩
  intro h hpos hle n hn a ha hnp hmass hqm hq hat hax hap
  have l1 : h ≤ hh := hle.trans ((min_le_left _ _).trans (min_le_left _ _))
  have l2 : h ≤ 1 := hle.trans ((min_le_left _ _).trans (min_le_right _ _))
  have l3 : D * h ≤ 1 := by
    have : h ≤ 1 / D := hle.trans ((min_le_right _ _).trans (min_le_left _ _))
    rw [le_div_iff₀ hD0] at this
    linarith
  have l4 : C * h ≤ 1 := by
    have : h ≤ 1 / (C + 1) := hle.trans ((min_le_right _ _).trans ((min_le_right _ _).trans (min_le_left _ _)))
    rw [le_div_iff₀ (by positivity)] at this
    nlinarith
  have l5 : C * h ≤ d / 2 := by
    have : h ≤ d / (2 * (C + 1)) := hle.trans ((min_le_right _ _).trans ((min_le_right _ _).trans (min_le_right _ _)))
    rw [le_div_iff₀ (by positivity)] at this
    nlinarith
  obtain ⟨a1, a2, e1, e2, pts⟩ := conv h hpos l1 n hn a ha hmass hqm (by rw [hnp]; exact hat) (by rw [hnp]; exact hax) (by rw [hnp]; exact hap)
  refine ⟨a1, a2, e1, e2, ?_⟩
  have mem : ∀ k ≤ n, t0 + (k : ℝ) * h ∈ Set.Icc t0 (t0 + T) := by
    intro k hk
    have : (k : ℝ) * h ≤ n * h := mul_le_mul_of_nonneg_right (by exact_mod_cast hk) hpos.le
    have : 0 ≤ (k : ℝ) * h := by positivity
    exact ⟨by linarith, by linarith⟩
  have hreach := run_reachable ha e1 e2
  obtain ⟨hsub, hinc⟩ := C13_tracked a a1 a2 ha hnp h hpos lat.field (List.replicate n lat.field) e1 e2
  obtain ⟨hN2, -, -⟩ := C05_equidistant a a1 a2 ha h lat.field (List.replicate n lat.field) t0 (by rw [hnp]; exact hat) e1 e2
  rw [hnp, List.length_replicate] at hN2
  have hcharge : a2.Charge = a.Charge := by
    obtain ⟨-, -, t, y, pm, EB', -, -, -, -, -, e⟩ := Particle.InitVay_ok e1
    rw [(Particle.steps_facts e2).2.2.2.2.2.1, e]
  have hCabs : C0 * h ≤ C * h := mul_le_mul_of_nonneg_right (le_abs_self C0) hpos.le
  -- the stored points
  have pts' : ∀ k, k ≤ n → ∃ X P A, a2.TrajTime (k : Nat) = .ok (t0 + k * h) ∧ a2.TrajPoint (k : Nat) = .ok X ∧ a2.TrajMomentum (k : Nat) = .ok P ∧
      a2.TrajAccel (k : Nat) = .ok A ∧ (X - x (t0 + k * h)).norm ≤ C * h ∧ (P - p (t0 + k * h)).norm ≤ C * h ∧ A.norm ≤ Edge.Passed.F qm M ∧
      ((∀ z ∈ Z, D * h ≤ |t0 + k * h - z|) → (A - Edge.acc qm (p (t0 + k * h)) (fld (t0 + k * h))).norm ≤ Ca * h) := by
    intro k hk
    obtain ⟨X, P, b1, b2, b3, b4, b5⟩ := pts k hk
    obtain ⟨t, X', P', EB, d1, d2, d3, d4, d5⟩ := Edge.stored_accel ha e1 e2 hk
    rw [b1] at d1
    cases d1
    rw [b2] at d2
    cases d2
    rw [b3] at d3
    cases d3
    rw [hqm] at d5
    simp only [hnp, Nat.sub_self, Nat.zero_add] at b1 b2 b3 d5
    refine ⟨X, P, _, b1, b2, b3, d5, b4.trans hCabs, b5.trans hCabs, ?_, fun hz => ?_⟩
    · obtain ⟨G, g1, g2, g3⟩ := Ps.near _ (mem k hk) X ((b4.trans hCabs).trans l4)
      rw [d4] at g1
      cases g1
      exact Edge.acc_le P g2 g3
    · obtain ⟨G, g1, g2⟩ := Ps.rate_near hpos l3 l4 hNf hDC (mem k hk) (b4.trans hCabs) (b5.trans hCabs) hz
      rw [d4] at g1
      cases g1
      exact g2
  choose X P A pt using pts'
  have hdX : ∀ k (hk : k ≤ n), d / 2 ≤ Vec.norm (obs - X k hk) := by
    intro k hk
    have h2 := Vec.norm_sub_le obs (X k hk) (x (t0 + k * h))
    have h3 := hdist _ (mem k hk)
    have h4 := (pt k hk).2.2.2.2.1.trans l5
    linarith
  have hne : ∀ k (hk : k ≤ n), obs ≠ X k hk := by
    intro k hk e
    have := hdX k hk
    rw [← e, sub_self, Vec.norm_zero] at this
    linarith
  have bnd : ∀ {v w : Vec} {m : ℝ}, w.norm ≤ m → (v - w).norm ≤ C * h → v.norm ≤ m + 1 := by
    intro v w m h1 h2
    have := Vec.norm_add_le (v - w) w
    rw [sub_add_cancel] at this
    linarith
  have vbound : ∀ k (hk : k ≤ n), |φ (lwOf q obs (X k hk) (P k hk) (A k hk))| ≤ K2 ∧ ((∀ z ∈ Z, D * h ≤ |t0 + k * h - z|) →
      |φ (lwOf q obs (X k hk) (P k hk) (A k hk)) - φ (lwOf q obs (x (t0 + k * h)) (p (t0 + k * h)) (Edge.acc qm (p (t0 + k * h)) (fld (t0 + k * h))))| ≤ K2 * h) := by
    intro k hk
    obtain ⟨-, -, -, -, bX, bP, bA, bR⟩ := pt k hk
    have m := mem k hk
    have n1 := abs_nonneg Mx
    have n2 := abs_nonneg Mp
    have u1 : (X k hk).norm ≤ |Mx| + |Mp| + Edge.Passed.F qm M + 1 := by linarith [bnd (Ps.bx _ m) bX, le_abs_self Mx]
    have u2 : (P k hk).norm ≤ |Mx| + |Mp| + Edge.Passed.F qm M + 1 := by linarith [bnd (Ps.bp _ m) bP, le_abs_self Mp]
    have u3 : (A k hk).norm ≤ |Mx| + |Mp| + Edge.Passed.F qm M + 1 := by linarith
    have u4 : (x (t0 + k * h)).norm ≤ |Mx| + |Mp| + Edge.Passed.F qm M + 1 := by linarith [Ps.bx _ m, le_abs_self Mx]
    have u5 : (p (t0 + k * h)).norm ≤ |Mx| + |Mp| + Edge.Passed.F qm M + 1 := by linarith [Ps.bp _ m, le_abs_self Mp]
    have u6 : (Edge.acc qm (p (t0 + k * h)) (fld (t0 + k * h))).norm ≤ |Mx| + |Mp| + Edge.Passed.F qm M + 1 := by
      have := Edge.acc_le (qm := qm) (p (t0 + k * h)) (Ps.ok _ m).2.1 (Ps.ok _ m).2.2
      unfold Edge.Passed.F
      linarith
    have w0 : ∀ v : Vec, (v - v).norm ≤ (C + Ca) * 0 := fun v => by rw [sub_self, Vec.norm_zero, mul_zero]
    have w1 : C * h ≤ (C + Ca) * h := mul_le_mul_of_nonneg_right (by linarith) hpos.le
    have w2 : Ca * h ≤ (C + Ca) * h := mul_le_mul_of_nonneg_right (by linarith) hpos.le
    constructor
    · exact (hpair ⟨X k hk, X k hk, P k hk, P k hk, A k hk, A k hk, 0, le_rfl, u1, u1, u2, u2, u3, u3, w0 _, w0 _, w0 _, hdX k hk, hdX k hk⟩).2
    · intro hz
      exact (hpair ⟨x (t0 + k * h), X k hk, p (t0 + k * h), P k hk, _, A k hk, h, hpos.le, u4, u1, u5, u2, u6, u3, bX.trans w1, bP.trans w1, (bR hz).trans w2,
        by linarith [hdist _ m], hdX k hk⟩).1
  have hoff : a2.OffTrajectory obs := by
    intro i y hy
    have hi : i < a2.NP := by
      have := (List.getElem?_eq_some_iff.mp (get_of_TrajPoint hy)).1
      rw [(cons_reachable hreach).2.1] at this
      exact this
    simp only [Particle.getNP] at hN2
    have hin : i ≤ n := by omega
    rw [(pt i hin).2.1] at hy
    injection hy with hy
    rw [← hy]
    exact hne i hin
  intro tr hw hdt hN
  obtain ⟨tr', hrec, -⟩ := C14_no_index_error a2 hreach hsub obs hoff tr hw hdt
  refine ⟨tr', hrec, ?_⟩
  intro S hS i f f' hf hf'
  -- the nodes
  let R : ℕ → ℝ := fun k => if hk : k ≤ n then t0 + k * h + Vec.norm (obs - X k hk) / SpeedOfLight else 0
  let F : ℕ → EMField := fun k => if hk : k ≤ n then lwOf q obs (X k hk) (P k hk) (A k hk) else 0
  have hR : ∀ k, k < a2.getNP → a2.RetardedTime k obs = .ok (R k) := by
    intro k hk
    have hkn : k ≤ n := by omega
    obtain ⟨p1, p2, -⟩ := pt k hkn
    simp only [Particle.RetardedTime, p1, p2, bind, Except.bind, pure, Except.pure, R, dif_pos hkn]
  have hFk : ∀ k, k < a2.getNP → a2.RetardedFieldIdx k obs = .ok (F k) := by
    intro k hk
    have hkn : k ≤ n := by omega
    obtain ⟨-, p2, p3, p4, -⟩ := pt k hkn
    rw [(C12_lienard_wiechert a2 k _ _ _ p2 p3 p4 obs).1 (hne k hkn), hcharge, hq]
    simp only [F, dif_pos hkn, lwOf]
  have hsum := C15_sample_integral a2 hreach hsub obs hoff R F hR hFk tr tr' hw hdt hN hrec φ hφ i f f' hf hf'
  rw [hN2, Nat.add_sub_cancel_left] at hsum
  have nodes : NodesJ (arrival x obs) (fun t => φ (lwOf q obs (x t) (p t) (Edge.acc qm (p t) (fld t)))) Z t0 T K D h n R (fun k => φ (F k)) := by
    refine ⟨hpos, hn, ?_, ?_, ?_, ?_⟩
    · intro k hk
      simp only [R, dif_pos hk, arrival]
      have e : t0 + (k : ℝ) * h + Vec.norm (obs - X k hk) / SpeedOfLight - (t0 + k * h + Vec.norm (obs - x (t0 + k * h)) / SpeedOfLight)
          = (Vec.norm (obs - X k hk) - Vec.norm (obs - x (t0 + k * h))) / SpeedOfLight := by ring
      rw [e, abs_div, abs_of_pos hc]
      have h3 := (norm_sub_abs obs (X k hk) (x (t0 + k * h))).trans (pt k hk).2.2.2.2.1
      have h4 : C * h / SpeedOfLight ≤ K * h := by
        rw [mul_div_right_comm]
        exact mul_le_mul_of_nonneg_right (by linarith) hpos.le
      exact (div_le_div_of_nonneg_right h3 hc.le).trans h4
    · intro k hk
      simp only [F, dif_pos hk]
      exact (vbound k hk).1.trans (by linarith)
    · intro k hk hz
      simp only [F, dif_pos hk]
      exact ((vbound k hk).2 hz).trans (mul_le_mul_of_nonneg_right (by linarith) hpos.le)
    · intro k hk
      exact C13_arrival_order a2 hreach hsub obs k (k + 1) (by omega) (R k) (R (k + 1)) (hR k (by omega)) (hR (k + 1) (by omega))
  have main := signal_jumps hsK nodes hD0.le l2 (fun θ => φ (S θ)) (by
    intro t ht hz
    show φ (S (arrival x obs t)) = _
    rw [hS t ht.1 ht.2 (Edge.off_faces hκ Ps.away ht hz) _ (Ps.rate t ht hz)]
    rfl) (tr.t0 + ((i : ℝ) - 1 / 2) * tr.dt) (tr.t0 + ((i : ℝ) + 1 / 2) * tr.dt)
  have e : ((List.range n).map fun k => ∫ θ in Set.Icc (R k) (R (k + 1)) ∩ Set.Icc (tr.t0 + ((i : ℝ) - 1 / 2) * tr.dt) (tr.t0 + ((i : ℝ) + 1 / 2) * tr.dt),
      lineAt (R k) (R (k + 1)) (φ (F k)) (φ (F (k + 1))) θ).sum = (φ f' - φ f) * tr.dt := by
    rw [sub_mul (φ f'), hsum, add_sub_cancel_left]
    rfl
  rw [e] at main
  have e2 : ∀ y z : ℝ, y - z / tr.dt = (y * tr.dt - z) / tr.dt := fun y z => by field_simp
  rw [e2, abs_div, abs_of_pos hdt, div_mul_eq_mul_div]
  exact div_le_div_of_nonneg_right main hdt.le

/-- in a magnetic field the momentum only turns, and its rate of change divided by γ is the acceleration -/
theorem Edge.magnetic {qm : ℝ} {field : FieldFn} {faces : List (Vec × Vec)} {x p : ℝ → Vec} {t0 T : ℝ} (hm : EdgeMotion qm field faces x p t0 T)
    (hmag : ∀ t, t0 ≤ t → t ≤ t0 + T → ∀ EB, field t (x t) = .ok EB → EB.E = 0) {t : ℝ} (h1 : t0 ≤ t) (h2 : t ≤ t0 + T) (hoff : ∀ f ∈ faces, ¬ OnFace (x t) f)
    {v : Vec} (hv : HasVelocity p v t) : HasVelocity (fun s => betaOf (p s)) (v / Real.sqrt (1 + Vec.norm (p t) ^ 2)) t := by
  obtain ⟨EB, hE, hv'⟩ := hm.momentum t h1 h2 hoff
  rw [hmag t h1 h2 EB hE] at hv'
  have hperp : dot (p t) v = 0 := by
    rw [hv.unique hv']
    unfold velOf
    simp only [dot, cross, div_x, div_y, div_z, mul_x, mul_y, mul_z, add_x, add_y, add_z, zero_x, zero_y, zero_z]
    ring
  have hb : betaDotOf (p t) v = v / Real.sqrt (1 + Vec.norm (p t) ^ 2) := by
    simp only [betaDotOf]
    have : dot (betaOf (p t)) v = 0 := by simp only [betaOf]; rw [dot_div_left, hperp, zero_div]
    rw [this]; congr 1; ext <;> simp
  have := betaDotOf_is_derivative (fun s => (p s).x) (fun s => (p s).y) (fun s => (p s).z) v t hv.1 hv.2.1 hv.2.2
  rw [← hb]
  exact this

/-- **C121.** A particle flies through the magnets - hard-edge dipoles among them - of a beam line.  The samples recorded from the tracked particle are the
averages of the exact Liénard-Wiechert field of the exact motion, which jumps whenever the particle passes a face, over the time of each sample, up to a
constant times the time step of the tracking.  Neither the tracking nor the recording fails, and the constant depends neither on the time step, the number
of steps, nor on the sampling. -/
theorem C121_recorded (lat : Lattice) (faces : List (Vec × Vec)) (hl : LatticeFaces lat faces) (qm q : ℝ) (x p : ℝ → Vec) (t0 T : ℝ) (hT : 0 ≤ T)
    (hm : EdgeMotion qm lat.field faces x p t0 T) (hmag : ∀ t, t0 ≤ t → t ≤ t0 + T → ∀ EB, lat.field t (x t) = .ok EB → EB.E = 0)
    (obs : Vec) (hobs : ∀ t, t0 ≤ t → t ≤ t0 + T → obs ≠ x t) (φ : EMField → ℝ) (hφ : Particle.IsComponent φ) :
    ∃ C h0 : ℝ, 0 < h0 ∧ ∀ h : ℝ, 0 < h → h ≤ h0 → ∀ n : ℕ, n * h ≤ T →
      ∀ a : Particle, a.Reachable → a.getNP = 1 → a.Mass ≠ 0 → a.Charge / a.Mass * InvRestMass = qm → a.Charge * ElementaryCharge = q →
        a.TrajTime 0 = .ok t0 → a.TrajPoint 0 = .ok (x t0) → a.TrajMomentum 0 = .ok (p t0) →
        ∃ a1 a2, a.InitVay h lat.field = .ok a1 ∧ a1.steps (List.replicate n lat.field) = .ok a2 ∧
          ∀ tr : FieldTrace, tr.WF → 0 < tr.dt → 2 ≤ tr.N → ∃ tr', a2.integrateFieldTrace obs tr = .ok tr' ∧
            ∀ S : ℝ → EMField, Seen q x p obs t0 T S →
              ∀ (i : Nat) (f f' : EMField), tr.getField i = .ok f → tr'.getField i = .ok f' →
                |φ f' - φ f - (∫ θ in Set.Icc (arrival x obs t0) (arrival x obs (t0 + n * h)) ∩
                  Set.Icc (tr.t0 + ((i : ℝ) - 1 / 2) * tr.dt) (tr.t0 + ((i : ℝ) + 1 / 2) * tr.dt), φ (S θ)) / tr.dt| ≤ C / tr.dt * h := by
  obtain ⟨C, h0, hh0, H⟩ := C121_limit lat faces hl qm q x p t0 T hT hm obs hobs φ hφ
  refine ⟨C, h0, hh0, ?_⟩
  intro h hh hle n hn a ha hnp hmass hqm hq hat hax hap
  obtain ⟨a1, a2, e1, e2, rec⟩ := H h hh hle n hn a ha hnp hmass hqm hq hat hax hap
  refine ⟨a1, a2, e1, e2, ?_⟩
  intro tr hw hdt hN
  obtain ⟨tr', hrec, hs⟩ := rec tr hw hdt hN
  refine ⟨tr', hrec, ?_⟩
  intro S hS
  exact hs S (fun t h1 h2 hoff v hv => hS t h1 h2 _ (Edge.magnetic hm hmag h1 h2 hoff hv))

/-- C121: signals sent at different times arrive at different times, and the exact field at the observer exists; it is determined at all times but those at
which the particle is on a face. -/
theorem C121_signal (lat : Lattice) (faces : List (Vec × Vec)) (hl : LatticeFaces lat faces) (qm q : ℝ) (x p : ℝ → Vec) (t0 T : ℝ) (hT : 0 ≤ T)
    (hm : EdgeMotion qm lat.field faces x p t0 T) (obs : Vec) (hobs : ∀ t, t0 ≤ t → t ≤ t0 + T → obs ≠ x t) :
    StrictMonoOn (arrival x obs) (Set.Icc t0 (t0 + T)) ∧ (∃ S, Seen q x p obs t0 T S) ∧
      {t ∈ Set.Icc t0 (t0 + T) | ∃ f ∈ faces, OnFace (x t) f}.Finite ∧
      ∀ S S', Seen q x p obs t0 T S → Seen q x p obs t0 T S' → ∀ t ∈ Set.Icc t0 (t0 + T), (∀ f ∈ faces, ¬ OnFace (x t) f) → S (arrival x obs t) = S' (arrival x obs t) := by
  have H : Way x p t0 T obs := ⟨fun t h => hm.position t h.1 h.2, fun t h => hobs t h.1 h.2, hT⟩
  obtain ⟨fld, Z, κ, M, L, Mx, Mp, Ps⟩ := Edge.passed hT hm (Edge.lattice_bounded hl) (Edge.lattice_sided hl)
  obtain ⟨δ, K, hs⟩ := Ps.sent H q component_Ex
  have hmono : StrictMonoOn (arrival x obs) (Set.Icc t0 (t0 + T)) := by
    intro s hs' t ht' hst
    have := hs.lower s hs' t ht' hst.le
    have := mul_pos hs.δ_pos (sub_pos.mpr hst)
    linarith
  refine ⟨hmono, ?_, ?_, ?_⟩
  · classical
    refine ⟨fun θ => if h : ∃ t ∈ Set.Icc t0 (t0 + T), arrival x obs t = θ then
      LW q (x h.choose) (betaOf (p h.choose)) (rateOf (fun s => betaOf (p s)) h.choose) obs else 0, ?_⟩
    intro t h1 h2 w hw
    have hex : ∃ t' ∈ Set.Icc t0 (t0 + T), arrival x obs t' = arrival x obs t := ⟨t, ⟨h1, h2⟩, rfl⟩
    have e : hex.choose = t := hmono.injOn hex.choose_spec.1 ⟨h1, h2⟩ hex.choose_spec.2
    simp only [dif_pos hex, e]
    rw [hw.rateOf]
  · refine (Z.toFinset.finite_toSet).subset ?_
    rintro t ⟨ht, f, hf, hon⟩
    by_contra hz
    exact Edge.off_faces Ps.κ_pos Ps.away ht (by simpa using hz) f hf hon
  · intro S S' hS hS' t ht hoff
    obtain ⟨EB, -, hv⟩ := hm.momentum t ht.1 ht.2 hoff
    have := betaDotOf_is_derivative (fun s => (p s).x) (fun s => (p s).y) (fun s => (p s).z) _ t hv.1 hv.2.1 hv.2.2
    rw [hS t ht.1 ht.2 _ this, hS' t ht.1 ht.2 _ this]

/-- non-vacuity: the electron which crosses a face meets all hypotheses of C121 at an observer above its orbit -/
example : LatticeFaces EdgeExample.lat EdgeExample.faces ∧
    EdgeMotion (-1 / 1 * InvRestMass) EdgeExample.lat.field EdgeExample.faces EdgeExample.X EdgeExample.P (-(1 / -circleW)) (2 * (1 / -circleW)) ∧
    (∀ t EB, EdgeExample.lat.field t (EdgeExample.X t) = .ok EB → EB.E = 0) ∧ (∀ t, (⟨0, 1, 0⟩ : Vec) ≠ EdgeExample.X t) ∧
    (∃ f ∈ EdgeExample.faces, OnFace (EdgeExample.X 0) f) ∧
    ∃ a : Particle, a.Reachable ∧ a.getNP = 1 ∧ a.Mass ≠ 0 ∧ a.Charge / a.Mass * InvRestMass = -1 / 1 * InvRestMass ∧
      a.TrajTime 0 = .ok (-(1 / -circleW)) ∧ a.TrajPoint 0 = .ok (EdgeExample.X (-(1 / -circleW))) ∧ a.TrajMomentum 0 = .ok (EdgeExample.P (-(1 / -circleW))) := by
  refine ⟨EdgeExample.lat_faces, EdgeExample.motion, ?_, ?_, ⟨(EdgeExample.dipole.p_1 + 0, EdgeExample.dipole.n_1), by simp [EdgeExample.faces],
    by simp [OnFace, EdgeExample.X_zero, EdgeExample.dipole, dot]⟩, ?_⟩
  · intro t EB h
    rw [EdgeExample.lat_field] at h
    injection h with h
    rw [← h]
  · intro t h
    have := congrArg Vec.y h
    simp only [EdgeExample.X] at this
    norm_num at this
  · refine ⟨(Particle.new (-1) 1).initTrajectory (-(1 / -circleW)) (EdgeExample.X (-(1 / -circleW))) (EdgeExample.P (-(1 / -circleW))) 0, ⟨_, [.init _ _ _ _], Or.inl ⟨_, _, rfl⟩, rfl⟩, rfl, ?_, ?_, rfl, rfl, rfl⟩
    · show (1 : ℝ) ≠ 0
      norm_num
    · rfl

namespace Lib
open Input

/-- **C121 (observation).** Particles move in purely magnetic parts of a lattice of any elements, hard-edge dipoles included.  The files the program writes for
observers of the beam contain, for every sample at the place `obs`, the sum of the Liénard-Wiechert fields of the exact motions of all particles, averaged over the
time `dt` of the sample, up to a constant times the time step of the tracking - for every input, every number of nodes and whatever memory and random
generator contain. -/
theorem C121_observation (lat : Lattice) (faces : List (Vec × Vec)) (hl : LatticeFaces lat faces) (cs : List Charge) (T : ℝ) (hT : 0 ≤ T)
    (hc : ∀ c ∈ cs, EdgeMotion c.qm (Lattice.field lat) faces c.x c.p c.t0 T ∧ c.NoElectric (Lattice.field lat) T)
    (obs : Vec) (hobs : ∀ c ∈ cs, ∀ t, c.t0 ≤ t → t ≤ c.t0 + T → obs ≠ c.x t) (φ : EMField → ℝ) (hφ : Particle.IsComponent φ) :
    ∃ C h0 : ℝ, 0 < h0 ∧ ∀ (L : Lib) (rnd : Nat → (Nat → Nat → ℝ) × (Nat → Nat → Nat → ℝ)) (J : Indet) (nodes : Nat) (doc : Xml) (fs : List OutFile) (p : Parsed) (m : Beam),
      0 < nodes → L.program rnd J nodes doc = .ok fs → (L.withRandom (rnd 0)).parse doc = .ok p → masterBeam p = .ok m →
      p.lattice.lattice = lat → p.tracking.state.interactions = [] → List.Forall₂ Charge.Starts cs m.all →
      ∀ h : ℝ, p.tracking.timeStep = h → 0 < h → h ≤ h0 → ∀ n : ℕ, (n : Int) = p.tracking.NOTS → n * h ≤ T →
        ∃ before files : List OutFile, fs = before ++ files ∧ files.length = p.observers.observers.length ∧
          ∀ (i : Nat) (spec : ObserverSpec), p.observers.observers[i]? = some spec → ∃ d, files[i]? = some ⟨spec.file, d⟩ ∧
            (spec.source = .beam → ∀ k ∈ spec.observer.keys, ∀ t dt N, spec.observer.samplePoint k = .ok (t, obs) → spec.observer.sampling k = .ok (dt, N) →
              0 < dt → 2 ≤ N → ∃ F, Shows spec.observer d k obs F ∧
                ∀ S : Charge → ℝ → EMField, (∀ c ∈ cs, Seen c.q c.x c.p obs c.t0 T (S c)) →
                  |φ F - (cs.map (fun c => (∫ θ in Set.Icc (arrival c.x obs c.t0) (arrival c.x obs (c.t0 + n * h)) ∩ Set.Icc (t - dt / 2) (t + dt / 2), φ (S c θ)) / dt)).sum|
                    ≤ C / dt * h) := by
  exact observation_of (fun h => h) (fun h hh => hh.le) lat cs T obs φ hφ (fun c hcs => recorded_start (fun h => h) _ c T obs φ hφ
    (C121_recorded lat faces hl c.qm c.q c.x c.p c.t0 T hT (hc c hcs).1 (hc c hcs).2 obs (hobs c hcs) φ hφ))

/-- non-vacuity of C121 for the program: for all small time steps the program runs on any number of nodes, and the rows of the file show the field of the exact
motion into the dipole, up to a constant times the time step -/
example : ∃ C h0 : ℝ, 0 < h0 ∧ ∀ (h : ℝ) (n : Nat), 0 < h → h ≤ h0 → n < 2 ^ 31 → n * h ≤ 1e-11 →
    ∀ (rnd : Nat → (Nat → Nat → ℝ) × (Nat → Nat → Nat → ℝ)) (J : Indet) (nodes : Nat), 0 < nodes →
      ∃ fs before f, (edgeLib h n).program rnd J nodes edgeDoc = .ok fs ∧ fs = before ++ [⟨"point.sdds", .point f⟩] ∧
        (∀ i : Nat, i < 3 → ∃ F : EMField, f.rows[i]? = some [0 + (i : ℝ) * 1, F.E.x, F.E.y, F.E.z, F.B.x, F.B.y, F.B.z] ∧
          ∃ S : ℝ → EMField, Seen 1 ringCharge.x ringCharge.p ⟨1, 0, 0⟩ 0 1e-11 S ∧
            |F.E.x - ∫ θ in Set.Icc (arrival ringCharge.x ⟨1, 0, 0⟩ 0) (arrival ringCharge.x ⟨1, 0, 0⟩ (0 + n * h)) ∩ Set.Icc (0 + (i : ℝ) * 1 - 1 / 2) (0 + (i : ℝ) * 1 + 1 / 2), (S θ).E.x| ≤ C * h) := by
  have hT : (0 : ℝ) ≤ 1e-11 := by norm_num
  have hne : ringCharge.NoElectric (Lattice.field edgeLattice) 1e-11 := by
    intro t _ _ EB h
    rw [edgeLattice_field] at h
    injection h with h
    rw [← h]
  have hobs : ∀ t, ringCharge.t0 ≤ t → t ≤ ringCharge.t0 + 1e-11 → (⟨1, 0, 0⟩ : Vec) ≠ ringCharge.x t := by
    intro t _ _ h
    have := congrArg Vec.x h
    simp only [ringCharge] at this
    have h1 := Real.cos_le_one (InvRestMass / 2 * t)
    have h2 : 0 ≤ SpeedOfLight * Real.sqrt 3 / InvRestMass := by
      have := SpeedOfLight_pos
      have := InvRestMass_pos
      positivity
    nlinarith
  have hst : ∀ (h : ℝ) (n : Nat), List.Forall₂ Charge.Starts [ringCharge] ({ progBeam (Real.sqrt 3) ⟨0, 0, 1⟩ with dt := h, NOTS := n } : Beam).all := by
    intro h n
    rw [ring_all]
    refine .cons ⟨?_, ?_, ?_, rfl, ?_, ?_⟩ .nil
    · show (1 / ElementaryCharge : ℝ) ≠ 0
      norm_num [ElementaryCharge]
    · show (1 / ElementaryCharge : ℝ) / (1 / ElementaryCharge) * InvRestMass = InvRestMass
      rw [div_self (by norm_num [ElementaryCharge]), one_mul]
    · show (1 / ElementaryCharge : ℝ) * ElementaryCharge = 1
      exact one_div_mul_cancel (by norm_num [ElementaryCharge])
    · show (⟨0, 0, 0⟩ : Vec) = ringCharge.x 0
      simp [ringCharge]
    · show (⟨0, 0, 1⟩ : Vec) * Real.sqrt 3 = ringCharge.p 0
      ext <;> simp [ringCharge]
  obtain ⟨C, h0, hh0, H⟩ := C121_observation edgeLattice edgeFaces edgeLattice_faces [ringCharge] 1e-11 hT (by simpa using ⟨edge_motion, hne⟩) ⟨1, 0, 0⟩ (by simpa using hobs)
    (fun F => F.E.x) component_Ex
  obtain ⟨_, ⟨S, hS⟩, _⟩ := C121_signal edgeLattice edgeFaces edgeLattice_faces ringCharge.qm 1 ringCharge.x ringCharge.p 0 1e-11 hT edge_motion ⟨1, 0, 0⟩ hobs
  refine ⟨C, h0, hh0, ?_⟩
  intro h n hh hle hn hnT rnd J nodes hN
  obtain ⟨fs, hfs⟩ := edgeDoc_runs h n hn hh hnT rnd J nodes hN
  obtain ⟨before, files, e1, e2, e3⟩ := H (edgeLib h n) rnd J nodes edgeDoc fs _ _ hN hfs (edgeDoc_parse h n hn (rnd 0)) (edgeDoc_master h n) rfl rfl (hst h n) h rfl hh
    hle n rfl hnT
  obtain ⟨d, hd, hb⟩ := e3 0 ⟨.point (PointObs.new ⟨1, 0, 0⟩ 0 1 3), .beam, "point.sdds"⟩ rfl
  have hfl : files = [⟨"point.sdds", d⟩] := by
    have : files.length = 1 := e2
    obtain ⟨x, rfl⟩ := List.length_eq_one_iff.mp this
    simpa using hd
  have hrow := fun (i : Nat) (hi : i < 3) => hb rfl ((0, 0), i) (by simpa [Observer.keys, PointObs.new, FieldTrace.new] using hi) _ _ _ rfl rfl one_pos (by show 2 ≤ 3; norm_num)
  obtain ⟨F0, hF0, _⟩ := hrow 0 (by norm_num)
  obtain ⟨f, rfl⟩ : ∃ f, d = .point f := by
    cases d with
    | point f => exact ⟨f, rfl⟩
    | _ => exact hF0.elim
  refine ⟨fs, before, f, hfs, by rw [e1, hfl], ?_⟩
  intro i hi
  obtain ⟨F, f1, f2⟩ := hrow i hi
  refine ⟨F, f1, S, hS, ?_⟩
  have := f2 (fun _ => S) (by intro c' hc'; rw [List.mem_singleton.mp hc']; exact hS)
  simpa [PointObs.new, FieldTrace.new, ringCharge] using this

end Lib
end Teufel
