import Verif.Lemmas.Radiate
import Verif.Lemmas.Beam
import Verif.Props.Convergence
import Verif.Props.Integrate

/-!
# C93: the recorded field converges to that of the exact motion

A particle is tracked with the time step `h` and its radiation is recorded at an observer.  Each sample is compared with the exact
field `S` of the exact motion (Spec/Radiation), averaged over the time `dt` of the sample.
-/

namespace Teufel
open Vec MeasureTheory

theorem Sent.mono {τ F : ℝ → ℝ} {t0 T δ K K' : ℝ} (S : Sent τ F t0 T δ K) (h : K ≤ K') : Sent τ F t0 T δ K' := by
  refine ⟨S.δ_pos, S.K_nonneg.trans h, S.T_nonneg, ?_, S.lower, ?_, ?_, ?_, ?_⟩
  · obtain ⟨τ', h'⟩ := S.slope
    exact ⟨τ', fun s hs => ⟨(h' s hs).1, fun t ht => ((h' s hs).2 t ht).trans (mul_le_mul_of_nonneg_right h (sq_nonneg _))⟩⟩
  · exact fun s hs t ht => (S.upper s hs t ht).trans (mul_le_mul_of_nonneg_right h (abs_nonneg _))
  · exact fun s hs => (S.bound s hs).trans h
  · exact fun s hs t ht => (S.lip s hs t ht).trans (mul_le_mul_of_nonneg_right h (abs_nonneg _))
  · obtain ⟨F', h'⟩ := S.rate
    exact ⟨F', fun s hs => ⟨(h' s hs).1.trans h, fun t ht => ((h' s hs).2 t ht).trans (mul_le_mul_of_nonneg_right h (sq_nonneg _))⟩⟩

theorem norm_sub_abs (a b c : Vec) : |Vec.norm (a - b) - Vec.norm (a - c)| ≤ Vec.norm (b - c) := by
  rw [abs_le]
  have h1 := Vec.norm_sub_le a b c
  have h2 := Vec.norm_sub_le a c b
  rw [Vec.norm_sub_comm c b] at h2
  constructor <;> linarith

theorem run_reachable {a a1 a2 : Particle} (ha : a.Reachable) {dt : ℝ} {f0 : FieldFn} {fs : List FieldFn} (h1 : a.InitVay dt f0 = .ok a1)
    (h2 : a1.steps fs = .ok a2) : a2.Reachable := by
  have hr1 : a1.Reachable := by
    have := ha.exec (.initVay dt f0)
    simpa only [POp.exec, POp.result, h1] using this
  clear h1 ha
  induction fs generalizing a1 with
  | nil => rw [Particle.steps_nil] at h2; injection h2 with h2; rw [← h2]; exact hr1
  | cons f fs ih =>
    obtain ⟨q, g1, g2⟩ := Particle.steps_cons_ok h2
    refine ih g2 ?_
    have := hr1.exec (.stepVay f)
    simpa only [POp.exec, POp.result, g1] using this

/-- A tracked trajectory the points of which have errors of the size `err h` gives samples with errors of that size, if `err h` suits the signal (`hsig`). -/
theorem recorded_of_points (qm q : ℝ) (field : FieldFn) (x p : ℝ → Vec) (t0 T : ℝ) (obs : Vec) (H : Way x p t0 T obs)
    (hrate : ∀ t, t0 ≤ t → t ≤ t0 + T → HasVelocity p (rateOf p t) t) (Mp Mv : ℝ)
    (hMp : ∀ t ∈ Set.Icc t0 (t0 + T), Vec.norm (p t) ≤ Mp) (hMv : ∀ t ∈ Set.Icc t0 (t0 + T), Vec.norm (rateOf p t) ≤ Mv)
    (err : ℝ → ℝ) (herr : ∀ h, 0 < h → h ≤ 1 → 0 ≤ err h ∧ err h ≤ h) (φ : EMField → ℝ) (hφ : Particle.IsComponent φ) (K1 : ℝ) (hK1 : 0 ≤ K1)
    (hsig : ∀ K, K1 ≤ K → ∃ C1, ∀ (h : ℝ) (n : ℕ) (R G : ℕ → ℝ), h ≤ 1 → Nodes (arrival x obs) (fun t => φ (Path.fieldAt q x p obs t)) t0 T K h (err h) n R G →
      ∀ σ : ℝ → ℝ, (∀ t ∈ Set.Icc t0 (t0 + T), σ (arrival x obs t) = φ (Path.fieldAt q x p obs t)) → ∀ A B,
        |((List.range n).map fun k => ∫ θ in Set.Icc (R k) (R (k + 1)) ∩ Set.Icc A B, lineAt (R k) (R (k + 1)) (G k) (G (k + 1)) θ).sum
          - ∫ θ in Set.Icc (arrival x obs t0) (arrival x obs (t0 + n * h)) ∩ Set.Icc A B, σ θ| ≤ C1 * err h)
    (hconv : ∃ C h0 : ℝ, 0 < h0 ∧ ∀ h : ℝ, 0 < h → h ≤ h0 → ∀ n : ℕ, n * h ≤ T →
      ∀ a : Particle, a.Reachable → a.Mass ≠ 0 → a.Charge / a.Mass * InvRestMass = qm →
        a.TrajTime (a.getNP - 1 : Nat) = .ok t0 → a.TrajPoint (a.getNP - 1 : Nat) = .ok (x t0) → a.TrajMomentum (a.getNP - 1 : Nat) = .ok (p t0) →
        ∃ a1 a2, a.InitVay h field = .ok a1 ∧ a1.steps (List.replicate n field) = .ok a2 ∧
          ∀ k : ℕ, k ≤ n → ∃ X P A,
            a2.TrajTime (a.getNP - 1 + k : Nat) = .ok (t0 + k * h) ∧ a2.TrajPoint (a.getNP - 1 + k : Nat) = .ok X ∧
            a2.TrajMomentum (a.getNP - 1 + k : Nat) = .ok P ∧ a2.TrajAccel (a.getNP - 1 + k : Nat) = .ok A ∧
            (X - x (t0 + k * h)).norm ≤ C * err h ∧ (P - p (t0 + k * h)).norm ≤ C * err h ∧
            ∀ v, HasVelocity p v (t0 + k * h) → (A - v).norm ≤ C * err h) :
    ∃ C h0 : ℝ, 0 < h0 ∧ ∀ h : ℝ, 0 < h → h ≤ h0 → ∀ n : ℕ, n * h ≤ T →
      ∀ a : Particle, a.Reachable → a.getNP = 1 → a.Mass ≠ 0 → a.Charge / a.Mass * InvRestMass = qm → a.Charge * ElementaryCharge = q →
        a.TrajTime 0 = .ok t0 → a.TrajPoint 0 = .ok (x t0) → a.TrajMomentum 0 = .ok (p t0) →
        ∃ a1 a2, a.InitVay h field = .ok a1 ∧ a1.steps (List.replicate n field) = .ok a2 ∧
          ∀ tr : FieldTrace, tr.WF → 0 < tr.dt → 2 ≤ tr.N → ∃ tr', a2.integrateFieldTrace obs tr = .ok tr' ∧
            ∀ S : ℝ → EMField, (∀ t, t0 ≤ t → t ≤ t0 + T → ∀ v, HasVelocity p v t →
              S (arrival x obs t) = LW q (x t) (betaOf (p t)) (v / Real.sqrt (1 + Vec.norm (p t) ^ 2)) obs) →
              ∀ (i : Nat) (f f' : EMField), tr.getField i = .ok f → tr'.getField i = .ok f' →
                |φ f' - φ f - (∫ θ in Set.Icc (arrival x obs t0) (arrival x obs (t0 + n * h)) ∩
                  Set.Icc (tr.t0 + ((i : ℝ) - 1 / 2) * tr.dt) (tr.t0 + ((i : ℝ) + 1 / 2) * tr.dt), φ (S θ)) / tr.dt| ≤ C / tr.dt * err h := by
  obtain ⟨C, h0, hh0, conv⟩ := hconv
  obtain ⟨K2, h1, hK2, hh1, hh11, hnear⟩ := H.field_near q hφ (C := |C|) (abs_nonneg C) hMp hMv
  have hc := SpeedOfLight_pos
  set K := K1 + K2 + |C| / SpeedOfLight with hK
  have hCc : 0 ≤ |C| / SpeedOfLight := by positivity
  obtain ⟨C1, hsum1⟩ := hsig K (by linarith)
  refine ⟨C1, min h0 h1, lt_min hh0 hh1, ?_⟩
  intro h hh hle n hn a ha hnp hmass hqm hq hat hax hap
  obtain ⟨a1, a2, e1, e2, pts⟩ := conv h hh (hle.trans (min_le_left _ _)) n hn a ha hmass hqm (by rw [hnp]; exact hat) (by rw [hnp]; exact hax) (by rw [hnp]; exact hap)
  refine ⟨a1, a2, e1, e2, ?_⟩
  have hh1' : h ≤ h1 := hle.trans (min_le_right _ _)
  obtain ⟨herr0, herr1⟩ := herr h hh (hh1'.trans hh11)
  simp only [hnp, Nat.sub_self, Nat.zero_add] at pts
  have hreach := run_reachable ha e1 e2
  obtain ⟨hsub, hinc⟩ := C13_tracked a a1 a2 ha hnp h hh field (List.replicate n field) e1 e2
  obtain ⟨hN2, -, -⟩ := C05_equidistant a a1 a2 ha h field (List.replicate n field) t0 (by rw [hnp]; exact hat) e1 e2
  rw [hnp, List.length_replicate] at hN2
  have hcharge : a2.Charge = a.Charge := by
    obtain ⟨-, -, t, y, pm, EB', -, -, -, -, -, e⟩ := Particle.InitVay_ok e1
    rw [(Particle.steps_facts e2).2.2.2.2.2.1, e]
  choose X P A pt using pts
  have mem : ∀ k ≤ n, t0 + (k : ℝ) * h ∈ Set.Icc t0 (t0 + T) := by
    intro k hk
    have : (k : ℝ) * h ≤ n * h := mul_le_mul_of_nonneg_right (by exact_mod_cast hk) hh.le
    have : 0 ≤ (k : ℝ) * h := by positivity
    exact ⟨by linarith, by linarith⟩
  have hCabs : C * err h ≤ |C| * err h := mul_le_mul_of_nonneg_right (le_abs_self C) herr0
  have near : ∀ k (hk : k ≤ n), obs ≠ X k hk ∧
      |φ (LW q (X k hk) (betaOf (P k hk)) (A k hk / Real.sqrt (1 + Vec.norm (P k hk) ^ 2)) obs) - φ (Path.fieldAt q x p obs (t0 + k * h))| ≤ K2 * err h := by
    intro k hk
    obtain ⟨-, -, -, -, bX, bP, bA⟩ := pt k hk
    exact hnear ⟨t0 + k * h, err h, X k hk, P k hk, A k hk, mem k hk, herr0, herr1.trans hh1', bX.trans hCabs, bP.trans hCabs,
      (bA _ (hrate _ (mem k hk).1 (mem k hk).2)).trans hCabs⟩
  have hoff : a2.OffTrajectory obs := by
    intro i y hy
    have hi : i < a2.NP := by
      have := (List.getElem?_eq_some_iff.mp (get_of_TrajPoint hy)).1
      rw [(cons_reachable hreach).2.1] at this
      exact this
    simp only [Particle.getNP] at hN2
    have hin : i ≤ n := by omega
    rw [(pt i hin).2.1] at hy
    injection hy with hy
    rw [← hy]
    exact (near i hin).1
  intro tr hw hdt hN
  obtain ⟨tr', hrec, -⟩ := C14_no_index_error a2 hreach hsub obs hoff tr hw hdt
  refine ⟨tr', hrec, ?_⟩
  intro S hS i f f' hf hf'
  -- the nodes
  let R : ℕ → ℝ := fun k => if hk : k ≤ n then t0 + k * h + Vec.norm (obs - X k hk) / SpeedOfLight else 0
  let F : ℕ → EMField := fun k => if hk : k ≤ n then LW q (X k hk) (betaOf (P k hk)) (A k hk / Real.sqrt (1 + Vec.norm (P k hk) ^ 2)) obs else 0
  have hR : ∀ k, k < a2.getNP → a2.RetardedTime k obs = .ok (R k) := by
    intro k hk
    have hkn : k ≤ n := by omega
    obtain ⟨p1, p2, -⟩ := pt k hkn
    simp only [Particle.RetardedTime, p1, p2, bind, Except.bind, pure, Except.pure, R, dif_pos hkn]
  have hF : ∀ k, k < a2.getNP → a2.RetardedFieldIdx k obs = .ok (F k) := by
    intro k hk
    have hkn : k ≤ n := by omega
    obtain ⟨-, p2, p3, p4, -⟩ := pt k hkn
    rw [(C12_lienard_wiechert a2 k _ _ _ p2 p3 p4 obs).1 (near k hkn).1, hcharge, hq]
    simp only [F, dif_pos hkn]
  have hsum := C15_sample_integral a2 hreach hsub obs hoff R F hR hF tr tr' hw hdt hN hrec φ hφ i f f' hf hf'
  rw [hN2, Nat.add_sub_cancel_left] at hsum
  have nodes : Nodes (arrival x obs) (fun t => φ (Path.fieldAt q x p obs t)) t0 T K h (err h) n R (fun k => φ (F k)) := by
    refine ⟨hh, hn, ?_, ?_, ?_⟩
    · intro k hk
      simp only [R, dif_pos hk, arrival]
      have e : t0 + (k : ℝ) * h + Vec.norm (obs - X k hk) / SpeedOfLight - (t0 + k * h + Vec.norm (obs - x (t0 + k * h)) / SpeedOfLight)
          = (Vec.norm (obs - X k hk) - Vec.norm (obs - x (t0 + k * h))) / SpeedOfLight := by ring
      rw [e, abs_div, abs_of_pos hc]
      have h3 := (norm_sub_abs obs (X k hk) (x (t0 + k * h))).trans ((pt k hk).2.2.2.2.1.trans hCabs)
      have h4 : |C| * err h / SpeedOfLight ≤ K * err h := by
        rw [mul_div_right_comm]
        exact mul_le_mul_of_nonneg_right (by linarith) herr0
      exact (div_le_div_of_nonneg_right h3 hc.le).trans h4
    · intro k hk
      simp only [F, dif_pos hk]
      exact (near k hk).2.trans (mul_le_mul_of_nonneg_right (by linarith) herr0)
    · intro k hk
      exact C13_arrival_order a2 hreach hsub obs k (k + 1) (by omega) (R k) (R (k + 1)) (hR k (by omega)) (hR (k + 1) (by omega))
  have main := hsum1 h n _ _ (hh1'.trans hh11) nodes (fun θ => φ (S θ)) (by
    intro t ht
    show φ (S (arrival x obs t)) = _
    rw [hS t ht.1 ht.2 _ (hrate t ht.1 ht.2)]
    rfl) (tr.t0 + ((i : ℝ) - 1 / 2) * tr.dt) (tr.t0 + ((i : ℝ) + 1 / 2) * tr.dt)
  have e : ((List.range n).map fun k => ∫ θ in Set.Icc (R k) (R (k + 1)) ∩ Set.Icc (tr.t0 + ((i : ℝ) - 1 / 2) * tr.dt) (tr.t0 + ((i : ℝ) + 1 / 2) * tr.dt),
      lineAt (R k) (R (k + 1)) (φ (F k)) (φ (F (k + 1))) θ).sum = (φ f' - φ f) * tr.dt := by
    rw [sub_mul (φ f'), hsum, add_sub_cancel_left]
    rfl
  rw [e] at main
  have e2 : ∀ y z : ℝ, y - z / tr.dt = (y * tr.dt - z) / tr.dt := fun y z => by field_simp
  rw [e2, abs_div, abs_of_pos hdt, div_mul_eq_mul_div]
  exact div_le_div_of_nonneg_right main hdt.le

/-- C93, in any fields: the recorded samples converge - with the second order of the time step - to the averages of the field formula in which the
rate of change of the momentum divided by γ stands for the acceleration. -/
theorem C93_limit (qm q : ℝ) (field : FieldFn) (x p : ℝ → Vec) (t0 T r L Bm : ℝ) (hm : Motion qm field x p t0 T) (hp : Smooth p)
    (ht : TameNear field x t0 T r L Bm) (hr : 0 < r) (hL : 0 ≤ L) (hT : 0 ≤ T) (obs : Vec) (hobs : ∀ t, t0 ≤ t → t ≤ t0 + T → obs ≠ x t)
    (φ : EMField → ℝ) (hφ : Particle.IsComponent φ) :
    ∃ C h0 : ℝ, 0 < h0 ∧ ∀ h : ℝ, 0 < h → h ≤ h0 → ∀ n : ℕ, n * h ≤ T →
      ∀ a : Particle, a.Reachable → a.getNP = 1 → a.Mass ≠ 0 → a.Charge / a.Mass * InvRestMass = qm → a.Charge * ElementaryCharge = q →
        a.TrajTime 0 = .ok t0 → a.TrajPoint 0 = .ok (x t0) → a.TrajMomentum 0 = .ok (p t0) →
        ∃ a1 a2, a.InitVay h field = .ok a1 ∧ a1.steps (List.replicate n field) = .ok a2 ∧
          ∀ tr : FieldTrace, tr.WF → 0 < tr.dt → 2 ≤ tr.N → ∃ tr', a2.integrateFieldTrace obs tr = .ok tr' ∧
            ∀ S : ℝ → EMField, (∀ t, t0 ≤ t → t ≤ t0 + T → ∀ v, HasVelocity p v t →
              S (arrival x obs t) = LW q (x t) (betaOf (p t)) (v / Real.sqrt (1 + Vec.norm (p t) ^ 2)) obs) →
              ∀ (i : Nat) (f f' : EMField), tr.getField i = .ok f → tr'.getField i = .ok f' →
                |φ f' - φ f - (∫ θ in Set.Icc (arrival x obs t0) (arrival x obs (t0 + n * h)) ∩
                  Set.Icc (tr.t0 + ((i : ℝ) - 1 / 2) * tr.dt) (tr.t0 + ((i : ℝ) + 1 / 2) * tr.dt), φ (S θ)) / tr.dt| ≤ C / tr.dt * h ^ 2 := by
  have H : Path x p t0 T obs := ⟨⟨fun t h => hm.position t h.1 h.2, fun t h => hobs t h.1 h.2, hT⟩, hp⟩
  obtain ⟨δ, K1, hsent⟩ := H.sent q hφ
  obtain ⟨Mp, Mv, hMp, hMv⟩ := H.bounds
  exact recorded_of_points qm q field x p t0 T obs H.toWay (fun t _ _ => rateOf_spec hp t) Mp Mv hMp hMv (fun h => h ^ 2) (fun h h1 h2 => ⟨sq_nonneg h, by nlinarith⟩) φ hφ K1 hsent.K_nonneg
    (fun K hK => ⟨signalC δ K T, fun h n R G h1 nodes σ hσ A B => signal_converges (hsent.mono hK) nodes h1 σ hσ A B⟩)
    (C92_second_order qm field x p t0 T r L Bm hm hp ht hr hL hT)

/-- in a magnetic field the momentum only turns, and its rate of change divided by γ is the acceleration -/
theorem magnetic_rate {qm : ℝ} {field : FieldFn} {x p : ℝ → Vec} {t0 T : ℝ} (hm : Motion qm field x p t0 T)
    (hmag : ∀ t, t0 ≤ t → t ≤ t0 + T → ∀ EB, field t (x t) = .ok EB → EB.E = 0) {t : ℝ} (h1 : t0 ≤ t) (h2 : t ≤ t0 + T) {v : Vec} (hv : HasVelocity p v t) :
    HasVelocity (fun s => betaOf (p s)) (v / Real.sqrt (1 + Vec.norm (p t) ^ 2)) t := by
  obtain ⟨EB, hE, hv'⟩ := hm.momentum t h1 h2
  rw [hmag t h1 h2 EB hE] at hv'
  have hperp : dot (p t) v = 0 := by
    rw [hv.unique hv']
    unfold velOf
    simp only [dot, cross, div_x, div_y, div_z, mul_x, mul_y, mul_z, add_x, add_y, add_z, zero_x, zero_y, zero_z]
    ring
  have hb : betaDotOf (p t) v = v / Real.sqrt (1 + Vec.norm (p t) ^ 2) := by
    simp only [betaDotOf]
    have : dot (betaOf (p t)) v = 0 := by simp only [betaOf]; rw [dot_div_left, hperp, zero_div]
    rw [this]; congr 1; ext <;> simp
  have := betaDotOf_is_derivative (fun s => (p s).x) (fun s => (p s).y) (fun s => (p s).z) v t hv.1 hv.2.1 hv.2.2
  rw [← hb]
  exact this

/-- C93: in magnetic fields the samples recorded from a tracked particle are the averages of the exact Liénard-Wiechert field of the exact
motion over the time of each sample, up to a constant times the square of the time step of the tracking.  Neither the tracking nor the
recording fails. The constant depends neither on the time step, the number of steps, nor on the sampling. -/
theorem C93_second_order (qm q : ℝ) (field : FieldFn) (x p : ℝ → Vec) (t0 T r L Bm : ℝ) (hm : Motion qm field x p t0 T) (hp : Smooth p)
    (ht : TameNear field x t0 T r L Bm) (hr : 0 < r) (hL : 0 ≤ L) (hT : 0 ≤ T)
    (hmag : ∀ t, t0 ≤ t → t ≤ t0 + T → ∀ EB, field t (x t) = .ok EB → EB.E = 0)
    (obs : Vec) (hobs : ∀ t, t0 ≤ t → t ≤ t0 + T → obs ≠ x t) (φ : EMField → ℝ) (hφ : Particle.IsComponent φ) :
    ∃ C h0 : ℝ, 0 < h0 ∧ ∀ h : ℝ, 0 < h → h ≤ h0 → ∀ n : ℕ, n * h ≤ T →
      ∀ a : Particle, a.Reachable → a.getNP = 1 → a.Mass ≠ 0 → a.Charge / a.Mass * InvRestMass = qm → a.Charge * ElementaryCharge = q →
        a.TrajTime 0 = .ok t0 → a.TrajPoint 0 = .ok (x t0) → a.TrajMomentum 0 = .ok (p t0) →
        ∃ a1 a2, a.InitVay h field = .ok a1 ∧ a1.steps (List.replicate n field) = .ok a2 ∧
          ∀ tr : FieldTrace, tr.WF → 0 < tr.dt → 2 ≤ tr.N → ∃ tr', a2.integrateFieldTrace obs tr = .ok tr' ∧
            ∀ S : ℝ → EMField, Seen q x p obs t0 T S →
              ∀ (i : Nat) (f f' : EMField), tr.getField i = .ok f → tr'.getField i = .ok f' →
                |φ f' - φ f - (∫ θ in Set.Icc (arrival x obs t0) (arrival x obs (t0 + n * h)) ∩
                  Set.Icc (tr.t0 + ((i : ℝ) - 1 / 2) * tr.dt) (tr.t0 + ((i : ℝ) + 1 / 2) * tr.dt), φ (S θ)) / tr.dt| ≤ C / tr.dt * h ^ 2 := by
  obtain ⟨C, h0, hh0, H⟩ := C93_limit qm q field x p t0 T r L Bm hm hp ht hr hL hT obs hobs φ hφ
  refine ⟨C, h0, hh0, ?_⟩
  intro h hh hle n hn a ha hnp hmass hqm hq hat hax hap
  obtain ⟨a1, a2, e1, e2, rec⟩ := H h hh hle n hn a ha hnp hmass hqm hq hat hax hap
  refine ⟨a1, a2, e1, e2, ?_⟩
  intro tr hw hdt hN
  obtain ⟨tr', hrec, hs⟩ := rec tr hw hdt hN
  refine ⟨tr', hrec, ?_⟩
  intro S hS
  exact hs S (fun t h1 h2 v hv => hS t h1 h2 _ (magnetic_rate hm hmag h1 h2 hv))

/-- C93: for given sampling any accuracy is reached by making the time step of the tracking small enough. -/
theorem C93_converges (qm q : ℝ) (field : FieldFn) (x p : ℝ → Vec) (t0 T r L Bm : ℝ) (hm : Motion qm field x p t0 T) (hp : Smooth p)
    (ht : TameNear field x t0 T r L Bm) (hr : 0 < r) (hL : 0 ≤ L) (hT : 0 ≤ T)
    (hmag : ∀ t, t0 ≤ t → t ≤ t0 + T → ∀ EB, field t (x t) = .ok EB → EB.E = 0)
    (obs : Vec) (hobs : ∀ t, t0 ≤ t → t ≤ t0 + T → obs ≠ x t) (φ : EMField → ℝ) (hφ : Particle.IsComponent φ) (dt ε : ℝ) (hdt : 0 < dt) (hε : 0 < ε) :
    ∃ h0 : ℝ, 0 < h0 ∧ ∀ h : ℝ, 0 < h → h ≤ h0 → ∀ n : ℕ, n * h ≤ T →
      ∀ a : Particle, a.Reachable → a.getNP = 1 → a.Mass ≠ 0 → a.Charge / a.Mass * InvRestMass = qm → a.Charge * ElementaryCharge = q →
        a.TrajTime 0 = .ok t0 → a.TrajPoint 0 = .ok (x t0) → a.TrajMomentum 0 = .ok (p t0) →
        ∃ a1 a2, a.InitVay h field = .ok a1 ∧ a1.steps (List.replicate n field) = .ok a2 ∧
          ∀ tr : FieldTrace, tr.WF → tr.dt = dt → 2 ≤ tr.N → ∃ tr', a2.integrateFieldTrace obs tr = .ok tr' ∧
            ∀ S : ℝ → EMField, Seen q x p obs t0 T S →
              ∀ (i : Nat) (f f' : EMField), tr.getField i = .ok f → tr'.getField i = .ok f' →
                |φ f' - φ f - (∫ θ in Set.Icc (arrival x obs t0) (arrival x obs (t0 + n * h)) ∩
                  Set.Icc (tr.t0 + ((i : ℝ) - 1 / 2) * dt) (tr.t0 + ((i : ℝ) + 1 / 2) * dt), φ (S θ)) / dt| ≤ ε := by
  obtain ⟨C, h0, hh0, H⟩ := C93_second_order qm q field x p t0 T r L Bm hm hp ht hr hL hT hmag obs hobs φ hφ
  refine ⟨min h0 (min 1 (ε * dt / (|C| + 1))), lt_min hh0 (lt_min one_pos (by positivity)), ?_⟩
  intro h hh hle n hn a ha hnp hmass hqm hq hat hax hap
  obtain ⟨a1, a2, e1, e2, rec⟩ := H h hh (hle.trans (min_le_left _ _)) n hn a ha hnp hmass hqm hq hat hax hap
  refine ⟨a1, a2, e1, e2, ?_⟩
  intro tr hw hdt' hN
  obtain ⟨tr', hrec, hs⟩ := rec tr hw (by rw [hdt']; exact hdt) hN
  refine ⟨tr', hrec, ?_⟩
  intro S hS i f f' hf hf'
  have := hs S hS i f f' hf hf'
  rw [hdt'] at this
  refine this.trans ?_
  have l1 : h ≤ 1 := hle.trans ((min_le_right _ _).trans (min_le_left _ _))
  have l2 : h ≤ ε * dt / (|C| + 1) := hle.trans ((min_le_right _ _).trans (min_le_right _ _))
  rw [le_div_iff₀ (by positivity)] at l2
  rw [div_mul_eq_mul_div, div_le_iff₀ hdt]
  have hC := abs_nonneg C
  have c1 : C * h ^ 2 ≤ |C| * h ^ 2 := mul_le_mul_of_nonneg_right (le_abs_self C) (sq_nonneg h)
  have c2 : |C| * h ^ 2 ≤ |C| * h := mul_le_mul_of_nonneg_left (by nlinarith) hC
  nlinarith

/-- C93: the exact field at the observer exists: signals sent at different times arrive at different times. -/
theorem C93_signal (q : ℝ) (x p : ℝ → Vec) (t0 T : ℝ) (hv : ∀ t, t0 ≤ t → t ≤ t0 + T → HasVelocity x (velOf (p t) * SpeedOfLight) t) (hp : Smooth p)
    (hT : 0 ≤ T) (obs : Vec) (hobs : ∀ t, t0 ≤ t → t ≤ t0 + T → obs ≠ x t) :
    StrictMonoOn (arrival x obs) (Set.Icc t0 (t0 + T)) ∧ ∃ S, Seen q x p obs t0 T S := by
  have H : Path x p t0 T obs := ⟨⟨fun t h => hv t h.1 h.2, fun t h => hobs t h.1 h.2, hT⟩, hp⟩
  obtain ⟨δ, K, hs⟩ := H.sent q component_Ex
  have hmono : StrictMonoOn (arrival x obs) (Set.Icc t0 (t0 + T)) := by
    intro s hs' t ht' hst
    have := hs.lower s hs' t ht' hst.le
    have := mul_pos hs.δ_pos (sub_pos.mpr hst)
    linarith
  refine ⟨hmono, ?_⟩
  classical
  have hβ : Smooth (fun s => betaOf (p s)) := by
    have := hp.velOf
    simpa only [← betaOf_eq_velOf] using this
  refine ⟨fun θ => if h : ∃ t ∈ Set.Icc t0 (t0 + T), arrival x obs t = θ then
    LW q (x h.choose) (betaOf (p h.choose)) (rateOf (fun s => betaOf (p s)) h.choose) obs else 0, ?_⟩
  intro t h1 h2 w hw
  have hex : ∃ t' ∈ Set.Icc t0 (t0 + T), arrival x obs t' = arrival x obs t := ⟨t, ⟨h1, h2⟩, rfl⟩
  have e : hex.choose = t := hmono.injOn hex.choose_spec.1 ⟨h1, h2⟩ hex.choose_spec.2
  simp only [dif_pos hex, e]
  rw [hw.unique (rateOf_spec hβ t)]

/-- non-vacuity: the electron circulating in a uniform magnetic field (see C92), seen from a point above the plane of its circle; the field it radiates exists -/
example : (∀ t, 0 ≤ t → t ≤ 0 + 1 → ∀ EB, circleField t (circleX t) = .ok EB → EB.E = 0) ∧ (∀ t, 0 ≤ t → t ≤ 0 + 1 → (⟨0, 1, 0⟩ : Vec) ≠ circleX t) ∧
    (∃ a : Particle, a.Reachable ∧ a.getNP = 1 ∧ a.Mass ≠ 0 ∧ a.Charge / a.Mass * InvRestMass = -1 / 1 * InvRestMass ∧ a.Charge * ElementaryCharge = -1 * ElementaryCharge ∧
      a.TrajTime 0 = .ok 0 ∧ a.TrajPoint 0 = .ok (circleX 0) ∧ a.TrajMomentum 0 = .ok (circleP 0)) ∧
    (∃ tr : FieldTrace, tr.WF ∧ 0 < tr.dt ∧ 2 ≤ tr.N) := by
  refine ⟨?_, ?_, ⟨POp.exec Particle.default (.init 0 (circleX 0) (circleP 0) 0), ⟨_, [.init 0 (circleX 0) (circleP 0) 0], Or.inr (Or.inr (Or.inl rfl)), rfl⟩, ?_, ?_, ?_, ?_, rfl, rfl, rfl⟩,
    ⟨⟨0, 1, 3, [0, 0, 0]⟩, rfl, by norm_num, by norm_num⟩⟩
  · intro t _ _ EB h
    cases h
    rfl
  · intro t _ _ h
    have := congrArg Vec.y h
    simp [circleX] at this
  all_goals simp [POp.exec, POp.result, Particle.initTrajectory, Particle.default, Particle.new, Particle.getNP]

end Teufel
