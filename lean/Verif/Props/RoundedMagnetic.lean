import Verif.Props.RoundedRegular
import Verif.Props.RoundedDipole
import Verif.Props.Vay

/-!
# Energy in magnetic fields with rounded numbers
-/

namespace Teufel
open Vec

namespace Rounded

theorem _root_.Teufel.gamma_of_norm (a b : Vec) : |gammaOf a - gammaOf b| ≤ |a.norm - b.norm| := by
  have ha := gammaOf_sq a
  have hb := gammaOf_sq b
  have ga := gammaOf_pos a
  have gb := gammaOf_pos b
  have na := norm_le_gammaOf a
  have nb := norm_le_gammaOf b
  have pa := Vec.norm_nonneg a
  have pb := Vec.norm_nonneg b
  have sa := Vec.norm_sq a
  have sb := Vec.norm_sq b
  have key : (gammaOf a - gammaOf b) * (gammaOf a + gammaOf b) = (a.norm - b.norm) * (a.norm + b.norm) := by linarith
  have h1 : |gammaOf a - gammaOf b| * (gammaOf a + gammaOf b) = |a.norm - b.norm| * (a.norm + b.norm) := by
    rw [← abs_of_pos (add_pos ga gb), ← abs_mul, key, abs_mul, abs_of_nonneg (add_nonneg pa pb)]
  refine le_of_mul_le_mul_right ?_ (add_pos ga gb)
  rw [h1]
  exact mul_le_mul_of_nonneg_left (add_le_add na nb) (abs_nonneg _)

theorem _root_.Teufel.velOf_of_norm (a b : Vec) : |(velOf a).norm - (velOf b).norm| ≤ 2 * |a.norm - b.norm| := by
  have hg := gamma_of_norm b a
  have ga := gammaOf_pos a
  have gb := gammaOf_pos b
  have na := norm_le_gammaOf a
  have pa := Vec.norm_nonneg a
  have gb1 := gammaOf_ge b
  rw [abs_sub_comm b.norm] at hg
  rw [velOf_eq, velOf_eq, Vec.norm_div, Vec.norm_div, abs_of_pos ga, abs_of_pos gb]
  have e : a.norm / gammaOf a - b.norm / gammaOf b = (a.norm / gammaOf a * (gammaOf b - gammaOf a) + (a.norm - b.norm)) / gammaOf b := by
    field_simp
    ring
  rw [e, abs_div, abs_of_pos gb, div_le_iff₀ gb]
  have h1 := abs_add_le (a.norm / gammaOf a * (gammaOf b - gammaOf a)) (a.norm - b.norm)
  rw [abs_mul, abs_of_nonneg (div_nonneg pa ga.le)] at h1
  have h2 : a.norm / gammaOf a * |gammaOf b - gammaOf a| ≤ |gammaOf b - gammaOf a| := mul_le_of_le_one_left (abs_nonneg _) ((div_le_one ga).mpr na)
  have h3 := le_mul_of_one_le_right (abs_nonneg (a.norm - b.norm)) gb1
  linarith

/-- the exact step keeps the magnitude of the momentum -/
theorem exact_step_norm (q : ℝ) (V B : Vec) :
    (Particle.vayMomentum q (V + ((0 : Vec) / SpeedOfLight + cross (velOf V) B) * q) 0 B).norm = V.norm := by
  have h1 := Particle.magnetic_gamma q B (gammaOf_pos V) (gammaOf_sq V)
  have h2 := Setting.gamma_eq q (V + ((0 : Vec) / SpeedOfLight + cross (velOf V) B) * q) 0 B
  rw [show cross (V / gammaOf V) B = cross (velOf V) B from rfl, h2] at h1
  have h3 := gammaOf_sq V
  rw [← h1, gammaOf_sq] at h3
  rw [Vec.norm_def, Vec.norm_def]
  congr 1
  linarith

/-- a field without electric part and with a bounded magnetic part within the distance `Xm` from the origin -/
def MagneticIn (Xm Bm : ℝ) (f : FieldFn) : Prop := ∀ t X, X.norm ≤ Xm → ∃ B : Vec, f t X = .ok ⟨0, B⟩ ∧ B.norm ≤ Bm

/-- the state of the tracker between two steps -/
structure State (h qmR qR D u : ℝ) (q : Particle) : Prop where
  dt : q.dt = h
  ratio : q.qm = qmR
  qmt2 : q.qmt2 = qR
  gamma : |q.VYgamma - gammaOf q.VYp| ≤ D * u

set_option maxHeartbeats 1000000 in
theorem push {qm Xm Vm Bm Pm F1 D K u1 u2 h u qmR qR : ℝ} {rnd : ℝ → ℝ} (hPm : Vm + (0 / SpeedOfLight + Bm) * |qm| + 1 ≤ Pm)
    (half : ∀ i : HalfData Pm 0 Bm |qm| F1, i.u ≤ u1 →
      VayDefined i.rnd i.q' i.P i.E' i.B' ∧
      |vayGamma i.rnd i.q' i.P i.E' i.B' - gammaOf (vayMomentum i.rnd i.q' i.P i.E' i.B')| ≤ D * i.u ∧
      (vayMomentum i.rnd i.q' i.P i.E' i.B' - Particle.vayMomentum i.q i.P i.E i.B).norm ≤ D * i.u ∧
      (vayAccel i.rnd i.k' i.P i.E' i.B' - Particle.vayAccel i.k i.P i.E i.B).norm ≤ D * i.u)
    (step : ∀ i : StepData Xm Vm 0 Bm |qm| 2 F1 D, i.u ≤ u2 →
      i.g ≠ 0 ∧ VayDefined i.rnd i.q' i.mom i.E i.B ∧
      (i.pos - (i.X + velOf i.V * SpeedOfLight * i.h)).norm ≤ K * i.u ∧
      (i.mom - i.mom0).norm ≤ K * i.u ∧
      (vayMomentum i.rnd i.q' i.mom i.E i.B - Particle.vayMomentum i.q i.mom0 i.E i.B).norm ≤ K * i.u ∧
      (vayAccel i.rnd i.k' i.mom i.E i.B - Particle.vayAccel i.k i.mom0 i.E i.B).norm ≤ K * i.u)
    (hr : ∀ y, |rnd y - y| ≤ u * |y|) (hu : 0 ≤ u) (hu1 : u ≤ u1) (hu2 : u ≤ u2) (hKu : K * u ≤ 1) (hB : 0 ≤ Bm) (hh : 0 < h) (hh1 : h ≤ 1)
    (hqm : |qmR - qm| ≤ F1 * u) (hq : |qR - qm * (h / 2)| ≤ F1 * u) {f : FieldFn} (hf : MagneticIn Xm Bm f)
    {q : Particle} (S : State h qmR qR D u q) (hV : q.VYp.norm ≤ Vm) (hX : q.XCur.norm + SpeedOfLight * h + 1 ≤ Xm) :
    ∃ q', StepVay rnd q f = .ok q' ∧ State h qmR qR D u q' ∧ |q'.VYp.norm - q.VYp.norm| ≤ K * u ∧ q'.XCur.norm ≤ q.XCur.norm + SpeedOfLight * h + K * u ∧
      q'.NP = q.NP + 1 ∧ q'.X = q.X ++ [q'.XCur] ∧ (q.Cons → q'.Cons) ∧ |(q'.XCur - q.XCur).norm - (velOf q.VYp).norm * (SpeedOfLight * h)| ≤ K * u := by
  have hc := SpeedOfLight_pos
  have hch : 0 ≤ SpeedOfLight * h := by positivity
  have hXn : q.XCur.norm ≤ Xm := by linarith
  have hs2 : |h| ≤ 2 := by rw [abs_of_pos hh]; linarith
  have hqs : |qm * (h / 2)| ≤ |qm| := by
    rw [abs_mul, abs_of_pos (by positivity : 0 < h / 2)]
    exact mul_le_of_le_one_right (abs_nonneg _) (by linarith)
  have hF1u : 0 ≤ F1 * u := (abs_nonneg _).trans hqm
  let i0 : StepData Xm Vm 0 Bm |qm| 2 F1 D := {
    rnd := rnd, u := u, X := q.XCur, V := q.VYp, g := q.VYgamma, E := 0, B := 0, q' := qR, q := qm * (h / 2), k' := qmR, k := qm, h := h
    hu := hu, hr := hr, hX := hXn, hV := hV, hg := S.gamma, hE := by rw [Vec.norm_zero], hB := by rw [Vec.norm_zero]; exact hB
    hq := hqs, hq' := hq, hk := le_rfl, hk' := hqm, hh := hs2 }
  obtain ⟨g0, -, dpos, -⟩ := step i0 hu2
  set X' : Vec := vadd rnd q.XCur (vmul rnd (vmul rnd (vdiv rnd q.VYp q.VYgamma) SpeedOfLight) h) with hX'
  have dpos' : (X' - (q.XCur + velOf q.VYp * SpeedOfLight * h)).norm ≤ K * u := dpos
  clear dpos
  have hXb : X'.norm ≤ q.XCur.norm + SpeedOfLight * h + K * u := by
    have a1 := Vec.norm_add_le (X' - (q.XCur + velOf q.VYp * SpeedOfLight * h)) (q.XCur + velOf q.VYp * SpeedOfLight * h)
    rw [show X' - (q.XCur + velOf q.VYp * SpeedOfLight * h) + (q.XCur + velOf q.VYp * SpeedOfLight * h) = X' by ext <;> simp] at a1
    have a2 := Vec.norm_add_le q.XCur (velOf q.VYp * SpeedOfLight * h)
    have a3 : (velOf q.VYp * SpeedOfLight * h).norm ≤ SpeedOfLight * h := by
      rw [Vec.norm_mul, abs_of_pos hh]
      exact mul_le_mul_of_nonneg_right (Exist.speed q.VYp) hh.le
    linarith
  obtain ⟨B, f1, f2⟩ := hf (rnd (q.tCur + h)) X' (by linarith)
  let i : StepData Xm Vm 0 Bm |qm| 2 F1 D := {
    rnd := rnd, u := u, X := q.XCur, V := q.VYp, g := q.VYgamma, E := 0, B := B, q' := qR, q := qm * (h / 2), k' := qmR, k := qm, h := h
    hu := hu, hr := hr, hX := hXn, hV := hV, hg := S.gamma, hE := by rw [Vec.norm_zero], hB := f2
    hq := hqs, hq' := hq, hk := le_rfl, hk' := hqm, hh := hs2 }
  obtain ⟨-, vd, -, dP, dV, -⟩ := step i hu2
  have hP0 := i.mom0_le
  set P := i.mom with hPdef
  have hPn : P.norm ≤ Pm := by
    have := Vec.norm_add_le (P - i.mom0) i.mom0
    rw [show P - i.mom0 + i.mom0 = P by ext <;> simp] at this
    have : (P - i.mom0).norm ≤ K * u := dP
    linarith
  let j : HalfData Pm 0 Bm |qm| F1 := {
    rnd := rnd, u := u, P := P, E' := 0, E := 0, B' := B, B := B, q' := qR, q := qm * (h / 2), k' := qmR, k := qm
    hu := hu, hr := hr, hP := hPn, hE := by rw [Vec.norm_zero], hE' := by rw [sub_self, Vec.norm_zero]; exact hF1u, hB := f2
    hB' := by rw [sub_self, Vec.norm_zero]; exact hF1u, hq := hqs, hq' := hq, hk := le_rfl, hk' := hqm }
  obtain ⟨-, jg, -, -⟩ := half j hu1
  have dV' : (vayMomentum rnd qR P 0 B - Particle.vayMomentum (qm * (h / 2)) i.mom0 0 B).norm ≤ K * u := dV
  have hn : (Particle.vayMomentum (qm * (h / 2)) i.mom0 0 B).norm = q.VYp.norm := exact_step_norm (qm * (h / 2)) q.VYp B
  have hstep : StepVay rnd q f = .ok (({ q with tCur := rnd (q.tCur + h), XCur := X', ECur := 0, BCur := B, PCur := P
                                                ACur := vayAccel rnd qmR P 0 B
                                                VYgamma := vayGamma rnd qR P 0 B
                                                VYp := vayMomentum rnd qR P 0 B } : Particle).storeTrajectoryPoint (rnd (q.tCur + h)) X' P (vayAccel rnd qmR P 0 B)) := by
    unfold StepVay
    rw [if_neg g0]
    simp only [S.dt, S.ratio, S.qmt2]
    rw [← hX', f1]
    simp only [S.dt, S.ratio, S.qmt2]
    rw [if_neg]
    · rfl
    · rw [S.qmt2]
      exact not_not.mpr vd
  refine ⟨_, hstep, ⟨S.dt, S.ratio, S.qmt2, jg⟩, ?_, hXb, rfl, rfl, ?_, ?_⟩
  rotate_left
  · rintro ⟨l1, l2, l3, l4⟩
    simp [Particle.Cons, Particle.storeTrajectoryPoint, l1, l2, l3, l4]
  · show |(X' - q.XCur).norm - (velOf q.VYp).norm * (SpeedOfLight * h)| ≤ K * u
    have e : (velOf q.VYp).norm * (SpeedOfLight * h) = (velOf q.VYp * SpeedOfLight * h).norm := by
      rw [Vec.norm_mul, Vec.norm_mul, abs_of_pos hh, abs_of_pos hc]
      ring
    set w := velOf q.VYp * SpeedOfLight * h
    rw [e, abs_le]
    have a1 := Vec.norm_add_le (X' - (q.XCur + w)) w
    have a2 := Vec.norm_add_le (q.XCur + w - X') (X' - q.XCur)
    rw [show X' - (q.XCur + w) + w = X' - q.XCur by abel] at a1
    rw [show q.XCur + w - X' + (X' - q.XCur) = w by abel, Vec.norm_sub_comm] at a2
    constructor <;> linarith
  show |(vayMomentum rnd qR P 0 B).norm - q.VYp.norm| ≤ K * u
  rw [← hn, abs_le]
  have a1 := Vec.norm_add_le (vayMomentum rnd qR P 0 B - Particle.vayMomentum (qm * (h / 2)) i.mom0 0 B) (Particle.vayMomentum (qm * (h / 2)) i.mom0 0 B)
  have a2 := Vec.norm_add_le (Particle.vayMomentum (qm * (h / 2)) i.mom0 0 B - vayMomentum rnd qR P 0 B) (vayMomentum rnd qR P 0 B)
  rw [sub_add_cancel] at a1 a2
  rw [Vec.norm_sub_comm] at a2
  constructor <;> linarith

/-- the run from the state after the first half step -/
theorem pushes {Xm Vm Bm D K h u qmR qR : ℝ} {rnd : ℝ → ℝ}
    (one : ∀ (f : FieldFn), MagneticIn Xm Bm f → ∀ q : Particle, State h qmR qR D u q → q.VYp.norm ≤ Vm → q.XCur.norm + SpeedOfLight * h + 1 ≤ Xm →
      ∃ q', StepVay rnd q f = .ok q' ∧ State h qmR qR D u q' ∧ |q'.VYp.norm - q.VYp.norm| ≤ K * u ∧ q'.XCur.norm ≤ q.XCur.norm + SpeedOfLight * h + K * u ∧
      q'.NP = q.NP + 1 ∧ q'.X = q.X ++ [q'.XCur] ∧ (q.Cons → q'.Cons) ∧ |(q'.XCur - q.XCur).norm - (velOf q.VYp).norm * (SpeedOfLight * h)| ≤ K * u)
    (hK : 0 ≤ K * u) (hh : 0 < h) (N : Nat) (b : Vec) :
    ∀ (fs : List FieldFn), (∀ f ∈ fs, MagneticIn Xm Bm f) → ∀ (q : Particle) (m : Nat), State h qmR qR D u q → q.VYp.norm + fs.length * (K * u) ≤ Vm →
      q.XCur.norm + fs.length * (SpeedOfLight * h + K * u) + 1 ≤ Xm → q.Cons → q.NP = N + 1 + m → q.X[N + m]? = some q.XCur → |q.VYp.norm - b.norm| ≤ m * (K * u) →
      (∀ k, k < m → ∃ x y, q.X[N + k]? = some x ∧ q.X[N + k + 1]? = some y ∧
        |(y - x).norm - (velOf b).norm * (SpeedOfLight * h)| ≤ K * u + 2 * (k * (K * u)) * (SpeedOfLight * h)) →
      ∃ q', steps rnd q fs = .ok q' ∧ State h qmR qR D u q' ∧ q'.Cons ∧ |q'.VYp.norm - b.norm| ≤ (m + fs.length : Nat) * (K * u) ∧
        ∀ k, k < m + fs.length → ∃ x y, q'.X[N + k]? = some x ∧ q'.X[N + k + 1]? = some y ∧
          |(y - x).norm - (velOf b).norm * (SpeedOfLight * h)| ≤ K * u + 2 * (k * (K * u)) * (SpeedOfLight * h)
  | [], _, q, m, S, _, _, hc, _, _, hb, hk => ⟨q, rfl, S, hc, hb, hk⟩
  | f :: fs, hf, q, m, S, hV, hX, hc, hN, hl, hb, hk => by
    have hch : 0 < SpeedOfLight * h := mul_pos SpeedOfLight_pos hh
    rw [List.length_cons, Nat.cast_succ] at hV hX
    have n0 : 0 ≤ (fs.length : ℝ) * (K * u) := by positivity
    have n1 : 0 ≤ (fs.length : ℝ) * (SpeedOfLight * h + K * u) := by positivity
    obtain ⟨q1, e1, S1, d1, x1, N1, X1, c1, l1⟩ := one f (hf f List.mem_cons_self) q S (by linarith) (by linarith)
    have d1' := abs_le.mp d1
    have hlen : q.X.length = N + m + 1 := by rw [hc.2.1, hN]; omega
    have hlast : q1.X[N + m + 1]? = some q1.XCur := by
      rw [X1, List.getElem?_append_right (by omega), hlen]
      simp
    have hold : ∀ i, i ≤ N + m → q1.X[i]? = q.X[i]? := by
      intro i hi
      rw [X1, List.getElem?_append_left (by omega)]
    obtain ⟨q2, e2, S2, c2, d2, k2⟩ := pushes one hK hh N b fs (fun g hg => hf g (List.mem_cons_of_mem _ hg)) q1 (m + 1) S1 (by linarith) (by linarith) (c1 hc)
      (by omega) hlast
      (by
        rw [Nat.cast_succ]
        have := abs_sub_le q1.VYp.norm q.VYp.norm b.norm
        linarith)
      (by
        intro k hkm
        rcases Nat.lt_succ_iff_lt_or_eq.mp hkm with hlt | rfl
        · obtain ⟨x, y, g1, g2, g3⟩ := hk k hlt
          exact ⟨x, y, by rw [hold _ (by omega)]; exact g1, by rw [hold _ (by omega)]; exact g2, g3⟩
        · refine ⟨q.XCur, q1.XCur, by rw [hold _ le_rfl]; exact hl, hlast, ?_⟩
          have v1 := velOf_of_norm q.VYp b
          have v2 : |(velOf q.VYp).norm * (SpeedOfLight * h) - (velOf b).norm * (SpeedOfLight * h)| ≤ 2 * (k * (K * u)) * (SpeedOfLight * h) := by
            rw [← sub_mul, abs_mul, abs_of_pos hch]
            exact mul_le_mul_of_nonneg_right (v1.trans (by linarith)) hch.le
          have := abs_sub_le (q1.XCur - q.XCur).norm ((velOf q.VYp).norm * (SpeedOfLight * h)) ((velOf b).norm * (SpeedOfLight * h))
          linarith)
    rw [show m + 1 + fs.length = m + (f :: fs).length by rw [List.length_cons]; omega] at d2 k2
    refine ⟨q2, ?_, S2, c2, d2, k2⟩
    unfold steps at e2 ⊢
    rw [List.foldlM_cons, e1]
    exact e2

end Rounded

/-- C132: in magnetic fields the magnitude of the momentum which the tracker carries from step to step changes by rounding errors only: by at most a constant
times the number of steps times the unit roundoff.  The fields may be different at every step and need not be continuous, and the time step may be as large as
one wants (up to one second): there is no error from the time step.  In the stored trajectory, all steps have the same length up to such errors.  The constants
depend only on the bounds. -/
theorem C132_no_work (qm V Bm Xm : ℝ) :
    ∃ C κ : ℝ, 0 ≤ C ∧ 0 < κ ∧ ∀ rnd u, IsRounding rnd u → ∀ h : ℝ, 0 < h → h ≤ 1 → ∀ (f0 : FieldFn) (fs : List FieldFn), (fs.length + 1) * u ≤ κ →
      (∀ f ∈ f0 :: fs, ∀ t X, X.norm ≤ Xm → ∃ B : Vec, f t X = .ok ⟨0, B⟩ ∧ B.norm ≤ Bm) →
      ∀ a : Particle, a.Reachable → a.Mass ≠ 0 → a.Charge / a.Mass * InvRestMass = qm → ∀ t0 x0 p0,
        a.TrajTime (a.getNP - 1 : Nat) = .ok t0 → a.TrajPoint (a.getNP - 1 : Nat) = .ok x0 → a.TrajMomentum (a.getNP - 1 : Nat) = .ok p0 →
        p0.norm ≤ V → x0.norm + fs.length * (SpeedOfLight * h) + 2 ≤ Xm →
        ∃ a1 a2, Rounded.InitVay rnd a h f0 = .ok a1 ∧ Rounded.steps rnd a1 fs = .ok a2 ∧
          |a2.VYp.norm - a1.VYp.norm| ≤ C * (fs.length * u) ∧
          |a2.VYgamma - √(1 + a1.VYp.abs2nd)| ≤ C * ((fs.length + 1) * u) ∧
          ∃ d : ℝ, ∀ k : ℕ, k < fs.length → ∃ x y : Vec, a2.TrajPoint (a.getNP - 1 + k : Nat) = .ok x ∧ a2.TrajPoint (a.getNP - 1 + k + 1 : Nat) = .ok y ∧
            |(y - x).norm - d| ≤ C * ((fs.length + 1) * u) := by
  set Vm := V + |Bm| * |qm| + 2 with hVm
  set Pm := Vm + (0 / SpeedOfLight + |Bm|) * |qm| + 1 with hPm
  obtain ⟨D, u1, hD, hu1, dHalf⟩ := Rounded.half_defect Pm 0 |Bm| |qm| (8 * |qm|)
  obtain ⟨K, u2, hK, hu2, dStep⟩ := Rounded.step_defect Xm Vm 0 |Bm| |qm| 2 (8 * |qm|) D
  have hB0 := abs_nonneg Bm
  have hc := SpeedOfLight_pos
  have hq0 := abs_nonneg qm
  refine ⟨K + D + 2 * K * SpeedOfLight, min (min u1 u2) (min 1 (min (1 / (K + 1)) (1 / (D + 1)))), by positivity, by positivity, ?_⟩
  intro rnd u hr h hh hh1 f0 fs hκ hf a ha hmass hqm t0 x0 p0 hat hax hap hpV hxX
  have hu : 0 ≤ u := hr.u_nonneg
  have hround := hr.err
  set n : ℝ := (fs.length : ℝ) with hn
  have hn0 : 0 ≤ n := Nat.cast_nonneg _
  have hnu : 0 ≤ n * u := mul_nonneg hn0 hu
  have huκ : u ≤ min (min u1 u2) (min 1 (min (1 / (K + 1)) (1 / (D + 1)))) := by linarith
  have k1 : u ≤ u1 := huκ.trans ((min_le_left _ _).trans (min_le_left _ _))
  have k2 : u ≤ u2 := huκ.trans ((min_le_left _ _).trans (min_le_right _ _))
  have k3 : u ≤ 1 := huκ.trans ((min_le_right _ _).trans (min_le_left _ _))
  have k4 : (n + 1) * u ≤ 1 / (K + 1) := hκ.trans ((min_le_right _ _).trans ((min_le_right _ _).trans (min_le_left _ _)))
  have k5 : u ≤ 1 / (D + 1) := huκ.trans ((min_le_right _ _).trans ((min_le_right _ _).trans (min_le_right _ _)))
  rw [le_div_iff₀ (by positivity)] at k4 k5
  have hKu0 : 0 ≤ K * u := mul_nonneg hK hu
  have hnK0 : 0 ≤ n * (K * u) := mul_nonneg hn0 hKu0
  have hnK : n * (K * u) + K * u ≤ 1 := by linarith
  have hDu : D * u ≤ 1 := by linarith
  have hmag : ∀ f ∈ f0 :: fs, Rounded.MagneticIn Xm |Bm| f := by
    intro f hm t X hX
    obtain ⟨B, b1, b2⟩ := hf f hm t X hX
    exact ⟨B, b1, b2.trans (le_abs_self _)⟩
  have hch : 0 < SpeedOfLight * h := mul_pos SpeedOfLight_pos hh
  obtain ⟨q1, q2⟩ := Rounded.ratio_error hround hu k3 (a.Charge / a.Mass) hh hh1
  rw [hqm] at q1 q2
  set qmR := rnd (rnd (a.Charge / a.Mass) * InvRestMass) with hqmR
  set qR := rnd (rnd (qmR * 0.5) * h) with hqR
  have hcons := cons_reachable ha
  have hNP : 1 ≤ a.NP := by
    have := (List.getElem?_eq_some_iff.mp (get_of_TrajTime hat)).1
    rw [hcons.1] at this
    omega
  have gT : a.Time.getLast? = some t0 := by rw [List.getLast?_eq_getElem?, hcons.1]; exact get_of_TrajTime hat
  have gX : a.X.getLast? = some x0 := by rw [List.getLast?_eq_getElem?, hcons.2.1]; exact get_of_TrajPoint hax
  have gP : a.P.getLast? = some p0 := by rw [List.getLast?_eq_getElem?, hcons.2.2.1]; exact get_of_TrajMomentum hap
  have gA : a.A ≠ [] := by
    intro h0
    have := hcons.2.2.2
    rw [h0] at this
    simp at this
    omega
  have hnc : 0 ≤ n * (SpeedOfLight * h) := by positivity
  obtain ⟨B, f1, f2⟩ := hmag f0 List.mem_cons_self t0 x0 (by linarith)
  have hqs : |qm * (h / 2)| ≤ |qm| := by
    rw [abs_mul, abs_of_pos (by positivity : 0 < h / 2)]
    exact mul_le_of_le_one_right hq0 (by linarith)
  have hBq : 0 ≤ |Bm| * |qm| := by positivity
  let i : Rounded.HalfData Pm 0 |Bm| |qm| (8 * |qm|) := {
    rnd := rnd, u := u, P := p0, E' := 0, E := 0, B' := B, B := B, q' := qR, q := qm * (h / 2), k' := qmR, k := qm
    hu := hu, hr := hround
    hP := by rw [hPm, hVm, zero_div, zero_add]; linarith
    hE := by rw [Vec.norm_zero]
    hE' := by rw [sub_self, Vec.norm_zero]; positivity
    hB := f2
    hB' := by rw [sub_self, Vec.norm_zero]; positivity
    hq := hqs, hq' := q2, hk := le_rfl, hk' := q1 }
  obtain ⟨d1, d2, d3, -⟩ := dHalf i k1
  simp only [i] at d1 d2 d3
  have hinit : ∃ a1, Rounded.InitVay rnd a h f0 = .ok a1 ∧ a1.dt = h ∧ a1.qm = qmR ∧ a1.qmt2 = qR ∧ a1.XCur = x0 ∧ a1.NP = a.NP ∧ a1.Time = a.Time ∧ a1.X = a.X ∧ a1.P = a.P ∧ a1.A.length = a.A.dropLast.length + 1 ∧
      a1.VYgamma = Rounded.vayGamma rnd qR p0 0 B ∧ a1.VYp = Rounded.vayMomentum rnd qR p0 0 B := by
    simp only [Rounded.InitVay]
    rw [if_neg (by omega), if_neg hmass]
    simp only [gT, gX, gP, f1]
    rw [if_neg (not_not.mpr d1), if_neg gA]
    exact ⟨_, rfl, rfl, rfl, rfl, rfl, rfl, rfl, rfl, rfl, by simp, rfl, rfl⟩
  obtain ⟨a1, e0, e1, e2, e3, e5, e8, e9, e10, e11, e12, e6, e7⟩ := hinit
  have hc1 : a1.Cons := by
    obtain ⟨l1, l2, l3, l4⟩ := hcons
    refine ⟨by rw [e9, e8]; exact l1, by rw [e10, e8]; exact l2, by rw [e11, e8]; exact l3, ?_⟩
    rw [e12, e8]
    simp
    omega
  have S1 : Rounded.State h qmR qR D u a1 := ⟨e1, e2, e3, by rw [e6, e7]; exact d2⟩
  have hW : a1.VYp.norm ≤ V + |Bm| * |qm| + 1 := by
    rw [e7]
    set W := Particle.vayMomentum (qm * (h / 2)) p0 0 B with hWdef
    have w1 : W.norm ≤ V + |Bm| * |qm| := by
      have e := Particle.vay_implicit (qm * (h / 2)) p0 0 B
      rw [← hWdef] at e
      rw [e]
      refine (Vec.norm_add_le _ _).trans (add_le_add hpV ?_)
      rw [Vec.norm_mul]
      refine mul_le_mul ?_ hqs (abs_nonneg _) hB0
      rw [show (0 : Vec) / SpeedOfLight = 0 by ext <;> simp, zero_add]
      refine (norm_cross_le _ _).trans ?_
      calc _ ≤ 1 * |Bm| := mul_le_mul (velOf_le _) f2 (Vec.norm_nonneg _) zero_le_one
        _ = _ := one_mul _
    have w2 := Vec.norm_add_le (Rounded.vayMomentum rnd qR p0 0 B - W) W
    rw [sub_add_cancel] at w2
    linarith
  obtain ⟨a2, r1, S2, c2, r3, r4⟩ := Rounded.pushes (K := K) (qmR := qmR) (qR := qR) (D := D) (u := u) (rnd := rnd) (Vm := Vm)
    (fun f hm q S hV hX => Rounded.push (Pm := Pm) le_rfl dHalf dStep hround hu k1 k2 (by linarith) hB0 hh hh1 q1 q2 hm S hV hX) hKu0 hh (a.NP - 1) a1.VYp fs
    (fun f hm => hmag f (List.mem_cons_of_mem _ hm)) a1 0 S1 (by linarith) (by rw [e5]; linarith) hc1 (by omega)
    (by rw [e10, e5]; exact get_of_TrajPoint hax) (by simp) (by intro k hk; omega)
  rw [zero_add] at r3
  rw [zero_add] at r4
  have hDn : 0 ≤ D * (n * u) := by positivity
  have hKc : 0 ≤ 2 * K * SpeedOfLight * (n * u) := by positivity
  have hKc1 : 0 ≤ 2 * K * SpeedOfLight * u := by positivity
  have hDu0 : 0 ≤ D * u := by positivity
  refine ⟨a1, a2, e0, r1, ?_, ?_, (velOf a1.VYp).norm * (SpeedOfLight * h), ?_⟩
  · linarith
  · have g1 := S2.gamma
    have g2 : |gammaOf a2.VYp - gammaOf a1.VYp| ≤ |a2.VYp.norm - a1.VYp.norm| := gamma_of_norm a2.VYp a1.VYp
    have g3 := abs_sub_le a2.VYgamma (gammaOf a2.VYp) (gammaOf a1.VYp)
    show |a2.VYgamma - gammaOf a1.VYp| ≤ _
    linarith
  · intro k hk
    obtain ⟨x, y, g1, g2, g3⟩ := r4 k hk
    refine ⟨x, y, TrajPoint_of_get c2 g1, TrajPoint_of_get c2 g2, g3.trans ?_⟩
    have hkn : (k : ℝ) ≤ n := by rw [hn]; exact_mod_cast hk.le
    have h1 : (k : ℝ) * (K * u) ≤ n * (K * u) := mul_le_mul_of_nonneg_right hkn hKu0
    have h2 : 2 * (k * (K * u)) * (SpeedOfLight * h) ≤ 2 * (n * (K * u)) * (SpeedOfLight * 1) :=
      mul_le_mul (by linarith) (mul_le_mul_of_nonneg_left hh1 hc.le) hch.le (by linarith)
    linarith

/-- the hypotheses are met: a particle at the origin in the field (0, 1, 0), followed by a field which depends on position, with as many steps as one wants
and sufficiently many binary digits -/
example (n : ℕ) : ∃ C : ℝ, ∃ N : ℕ, ∀ digits : ℕ, N ≤ digits → ∃ a1 a2,
    Rounded.InitVay (binary digits) (Particle.default.initTrajectory 0 0 ⟨0, 0, 60⟩ 0) 1e-12 (fun _ _ => .ok ⟨0, ⟨0, 1, 0⟩⟩) = .ok a1 ∧
    Rounded.steps (binary digits) a1 (List.replicate n fun _ X => .ok ⟨0, X⟩) = .ok a2 ∧ |a2.VYp.norm - a1.VYp.norm| ≤ C * (n * 2 ^ (-(digits : Int))) := by
  set Xm : ℝ := n * (SpeedOfLight * 1e-12) + 2 with hXm
  have hc := SpeedOfLight_pos
  obtain ⟨C, κ, hC, hκ, H⟩ := C132_no_work (-1 / 1 * InvRestMass) 60 Xm Xm
  obtain ⟨N, hN⟩ := exists_pow_lt_of_lt_one (show 0 < κ / (n + 1) by positivity) (show (1 / 2 : ℝ) < 1 by norm_num)
  refine ⟨C, N + 1, fun digits hd => ?_⟩
  have hu : (2 : ℝ) ^ (-(digits : Int)) ≤ (1 / 2) ^ N := by
    rw [zpow_neg, zpow_natCast, ← inv_pow, inv_eq_one_div]
    exact pow_le_pow_of_le_one (by norm_num) (by norm_num) (by omega)
  have hn0 : 0 ≤ (n : ℝ) * (SpeedOfLight * 1e-12) := by positivity
  obtain ⟨a1, a2, e1, e2, e3, -⟩ := H (binary digits) _ (binary_isRounding (by omega)) 1e-12 (by norm_num) (by norm_num) (fun _ _ => .ok ⟨0, ⟨0, 1, 0⟩⟩)
    (List.replicate n fun _ X => .ok ⟨0, X⟩)
    (by
      rw [List.length_replicate]
      rw [lt_div_iff₀ (by positivity)] at hN
      have : ((n : ℝ) + 1) * 2 ^ (-(digits : Int)) ≤ (n + 1) * (1 / 2) ^ N := mul_le_mul_of_nonneg_left hu (by positivity)
      linarith)
    (by
      intro f hf t X hX
      rcases List.mem_cons.mp hf with rfl | hf
      · refine ⟨_, rfl, ?_⟩
        rw [Vec.norm_def]
        simp [Vec.abs2nd]
        linarith
      · rw [List.eq_of_mem_replicate hf]
        exact ⟨X, rfl, hX⟩)
    (POp.exec Particle.default (.init 0 0 ⟨0, 0, 60⟩ 0))
    ⟨_, [.init 0 0 ⟨0, 0, 60⟩ 0], Or.inr (Or.inr (Or.inl rfl)), rfl⟩
    (by simp [POp.exec, POp.result, Particle.initTrajectory, Particle.default, Particle.new])
    (by simp [POp.exec, POp.result, Particle.initTrajectory, Particle.default, Particle.new]) 0 0 ⟨0, 0, 60⟩ rfl rfl rfl
    (by
      rw [Vec.norm_def]
      simp [Vec.abs2nd])
    (by rw [List.length_replicate, Vec.norm_zero]; linarith)
  rw [List.length_replicate] at e3
  exact ⟨a1, a2, e1, e2, e3⟩

theorem Rounded.lattice_magnetic {rnd : ℝ → ℝ} (h0 : rnd 0 = 0) (M : MathLib) (t : ℝ) (X : Vec) : ∀ (lat : List Magnet),
    (∀ E B, Magnet.homogeneous E B ∈ lat → E = 0) → ∀ (w EB : EMField), w.E = 0 →
    lat.foldlM (fun total e => (e.computed rnd M t X).map fun f => (⟨Rounded.vadd rnd total.E f.E, Rounded.vadd rnd total.B f.B⟩ : EMField)) w = .ok EB → EB.E = 0
  | [], _, w, EB, hw, h => by
    cases h
    exact hw
  | e :: lat, hE, w, EB, hw, h => by
    rw [List.foldlM_cons] at h
    cases hg : e.computed rnd M t X with
    | error er => rw [hg] at h; cases h
    | ok g =>
      rw [hg] at h
      have hgE : g.E = 0 := by
        cases e with
        | homogeneous E B =>
          cases hg
          exact hE E B List.mem_cons_self
        | planar => cases hg; rfl
        | gradient => cases hg; rfl
        | softEdge d t0 o =>
          simp only [Magnet.computed, Rounded.localized, Rounded.softEdgeField] at hg
          split at hg
          · cases hg
          · cases hg
            rfl
      refine lattice_magnetic h0 M t X lat (fun E B hm => hE E B (List.mem_cons_of_mem _ hm)) _ EB ?_ h
      show Rounded.vadd rnd w.E g.E = 0
      rw [hw, hgE]
      ext <;> simp [Rounded.vadd, h0]

/-- C132: the same in the computed field of a lattice of undulators, soft-edge dipoles and homogeneous magnetic fields: here everything is rounded, the
arithmetic of the tracker and that of the fields. -/
theorem C132_magnets (lat : List Magnet) (hl : ∀ e ∈ lat, e.Proper) (hE : ∀ E B, Magnet.homogeneous E B ∈ lat → E = 0) (qm V Xm K : ℝ) :
    ∃ C κ : ℝ, 0 ≤ C ∧ 0 < κ ∧ ∀ rnd u, IsRounding rnd u → ∀ h : ℝ, 0 < h → h ≤ 1 → ∀ n : ℕ, (n + 1) * u ≤ κ →
      ∀ M : MathLib, M.IsAccurate K u →
      ∀ a : Particle, a.Reachable → a.Mass ≠ 0 → a.Charge / a.Mass * InvRestMass = qm → ∀ t0 x0 p0,
        a.TrajTime (a.getNP - 1 : Nat) = .ok t0 → a.TrajPoint (a.getNP - 1 : Nat) = .ok x0 → a.TrajMomentum (a.getNP - 1 : Nat) = .ok p0 →
        p0.norm ≤ V → x0.norm + n * (SpeedOfLight * h) + 2 ≤ Xm →
        ∃ a1 a2, Rounded.InitVay rnd a h (Rounded.latticeField rnd M lat) = .ok a1 ∧
          Rounded.steps rnd a1 (List.replicate n (Rounded.latticeField rnd M lat)) = .ok a2 ∧
          |a2.VYp.norm - a1.VYp.norm| ≤ C * (n * u) ∧
          |a2.VYgamma - √(1 + a1.VYp.abs2nd)| ≤ C * ((n + 1) * u) ∧
          ∃ d : ℝ, ∀ k : ℕ, k < n → ∃ x y : Vec, a2.TrajPoint (a.getNP - 1 + k : Nat) = .ok x ∧ a2.TrajPoint (a.getNP - 1 + k + 1 : Nat) = .ok y ∧
            |(y - x).norm - d| ≤ C * ((n + 1) * u) := by
  obtain ⟨F, u0, hF, hu0, HF⟩ := C129_lattice lat hl Xm K
  obtain ⟨L, hL⟩ := Rounded.regular lat hl |Xm|
  have hX0 := abs_nonneg Xm
  obtain ⟨G, -, hG, -, -, -⟩ := hL 0 0 0 0 (by simp) (by simp) (by rw [Vec.norm_zero]; exact hX0) (by rw [Vec.norm_zero]; exact hX0)
  obtain ⟨C, κ, hC, hκ, H⟩ := C132_no_work qm V (G.B.norm + |L| * |Xm| + F) Xm
  refine ⟨C, min κ (min u0 1), hC, lt_min hκ (lt_min hu0 one_pos), ?_⟩
  intro rnd u hr h hh hh1 n hn M hM a ha hmass hqm t0 x0 p0 hat hax hap hpV hxX
  have hu : 0 ≤ u := hr.u_nonneg
  have hnu : 0 ≤ (n : ℝ) * u := by positivity
  have hk : u ≤ min κ (min u0 1) := by linarith
  have k1 : u ≤ u0 := hk.trans ((min_le_right _ _).trans (min_le_left _ _))
  have k2 : u ≤ 1 := hk.trans ((min_le_right _ _).trans (min_le_right _ _))
  have hz : rnd 0 = 0 := by
    have := hr.err 0
    rw [abs_zero, mul_zero, sub_zero] at this
    exact abs_eq_zero.mp (le_antisymm this (abs_nonneg _))
  have key := H rnd u hr h hh hh1 (Rounded.latticeField rnd M lat) (List.replicate n (Rounded.latticeField rnd M lat))
    (by rw [List.length_replicate]; exact hn.trans (min_le_left _ _))
    (by
      intro f hf t X hX
      have hf' : f = Rounded.latticeField rnd M lat := by
        rcases List.mem_cons.mp hf with rfl | hf
        · rfl
        · exact List.eq_of_mem_replicate hf
      subst hf'
      have hXX : X.norm ≤ |Xm| := hX.trans (le_abs_self _)
      obtain ⟨A, A', g1, g2, -, g4⟩ := HF rnd u hr k1 M hM 0 t X hX
      obtain ⟨G1, A1, g5, g6, -, g7⟩ := hL 0 0 0 X (by simp) (by simp) (by rw [Vec.norm_zero]; exact hX0) hXX
      rw [hG] at g5
      cases g5
      rw [g1] at g6
      cases g6
      have hE0 : A'.E = 0 := Rounded.lattice_magnetic hz M t X lat hE 0 A' rfl g2
      refine ⟨A'.B, by rw [g2, ← hE0], ?_⟩
      have n1 := Vec.norm_add_le (A'.B - A.B) A.B
      have n2 := Vec.norm_add_le (A.B - G.B) G.B
      rw [sub_add_cancel] at n1 n2
      rw [sub_self, abs_zero, zero_add, sub_zero] at g7
      have n3 : L * X.norm ≤ |L| * |Xm| := mul_le_mul (le_abs_self L) hXX (Vec.norm_nonneg _) (abs_nonneg L)
      have n4 : F * u ≤ F := mul_le_of_le_one_right hF k2
      linarith)
    a ha hmass hqm t0 x0 p0 hat hax hap hpV (by rw [List.length_replicate]; exact hxX)
  rw [List.length_replicate] at key
  exact key

/-- C132: the same in the computed field of a hard-edge dipole.  Rounding errors may decide whether a position close to a limiting plane is inside (C131), but
this does not change the energy.  The constants are the same for all dipoles below a bound of the field, wherever they are. -/
theorem C132_hardEdge (qm V Bm Xm : ℝ) :
    ∃ C κ : ℝ, 0 ≤ C ∧ 0 < κ ∧ ∀ rnd u, IsRounding rnd u → ∀ h : ℝ, 0 < h → h ≤ 1 → ∀ n : ℕ, (n + 1) * u ≤ κ →
      ∀ (d : HardEdgeDipole) (t1 : ℝ) (origin : Vec), d.B_val.norm ≤ Bm →
      ∀ a : Particle, a.Reachable → a.Mass ≠ 0 → a.Charge / a.Mass * InvRestMass = qm → ∀ t0 x0 p0,
        a.TrajTime (a.getNP - 1 : Nat) = .ok t0 → a.TrajPoint (a.getNP - 1 : Nat) = .ok x0 → a.TrajMomentum (a.getNP - 1 : Nat) = .ok p0 →
        p0.norm ≤ V → x0.norm + n * (SpeedOfLight * h) + 2 ≤ Xm →
        ∃ a1 a2, Rounded.InitVay rnd a h (Rounded.localized rnd (Rounded.hardEdgeField rnd d) t1 origin) = .ok a1 ∧
          Rounded.steps rnd a1 (List.replicate n (Rounded.localized rnd (Rounded.hardEdgeField rnd d) t1 origin)) = .ok a2 ∧
          |a2.VYp.norm - a1.VYp.norm| ≤ C * (n * u) ∧
          |a2.VYgamma - √(1 + a1.VYp.abs2nd)| ≤ C * ((n + 1) * u) ∧
          ∃ s : ℝ, ∀ k : ℕ, k < n → ∃ x y : Vec, a2.TrajPoint (a.getNP - 1 + k : Nat) = .ok x ∧ a2.TrajPoint (a.getNP - 1 + k + 1 : Nat) = .ok y ∧
            |(y - x).norm - s| ≤ C * ((n + 1) * u) := by
  obtain ⟨C, κ, hC, hκ, H⟩ := C132_no_work qm V Bm Xm
  refine ⟨C, κ, hC, hκ, ?_⟩
  intro rnd u hr h hh hh1 n hn d t1 origin hd a ha hmass hqm t0 x0 p0 hat hax hap hpV hxX
  have key := H rnd u hr h hh hh1 (Rounded.localized rnd (Rounded.hardEdgeField rnd d) t1 origin)
    (List.replicate n (Rounded.localized rnd (Rounded.hardEdgeField rnd d) t1 origin))
    (by rw [List.length_replicate]; exact hn)
    (by
      intro f hf t X _
      have hf' : f = Rounded.localized rnd (Rounded.hardEdgeField rnd d) t1 origin := by
        rcases List.mem_cons.mp hf with rfl | hf
        · rfl
        · exact List.eq_of_mem_replicate hf
      subst hf'
      rcases C131_values rnd d (rnd (t - t1)) (Rounded.vsub rnd X origin) with e | e
      · exact ⟨_, e, hd⟩
      · exact ⟨_, e, by rw [Vec.norm_zero]; exact (Vec.norm_nonneg _).trans hd⟩)
    a ha hmass hqm t0 x0 p0 hat hax hap hpV (by rw [List.length_replicate]; exact hxX)
  rw [List.length_replicate] at key
  exact key

/-- a particle, a dipole with tilted planes and a time step which meet the hypotheses on them -/
example : ∃ (a : Particle) (d : HardEdgeDipole), a.Reachable ∧ a.Mass ≠ 0 ∧ a.TrajTime (a.getNP - 1 : Nat) = .ok 0 ∧ a.TrajPoint (a.getNP - 1 : Nat) = .ok 0 ∧
    a.TrajMomentum (a.getNP - 1 : Nat) = .ok ⟨0, 0, 60⟩ ∧ d.B_val.norm ≤ 1 ∧ d.B_val ≠ 0 ∧ d.n_1 = ⟨1, 0, -1⟩ ∧
    (0 : Vec).norm + (1000 : ℕ) * (SpeedOfLight * 1e-12) + 2 ≤ 3 := by
  refine ⟨POp.exec Particle.default (.init 0 0 ⟨0, 0, 60⟩ 0), ⟨⟨0, 1, 0⟩, ⟨0, 0, 1⟩, ⟨1, 0, -1⟩, ⟨0, 0, 2⟩, ⟨1, 0, 1⟩⟩,
    ⟨_, [.init 0 0 ⟨0, 0, 60⟩ 0], Or.inr (Or.inr (Or.inl rfl)), rfl⟩,
    by simp [POp.exec, POp.result, Particle.initTrajectory, Particle.default, Particle.new], rfl, rfl, rfl, ?_, ?_, rfl, by rw [Vec.norm_zero]; norm_num [SpeedOfLight]⟩
  · rw [Vec.norm_def]
    simp [Vec.abs2nd]
  · intro h
    have := congrArg Vec.y h
    simp at this

/-- a lattice which meets the hypotheses -/
example : (∀ e ∈ magnetLine, e.Proper) ∧ magnetLine ≠ [] ∧ ∀ E B, Magnet.homogeneous E B ∈ magnetLine → E = 0 := by
  refine ⟨magnetLine_proper, by simp [magnetLine], fun E B h => ?_⟩
  simp [magnetLine] at h
  try exact h.1

end Teufel
