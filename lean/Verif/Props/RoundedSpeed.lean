import Verif.Props.RoundedMagnetic

/-!
# The limits of speed with rounded numbers
-/

namespace Teufel
open Vec

/-- a particle with bounded momentum is slower than light by a margin -/
theorem velOf_margin {V : Vec} {Vm : ℝ} (h : V.norm ≤ Vm) : (velOf V).norm ≤ 1 - 1 / (2 * (1 + Vm ^ 2)) := by
  have hg := gammaOf_pos V
  have hs := gammaOf_sq V
  have hn := Vec.norm_nonneg V
  have hV := Vec.norm_sq V
  have h1 : V.norm * gammaOf V ≤ gammaOf V ^ 2 - 1 / 2 := by nlinarith [sq_nonneg (V.norm - gammaOf V)]
  have h2 : gammaOf V ^ 2 ≤ 1 + Vm ^ 2 := by nlinarith
  have h3 : (velOf V).norm ≤ 1 - 1 / (2 * gammaOf V ^ 2) := by
    rw [velOf_eq, Vec.norm_div, abs_of_pos hg, div_le_iff₀ hg]
    have : (1 - 1 / (2 * gammaOf V ^ 2)) * gammaOf V = (gammaOf V ^ 2 - 1 / 2) / gammaOf V := by field_simp
    rw [this, le_div_iff₀ hg]
    exact h1
  have h4 : 1 / (2 * (1 + Vm ^ 2)) ≤ 1 / (2 * gammaOf V ^ 2) := one_div_le_one_div_of_le (by positivity) (by linarith)
  linarith

namespace Rounded

/-- a field below bounds within the distance `Xm` from the origin -/
def BoundedIn (Xm Em Bm : ℝ) (f : FieldFn) : Prop := ∀ t X, X.norm ≤ Xm → ∃ EB, f t X = .ok EB ∧ EB.E.norm ≤ Em ∧ EB.B.norm ≤ Bm

theorem force_le {q Q Em Bm : ℝ} (hq : |q| ≤ Q) (hB : 0 ≤ Bm) {v E B : Vec} (hv : v.norm ≤ 1) (hE : E.norm ≤ Em) (hB' : B.norm ≤ Bm) :
    ((E / SpeedOfLight + cross v B) * q).norm ≤ (Em / SpeedOfLight + Bm) * Q := by
  have hc := SpeedOfLight_pos
  have hE0 : 0 ≤ Em := (Vec.norm_nonneg _).trans hE
  rw [Vec.norm_mul]
  refine mul_le_mul ?_ hq (abs_nonneg _) (by positivity)
  refine (Vec.norm_add_le _ _).trans (add_le_add ?_ ?_)
  · rw [Vec.norm_div, abs_of_pos hc]
    exact div_le_div_of_nonneg_right hE hc.le
  · refine (norm_cross_le _ _).trans ?_
    calc _ ≤ 1 * Bm := mul_le_mul hv hB' (Vec.norm_nonneg _) zero_le_one
      _ = _ := one_mul _

set_option maxHeartbeats 1000000 in
theorem drive {qm Xm Vm Em Bm Pm F1 D K u1 u2 h u qmR qR : ℝ} {rnd : ℝ → ℝ} (hPm : Vm + (Em / SpeedOfLight + Bm) * |qm| + 1 ≤ Pm)
    (half : ∀ i : HalfData Pm Em Bm |qm| F1, i.u ≤ u1 →
      VayDefined i.rnd i.q' i.P i.E' i.B' ∧
      |vayGamma i.rnd i.q' i.P i.E' i.B' - gammaOf (vayMomentum i.rnd i.q' i.P i.E' i.B')| ≤ D * i.u ∧
      (vayMomentum i.rnd i.q' i.P i.E' i.B' - Particle.vayMomentum i.q i.P i.E i.B).norm ≤ D * i.u ∧
      (vayAccel i.rnd i.k' i.P i.E' i.B' - Particle.vayAccel i.k i.P i.E i.B).norm ≤ D * i.u)
    (step : ∀ i : StepData Xm Vm Em Bm |qm| 2 F1 D, i.u ≤ u2 →
      i.g ≠ 0 ∧ VayDefined i.rnd i.q' i.mom i.E i.B ∧
      (i.pos - (i.X + velOf i.V * SpeedOfLight * i.h)).norm ≤ K * i.u ∧
      (i.mom - i.mom0).norm ≤ K * i.u ∧
      (vayMomentum i.rnd i.q' i.mom i.E i.B - Particle.vayMomentum i.q i.mom0 i.E i.B).norm ≤ K * i.u ∧
      (vayAccel i.rnd i.k' i.mom i.E i.B - Particle.vayAccel i.k i.mom0 i.E i.B).norm ≤ K * i.u)
    (hr : ∀ y, |rnd y - y| ≤ u * |y|) (hu : 0 ≤ u) (hu1 : u ≤ u1) (hu2 : u ≤ u2) (hKu0 : 0 ≤ K * u) (hKu : K * u ≤ 1) (hE : 0 ≤ Em) (hB : 0 ≤ Bm) (hh : 0 < h) (hh1 : h ≤ 1)
    (hqm : |qmR - qm| ≤ F1 * u) (hq : |qR - qm * (h / 2)| ≤ F1 * u) {f : FieldFn} (hf : BoundedIn Xm Em Bm f)
    {q : Particle} (S : State h qmR qR D u q) (hV : q.VYp.norm ≤ Vm) (hX : q.XCur.norm + SpeedOfLight * h + K * u ≤ Xm) :
    ∃ q', StepVay rnd q f = .ok q' ∧ State h qmR qR D u q' ∧ q'.VYp.norm ≤ q.VYp.norm + (Em / SpeedOfLight + Bm) * |qm| * h + K * u ∧
      q'.XCur.norm ≤ q.XCur.norm + SpeedOfLight * h + K * u ∧
      q'.NP = q.NP + 1 ∧ q'.X = q.X ++ [q'.XCur] ∧ (q.Cons → q'.Cons) ∧ (q'.XCur - q.XCur).norm ≤ (velOf q.VYp).norm * (SpeedOfLight * h) + K * u := by
  have hc := SpeedOfLight_pos
  have hch : 0 ≤ SpeedOfLight * h := by positivity
  have hs2 : |h| ≤ 2 := by rw [abs_of_pos hh]; linarith
  have hqh : |qm * (h / 2)| ≤ |qm| * (h / 2) := by rw [abs_mul, abs_of_pos (by positivity : 0 < h / 2)]
  have hqs : |qm * (h / 2)| ≤ |qm| := hqh.trans (mul_le_of_le_one_right (abs_nonneg _) (by linarith))
  have hF1u : 0 ≤ F1 * u := (abs_nonneg _).trans hqm
  have hXn : q.XCur.norm ≤ Xm := by linarith
  let i0 : StepData Xm Vm Em Bm |qm| 2 F1 D := {
    rnd := rnd, u := u, X := q.XCur, V := q.VYp, g := q.VYgamma, E := 0, B := 0, q' := qR, q := qm * (h / 2), k' := qmR, k := qm, h := h
    hu := hu, hr := hr, hX := hXn, hV := hV, hg := S.gamma, hE := by rw [Vec.norm_zero]; exact hE, hB := by rw [Vec.norm_zero]; exact hB
    hq := hqs, hq' := hq, hk := le_rfl, hk' := hqm, hh := hs2 }
  obtain ⟨g0, -, dpos, -⟩ := step i0 hu2
  set X' : Vec := vadd rnd q.XCur (vmul rnd (vmul rnd (vdiv rnd q.VYp q.VYgamma) SpeedOfLight) h) with hX'
  have dpos' : (X' - (q.XCur + velOf q.VYp * SpeedOfLight * h)).norm ≤ K * u := dpos
  clear dpos
  have hlen : (X' - q.XCur).norm ≤ (velOf q.VYp).norm * (SpeedOfLight * h) + K * u := by
    have e : (velOf q.VYp).norm * (SpeedOfLight * h) = (velOf q.VYp * SpeedOfLight * h).norm := by
      rw [Vec.norm_mul, Vec.norm_mul, abs_of_pos hh, abs_of_pos hc]
      ring
    set w := velOf q.VYp * SpeedOfLight * h
    have a1 := Vec.norm_add_le (X' - (q.XCur + w)) w
    rw [show X' - (q.XCur + w) + w = X' - q.XCur by abel] at a1
    linarith
  have hXb : X'.norm ≤ q.XCur.norm + SpeedOfLight * h + K * u := by
    have a1 := Vec.norm_add_le (X' - q.XCur) q.XCur
    rw [sub_add_cancel] at a1
    have a3 : (velOf q.VYp).norm * (SpeedOfLight * h) ≤ SpeedOfLight * h := mul_le_of_le_one_left hch (velOf_le _)
    linarith
  obtain ⟨EB, f1, fE, fB⟩ := hf (rnd (q.tCur + h)) X' (by linarith)
  let i : StepData Xm Vm Em Bm |qm| 2 F1 D := {
    rnd := rnd, u := u, X := q.XCur, V := q.VYp, g := q.VYgamma, E := EB.E, B := EB.B, q' := qR, q := qm * (h / 2), k' := qmR, k := qm, h := h
    hu := hu, hr := hr, hX := hXn, hV := hV, hg := S.gamma, hE := fE, hB := fB
    hq := hqs, hq' := hq, hk := le_rfl, hk' := hqm, hh := hs2 }
  obtain ⟨-, vd, -, dP, dV, -⟩ := step i hu2
  have hP0 := i.mom0_le
  set P := i.mom with hPdef
  have hPn : P.norm ≤ Pm := by
    have := Vec.norm_add_le (P - i.mom0) i.mom0
    rw [sub_add_cancel] at this
    have : (P - i.mom0).norm ≤ K * u := dP
    linarith
  let j : HalfData Pm Em Bm |qm| F1 := {
    rnd := rnd, u := u, P := P, E' := EB.E, E := EB.E, B' := EB.B, B := EB.B, q' := qR, q := qm * (h / 2), k' := qmR, k := qm
    hu := hu, hr := hr, hP := hPn, hE := fE, hE' := by rw [sub_self, Vec.norm_zero]; exact hF1u, hB := fB
    hB' := by rw [sub_self, Vec.norm_zero]; exact hF1u, hq := hqs, hq' := hq, hk := le_rfl, hk' := hqm }
  obtain ⟨-, jg, -, -⟩ := half j hu1
  have dV' : (vayMomentum rnd qR P EB.E EB.B - Particle.vayMomentum (qm * (h / 2)) i.mom0 EB.E EB.B).norm ≤ K * u := dV
  have hm0 : i.mom0 = q.VYp + (EB.E / SpeedOfLight + cross (velOf q.VYp) EB.B) * (qm * (h / 2)) := rfl
  have hn : (Particle.vayMomentum (qm * (h / 2)) i.mom0 EB.E EB.B).norm ≤ q.VYp.norm + (Em / SpeedOfLight + Bm) * |qm| * h := by
    have e := Particle.vay_implicit (qm * (h / 2)) i.mom0 EB.E EB.B
    set W := Particle.vayMomentum (qm * (h / 2)) i.mom0 EB.E EB.B
    rw [hm0] at e
    have b1 := Vec.norm_add_le (q.VYp + (EB.E / SpeedOfLight + cross (velOf q.VYp) EB.B) * (qm * (h / 2))) ((EB.E / SpeedOfLight + cross (velOf W) EB.B) * (qm * (h / 2)))
    rw [← e] at b1
    have b2 := Vec.norm_add_le q.VYp ((EB.E / SpeedOfLight + cross (velOf q.VYp) EB.B) * (qm * (h / 2)))
    have b3 := force_le hqh hB (velOf_le q.VYp) fE fB
    have b4 := force_le hqh hB (velOf_le W) fE fB
    linarith
  have hstep : StepVay rnd q f = .ok (({ q with tCur := rnd (q.tCur + h), XCur := X', ECur := EB.E, BCur := EB.B, PCur := P
                                                ACur := vayAccel rnd qmR P EB.E EB.B
                                                VYgamma := vayGamma rnd qR P EB.E EB.B
                                                VYp := vayMomentum rnd qR P EB.E EB.B } : Particle).storeTrajectoryPoint
                                                  (rnd (q.tCur + h)) X' P (vayAccel rnd qmR P EB.E EB.B)) := by
    unfold StepVay
    rw [if_neg g0]
    simp only [S.dt, S.ratio, S.qmt2]
    rw [← hX', f1]
    simp only [S.dt, S.ratio, S.qmt2]
    rw [if_neg]
    · rfl
    · rw [S.qmt2]
      exact not_not.mpr vd
  refine ⟨_, hstep, ⟨S.dt, S.ratio, S.qmt2, jg⟩, ?_, hXb, rfl, rfl, ?_, hlen⟩
  · show (vayMomentum rnd qR P EB.E EB.B).norm ≤ _
    have a1 := Vec.norm_add_le (vayMomentum rnd qR P EB.E EB.B - Particle.vayMomentum (qm * (h / 2)) i.mom0 EB.E EB.B) (Particle.vayMomentum (qm * (h / 2)) i.mom0 EB.E EB.B)
    rw [sub_add_cancel] at a1
    linarith
  · rintro ⟨l1, l2, l3, l4⟩
    simp [Particle.Cons, Particle.storeTrajectoryPoint, l1, l2, l3, l4]

/-- the run from the state after the first half step -/
theorem drives {Xm Vm Em Bm D K h u qmR qR g : ℝ} {rnd : ℝ → ℝ} (hg : 0 ≤ g)
    (one : ∀ (f : FieldFn), BoundedIn Xm Em Bm f → ∀ q : Particle, State h qmR qR D u q → q.VYp.norm ≤ Vm → q.XCur.norm + SpeedOfLight * h + K * u ≤ Xm →
      ∃ q', StepVay rnd q f = .ok q' ∧ State h qmR qR D u q' ∧ q'.VYp.norm ≤ q.VYp.norm + g ∧
        q'.XCur.norm ≤ q.XCur.norm + SpeedOfLight * h + K * u ∧
        q'.NP = q.NP + 1 ∧ q'.X = q.X ++ [q'.XCur] ∧ (q.Cons → q'.Cons) ∧ (q'.XCur - q.XCur).norm < SpeedOfLight * h)
    (hK : 0 ≤ K * u) (hh : 0 < h) (N : Nat) :
    ∀ (fs : List FieldFn), (∀ f ∈ fs, BoundedIn Xm Em Bm f) → ∀ (q : Particle) (m : Nat), State h qmR qR D u q → q.VYp.norm + fs.length * g ≤ Vm →
      q.XCur.norm + fs.length * (SpeedOfLight * h + K * u) ≤ Xm → q.Cons → q.NP = N + 1 + m → q.X[N + m]? = some q.XCur →
      (∀ k, k < m → ∃ x y, q.X[N + k]? = some x ∧ q.X[N + k + 1]? = some y ∧ (y - x).norm < SpeedOfLight * h) →
      ∃ q', steps rnd q fs = .ok q' ∧ q'.Cons ∧ q'.NP = N + 1 + (m + fs.length) ∧
        ∀ k, k < m + fs.length → ∃ x y, q'.X[N + k]? = some x ∧ q'.X[N + k + 1]? = some y ∧ (y - x).norm < SpeedOfLight * h
  | [], _, q, m, _, _, _, hc, hN, _, hk => ⟨q, rfl, hc, hN, hk⟩
  | f :: fs, hf, q, m, S, hV, hX, hc, hN, hl, hk => by
    have hch : 0 < SpeedOfLight * h := mul_pos SpeedOfLight_pos hh
    rw [List.length_cons, Nat.cast_succ] at hV hX
    have n0 : 0 ≤ (fs.length : ℝ) * g := by positivity
    have n1 : 0 ≤ (fs.length : ℝ) * (SpeedOfLight * h + K * u) := by positivity
    obtain ⟨q1, e1, S1, d1, x1, N1, X1, c1, l1⟩ := one f (hf f List.mem_cons_self) q S (by linarith) (by linarith)
    have hlen : q.X.length = N + m + 1 := by rw [hc.2.1, hN]; omega
    have hlast : q1.X[N + m + 1]? = some q1.XCur := by
      rw [X1, List.getElem?_append_right (by omega), hlen]
      simp
    have hold : ∀ i, i ≤ N + m → q1.X[i]? = q.X[i]? := by
      intro i hi
      rw [X1, List.getElem?_append_left (by omega)]
    obtain ⟨q2, e2, c2, d2, k2⟩ := drives hg one hK hh N fs (fun g hg => hf g (List.mem_cons_of_mem _ hg)) q1 (m + 1) S1 (by linarith) (by linarith) (c1 hc)
      (by omega) hlast
      (by
        intro k hkm
        rcases Nat.lt_succ_iff_lt_or_eq.mp hkm with hlt | rfl
        · obtain ⟨x, y, g1, g2, g3⟩ := hk k hlt
          exact ⟨x, y, by rw [hold _ (by omega)]; exact g1, by rw [hold _ (by omega)]; exact g2, g3⟩
        · exact ⟨q.XCur, q1.XCur, by rw [hold _ le_rfl]; exact hl, hlast, l1⟩)
    rw [show m + 1 + fs.length = m + (f :: fs).length by rw [List.length_cons]; omega] at d2 k2
    refine ⟨q2, ?_, c2, d2, k2⟩
    unfold steps at e2 ⊢
    rw [List.foldlM_cons, e1]
    exact e2

end Rounded

set_option maxHeartbeats 1000000 in
/-- C133: a particle tracked with rounded arithmetic in fields below bounds never divides by zero or takes the root of a negative number and stays slower than
light: the distance between successive stored positions is less than c times the time step.  The fields may be different at every step and need not be
continuous.  The unit roundoff must be below a constant times the time step; the constant depends only on the bounds of the start position and momentum, the
fields, the charge-to-mass ratio and the duration of the run. -/
theorem C133_slower_than_light (qm R V Em Bm T : ℝ) (hT : 0 ≤ T) :
    ∃ κ : ℝ, 0 < κ ∧ ∀ rnd u, IsRounding rnd u → ∀ h : ℝ, 0 < h → h ≤ 1 → u ≤ κ * h → ∀ (f0 : FieldFn) (fs : List FieldFn), fs.length * h ≤ T →
      (∀ f ∈ f0 :: fs, ∀ t X, X.norm ≤ R + 2 * SpeedOfLight * T → ∃ EB, f t X = .ok EB ∧ EB.E.norm ≤ Em ∧ EB.B.norm ≤ Bm) →
      ∀ a : Particle, a.Reachable → a.Mass ≠ 0 → a.Charge / a.Mass * InvRestMass = qm → ∀ t0 x0 p0,
        a.TrajTime (a.getNP - 1 : Nat) = .ok t0 → a.TrajPoint (a.getNP - 1 : Nat) = .ok x0 → a.TrajMomentum (a.getNP - 1 : Nat) = .ok p0 →
        x0.norm ≤ R → p0.norm ≤ V →
        ∃ a1 a2, Rounded.InitVay rnd a h f0 = .ok a1 ∧ Rounded.steps rnd a1 fs = .ok a2 ∧ a2.getNP = a.getNP + fs.length ∧
          ∀ k : ℕ, k < fs.length → ∃ x y : Vec, a2.TrajPoint (a.getNP - 1 + k : Nat) = .ok x ∧ a2.TrajPoint (a.getNP - 1 + k + 1 : Nat) = .ok y ∧
            (y - x).norm < SpeedOfLight * h := by
  have hc := SpeedOfLight_pos
  have hc1 : 1 ≤ SpeedOfLight := by norm_num [SpeedOfLight]
  have hE0 := abs_nonneg Em
  have hB0 := abs_nonneg Bm
  have hq0 := abs_nonneg qm
  set Xm := R + 2 * SpeedOfLight * T with hXm
  set G := (|Em| / SpeedOfLight + |Bm|) * |qm| with hG
  have hG0 : 0 ≤ G := by positivity
  set Vm := V + (T + 1) * (G + 1) with hVm
  set Pm := Vm + G + 1 with hPm
  obtain ⟨D, u1, hD, hu1, dHalf⟩ := Rounded.half_defect Pm |Em| |Bm| |qm| (8 * |qm|)
  obtain ⟨K, u2, hK, hu2, dStep⟩ := Rounded.step_defect Xm Vm |Em| |Bm| |qm| 2 (8 * |qm|) D
  set ε := 1 / (2 * (1 + Vm ^ 2)) with hε
  have hε0 : 0 < ε := by positivity
  refine ⟨min (min u1 u2) (min 1 (min (min 1 ε / (K + 1)) (1 / (D + 1)))), by positivity, ?_⟩
  set κ := min (min u1 u2) (min 1 (min (min 1 ε / (K + 1)) (1 / (D + 1)))) with hκdef
  intro rnd u hr h hh hh1 hκ f0 fs hn hf a ha hmass hqm t0 x0 p0 hat hax hap hxR hpV
  have hκ0 : 0 ≤ κ := by positivity
  have hu : 0 ≤ u := hr.u_nonneg
  have hround := hr.err
  have huκ : u ≤ κ := hκ.trans (mul_le_of_le_one_right hκ0 hh1)
  have k1 : u ≤ u1 := huκ.trans ((min_le_left _ _).trans (min_le_left _ _))
  have k2 : u ≤ u2 := huκ.trans ((min_le_left _ _).trans (min_le_right _ _))
  have k3 : u ≤ 1 := huκ.trans ((min_le_right _ _).trans (min_le_left _ _))
  have k4 : κ ≤ min 1 ε / (K + 1) := (min_le_right _ _).trans ((min_le_right _ _).trans (min_le_left _ _))
  have k5 : u ≤ 1 / (D + 1) := huκ.trans ((min_le_right _ _).trans ((min_le_right _ _).trans (min_le_right _ _)))
  rw [le_div_iff₀ (by positivity)] at k4 k5
  have hKu0 : 0 ≤ K * u := mul_nonneg hK hu
  have hDu : D * u ≤ 1 := by linarith
  have hm0 : 0 < min 1 ε := lt_min one_pos hε0
  have hKe : K * u < min 1 ε * h ∨ u = 0 := by
    rcases hu.lt_or_eq with hpos | h0
    · left
      have e1 : K * u ≤ K * (κ * h) := mul_le_mul_of_nonneg_left hκ hK
      have e2 : κ * (K + 1) * h ≤ min 1 ε * h := mul_le_mul_of_nonneg_right k4 hh.le
      have e3 : 0 < κ * h := hpos.trans_le hκ
      linarith
    · exact .inr h0.symm
  have hKe' : K * u < min 1 ε * h := by
    rcases hKe with h1 | h1
    · exact h1
    · rw [h1, mul_zero]
      positivity
  have hK1 : K * u ≤ h := hKe'.le.trans (mul_le_of_le_one_left hh.le (min_le_left _ _))
  have hKε : K * u < ε * h := hKe'.trans_le (mul_le_mul_of_nonneg_right (min_le_right _ _) hh.le)
  have hbd : ∀ f ∈ f0 :: fs, Rounded.BoundedIn Xm |Em| |Bm| f := by
    intro f hm t X hX
    obtain ⟨EB, b1, b2, b3⟩ := hf f hm t X hX
    exact ⟨EB, b1, b2.trans (le_abs_self _), b3.trans (le_abs_self _)⟩
  obtain ⟨q1, q2⟩ := Rounded.ratio_error hround hu k3 (a.Charge / a.Mass) hh hh1
  rw [hqm] at q1 q2
  set qmR := rnd (rnd (a.Charge / a.Mass) * InvRestMass) with hqmR
  set qR := rnd (rnd (qmR * 0.5) * h) with hqR
  have hcons := cons_reachable ha
  have hNP : 1 ≤ a.NP := by
    have := (List.getElem?_eq_some_iff.mp (get_of_TrajTime hat)).1
    rw [hcons.1] at this
    omega
  have gT : a.Time.getLast? = some t0 := by rw [List.getLast?_eq_getElem?, hcons.1]; exact get_of_TrajTime hat
  have gX : a.X.getLast? = some x0 := by rw [List.getLast?_eq_getElem?, hcons.2.1]; exact get_of_TrajPoint hax
  have gP : a.P.getLast? = some p0 := by rw [List.getLast?_eq_getElem?, hcons.2.2.1]; exact get_of_TrajMomentum hap
  have gA : a.A ≠ [] := by
    intro h0
    have := hcons.2.2.2
    rw [h0] at this
    simp at this
    omega
  have hcT : 0 ≤ 2 * SpeedOfLight * T := by positivity
  obtain ⟨EB, f1, fE, fB⟩ := hbd f0 List.mem_cons_self t0 x0 (by linarith)
  have hqs : |qm * (h / 2)| ≤ |qm| := by
    rw [abs_mul, abs_of_pos (by positivity : 0 < h / 2)]
    exact mul_le_of_le_one_right hq0 (by linarith)
  have hTG : 0 ≤ T * (G + 1) := by positivity
  let i : Rounded.HalfData Pm |Em| |Bm| |qm| (8 * |qm|) := {
    rnd := rnd, u := u, P := p0, E' := EB.E, E := EB.E, B' := EB.B, B := EB.B, q' := qR, q := qm * (h / 2), k' := qmR, k := qm
    hu := hu, hr := hround
    hP := by rw [hPm, hVm]; linarith
    hE := fE
    hE' := by rw [sub_self, Vec.norm_zero]; positivity
    hB := fB
    hB' := by rw [sub_self, Vec.norm_zero]; positivity
    hq := hqs, hq' := q2, hk := le_rfl, hk' := q1 }
  obtain ⟨d1, d2, d3, -⟩ := dHalf i k1
  simp only [i] at d1 d2 d3
  have hinit : ∃ a1, Rounded.InitVay rnd a h f0 = .ok a1 ∧ a1.dt = h ∧ a1.qm = qmR ∧ a1.qmt2 = qR ∧ a1.XCur = x0 ∧ a1.NP = a.NP ∧ a1.Time = a.Time ∧ a1.X = a.X ∧
      a1.P = a.P ∧ a1.A.length = a.A.dropLast.length + 1 ∧
      a1.VYgamma = Rounded.vayGamma rnd qR p0 EB.E EB.B ∧ a1.VYp = Rounded.vayMomentum rnd qR p0 EB.E EB.B := by
    simp only [Rounded.InitVay]
    rw [if_neg (by omega), if_neg hmass]
    simp only [gT, gX, gP, f1]
    rw [if_neg (not_not.mpr d1), if_neg gA]
    exact ⟨_, rfl, rfl, rfl, rfl, rfl, rfl, rfl, rfl, rfl, by simp, rfl, rfl⟩
  obtain ⟨a1, e0, e1, e2, e3, e5, e8, e9, e10, e11, e12, e6, e7⟩ := hinit
  have hcons1 : a1.Cons := by
    obtain ⟨l1, l2, l3, l4⟩ := hcons
    refine ⟨by rw [e9, e8]; exact l1, by rw [e10, e8]; exact l2, by rw [e11, e8]; exact l3, ?_⟩
    rw [e12, e8]
    simp
    omega
  have S1 : Rounded.State h qmR qR D u a1 := ⟨e1, e2, e3, by rw [e6, e7]; exact d2⟩
  have hW : a1.VYp.norm ≤ V + G + 1 := by
    rw [e7]
    have e := Particle.vay_implicit (qm * (h / 2)) p0 EB.E EB.B
    set W := Particle.vayMomentum (qm * (h / 2)) p0 EB.E EB.B with hWdef
    have b1 := Vec.norm_add_le p0 ((EB.E / SpeedOfLight + cross (velOf W) EB.B) * (qm * (h / 2)))
    rw [← e] at b1
    have b2 := Rounded.force_le hqs hB0 (velOf_le W) fE fB
    have w2 := Vec.norm_add_le (Rounded.vayMomentum rnd qR p0 EB.E EB.B - W) W
    rw [sub_add_cancel] at w2
    linarith
  have one : ∀ (f : FieldFn), Rounded.BoundedIn Xm |Em| |Bm| f → ∀ q : Particle, Rounded.State h qmR qR D u q → q.VYp.norm ≤ Vm →
      q.XCur.norm + SpeedOfLight * h + K * u ≤ Xm →
      ∃ q', Rounded.StepVay rnd q f = .ok q' ∧ Rounded.State h qmR qR D u q' ∧ q'.VYp.norm ≤ q.VYp.norm + (G + 1) * h ∧
        q'.XCur.norm ≤ q.XCur.norm + SpeedOfLight * h + K * u ∧
        q'.NP = q.NP + 1 ∧ q'.X = q.X ++ [q'.XCur] ∧ (q.Cons → q'.Cons) ∧ (q'.XCur - q.XCur).norm < SpeedOfLight * h := by
    intro f hm q S hV hX
    obtain ⟨q', z1, z2, z3, z4, z5, z6, z7, z8⟩ := Rounded.drive (Pm := Pm) (le_of_eq (by rw [hPm, hG])) dHalf dStep hround hu k1 k2 hKu0 (hK1.trans hh1) hE0 hB0 hh hh1 q1 q2 hm S hV hX
    refine ⟨q', z1, z2, by rw [← hG] at z3; linarith, z4, z5, z6, z7, z8.trans_lt ?_⟩
    have v1 := mul_le_mul_of_nonneg_right (velOf_margin hV) (mul_pos hc hh).le
    rw [← hε] at v1
    have v2 : ε * h ≤ ε * (SpeedOfLight * h) := mul_le_mul_of_nonneg_left (le_mul_of_one_le_left hh.le hc1) hε0.le
    linarith
  have hg0 : 0 ≤ (G + 1) * h := by positivity
  have hgT : fs.length * ((G + 1) * h) ≤ T * (G + 1) := by
    calc _ = fs.length * h * (G + 1) := by ring
      _ ≤ _ := mul_le_mul_of_nonneg_right hn (by positivity)
  have hxT : fs.length * (SpeedOfLight * h + K * u) ≤ 2 * SpeedOfLight * T := by
    have w1 : K * u ≤ SpeedOfLight * h := hK1.trans (le_mul_of_one_le_left hh.le hc1)
    calc _ ≤ fs.length * (SpeedOfLight * h + SpeedOfLight * h) := mul_le_mul_of_nonneg_left (by linarith) (Nat.cast_nonneg _)
      _ = 2 * SpeedOfLight * (fs.length * h) := by ring
      _ ≤ _ := mul_le_mul_of_nonneg_left hn (by positivity)
  obtain ⟨a2, r1, c2, r3, r4⟩ := Rounded.drives hg0 one hKu0 hh (a.NP - 1) fs (fun f hm => hbd f (List.mem_cons_of_mem _ hm)) a1 0 S1
    (by rw [hVm]; linarith) (by rw [e5]; linarith) hcons1 (by omega) (by rw [e10, e5]; exact get_of_TrajPoint hax) (by intro k hk; omega)
  rw [zero_add] at r3 r4
  refine ⟨a1, a2, e0, r1, ?_, ?_⟩
  · show a2.NP = a.NP + fs.length
    omega
  · intro k hk
    obtain ⟨x, y, g1, g2, g3⟩ := r4 k hk
    exact ⟨x, y, TrajPoint_of_get c2 g1, TrajPoint_of_get c2 g2, g3⟩

/-- the hypotheses are met: a hundred steps in crossed electric and magnetic fields, with sufficiently many binary digits -/
example : ∃ N : ℕ, ∀ digits : ℕ, N ≤ digits → ∃ a1 a2,
    Rounded.InitVay (binary digits) (Particle.default.initTrajectory 0 0 ⟨0, 0, 60⟩ 0) 1e-10 (fun _ _ => .ok ⟨⟨0, 0, 1000⟩, ⟨0, 1, 0⟩⟩) = .ok a1 ∧
    Rounded.steps (binary digits) a1 (List.replicate 100 fun _ _ => .ok ⟨⟨0, 0, 1000⟩, ⟨0, 1, 0⟩⟩) = .ok a2 ∧
    ∀ k : ℕ, k < 100 → ∃ x y : Vec, a2.TrajPoint (k : Nat) = .ok x ∧ a2.TrajPoint (k + 1 : Nat) = .ok y ∧ (y - x).norm < SpeedOfLight * 1e-10 := by
  obtain ⟨κ, hκ, H⟩ := C133_slower_than_light (-1 / 1 * InvRestMass) 0 60 1000 1 1e-8 (by norm_num)
  obtain ⟨N, hN⟩ := exists_pow_lt_of_lt_one (show 0 < κ * 1e-10 by positivity) (show (1 / 2 : ℝ) < 1 by norm_num)
  refine ⟨N + 1, fun digits hd => ?_⟩
  have hu : (2 : ℝ) ^ (-(digits : Int)) ≤ (1 / 2) ^ N := by
    rw [zpow_neg, zpow_natCast, one_div, inv_pow]
    exact inv_anti₀ (by positivity) (pow_le_pow_right₀ (by norm_num) (by omega))
  obtain ⟨a1, a2, e1, e2, -, e3⟩ := H (binary digits) _ (binary_isRounding (by omega)) 1e-10 (by norm_num) (by norm_num) (hu.trans hN.le)
    (fun _ _ => .ok ⟨⟨0, 0, 1000⟩, ⟨0, 1, 0⟩⟩) (List.replicate 100 fun _ _ => .ok ⟨⟨0, 0, 1000⟩, ⟨0, 1, 0⟩⟩)
    (by rw [List.length_replicate]; norm_num)
    (by
      intro f hf t X _
      have hf' : f = fun _ _ => .ok ⟨⟨0, 0, 1000⟩, ⟨0, 1, 0⟩⟩ := by
        rcases List.mem_cons.mp hf with rfl | hf
        · rfl
        · exact List.eq_of_mem_replicate hf
      subst hf'
      refine ⟨_, rfl, ?_, ?_⟩ <;> rw [Vec.norm_def] <;> simp [Vec.abs2nd])
    (POp.exec Particle.default (.init 0 0 ⟨0, 0, 60⟩ 0))
    ⟨_, [.init 0 0 ⟨0, 0, 60⟩ 0], Or.inr (Or.inr (Or.inl rfl)), rfl⟩
    (by simp [POp.exec, POp.result, Particle.initTrajectory, Particle.default, Particle.new])
    (by simp [POp.exec, POp.result, Particle.initTrajectory, Particle.default, Particle.new]) 0 0 ⟨0, 0, 60⟩ rfl rfl rfl
    (by rw [Vec.norm_zero])
    (by
      rw [Vec.norm_def]
      simp [Vec.abs2nd])
  rw [List.length_replicate] at e3
  refine ⟨a1, a2, e1, e2, fun k hk => ?_⟩
  obtain ⟨x, y, g1, g2, g3⟩ := e3 k hk
  have h1 : (POp.exec Particle.default (.init 0 0 ⟨0, 0, 60⟩ 0)).getNP - 1 + k = k := by
    show 1 - 1 + k = k
    omega
  rw [h1] at g1 g2
  exact ⟨x, y, g1, g2, g3⟩

/-- numbers which are represented exactly, and a square so large that adding one does not change it -/
structure Rounded.Fast (rnd : ℝ → ℝ) (P h : ℝ) : Prop where
  pos : 0 < P
  zero : rnd 0 = 0
  one : rnd 1 = 1
  self : rnd P = P
  sq : rnd (P * P) = P * P
  sq1 : rnd (P * P + 1) = P * P
  sq2 : rnd (P * P * (P * P)) = P * P * (P * P)
  double : rnd (P * P + P * P) = P * P + P * P
  c : rnd SpeedOfLight = SpeedOfLight
  ch : rnd (SpeedOfLight * h) = SpeedOfLight * h

namespace Rounded.Fast
variable {rnd : ℝ → ℝ} {P h : ℝ}

theorem prime (F : Fast rnd P h) (q : ℝ) : vayPrime rnd q ⟨0, 0, P⟩ 0 = ⟨0, 0, P⟩ := by
  ext <;> simp [vayPrime, vadd, vmul, vdiv, F.zero, F.self]

theorem abs2 (F : Fast rnd P h) : rabs2nd rnd ⟨0, 0, P⟩ = P * P := by simp [rabs2nd, F.zero, F.sq]

theorem tau (F : Fast rnd P h) (q : ℝ) : vmul rnd 0 q = 0 := by ext <;> simp [vmul, F.zero]

theorem abs0 (F : Fast rnd P h) : rabs2nd rnd 0 = 0 := by simp [rabs2nd, F.zero]

theorem sigma (F : Fast rnd P h) (q : ℝ) : vaySigma rnd q ⟨0, 0, P⟩ 0 0 = P * P := by
  have : (1.0 : ℝ) = 1 := by norm_num
  rw [vaySigma, F.prime, F.abs2, F.tau, F.abs0, this, F.sq1, sub_zero, F.sq]

theorem disc (F : Fast rnd P h) (q : ℝ) : vayDisc rnd q ⟨0, 0, P⟩ 0 0 = P * P * (P * P) := by
  have : rdot rnd ⟨0, 0, P⟩ 0 = 0 := by simp [rdot, F.zero]
  simp only [vayDisc]
  rw [F.sigma, F.tau, F.prime, this, F.abs0, F.sq2]
  simp only [mul_zero, add_zero, F.zero, F.sq2]

theorem gamma2 (F : Fast rnd P h) (q : ℝ) : vayGamma2 rnd q ⟨0, 0, P⟩ 0 0 = P * P := by
  have hp := F.pos
  rw [vayGamma2, F.disc, F.sigma, Real.sqrt_mul_self (by positivity), F.sq, F.double]
  rw [show (0.5 : ℝ) * (P * P + P * P) = P * P by ring, F.sq]

theorem gamma (F : Fast rnd P h) (q : ℝ) : vayGamma rnd q ⟨0, 0, P⟩ 0 0 = P := by
  rw [vayGamma, F.gamma2, Real.sqrt_mul_self F.pos.le, F.self]

theorem t (F : Fast rnd P h) (q : ℝ) : vayT rnd q ⟨0, 0, P⟩ 0 0 = 0 := by
  rw [vayT, F.tau]
  ext <;> simp [vdiv, F.zero]

theorem den (F : Fast rnd P h) (q : ℝ) : vayDen rnd q ⟨0, 0, P⟩ 0 0 = 1 := by
  rw [vayDen, F.t, F.abs0, add_zero, F.one]

theorem momentum (F : Fast rnd P h) (q : ℝ) : vayMomentum rnd q ⟨0, 0, P⟩ 0 0 = ⟨0, 0, P⟩ := by
  simp only [vayMomentum]
  rw [F.prime, F.t, F.den]
  ext <;> simp [vdiv, vadd, vmul, rdot, rcross, F.zero, F.self]

theorem h2 (F : Fast rnd P h) : vayH2 rnd ⟨0, 0, P⟩ = P * P := by
  have : (1.0 : ℝ) = 1 := by norm_num
  rw [vayH2, F.abs2, this, F.sq1]

theorem defined (F : Fast rnd P h) (q : ℝ) : VayDefined rnd q ⟨0, 0, P⟩ 0 0 := by
  have hp := F.pos
  refine ⟨?_, ?_, ?_, ?_, ?_, ?_⟩
  · rw [F.disc]; positivity
  · rw [F.gamma2]; positivity
  · rw [F.gamma]; exact hp.ne'
  · rw [F.den]; exact one_ne_zero
  · rw [F.h2]; positivity
  · rw [F.h2, Real.sqrt_mul_self hp.le, F.self]; exact hp.ne'

theorem run (F : Fast rnd P h) : ∃ a1 a2,
    InitVay rnd (Particle.default.initTrajectory 0 0 ⟨0, 0, P⟩ 0) h (fun _ _ => .ok ⟨0, 0⟩) = .ok a1 ∧ StepVay rnd a1 (fun _ _ => .ok ⟨0, 0⟩) = .ok a2 ∧
    a2.TrajPoint 0 = .ok 0 ∧ a2.TrajPoint 1 = .ok ⟨0, 0, SpeedOfLight * h⟩ := by
  have hp := F.pos
  have i1 : ∃ a1, InitVay rnd (Particle.default.initTrajectory 0 0 ⟨0, 0, P⟩ 0) h (fun _ _ => .ok ⟨0, 0⟩) = .ok a1 ∧ a1.dt = h ∧ a1.XCur = 0 ∧ a1.VYgamma = P ∧
      a1.VYp = ⟨0, 0, P⟩ ∧ a1.NP = 1 ∧ a1.X = [0] := by
    simp only [InitVay, Particle.initTrajectory, Particle.default, Particle.new]
    simp only [lt_irrefl, one_ne_zero, if_false, List.getLast?_singleton]
    simp only [F.defined, not_true_eq_false, if_false, reduceCtorEq]
    exact ⟨_, rfl, rfl, rfl, F.gamma _, F.momentum _, rfl, rfl⟩
  obtain ⟨a1, e0, e1, e2, e3, e4, e5, e6⟩ := i1
  have hx : vadd rnd 0 (vmul rnd (vmul rnd (vdiv rnd ⟨0, 0, P⟩ P) SpeedOfLight) h) = ⟨0, 0, SpeedOfLight * h⟩ := by
    ext <;> simp [vadd, vmul, vdiv, F.zero, div_self hp.ne', F.one, F.c, F.ch]
  have hP : vadd rnd ⟨0, 0, P⟩ (vmul rnd (vadd rnd (vdiv rnd 0 SpeedOfLight) (rcross rnd (vdiv rnd ⟨0, 0, P⟩ P) 0)) a1.qmt2) = ⟨0, 0, P⟩ := by
    ext <;> simp [vadd, vmul, vdiv, rcross, F.zero, F.self]
  have hv : VayDefined rnd a1.qmt2 (vadd rnd a1.VYp (vmul rnd (vadd rnd (vdiv rnd 0 SpeedOfLight) (rcross rnd (vdiv rnd a1.VYp a1.VYgamma) 0)) a1.qmt2)) 0 0 := by
    rw [e3, e4, hP]
    exact F.defined _
  have i2 : ∃ a2, StepVay rnd a1 (fun _ _ => .ok ⟨0, 0⟩) = .ok a2 ∧ a2.NP = 2 ∧ a2.X = [0, ⟨0, 0, SpeedOfLight * h⟩] := by
    simp only [StepVay]
    rw [if_neg (by rw [e3]; exact hp.ne')]
    simp only [e1, e2, e3, e4, hx, hP]
    rw [if_neg (not_not.mpr hv)]
    refine ⟨_, rfl, ?_, ?_⟩
    · simp [Particle.storeTrajectoryPoint, e5]
    · simp [Particle.storeTrajectoryPoint, e6]
  obtain ⟨a2, r0, r1, r2⟩ := i2
  refine ⟨a1, a2, e0, r0, ?_, ?_⟩
  · simp [Particle.TrajPoint, Particle.vecAt, r1, r2]
  · simp [Particle.TrajPoint, Particle.vecAt, r1, r2]

end Rounded.Fast

/-- C133: the momentum has to be bounded.  With any number of digits (at least the 29 which it takes to represent the speed of light) there is a particle so
fast that it moves by c times the time step, even without fields: it has reached the speed of light. -/
theorem C133_unbounded_momentum_false (digits : ℕ) (hd : 29 ≤ digits) : ∃ a1 a2,
    Rounded.InitVay (binary digits) (Particle.default.initTrajectory 0 0 ⟨0, 0, 2 ^ digits⟩ 0) (1 / 2 ^ 30) (fun _ _ => .ok ⟨0, 0⟩) = .ok a1 ∧
    Rounded.StepVay (binary digits) a1 (fun _ _ => .ok ⟨0, 0⟩) = .ok a2 ∧
    ∃ x y : Vec, a2.TrajPoint 0 = .ok x ∧ a2.TrajPoint 1 = .ok y ∧ (y - x).norm = SpeedOfLight * (1 / 2 ^ 30) := by
  have hp : 1 ≤ digits := by omega
  have pw : ∀ k : ℕ, binary digits ((2 : ℝ) ^ k) = 2 ^ k := fun k => by
    have := binary_zpow hp (k : Int)
    rwa [zpow_natCast] at this
  have hm : |(299792458 : Int)| ≤ 2 ^ digits := by
    have : (2 : Int) ^ 29 ≤ 2 ^ digits := pow_le_pow_right₀ (by norm_num) hd
    rw [abs_of_pos (by norm_num)]
    linarith
  have hc : SpeedOfLight = ((299792458 : Int) : ℝ) := by norm_num [SpeedOfLight]
  have F : Rounded.Fast (binary digits) (2 ^ digits) (1 / 2 ^ 30) := {
    pos := by positivity
    zero := binary_zero _
    one := by simpa using pw 0
    self := pw _
    sq := by rw [← pow_add]; exact pw _
    sq1 := by
      have hP : (2 : ℝ) ^ 29 ≤ 2 ^ digits := pow_le_pow_right₀ (by norm_num) hd
      have h0 : (0 : ℝ) < 2 ^ digits * 2 ^ digits + 1 := by positivity
      have z1 : (2 : ℝ) ^ ((digits : Int) + 1) = 2 * 2 ^ digits := by rw [zpow_add₀ two_ne_zero, zpow_natCast, zpow_one, mul_comm]
      have z2 : (2 : ℝ) ^ ((digits : Int) + 1 + ((digits : Int) - 1)) = 2 ^ digits * 2 ^ digits := by
        rw [show (digits : Int) + 1 + ((digits : Int) - 1) = digits + digits by ring, zpow_add₀ two_ne_zero, zpow_natCast]
      have z3 : (2 : ℝ) ^ ((digits : Int) + 1 + (digits : Int)) = 2 * (2 ^ digits * 2 ^ digits) := by
        rw [zpow_add₀ two_ne_zero, z1, zpow_natCast, mul_assoc]
      have z4 : (((2 ^ (digits - 1) : Int)) : ℝ) = 2 ^ digits / 2 := by
        obtain ⟨k, rfl⟩ : ∃ k, digits = k + 1 := ⟨digits - 1, by omega⟩
        push_cast
        rw [pow_succ]
        simp
      have e := binary_digits (p := digits) ((2 : ℝ) ^ digits * 2 ^ digits + 1) (2 ^ (digits - 1)) ((digits : Int) + 1)
      rw [z1, z2, z3, z4, abs_of_pos h0] at e
      set Q := (2 : ℝ) ^ digits
      have hQ : 0 < Q := by linarith [show (0 : ℝ) < 2 ^ 29 by norm_num]
      have hQ2 : 2 ^ 29 ≤ Q := hP
      rw [e (by linarith) (by nlinarith) ?_]
      · ring
      · rw [show (Q * Q + 1) / (2 * Q) - Q / 2 = 1 / (2 * Q) by field_simp; ring, abs_of_pos (by positivity)]
        exact one_div_lt_one_div_of_lt (by norm_num) (by linarith)
    sq2 := by rw [← pow_add, ← pow_add]; exact pw _
    double := by rw [← two_mul, ← pow_add, ← pow_succ']; exact pw _
    c := by
      have := binary_exact hp 299792458 0 hm
      rw [zpow_zero, mul_one] at this
      rw [hc]; exact this
    ch := by
      have := binary_exact hp 299792458 (-30) hm
      rw [hc, one_div, ← zpow_natCast, ← zpow_neg]
      exact this }
  obtain ⟨a1, a2, e1, e2, e3, e4⟩ := F.run
  refine ⟨a1, a2, e1, e2, 0, _, e3, e4, ?_⟩
  have h0 : 0 < SpeedOfLight * (1 / 2 ^ 30) := mul_pos SpeedOfLight_pos (by positivity)
  rw [sub_zero, Vec.norm_def]
  simp only [Vec.abs2nd, mul_zero, zero_add]
  exact Real.sqrt_mul_self h0.le

end Teufel
