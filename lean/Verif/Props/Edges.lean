import Verif.Lemmas.EdgePath
import Verif.Props.Convergence
import Mathlib.Analysis.SpecialFunctions.Trigonometric.Bounds
import Mathlib.Analysis.Real.Pi.Bounds

/-!
# C120: tracking through hard-edge dipoles converges to the exact motion, and there is only one

`LatticeFaces lat faces` (Spec/Edges) lists the planes at which the field of a beam line may jump.  `EdgeMotion` is the relativistic equation of motion of a
particle which crosses these planes: velocity and momentum are continuous, the Lorentz force acts between the planes, and the particle never moves within one.
-/

namespace Teufel
open Vec

namespace Edge

/-- the start of a tracking run -/
theorem start_of {qm : ℝ} {field : FieldFn} {x p : ℝ → Vec} {t0 h : ℝ} (hh : 0 < h) {EB : EMField} (hE : field t0 (x t0) = .ok EB)
    {a : Particle} (ha : a.Reachable) (hmass : a.Mass ≠ 0) (hqm : a.Charge / a.Mass * InvRestMass = qm)
    (hat : a.TrajTime (a.getNP - 1 : Nat) = .ok t0) (hax : a.TrajPoint (a.getNP - 1 : Nat) = .ok (x t0))
    (hap : a.TrajMomentum (a.getNP - 1 : Nat) = .ok (p t0)) :
    ∃ a1, a.InitVay h field = .ok a1 ∧ a1.NP = a.NP ∧ a1.PCur = p t0 ∧
      Start qm x p t0 (|qm| * (EB.E.norm / SpeedOfLight + EB.B.norm)) h a1 := by
  have hcons := cons_reachable ha
  have hNP : 1 ≤ a.NP := by
    have := (List.getElem?_eq_some_iff.mp (get_of_TrajTime hat)).1
    rw [hcons.1] at this
    omega
  have gT : a.Time.getLast? = some t0 := by rw [List.getLast?_eq_getElem?, hcons.1]; exact get_of_TrajTime hat
  have gX : a.X.getLast? = some (x t0) := by rw [List.getLast?_eq_getElem?, hcons.2.1]; exact get_of_TrajPoint hax
  have gP : a.P.getLast? = some (p t0) := by rw [List.getLast?_eq_getElem?, hcons.2.2.1]; exact get_of_TrajMomentum hap
  have gA : a.A ≠ [] := by
    intro h0
    have := hcons.2.2.2
    rw [h0] at this
    simp at this
    omega
  have hinit : ∃ a1, a.InitVay h field = .ok a1 := by
    simp only [Particle.InitVay]
    rw [if_neg (by omega), if_neg hmass]
    simp only [gT, gX, gP, hE, gA, if_false]
    exact ⟨_, rfl⟩
  obtain ⟨a1, h1⟩ := hinit
  refine ⟨a1, h1, ?_⟩
  obtain ⟨-, -, t, y, pm, EB', hT', hX', hP', -, hf, e⟩ := Particle.InitVay_ok h1
  rw [gT] at hT'
  rw [gX] at hX'
  rw [gP] at hP'
  cases hT'
  cases hX'
  cases hP'
  rw [hE] at hf
  cases hf
  have q2 : a1.qmt2 = qm * (h / 2) := by rw [e]; simp only [hqm]; ring
  have hP : a1.PCur = p t0 := by rw [e]
  have hX : a1.XCur = x t0 := by rw [e]
  have hV : (a1.VYp - p t0).norm ≤ |qm| * (EB.E.norm / SpeedOfLight + EB.B.norm) * h := by
    have h5 := Particle.vay_implicit (qm * (h / 2)) (p t0) EB.E EB.B
    have h6 : a1.VYp = Particle.vayMomentum (qm * (h / 2)) (p t0) EB.E EB.B := by rw [← q2, e]
    rw [← h6] at h5
    have h7 : a1.VYp - p t0 = (EB.E / SpeedOfLight + cross (velOf a1.VYp) EB.B) * (qm * (h / 2)) := by
      conv_lhs => rw [h5]
      abel
    rw [h7]
    exact half_kick_le hh.le le_rfl
  refine ⟨by rw [e], hP, ⟨by rw [e], by rw [e]; exact hqm, q2, by rw [e], ?_⟩, ?_, ?_⟩
  · rw [e]
    exact Setting.gamma_eq _ _ _ _
  · unfold err
    rw [hX, sub_self, Vec.norm_zero, zero_add]
    exact hV
  · rw [hP, Vec.norm_sub_comm]
    exact hV

end Edge

/-- C120: a particle tracked through a beam line with hard-edge dipoles.  All steps succeed, and at every stored point position and momentum differ from the exact
motion by at most a constant times the time step.  The constant depends neither on the time step nor on the number of steps nor on the particle's past, nor on
where the steps happen to fall with respect to the faces of the dipoles. -/
theorem C120_first_order (lat : Lattice) (faces : List (Vec × Vec)) (hl : LatticeFaces lat faces) (qm : ℝ) (x p : ℝ → Vec) (t0 T : ℝ) (hT : 0 ≤ T)
    (hm : EdgeMotion qm lat.field faces x p t0 T) :
    ∃ C h0 : ℝ, 0 < h0 ∧ ∀ h : ℝ, 0 < h → h ≤ h0 → ∀ n : ℕ, n * h ≤ T →
      ∀ a : Particle, a.Reachable → a.Mass ≠ 0 → a.Charge / a.Mass * InvRestMass = qm →
        a.TrajTime (a.getNP - 1 : Nat) = .ok t0 → a.TrajPoint (a.getNP - 1 : Nat) = .ok (x t0) → a.TrajMomentum (a.getNP - 1 : Nat) = .ok (p t0) →
        ∃ a1 a2, a.InitVay h lat.field = .ok a1 ∧ a1.steps (List.replicate n lat.field) = .ok a2 ∧
          ∀ k : ℕ, k ≤ n → ∃ X P,
            a2.TrajTime (a.getNP - 1 + k : Nat) = .ok (t0 + k * h) ∧ a2.TrajPoint (a.getNP - 1 + k : Nat) = .ok X ∧
            a2.TrajMomentum (a.getNP - 1 + k : Nat) = .ok P ∧ (X - x (t0 + k * h)).norm ≤ C * h ∧ (P - p (t0 + k * h)).norm ≤ C * h := by
  have hb := Edge.lattice_bounded hl
  obtain ⟨M, hM⟩ := hb (|t0| + (x t0).norm)
  obtain ⟨EB, hE, -⟩ := hM t0 (x t0) (by linarith [Vec.norm_nonneg (x t0)]) (by linarith [abs_nonneg t0])
  obtain ⟨C, h0, hh0, H⟩ := Edge.upto_end (F0 := |qm| * (EB.E.norm / SpeedOfLight + EB.B.norm)) hT hm hb
    (fun τ h1 h2 => Edge.lattice_crossed hl (x τ) (velOf (p τ)) (hm.crossing τ h1 h2))
  refine ⟨2 * C, h0, hh0, fun h hh hle n hn a ha hmass hqm hat hax hap => ?_⟩
  obtain ⟨a1, h1, hnp, -, hst⟩ := Edge.start_of hh hE ha hmass hqm hat hax hap
  obtain ⟨a2, h2, -⟩ := H h hh hle a1 hst n (by linarith)
  refine ⟨a1, a2, h1, h2, fun k hk => ?_⟩
  have hcons := cons_reachable ha
  obtain ⟨-, e2, -⟩ := C05_equidistant a a1 a2 ha h lat.field (List.replicate n lat.field) t0 hat h1 h2
  have hc1 := Particle.cons_init hcons h1
  have hc2 := (Particle.steps_facts h2).1 hc1
  obtain ⟨q, q1, -, -, qX, qP, -⟩ := Particle.run_index hc1 (Particle.atEnd_init h1) h2 k (by simpa using hk)
  rw [List.take_replicate, min_eq_left hk] at q1
  have hkT : t0 + (k : ℝ) * h ≤ t0 + T := by
    have : (k : ℝ) * h ≤ n * h := mul_le_mul_of_nonneg_right (by exact_mod_cast hk) hh.le
    linarith
  obtain ⟨q', q3, -, q4, q5⟩ := H h hh hle a1 hst k hkT
  rw [q1] at q3
  cases q3
  rw [hnp] at qX qP
  unfold Edge.err at q4
  have n1 := Vec.norm_nonneg (q.XCur - x (t0 + k * h))
  have n2 := Vec.norm_nonneg (q.VYp - p (t0 + k * h))
  have n3 := Vec.norm_sub_le q.PCur q.VYp (p (t0 + k * h))
  exact ⟨q.XCur, q.PCur, e2 k (by simpa using hk), TrajPoint_of_get hc2 qX, TrajMomentum_of_get hc2 qP, by linarith, by linarith⟩

/-- a particle with given charge over mass at a given place -/
theorem Edge.particle (qm t0 : ℝ) (X P : Vec) : ∃ a : Particle, a.Reachable ∧ a.Mass ≠ 0 ∧ a.Charge / a.Mass * InvRestMass = qm ∧
    a.TrajTime (a.getNP - 1 : Nat) = .ok t0 ∧ a.TrajPoint (a.getNP - 1 : Nat) = .ok X ∧ a.TrajMomentum (a.getNP - 1 : Nat) = .ok P := by
  have hI := InvRestMass_pos.ne'
  refine ⟨POp.exec (Particle.new (qm / InvRestMass) 1) (.init t0 X P 0), ⟨Particle.new (qm / InvRestMass) 1, [.init t0 X P 0], Or.inl ⟨_, _, rfl⟩, rfl⟩, ?_, ?_, ?_, ?_, ?_⟩
  · simp [POp.exec, POp.result, Particle.initTrajectory, Particle.new]
  · simp [POp.exec, POp.result, Particle.initTrajectory, Particle.new]
    field_simp
  all_goals rfl

/-- C120: in a beam line with hard-edge dipoles there is at most one exact motion from a given start. -/
theorem C120_unique (lat : Lattice) (faces : List (Vec × Vec)) (hl : LatticeFaces lat faces) (qm : ℝ) (x p x' p' : ℝ → Vec) (t0 T : ℝ)
    (hm : EdgeMotion qm lat.field faces x p t0 T) (hm' : EdgeMotion qm lat.field faces x' p' t0 T) (hx : x t0 = x' t0) (hp : p t0 = p' t0) (t : ℝ)
    (h1 : t0 ≤ t) (h2 : t ≤ t0 + T) : x t = x' t ∧ p t = p' t := by
  rcases h1.eq_or_lt with rfl | h1
  · exact ⟨hx, hp⟩
  have hT : 0 ≤ T := by linarith
  obtain ⟨C, h0, hh0, H⟩ := C120_first_order lat faces hl qm x p t0 T hT hm
  obtain ⟨C', h0', hh0', H'⟩ := C120_first_order lat faces hl qm x' p' t0 T hT hm'
  obtain ⟨a, a1, a2, a3, a4, a5, a6⟩ := Edge.particle qm t0 (x t0) (p t0)
  have key : ∀ n : ℕ, 0 < n → (t - t0) / n ≤ min h0 h0' → (x t - x' t).norm ≤ (C + C') * (t - t0) / n ∧ (p t - p' t).norm ≤ (C + C') * (t - t0) / n := by
    intro n hn hle
    have hn0 : (0 : ℝ) < n := by exact_mod_cast hn
    set h := (t - t0) / n with hdef
    have hh : 0 < h := div_pos (by linarith) hn0
    have hnh : n * h = t - t0 := by rw [hdef]; field_simp
    obtain ⟨b1, b2, c1, c2, c3⟩ := H h hh (hle.trans (min_le_left _ _)) n (by linarith) a a1 a2 a3 a4 a5 a6
    obtain ⟨b1', b2', c1', c2', c3'⟩ := H' h hh (hle.trans (min_le_right _ _)) n (by linarith) a a1 a2 a3 a4 (hx ▸ a5) (hp ▸ a6)
    rw [c1] at c1'
    cases c1'
    rw [c2] at c2'
    cases c2'
    obtain ⟨X, P, -, d1, d2, d3, d4⟩ := c3 n le_rfl
    obtain ⟨X', P', -, d1', d2', d3', d4'⟩ := c3' n le_rfl
    rw [d1] at d1'
    cases d1'
    rw [d2] at d2'
    cases d2'
    rw [hnh, add_sub_cancel] at d3 d4 d3' d4'
    have e : (C + C') * (t - t0) / n = C * h + C' * h := by rw [hdef]; ring
    rw [e]
    constructor
    · have := Vec.norm_sub_le (x t) X (x' t)
      rw [Vec.norm_sub_comm (x t) X] at this
      linarith
    · have := Vec.norm_sub_le (p t) P (p' t)
      rw [Vec.norm_sub_comm (p t) P] at this
      linarith
  have zero : ∀ v : Vec, (∀ n : ℕ, 0 < n → (t - t0) / n ≤ min h0 h0' → v.norm ≤ (C + C') * (t - t0) / n) → v = 0 := by
    intro v hv
    by_contra hne
    have hpos := Vec.norm_pos hne
    obtain ⟨n, hn⟩ := exists_nat_gt (max ((t - t0) / min h0 h0') ((|(C + C')| * (t - t0)) / v.norm) )
    have hm0 : 0 < min h0 h0' := lt_min hh0 hh0'
    have n1 := (le_max_left _ _).trans_lt hn
    have n2 := (le_max_right _ _).trans_lt hn
    have hn0 : (0 : ℝ) < n := lt_of_le_of_lt (div_nonneg (by linarith) hm0.le) n1
    rw [div_lt_iff₀ hm0] at n1
    rw [div_lt_iff₀ hpos] at n2
    have h3 := hv n (by exact_mod_cast hn0) (by rw [div_le_iff₀ hn0]; linarith)
    rw [le_div_iff₀ hn0] at h3
    have h4 : (C + C') * (t - t0) ≤ |C + C'| * (t - t0) := mul_le_mul_of_nonneg_right (le_abs_self _) (by linarith)
    linarith
  exact ⟨sub_eq_zero.mp (zero _ fun n a b => (key n a b).1), sub_eq_zero.mp (zero _ fun n a b => (key n a b).2)⟩

/-! ## A concrete case: an electron flies straight into a hard-edge dipole and circulates in it -/

namespace EdgeExample

theorem glue {g h : ℝ → ℝ} {d : ℝ} (hg : HasDerivAt g d 0) (hh : HasDerivAt h d 0) (h0 : g 0 = h 0) :
    HasDerivAt (fun t => if t ≤ 0 then g t else h t) d 0 := by
  have a : HasDerivWithinAt (fun t => if t ≤ 0 then g t else h t) d (Set.Iic 0) 0 :=
    hg.hasDerivWithinAt.congr (fun t ht => if_pos ht) (if_pos le_rfl)
  have b : HasDerivWithinAt (fun t => if t ≤ 0 then g t else h t) d (Set.Ici 0) 0 := by
    refine hh.hasDerivWithinAt.congr (fun t ht => ?_) (by simp [h0])
    rcases (show (0:ℝ) ≤ t from ht).eq_or_lt with h | h
    · subst h; simp [h0]
    · exact if_neg (not_le.mpr h)
  have := a.union b
  rwa [Set.Iic_union_Ici, hasDerivWithinAt_univ] at this

theorem left {g h : ℝ → ℝ} {d t : ℝ} (ht : t < 0) (hg : HasDerivAt g d t) : HasDerivAt (fun t => if t ≤ 0 then g t else h t) d t :=
  hg.congr_of_eventuallyEq (Filter.mem_of_superset (Iio_mem_nhds ht) fun s hs => if_pos (le_of_lt hs))

theorem right {g h : ℝ → ℝ} {d t : ℝ} (ht : 0 < t) (hh : HasDerivAt h d t) : HasDerivAt (fun t => if t ≤ 0 then g t else h t) d t :=
  hh.congr_of_eventuallyEq (Filter.mem_of_superset (Ioi_mem_nhds ht) fun s hs => if_neg (not_le.mpr hs))

/-- the distance between the faces is twice the radius of the circle -/
noncomputable def depth : ℝ := 2 * (SpeedOfLight / (Real.sqrt 2 * (-circleW)))
noncomputable def dipole : HardEdgeDipole := ⟨⟨0, 1, 0⟩, ⟨0, 0, 0⟩, ⟨0, 0, -1⟩, ⟨0, 0, depth⟩, ⟨0, 0, 1⟩⟩
noncomputable def lat : Lattice := [LocalizedField dipole.LocalField 0 0]
noncomputable def faces : List (Vec × Vec) := [(dipole.p_1 + 0, dipole.n_1), (dipole.p_2 + 0, dipole.n_2)]

noncomputable def P (t : ℝ) : Vec := ⟨if t ≤ 0 then 0 else (circleP t).x, 0, if t ≤ 0 then 1 else (circleP t).z⟩
noncomputable def X (t : ℝ) : Vec :=
  ⟨if t ≤ 0 then SpeedOfLight / (Real.sqrt 2 * circleW) else (circleX t).x, 0, if t ≤ 0 then SpeedOfLight / Real.sqrt 2 * t else (circleX t).z⟩

theorem lat_faces : LatticeFaces lat faces := .cons (.hardEdge dipole 0 0) .nil

theorem circleW_neg : circleW < 0 := by
  unfold circleW
  have := InvRestMass_pos
  have h2 : 0 < Real.sqrt 2 := by positivity
  apply div_neg_of_neg_of_pos _ h2
  linarith

open Classical in
theorem lat_field (t : ℝ) (X : Vec) : lat.field t X = .ok ⟨0, if 0 < X.z ∧ X.z < depth then ⟨0, 1, 0⟩ else 0⟩ := by
  have h1 : dot (X - 0 - dipole.p_1) dipole.n_1 < 0 ↔ 0 < X.z := by simp [dipole, dot]
  have h2 : dot (X - 0 - dipole.p_2) dipole.n_2 < 0 ↔ X.z < depth := by simp [dipole, dot]
  simp only [lat, Lattice.field, List.foldlM_cons, List.foldlM_nil, LocalizedField, HardEdgeDipole.LocalField, h1, h2]
  simp only [Except.map, bind, Except.bind, pure, Except.pure, dipole]
  congr 1
  ext <;> simp

theorem bounds {t : ℝ} (h0 : 0 < t) (h1 : t ≤ 1 / -circleW) : 0 < (circleX t).z ∧ (circleX t).z < depth ∧ 0 < (circleP t).z := by
  have hw := circleW_neg
  have hc := SpeedOfLight_pos
  have h2 : 0 < Real.sqrt 2 := by positivity
  set s := -circleW * t with hs
  have hs0 : 0 < s := mul_pos (by linarith) h0
  have hs1 : s ≤ 1 := by
    rw [le_div_iff₀ (by linarith)] at h1
    rw [hs]
    linarith
  have hpi := Real.pi_gt_d2
  have e : circleW * t = -s := by rw [hs]; ring
  have r0 : 0 < SpeedOfLight / (Real.sqrt 2 * -circleW) := div_pos hc (mul_pos h2 (by linarith))
  have e2 : (circleX t).z = SpeedOfLight / (Real.sqrt 2 * -circleW) * Real.sin s := by
    simp only [circleX, e, Real.sin_neg]
    rw [mul_neg (Real.sqrt 2), div_neg]
    ring
  refine ⟨?_, ?_, ?_⟩
  · rw [e2]
    exact mul_pos r0 (Real.sin_pos_of_pos_of_lt_pi hs0 (by linarith))
  · rw [e2, depth]
    nlinarith [Real.sin_le_one s]
  · simp only [circleP, e, Real.cos_neg]
    exact Real.cos_pos_of_mem_Ioo ⟨by linarith, by linarith⟩

theorem circle_gamma (t : ℝ) : Real.sqrt (1 + (circleP t).abs2nd) = Real.sqrt 2 := by
  congr 1
  have := Real.sin_sq_add_cos_sq (circleW * t)
  simp only [circleP, abs2nd]
  nlinarith

theorem gammaP (t : ℝ) : Real.sqrt (1 + (P t).abs2nd) = Real.sqrt 2 := by
  by_cases h : t ≤ 0
  · simp only [P, h, if_true, abs2nd]
    norm_num
  · rw [← circle_gamma t]
    simp only [P, h, if_false, abs2nd, circleP]

theorem P_zero {t : ℝ} (ht : t ≤ 0) : P t = ⟨0, 0, 1⟩ := by simp [P, ht]
theorem P_pos {t : ℝ} (ht : 0 < t) : P t = circleP t := by simp [P, not_le.mpr ht, circleP]
theorem X_zero {t : ℝ} (ht : t ≤ 0) : X t = ⟨SpeedOfLight / (Real.sqrt 2 * circleW), 0, SpeedOfLight / Real.sqrt 2 * t⟩ := by simp [X, ht]
theorem X_pos {t : ℝ} (ht : 0 < t) : X t = circleX t := by simp [X, not_le.mpr ht, circleX]

theorem hl (t : ℝ) : HasDerivAt (fun s => circleW * s) circleW t := by simpa using (hasDerivAt_id t).const_mul circleW

theorem circle_x (t : ℝ) : HasDerivAt (fun s => (circleX s).x) (velOf (circleP t) * SpeedOfLight).x t ∧
    HasDerivAt (fun s => (circleX s).z) (velOf (circleP t) * SpeedOfLight).z t := by
  have hw := circleW_neg.ne
  have h2 : Real.sqrt 2 ≠ 0 := by positivity
  unfold velOf
  rw [circle_gamma]
  constructor
  · have := ((hl t).cos).const_mul (SpeedOfLight / (Real.sqrt 2 * circleW))
    refine this.congr_deriv ?_
    simp [circleP]
    field_simp
  · have := ((hl t).sin).const_mul (SpeedOfLight / (Real.sqrt 2 * circleW))
    refine this.congr_deriv ?_
    simp [circleP]
    field_simp

theorem circle_p (t : ℝ) :
    HasDerivAt (fun s => (circleP s).x) ((0 + cross (velOf (circleP t) * SpeedOfLight) ⟨0, 1, 0⟩) * (-1 / 1 * InvRestMass / SpeedOfLight) : Vec).x t ∧
    HasDerivAt (fun s => (circleP s).z) ((0 + cross (velOf (circleP t) * SpeedOfLight) ⟨0, 1, 0⟩) * (-1 / 1 * InvRestMass / SpeedOfLight) : Vec).z t := by
  have hc := SpeedOfLight_pos.ne'
  have h2 : Real.sqrt 2 ≠ 0 := by positivity
  unfold velOf
  rw [circle_gamma]
  constructor
  · have := ((hl t).sin).neg
    refine this.congr_deriv ?_
    simp [circleP, cross]
    unfold circleW
    field_simp
  · have := (hl t).cos
    refine this.congr_deriv ?_
    simp [circleP, cross]
    unfold circleW
    field_simp

theorem motion : EdgeMotion (-1 / 1 * InvRestMass) lat.field faces X P (-(1 / -circleW)) (2 * (1 / -circleW)) := by
  have hw := circleW_neg
  have hc := SpeedOfLight_pos
  have h2 : 0 < Real.sqrt 2 := by positivity
  have hend : ∀ t, t ≤ -(1 / -circleW) + 2 * (1 / -circleW) → t ≤ 1 / -circleW := fun t h => by linarith
  have hvel0 : ∀ t, t ≤ 0 → velOf (P t) * SpeedOfLight = ⟨0, 0, SpeedOfLight / Real.sqrt 2⟩ := by
    intro t ht
    unfold velOf
    rw [gammaP, P_zero ht]
    ext <;> simp
    ring
  have hforward : ∀ t, t ≤ -(1 / -circleW) + 2 * (1 / -circleW) → 0 < (velOf (P t)).z := by
    intro t ht
    unfold velOf
    rw [gammaP]
    simp only [div_z]
    refine div_pos ?_ h2
    by_cases h0 : t ≤ 0
    · rw [P_zero h0]; norm_num
    · rw [P_pos (not_le.mp h0)]
      exact (bounds (not_le.mp h0) (hend t ht)).2.2
  have k : ∀ q r : ℝ, HasDerivAt (fun r => q * r) q r := fun q r => by simpa using (hasDerivAt_id r).const_mul q
  refine ⟨?_, ?_, ?_, ?_⟩
  · intro t _ _
    rcases lt_trichotomy t 0 with h | h | h
    · rw [hvel0 t h.le]
      exact ⟨left h (hasDerivAt_const _ _), hasDerivAt_const _ _, left h (k _ _)⟩
    · subst h
      have e1 : (velOf (circleP 0) * SpeedOfLight) = ⟨0, 0, SpeedOfLight / Real.sqrt 2⟩ := by
        unfold velOf
        rw [circle_gamma]
        ext <;> simp [circleP]
        ring
      obtain ⟨c1, c2⟩ := circle_x 0
      rw [e1] at c1 c2
      rw [hvel0 0 le_rfl]
      exact ⟨glue (hasDerivAt_const _ _) c1 (by simp [circleX]), hasDerivAt_const _ _, glue (k _ _) c2 (by simp [circleX])⟩
    · obtain ⟨c1, c2⟩ := circle_x t
      rw [P_pos h]
      refine ⟨right h c1, ?_, right h c2⟩
      simpa [X, velOf, circleP] using hasDerivAt_const t (0 : ℝ)
  · have hx : Continuous (fun t => (circleP t).x) := (Real.continuous_sin.comp (continuous_const.mul continuous_id)).neg
    have hz : Continuous (fun t => (circleP t).z) := Real.continuous_cos.comp (continuous_const.mul continuous_id)
    refine ⟨(Continuous.if_le continuous_const hx continuous_id continuous_const ?_).continuousOn, continuousOn_const,
      (Continuous.if_le continuous_const hz continuous_id continuous_const ?_).continuousOn⟩
    · intro t ht
      have : t = 0 := ht
      subst this
      simp [circleP]
    · intro t ht
      have : t = 0 := ht
      subst this
      simp [circleP]
  · intro t _ ht hoff
    rcases lt_trichotomy t 0 with h | h | h
    · refine ⟨⟨0, 0⟩, ?_, ?_⟩
      · rw [lat_field, if_neg]
        rw [X_zero h.le]
        rintro ⟨a, -⟩
        have : SpeedOfLight / Real.sqrt 2 * t < 0 := mul_neg_of_pos_of_neg (by positivity) h
        simp only at a
        linarith
      · have e : ((0 : Vec) + cross (velOf (P t) * SpeedOfLight) 0) * (-1 / 1 * InvRestMass / SpeedOfLight) = ⟨0, 0, 0⟩ := by
          ext <;> simp [cross]
        show HasVelocity P (((0 : Vec) + cross (velOf (P t) * SpeedOfLight) 0) * (-1 / 1 * InvRestMass / SpeedOfLight)) t
        rw [e]
        exact ⟨left h (hasDerivAt_const _ _), hasDerivAt_const _ _, left h (hasDerivAt_const _ _)⟩
    · exfalso
      subst h
      refine hoff (dipole.p_1 + 0, dipole.n_1) (by simp [faces]) ?_
      simp [OnFace, X_zero, dipole, dot]
    · obtain ⟨b1, b2, -⟩ := bounds h (hend t ht)
      refine ⟨⟨0, ⟨0, 1, 0⟩⟩, ?_, ?_⟩
      · rw [lat_field, X_pos h, if_pos ⟨b1, b2⟩]
      · obtain ⟨c1, c2⟩ := circle_p t
        rw [P_pos h]
        refine ⟨right h c1, ?_, right h c2⟩
        simpa [P, velOf, circleP, cross] using hasDerivAt_const t (0 : ℝ)
  · intro t _ ht f hf _
    have := hforward t ht
    simp only [faces, List.mem_cons, List.not_mem_nil, or_false] at hf
    rcases hf with rfl | rfl
    · simp [dipole, dot]
      exact this.ne'
    · simp [dipole, dot]
      exact this.ne'

/-- non-vacuity: the electron meets all hypotheses of C120; it does cross a face -/
example : LatticeFaces lat faces ∧ EdgeMotion (-1 / 1 * InvRestMass) lat.field faces X P (-(1 / -circleW)) (2 * (1 / -circleW)) ∧
    (∃ f ∈ faces, OnFace (X 0) f) ∧
    ∃ a : Particle, a.Reachable ∧ a.Mass ≠ 0 ∧ a.Charge / a.Mass * InvRestMass = -1 / 1 * InvRestMass ∧
      a.TrajTime (a.getNP - 1 : Nat) = .ok (-(1 / -circleW)) ∧ a.TrajPoint (a.getNP - 1 : Nat) = .ok (X (-(1 / -circleW))) ∧
      a.TrajMomentum (a.getNP - 1 : Nat) = .ok (P (-(1 / -circleW))) :=
  ⟨lat_faces, motion, ⟨(dipole.p_1 + 0, dipole.n_1), by simp [faces], by simp [OnFace, X_zero, dipole, dot]⟩, Edge.particle _ _ _ _⟩

end EdgeExample

end Teufel
