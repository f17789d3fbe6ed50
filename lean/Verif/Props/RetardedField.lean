import Verif.Lemmas.Retarded
import Verif.Props.Vay
import Verif.Spec.LW
import Mathlib.Analysis.SpecialFunctions.Sqrt
import Mathlib.Analysis.Calculus.Deriv.Inv
import Mathlib.Analysis.Calculus.Deriv.Add

/-! # C12, C68: the retarded field of a trajectory point -/

namespace Teufel
open Vec

theorem gamma_form (m : Vec) : m.abs2nd + 1 = 1 + Vec.norm m ^ 2 := by rw [Vec.norm_sq]; ring

theorem betaOf_sq (m : Vec) : 1 - dot (betaOf m) (betaOf m) = 1 / (m.abs2nd + 1) := by
  have h := abs2nd_nonneg m
  have hs : Real.sqrt (1 + Vec.norm m ^ 2) ^ 2 = m.abs2nd + 1 := by
    rw [Real.sq_sqrt (by positivity), gamma_form]
  have hpos : 0 < Real.sqrt (1 + Vec.norm m ^ 2) := Real.sqrt_pos.mpr (by positivity)
  have : dot (betaOf m) (betaOf m) = m.abs2nd / (m.abs2nd + 1) := by
    rw [← hs]
    simp only [betaOf, dot, div_x, div_y, div_z, abs2nd]
    field_simp
  rw [this]
  field_simp
  ring

theorem betaOf_norm_lt (m : Vec) : Vec.norm (betaOf m) < 1 := by
  have h := betaOf_sq m
  have h0 := abs2nd_nonneg m
  have : 0 < 1 / (m.abs2nd + 1) := by positivity
  have e : (betaOf m).abs2nd = dot (betaOf m) (betaOf m) := rfl
  rw [Vec.norm_def, show (1:ℝ) = Real.sqrt 1 by simp]
  exact Real.sqrt_lt_sqrt (abs2nd_nonneg _) (by rw [e]; linarith)

/-- the code's evaluation is the textbook Liénard-Wiechert field -/
theorem lwField_eq (charge : ℝ) (x m b obs : Vec) :
    Particle.lwField charge x (betaOf m) b (m.abs2nd + 1) obs = LW (charge * ElementaryCharge) x (betaOf m) b obs := by
  have hN : normalize (obs - x) = (obs - x) / Vec.norm (obs - x) := rfl
  have hE : (Particle.lwField charge x (betaOf m) b (m.abs2nd + 1) obs).E = LWE (charge * ElementaryCharge) x (betaOf m) b obs := by
    simp only [Particle.lwField, LWE, hN, Pi]
    rw [betaOf_sq, dot_comm (betaOf m)]
    have h0 := abs2nd_nonneg m
    set k := 1 - dot ((obs - x) / Vec.norm (obs - x)) (betaOf m)
    set R := Vec.norm (obs - x)
    congr 1
    have e1 : ∀ v : Vec, v / (R * R * k ^ 3 * (m.abs2nd + 1)) = v * (1 / (m.abs2nd + 1) / (k ^ 3 * R ^ 2)) := by
      intro v
      have : R * R * k ^ 3 * (m.abs2nd + 1) = (m.abs2nd + 1) * (k ^ 3 * R ^ 2) := by ring
      rw [this]
      ext <;> simp only [div_x, div_y, div_z, mul_x, mul_y, mul_z] <;> rw [div_div, mul_one_div]
    have e2 : ∀ v : Vec, v / (R * k ^ 3 * SpeedOfLight) = v * (1 / (SpeedOfLight * k ^ 3 * R)) := by
      intro v
      have : R * k ^ 3 * SpeedOfLight = SpeedOfLight * k ^ 3 * R := by ring
      rw [this]
      ext <;> simp only [div_x, div_y, div_z, mul_x, mul_y, mul_z] <;> rw [mul_one_div]
    rw [e1, e2]
  have hB : (Particle.lwField charge x (betaOf m) b (m.abs2nd + 1) obs).B
      = cross (normalize (obs - x)) (Particle.lwField charge x (betaOf m) b (m.abs2nd + 1) obs).E / SpeedOfLight := rfl
  rw [hE, hN] at hB
  cases hf : Particle.lwField charge x (betaOf m) b (m.abs2nd + 1) obs with
  | mk E B =>
    rw [hf] at hE hB
    simp only [LW]
    exact EMField.ext hE hB

/-- C12: for every stored point the field computed for an observer is the Liénard-Wiechert field of a charge
at that point with velocity `β = p/√(1+p²)` and acceleration `β' = a/√(1+p²)`; an observer sitting on the
source is a division by zero, a non-existing index raises IOexception. -/
theorem C12_lienard_wiechert (p : Particle) (i : Nat) (x m a : Vec) (hx : p.TrajPoint i = .ok x)
    (hm : p.TrajMomentum i = .ok m) (ha : p.TrajAccel i = .ok a) (obs : Vec) :
    (obs ≠ x → p.RetardedFieldIdx i obs
      = .ok (LW (p.Charge * ElementaryCharge) x (betaOf m) (a / Real.sqrt (1 + Vec.norm m ^ 2)) obs)) ∧
    (obs = x → p.RetardedFieldIdx i obs = .error .nan) := by
  have hz : Vec.norm (obs - x) = 0 ↔ obs = x := by
    rw [Vec.norm_eq_zero]; exact sub_eq_zero
  simp only [Particle.RetardedFieldIdx, hx, hm, ha, bind, Except.bind]
  constructor
  · intro h
    rw [if_neg (by rw [hz]; exact h), gamma_form]
    have := lwField_eq p.Charge x m (a / Real.sqrt (1 + Vec.norm m ^ 2)) obs
    rw [gamma_form] at this
    rw [← this]; rfl
  · intro h
    rw [if_pos (by rw [hz]; exact h)]

/-- C12: `B = n×E/c`, hence E, B and the direction of observation n are mutually orthogonal (E and n are not). -/
theorem C12_orthogonal (p : Particle) (i : Nat) (x obs : Vec) (hx : p.TrajPoint i = .ok x) (F : EMField)
    (hF : p.RetardedFieldIdx i obs = .ok F) :
    F.B = cross ((obs - x) / Vec.norm (obs - x)) F.E / SpeedOfLight ∧ dot F.E F.B = 0 ∧ dot (obs - x) F.B = 0 ∧ obs ≠ x := by
  simp only [Particle.RetardedFieldIdx, hx, bind, Except.bind] at hF
  cases hm : p.TrajMomentum i with
  | error e => rw [hm] at hF; simp at hF
  | ok m =>
    cases ha : p.TrajAccel i with
    | error e => rw [hm, ha] at hF; simp at hF
    | ok a =>
      rw [hm, ha] at hF
      simp only at hF
      split at hF
      · simp at hF
      · rename_i hne
        injection hF with hF
        have hne' : obs ≠ x := fun h => hne (by rw [Vec.norm_eq_zero]; exact sub_eq_zero.mpr h)
        have hB : F.B = cross ((obs - x) / Vec.norm (obs - x)) F.E / SpeedOfLight := by rw [← hF]; rfl
        refine ⟨hB, ?_, ?_, hne'⟩
        · rw [hB, dot_div_right, dot_cross_right, zero_div]
        · rw [hB, dot_div_right]
          have : dot (obs - x) (cross ((obs - x) / Vec.norm (obs - x)) F.E) = 0 := by
            simp only [dot, cross, div_x, div_y, div_z]; ring
          rw [this, zero_div]

/-- C12: the field is proportional to the charge. -/
theorem C12_charge_linear (p : Particle) (q k : ℝ) (i : Int) (obs : Vec) :
    ({ p with Charge := q * k } : Particle).RetardedFieldIdx i obs
      = (({ p with Charge := q } : Particle).RetardedFieldIdx i obs).map (fun F : EMField => F * k) := by
  have e : ∀ x b b' g, Particle.lwField (q * k) x b b' g obs = Particle.lwField q x b b' g obs * k := by
    intro x b b' g
    have hE : (Particle.lwField (q * k) x b b' g obs).E = (Particle.lwField q x b b' g obs).E * k := by
      simp only [Particle.lwField]
      ext <;> simp <;> ring
    have hB : (Particle.lwField (q * k) x b b' g obs).B = (Particle.lwField q x b b' g obs).B * k := by
      have h1 : ∀ q, (Particle.lwField q x b b' g obs).B
        = cross (normalize (obs - x)) (Particle.lwField q x b b' g obs).E / SpeedOfLight := fun _ => rfl
      rw [h1, h1, hE]
      ext <;> simp <;> ring
    exact EMField.ext hE hB
  have t1 : ∀ c, ({ p with Charge := c } : Particle).TrajPoint i = p.TrajPoint i := fun _ => rfl
  have t2 : ∀ c, ({ p with Charge := c } : Particle).TrajMomentum i = p.TrajMomentum i := fun _ => rfl
  have t3 : ∀ c, ({ p with Charge := c } : Particle).TrajAccel i = p.TrajAccel i := fun _ => rfl
  simp only [Particle.RetardedFieldIdx, t1, t2, t3]
  cases p.TrajPoint i with
  | error _ => rfl
  | ok x =>
    cases p.TrajMomentum i with
    | error _ => rfl
    | ok m =>
      cases p.TrajAccel i with
      | error _ => rfl
      | ok a =>
        simp only [bind, Except.bind, Except.map]
        by_cases h : Vec.norm (obs - x) = 0
        · rw [if_pos h, if_pos h]
        · rw [if_neg h, if_neg h, e]

/-- C12: an unaccelerated charge at rest gives exactly the Coulomb field and no magnetic field. -/
theorem C12_coulomb (p : Particle) (i : Nat) (x : Vec) (hx : p.TrajPoint i = .ok x)
    (hm : p.TrajMomentum i = .ok 0) (ha : p.TrajAccel i = .ok 0) (obs : Vec) (h : obs ≠ x) :
    p.RetardedFieldIdx i obs
      = .ok ⟨(obs - x) * (p.Charge * ElementaryCharge / (4 * Real.pi * EpsNull) / Vec.norm (obs - x) ^ 3), 0⟩ := by
  rw [(C12_lienard_wiechert p i x 0 0 hx hm ha obs).1 h]
  have hR : Vec.norm (obs - x) ≠ 0 := by rw [Ne, Vec.norm_eq_zero]; exact fun h' => h (sub_eq_zero.mp h')
  have hb : betaOf 0 = 0 := by ext <;> simp [betaOf]
  have hz : ((0 : Vec) / Real.sqrt (1 + Vec.norm (0 : Vec) ^ 2)) = 0 := by ext <;> simp
  rw [hb, hz]
  have hE : LWE (p.Charge * ElementaryCharge) x 0 0 obs
      = (obs - x) * (p.Charge * ElementaryCharge / (4 * Real.pi * EpsNull) / Vec.norm (obs - x) ^ 3) := by
    simp only [LWE]
    set R := Vec.norm (obs - x)
    ext <;> simp [dot] <;> field_simp
  simp only [LW]
  congr 1
  refine EMField.ext hE ?_
  simp only [hE]
  ext <;> simp <;> ring_nf <;> simp

/-- C12: the part of the field due to the acceleration is transversal to the direction of observation. -/
theorem C12_radiation_transversal (p p' : Particle) (i : Nat) (x m a : Vec) (hx : p.TrajPoint i = .ok x)
    (hm : p.TrajMomentum i = .ok m) (ha : p.TrajAccel i = .ok a) (hx' : p'.TrajPoint i = .ok x)
    (hm' : p'.TrajMomentum i = .ok m) (ha' : p'.TrajAccel i = .ok 0) (hq : p.Charge = p'.Charge) (obs : Vec) (F G : EMField)
    (hF : p.RetardedFieldIdx i obs = .ok F) (hG : p'.RetardedFieldIdx i obs = .ok G) : dot (obs - x) (F.E - G.E) = 0 := by
  have hne := (C12_orthogonal p i x obs hx F hF).2.2.2
  rw [(C12_lienard_wiechert p i x m a hx hm ha obs).1 hne] at hF
  rw [(C12_lienard_wiechert p' i x m 0 hx' hm' ha' obs).1 hne] at hG
  injection hF with hF; injection hG with hG
  subst hF; subst hG
  rw [hq]
  simp only [LW, LWE]
  simp only [dot, cross, div_x, div_y, div_z, sub_x, sub_y, sub_z, add_x, add_y, add_z, mul_x, mul_y, mul_z, zero_x, zero_y, zero_z]
  ring

/-! ## C68: the acceleration entering the radiation field -/

theorem betaDotOf_is_derivative (px py pz : ℝ → ℝ) (a : Vec) (t : ℝ)
    (hx : HasDerivAt px a.x t) (hy : HasDerivAt py a.y t) (hz : HasDerivAt pz a.z t) :
    HasDerivAt (fun s => (betaOf ⟨px s, py s, pz s⟩).x) (betaDotOf ⟨px t, py t, pz t⟩ a).x t ∧
    HasDerivAt (fun s => (betaOf ⟨px s, py s, pz s⟩).y) (betaDotOf ⟨px t, py t, pz t⟩ a).y t ∧
    HasDerivAt (fun s => (betaOf ⟨px s, py s, pz s⟩).z) (betaDotOf ⟨px t, py t, pz t⟩ a).z t := by
  have e : ∀ s, 1 + Vec.norm ⟨px s, py s, pz s⟩ ^ 2 = 1 + (px s * px s + py s * py s + pz s * pz s) := by
    intro s; rw [Vec.norm_sq]; rfl
  have hq : HasDerivAt (fun s => 1 + (px s * px s + py s * py s + pz s * pz s))
      ((a.x * px t + px t * a.x) + (a.y * py t + py t * a.y) + (a.z * pz t + pz t * a.z)) t := by
    have h := HasDerivAt.add (HasDerivAt.add (HasDerivAt.mul hx hx) (HasDerivAt.mul hy hy)) (HasDerivAt.mul hz hz)
    exact HasDerivAt.const_add (1 : ℝ) h
  have hpos : 0 < 1 + (px t * px t + py t * py t + pz t * pz t) := by
    nlinarith [mul_self_nonneg (px t), mul_self_nonneg (py t), mul_self_nonneg (pz t)]
  have hs := hq.sqrt hpos.ne'
  have hspos := Real.sqrt_pos.mpr hpos
  have hss := Real.sq_sqrt hpos.le
  have key : ∀ (f : ℝ → ℝ) (f' : ℝ), HasDerivAt f f' t →
      HasDerivAt (fun s => f s / Real.sqrt (1 + (px s * px s + py s * py s + pz s * pz s)))
        ((f' - f t / Real.sqrt (1 + (px t * px t + py t * py t + pz t * pz t)) *
          ((px t * a.x + py t * a.y + pz t * a.z) / Real.sqrt (1 + (px t * px t + py t * py t + pz t * pz t))))
          / Real.sqrt (1 + (px t * px t + py t * py t + pz t * pz t))) t := by
    intro f f' hf
    refine (HasDerivAt.div hf hs hspos.ne').congr_deriv ?_
    set r := Real.sqrt (1 + (px t * px t + py t * py t + pz t * pz t))
    have hr : r ≠ 0 := hspos.ne'
    field_simp
    ring
  have dotd : ∀ (v w : Vec) (r : ℝ), dot (v / r) w = dot v w / r := fun v w r => dot_div_left v w r
  refine ⟨?_, ?_, ?_⟩
  · simp only [betaOf, betaDotOf, e, dotd]; exact key px a.x hx
  · simp only [betaOf, betaDotOf, e, dotd]; exact key py a.y hy
  · simp only [betaOf, betaDotOf, e, dotd]; exact key pz a.z hz

/-- C68 (partial): if the recorded acceleration (the time derivative of the momentum `βγ`) is perpendicular to
the momentum, the field computed for a trajectory point is the Liénard-Wiechert field for the true velocity
derivative.  Missing: accelerations with a component along the velocity. -/
theorem C68_true_acceleration_partial (p : Particle) (i : Nat) (x m a : Vec) (hx : p.TrajPoint i = .ok x)
    (hm : p.TrajMomentum i = .ok m) (ha : p.TrajAccel i = .ok a) (hperp : dot m a = 0) (obs : Vec) (hne : obs ≠ x) :
    p.RetardedFieldIdx i obs = .ok (LW (p.Charge * ElementaryCharge) x (betaOf m) (betaDotOf m a) obs) := by
  rw [(C12_lienard_wiechert p i x m a hx hm ha obs).1 hne]
  have : betaDotOf m a = a / Real.sqrt (1 + Vec.norm m ^ 2) := by
    simp only [betaDotOf]
    have : dot (betaOf m) a = 0 := by simp only [betaOf]; rw [dot_div_left, hperp, zero_div]
    rw [this]; congr 1; ext <;> simp
  rw [this]

theorem accel_perp (qm : ℝ) (P E B : Vec) (hE : E = 0) : dot P (Particle.vayAccel qm P E B) = 0 := by
  subst hE
  simp only [Particle.vayAccel, dot, cross, div_x, div_y, div_z, mul_x, mul_y, mul_z, add_x, add_y, add_z, zero_x, zero_y, zero_z]
  ring

/-- C68: for a particle tracked in arbitrary magnetic fields (E = 0 at every evaluation) the field of every
point of the run is the Liénard-Wiechert field for the true velocity derivative. -/
theorem C68_magnetic_tracking (p p1 p2 : Particle) (hp : p.Reachable) (dt : ℝ) (f0 : FieldFn) (fs : List FieldFn)
    (h1 : p.InitVay dt f0 = .ok p1) (h2 : p1.steps fs = .ok p2)
    (hE : ∀ f ∈ f0 :: fs, ∀ t x EB, f t x = .ok EB → EB.E = 0) (k : Nat) (hk : k ≤ fs.length) :
    ∃ x m a, p2.TrajPoint (p.getNP - 1 + k : Nat) = .ok x ∧ p2.TrajMomentum (p.getNP - 1 + k : Nat) = .ok m ∧
      p2.TrajAccel (p.getNP - 1 + k : Nat) = .ok a ∧
      ∀ obs, obs ≠ x → p2.RetardedFieldIdx (p.getNP - 1 + k : Nat) obs
        = .ok (LW (p2.Charge * ElementaryCharge) x (betaOf m) (betaDotOf m a) obs) := by
  have c1 := Particle.cons_init (cons_reachable hp) h1
  have c2 : p2.Cons := (Particle.steps_facts h2).1 c1
  have hN1 : p1.NP = p.NP := by obtain ⟨_, _, t, x, pm, EB, _, _, _, _, _, rfl⟩ := Particle.InitVay_ok h1; rfl
  have hperp1 : dot p1.PCur p1.ACur = 0 := by
    obtain ⟨_, _, t, x, pm, EB, _, _, _, _, hf, rfl⟩ := Particle.InitVay_ok h1
    exact accel_perp _ _ _ _ (hE f0 (by simp) _ _ _ hf)
  have key : ∀ (gs : List FieldFn) (a b : Particle), dot a.PCur a.ACur = 0 → (∀ f ∈ gs, ∀ t x EB, f t x = .ok EB → EB.E = 0) →
      a.steps gs = .ok b → dot b.PCur b.ACur = 0 := by
    intro gs
    induction gs with
    | nil => intro a b h _ hs; rw [Particle.steps_nil] at hs; injection hs with hs; rw [← hs]; exact h
    | cons g gs ih =>
      intro a b h hg hs
      obtain ⟨q, hq1, hq2⟩ := Particle.steps_cons_ok hs
      refine ih q b ?_ (fun f hf => hg f (by simp [hf])) hq2
      obtain ⟨EB, hf, rfl⟩ := Particle.StepVay_ok hq1
      exact accel_perp _ _ _ _ (hg g (by simp) _ _ _ hf)
  obtain ⟨q, q1, q2, gt, gx, gp, ga⟩ := Particle.run_index c1 (Particle.atEnd_init h1) h2 k hk
  rw [hN1] at gt gx gp ga
  have hperp := key _ _ _ hperp1 (fun f hf => hE f (by
    have := List.mem_of_mem_take hf; simp [this])) q1
  refine ⟨_, _, _, TrajPoint_of_get c2 gx, TrajMomentum_of_get c2 gp, TrajAccel_of_get c2 ga, fun obs hne => ?_⟩
  exact C68_true_acceleration_partial p2 _ _ _ _ (TrajPoint_of_get c2 gx) (TrajMomentum_of_get c2 gp)
    (TrajAccel_of_get c2 ga) hperp obs hne

/-- C68: the full statement (field of the true velocity derivative for every recorded acceleration) is false:
for an acceleration along the velocity the code overestimates the radiation field (by γ²). -/
theorem C68_full_statement_false :
    ∃ (p : Particle) (x m a obs : Vec), p.Reachable ∧ p.TrajPoint 0 = .ok x ∧ p.TrajMomentum 0 = .ok m ∧
      p.TrajAccel 0 = .ok a ∧ obs ≠ x ∧
      p.RetardedFieldIdx 0 obs ≠ .ok (LW (p.Charge * ElementaryCharge) x (betaOf m) (betaDotOf m a) obs) := by
  let p := [POp.init 0 0 ⟨0, 0, 3/4⟩ ⟨0, 0, 1⟩].foldl POp.exec Particle.default
  have hp : p.Reachable := ⟨_, _, Or.inr (Or.inr (Or.inl rfl)), rfl⟩
  have hx : p.TrajPoint (0 : Nat) = .ok 0 := rfl
  have hm : p.TrajMomentum (0 : Nat) = .ok ⟨0, 0, 3/4⟩ := rfl
  have ha : p.TrajAccel (0 : Nat) = .ok ⟨0, 0, 1⟩ := rfl
  have hne : (⟨1, 0, 0⟩ : Vec) ≠ 0 := by intro h; have := congrArg Vec.x h; simp at this
  refine ⟨p, 0, ⟨0, 0, 3/4⟩, ⟨0, 0, 1⟩, ⟨1, 0, 0⟩, hp, hx, hm, ha, hne, ?_⟩
  have h := (C12_lienard_wiechert p 0 _ _ _ hx hm ha ⟨1, 0, 0⟩).1 hne
  intro h'
  have h'' := h.symm.trans h'
  injection h'' with h''
  have hz := congrArg (fun F : EMField => F.E.z) h''
  have hq : p.Charge = -1 := rfl
  have hg : Real.sqrt (1 + Vec.norm (⟨0, 0, 3/4⟩ : Vec) ^ 2) = 5/4 := by
    rw [Vec.norm_sq]; simp only [abs2nd]
    rw [show (1 + (0 * 0 + 0 * 0 + 3 / 4 * (3 / 4)) : ℝ) = (5/4) ^ 2 by norm_num, Real.sqrt_sq (by norm_num)]
  have hn1 : Vec.norm ((⟨1, 0, 0⟩ : Vec) - 0) = 1 := by simp [Vec.norm]
  have hc := SpeedOfLight_pos
  have he := ElementaryCharge_pos
  have h4 : 0 < 4 * Real.pi * EpsNull := by have := Real.pi_pos; have := EpsNull_pos; positivity
  simp only [LW, LWE, betaDotOf, betaOf, hg, hn1, hq, dot, cross, div_x, div_y, div_z, sub_x, sub_y, sub_z, add_x,
    add_y, add_z, mul_x, mul_y, mul_z, zero_x, zero_y, zero_z] at hz
  have hs : (-1 * ElementaryCharge / (4 * Real.pi * EpsNull)) ≠ 0 := by
    apply div_ne_zero _ h4.ne'; linarith
  have hz2 := mul_right_cancel₀ hs hz
  norm_num at hz2
  have : SpeedOfLight⁻¹ ≠ 0 := by positivity
  apply this
  linarith

/-- non-vacuity: a moving accelerated electron seen from a distance -/
example : ∃ (p : Particle) (x m a : Vec), p.Reachable ∧ p.TrajPoint (0 : Nat) = .ok x ∧ p.TrajMomentum (0 : Nat) = .ok m ∧
    p.TrajAccel (0 : Nat) = .ok a ∧ a ≠ 0 ∧ m ≠ 0 ∧ dot m a = 0 ∧ (⟨1, 0, 0⟩ : Vec) ≠ x :=
  ⟨[POp.init 0 0 ⟨0, 0, 1⟩ ⟨1, 0, 0⟩].foldl POp.exec Particle.default, _, _, _, ⟨_, _, Or.inr (Or.inr (Or.inl rfl)), rfl⟩,
    rfl, rfl, rfl, by intro h; have := congrArg Vec.x h; simp at this, by intro h; have := congrArg Vec.z h; simp at this,
    by simp [dot], by intro h; have := congrArg Vec.x h; simp at this⟩

end Teufel
