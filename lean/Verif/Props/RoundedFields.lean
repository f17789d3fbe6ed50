import Verif.Lemmas.RoundedElements
import Verif.Lemmas.Regular
import Verif.Props.RoundedTrack
import Verif.Props.Existence

/-!
# Rounding errors of the fields of lattices
-/

namespace Teufel
open Vec

namespace Rounded

/-- all situations: a way to round, a mathematical library and a position within the distance `R` from the origin -/
structure Situation (R K : ℝ) where
  rnd : ℝ → ℝ
  u : ℝ
  M : MathLib
  X : Vec
  hr : IsRounding rnd u
  hM : M.IsAccurate K u
  hX : X.norm ≤ R

/-- both fields are defined in all situations, and one approximates the other -/
def Approximates {R K : ℝ} (f : FieldFn) (fR : (ℝ → ℝ) → MathLib → FieldFn) : Prop :=
  ∃ v w : Situation R K → EMField, (∀ i t, f t i.X = .ok (v i)) ∧ (∀ i t, fR i.rnd i.M t i.X = .ok (w i)) ∧
    VAppr (fun i : Situation R K => i.u) (fun i => (w i).E) (fun i => (v i).E) ∧ VAppr (fun i : Situation R K => i.u) (fun i => (w i).B) (fun i => (v i).B)

variable {R K : ℝ}

theorem rounds : Rounds (fun i : Situation R K => i.u) (fun i => i.rnd) := ⟨fun i => i.hr.u_nonneg, fun i => i.hr.err⟩

theorem const (v : Vec) : VAppr (fun i : Situation R K => i.u) (fun _ => v) (fun _ => v) := .refl _ v.norm fun _ => le_rfl

theorem place (o : Vec) : VAppr (fun i : Situation R K => i.u) (fun i => vsub i.rnd i.X o) (fun i => i.X - o) :=
  VAppr.sub rounds (.refl _ R fun i => i.hX) (const o)

theorem magnet (e : Magnet) (he : e.Proper) : Approximates (R := R) (K := K) e.exact.field (fun rnd M => e.computed rnd M) := by
  classical
  cases e with
  | homogeneous E B => exact ⟨fun _ => ⟨E, B⟩, fun _ => ⟨E, B⟩, fun _ _ => rfl, fun _ _ => rfl, const E, const B⟩
  | planar B l N t0 o =>
    exact ⟨fun i => ⟨0, _⟩, fun i => ⟨0, _⟩, fun _ _ => rfl, fun _ _ => rfl, const 0,
      appr_undulator rounds he.1 N (place o).z (appr_planarCore rounds (fun i => i.hM) B l (place o))⟩
  | gradient B kx m l N t0 o =>
    exact ⟨fun i => ⟨0, _⟩, fun i => ⟨0, _⟩, fun _ _ => rfl, fun _ _ => rfl, const 0,
      appr_undulator rounds he.1 N (place o).z (appr_gradientCore rounds (fun i => i.hM) B kx m he.1 N (place o))⟩
  | softEdge d t0 o =>
    have h : ¬ (d.t_1 = 0 ∨ d.t_2 = 0) := not_or.mpr he
    exact ⟨fun i => ⟨0, _⟩, fun i => ⟨0, _⟩, fun i t => if_neg h, fun i t => if_neg h, const 0, appr_softEdge rounds (fun i => i.hM) d (place o)⟩

theorem lattice (lat : List Magnet) (h : ∀ e ∈ lat, e.Proper) :
    Approximates (R := R) (K := K) (Lattice.field (lat.map Magnet.exact)) (fun rnd M => latticeField rnd M lat) := by
  suffices H : ∀ (lat : List Magnet), (∀ e ∈ lat, e.Proper) → ∀ v w : Situation R K → EMField,
      VAppr (fun i : Situation R K => i.u) (fun i => (w i).E) (fun i => (v i).E) → VAppr (fun i : Situation R K => i.u) (fun i => (w i).B) (fun i => (v i).B) →
      ∃ v' w' : Situation R K → EMField,
        (∀ i t, (lat.map Magnet.exact).foldlM (fun total e => (e.field t i.X).map (fun f => total + f)) (v i) = .ok (v' i)) ∧
        (∀ i t, lat.foldlM (fun total e => (e.computed i.rnd i.M t i.X).map fun f => (⟨vadd i.rnd total.E f.E, vadd i.rnd total.B f.B⟩ : EMField)) (w i) = .ok (w' i)) ∧
        VAppr (fun i : Situation R K => i.u) (fun i => (w' i).E) (fun i => (v' i).E) ∧ VAppr (fun i : Situation R K => i.u) (fun i => (w' i).B) (fun i => (v' i).B) from
    H lat h (fun _ => 0) (fun _ => 0) (const 0) (const 0)
  intro lat
  induction lat with
  | nil => exact fun _ v w hE hB => ⟨v, w, fun _ _ => rfl, fun _ _ => rfl, hE, hB⟩
  | cons e lat ih =>
    intro h v w hE hB
    obtain ⟨f, g, e1, e2, e3, e4⟩ := magnet (R := R) (K := K) e (h e (by simp))
    obtain ⟨v', w', a1, a2, a3, a4⟩ := ih (fun e' he' => h e' (by simp [he'])) (fun i => v i + f i)
      (fun i => ⟨vadd i.rnd (w i).E (g i).E, vadd i.rnd (w i).B (g i).B⟩) (hE.add rounds e3) (hB.add rounds e4)
    dsimp only at e2
    refine ⟨v', w', fun i t => ?_, fun i t => ?_, a3, a4⟩
    · rw [List.map_cons, List.foldlM_cons, e1 i t]
      exact a1 i t
    · rw [List.foldlM_cons, e2 i t]
      exact a2 i t

theorem Approximates.bound {f : FieldFn} {fR : (ℝ → ℝ) → MathLib → FieldFn} (h : Approximates (R := R) (K := K) f fR) :
    ∃ F u0 : ℝ, 0 ≤ F ∧ 0 < u0 ∧ ∀ rnd u, IsRounding rnd u → u ≤ u0 → ∀ M : MathLib, M.IsAccurate K u → ∀ t t' X, X.norm ≤ R →
      ∃ EB EB', f t X = .ok EB ∧ fR rnd M t' X = .ok EB' ∧ (EB'.E - EB.E).norm ≤ F * u ∧ (EB'.B - EB.B).norm ≤ F * u := by
  obtain ⟨v, w, h1, h2, h3, h4⟩ := h
  obtain ⟨K1, M1, u1, hK1, -, hu1, H1⟩ := h3.bound
  obtain ⟨K2, M2, u2, hK2, -, hu2, H2⟩ := h4.bound
  refine ⟨K1 + K2, min u1 u2, by positivity, lt_min hu1 hu2, ?_⟩
  intro rnd u hr hu M hM t t' X hX
  have g1 := (H1 ⟨rnd, u, M, X, hr, hM, hX⟩ (hu.trans (min_le_left _ _))).2
  have g2 := (H2 ⟨rnd, u, M, X, hr, hM, hX⟩ (hu.trans (min_le_right _ _))).2
  refine ⟨_, _, h1 ⟨rnd, u, M, X, hr, hM, hX⟩ t, h2 ⟨rnd, u, M, X, hr, hM, hX⟩ t', ?_, ?_⟩
  · refine g1.trans ?_
    have : 0 ≤ K2 * u := mul_nonneg hK2 hr.u_nonneg
    dsimp only
    linarith
  · refine g2.trans ?_
    have : 0 ≤ K1 * u := mul_nonneg hK1 hr.u_nonneg
    dsimp only
    linarith

theorem regular (lat : List Magnet) (h : ∀ e ∈ lat, e.Proper) : RegularField (Lattice.field (lat.map Magnet.exact)) := by
  refine C118_lattice _ fun e he => ?_
  obtain ⟨m, hm, rfl⟩ := List.mem_map.mp he
  have := h m hm
  cases m with
  | homogeneous E B => exact .homogeneous E B
  | planar B l N t0 o => exact .planar _ t0 o (.inl this.1.le)
  | gradient B kx md l N t0 o => exact .gradient _ t0 o (.inl this.1.le)
  | softEdge d t0 o => exact .softEdge d t0 o this.1 this.2

theorem path_bounded {x : ℝ → Vec} {a b : ℝ} {v : ℝ → Vec} (h : ∀ t, a ≤ t → t ≤ b → HasVelocity x (v t) t) :
    ∃ m, 0 ≤ m ∧ ∀ t, a ≤ t → t ≤ b → (x t).norm ≤ m := by
  have hc : ContinuousOn (fun t => (x t).norm) (Set.Icc a b) := by
    intro t ht
    obtain ⟨h1, h2, h3⟩ := h t ht.1 ht.2
    have c1 := h1.continuousAt
    have c2 := h2.continuousAt
    have c3 := h3.continuousAt
    refine ContinuousAt.continuousWithinAt ?_
    unfold Vec.norm
    exact (((c1.mul c1).add (c2.mul c2)).add (c3.mul c3)).sqrt
  obtain ⟨m, hm⟩ := isCompact_Icc.exists_bound_of_continuousOn hc
  refine ⟨|m|, abs_nonneg m, fun t h1 h2 => ?_⟩
  have := hm t ⟨h1, h2⟩
  rw [Real.norm_eq_abs, abs_of_nonneg (Vec.norm_nonneg _)] at this
  exact this.trans (le_abs_self m)

theorem rampField_id : rampField id = Teufel.rampField := by
  funext z z1 z2 l B
  unfold rampField Teufel.rampField vmul
  dsimp only [id]
  split_ifs <;> rfl

end Rounded

/-- C129: with exact arithmetic and exact functions the computed field of a lattice is that of the other chapters. -/
theorem C129_exact (lat : List Magnet) : Rounded.latticeField id MathLib.exact lat = Lattice.field (lat.map Magnet.exact) := by
  classical
  have e : ∀ m : Magnet, m.computed id MathLib.exact = m.exact.field := by
    intro m
    have h1 : (2.0 : ℝ) = 2 := by norm_num
    have h2 : (1.0 : ℝ) = 1 := by norm_num
    have h3 : (0.5 : ℝ) = 1 / 2 := by norm_num
    have hs : ∀ a b : Vec, Rounded.vsub id a b = a - b := fun _ _ => rfl
    cases m with
    | homogeneous E B => rfl
    | planar B l N t0 o =>
      funext t X
      simp only [Magnet.computed, Magnet.exact, Rounded.localized, LocalizedField, Rounded.planarField, Rounded.undulatorB, Rounded.zStart, Rounded.zEnd,
        Rounded.planarCore, Rounded.waveNumber, PlanarUndulator.LocalField, PlanarUndulator.Setup, MathLib.exact, Rounded.rampField_id, hs, h1, id]
      congr!
    | gradient B kx md l N t0 o =>
      funext t X
      simp only [Magnet.computed, Magnet.exact, Rounded.localized, LocalizedField, Rounded.gradientField, Rounded.undulatorB, Rounded.zStart, Rounded.zEnd,
        Rounded.gradientCore, Rounded.gradientKy, Rounded.gradientPeak, Rounded.waveNumber, TransverseGradientUndulator.LocalField, TransverseGradientUndulator.core,
        TransverseGradientUndulator.Setup, MathLib.exact, Rounded.rampField_id, hs, h1, h2, id]
      congr!
    | softEdge d t0 o =>
      funext t X
      simp only [Magnet.computed, Magnet.exact, Rounded.localized, LocalizedField, Rounded.softEdgeField, Rounded.softEdgeScale, SoftEdgeDipole.LocalField,
        MathLib.exact, hs, h1, h2, h3, id]
      rfl
  funext t X
  unfold Rounded.latticeField Lattice.field
  rw [List.foldlM_map]
  simp only [e]
  rfl

/-- C129: in every bounded region the computed field of a lattice differs from the exact one by at most a constant times the relative error of an arithmetic
operation, also at the ends of the undulators and of their ramps, where rounding may decide which formula is used.  The constant depends neither on the way
numbers are rounded nor on the functions of the mathematical library. -/
theorem C129_lattice (lat : List Magnet) (h : ∀ e ∈ lat, e.Proper) (R K : ℝ) :
    ∃ F u0 : ℝ, 0 ≤ F ∧ 0 < u0 ∧ ∀ rnd u, IsRounding rnd u → u ≤ u0 → ∀ M : MathLib, M.IsAccurate K u → ∀ t t' X, X.norm ≤ R →
      ∃ EB EB', Lattice.field (lat.map Magnet.exact) t X = .ok EB ∧ Rounded.latticeField rnd M lat t' X = .ok EB' ∧
        (EB'.E - EB.E).norm ≤ F * u ∧ (EB'.B - EB.B).norm ≤ F * u :=
  (Rounded.lattice lat h).bound

set_option maxHeartbeats 1000000 in
/-- C129: a run of the tracker in which everything is rounded - the arithmetic of the tracker and that of the fields of the lattice - differs from the exact
smooth motion by at most a constant times h² + u/h.  Nothing is assumed of the computed field. -/
theorem C129_tracking (lat : List Magnet) (hl : ∀ e ∈ lat, e.Proper) (qm : ℝ) (x p : ℝ → Vec) (t0 T K : ℝ) (hT : 0 ≤ T)
    (hm : Motion qm (Lattice.field (lat.map Magnet.exact)) x p t0 T) (hp : Smooth p) :
    ∃ C h0 κ : ℝ, 0 < h0 ∧ 0 < κ ∧ ∀ rnd u, IsRounding rnd u → ∀ h : ℝ, 0 < h → h ≤ h0 → u ≤ κ * h →
      ∀ M : MathLib, M.IsAccurate K u → ∀ n : ℕ, n * h ≤ T →
      ∀ a : Particle, a.Reachable → a.Mass ≠ 0 → a.Charge / a.Mass * InvRestMass = qm →
        a.TrajTime (a.getNP - 1 : Nat) = .ok t0 → a.TrajPoint (a.getNP - 1 : Nat) = .ok (x t0) → a.TrajMomentum (a.getNP - 1 : Nat) = .ok (p t0) →
        ∃ a1 a2, Rounded.InitVay rnd a h (Rounded.latticeField rnd M lat) = .ok a1 ∧
          Rounded.steps rnd a1 (List.replicate n (Rounded.latticeField rnd M lat)) = .ok a2 ∧
          ∀ k : ℕ, k ≤ n → ∃ t X P A,
            a2.TrajTime (a.getNP - 1 + k : Nat) = .ok t ∧ a2.TrajPoint (a.getNP - 1 + k : Nat) = .ok X ∧
            a2.TrajMomentum (a.getNP - 1 + k : Nat) = .ok P ∧ a2.TrajAccel (a.getNP - 1 + k : Nat) = .ok A ∧
            |t - (t0 + k * h)| ≤ C * (u / h) ∧
            (X - x (t0 + k * h)).norm ≤ C * (h ^ 2 + u / h) ∧ (P - p (t0 + k * h)).norm ≤ C * (h ^ 2 + u / h) ∧
            ∀ v, HasVelocity p v (t0 + k * h) → (A - v).norm ≤ C * (h ^ 2 + u / h) := by
  obtain ⟨Xm, hXm, bX⟩ := Rounded.path_bounded (fun t h1 h2 => hm.position t h1 h2)
  obtain ⟨S, hS⟩ : ∃ S, S = Xm + 1 + |t0| + T := ⟨_, rfl⟩
  have hS0 : 0 ≤ S := by rw [hS]; positivity
  obtain ⟨L, hL⟩ := Rounded.regular lat hl S
  have inT : ∀ t, t0 ≤ t → t ≤ t0 + T → |t| ≤ S := by
    intro t h1 h2
    rw [hS, abs_le]
    have := abs_le.mp (le_refl |t0|)
    constructor <;> linarith
  have inX : ∀ t, t0 ≤ t → t ≤ t0 + T → ∀ X, (X - x t).norm ≤ 1 → X.norm ≤ S := by
    intro t h1 h2 X hX
    have := Vec.norm_add_le (X - x t) (x t)
    rw [show X - x t + x t = X by ext <;> simp] at this
    have := bX t h1 h2
    have := abs_nonneg t0
    rw [hS]; linarith
  have in0 : ∀ t, t0 ≤ t → t ≤ t0 + T → (x t).norm ≤ S := fun t h1 h2 => inX t h1 h2 (x t) (by rw [sub_self, Vec.norm_zero]; norm_num)
  obtain ⟨F0, -, hF0, -, -, -⟩ := hL 0 0 0 0 (by simpa) (by simpa) (by rwa [Vec.norm_zero]) (by rwa [Vec.norm_zero])
  have hLa : ∀ y : ℝ, 0 ≤ y → L * y ≤ |L| * y := fun y hy => mul_le_mul_of_nonneg_right (le_abs_self L) hy
  have size : ∀ t, t0 ≤ t → t ≤ t0 + T → ∀ EB, Lattice.field (lat.map Magnet.exact) t (x t) = .ok EB →
      EB.E.norm ≤ F0.E.norm + |L| * (S + S) ∧ EB.B.norm ≤ F0.B.norm + |L| * (S + S) := by
    intro t h1 h2 EB hEB
    obtain ⟨G, G', g1, g2, g3, g4⟩ := hL 0 t 0 (x t) (by simpa) (inT t h1 h2) (by rwa [Vec.norm_zero]) (in0 t h1 h2)
    rw [hF0] at g1
    rw [hEB] at g2
    cases g1
    cases g2
    have i1 := inT t h1 h2
    have i2 := in0 t h1 h2
    rw [sub_zero, sub_zero] at g3 g4
    have i3 : L * (|t| + (x t).norm) ≤ |L| * (S + S) :=
      (hLa _ (by have := Vec.norm_nonneg (x t); positivity)).trans (mul_le_mul_of_nonneg_left (by linarith) (abs_nonneg L))
    have j1 := Vec.norm_add_le (EB.E - F0.E) F0.E
    have j2 := Vec.norm_add_le (EB.B - F0.B) F0.B
    rw [show EB.E - F0.E + F0.E = EB.E by ext <;> simp] at j1
    rw [show EB.B - F0.B + F0.B = EB.B by ext <;> simp] at j2
    constructor <;> linarith
  have tame : TameNear (Lattice.field (lat.map Magnet.exact)) x t0 T 1 |L| (F0.B.norm + |L| * (S + S)) := by
    refine ⟨fun t h1 h2 EB hEB => (size t h1 h2 EB hEB).2, fun t h1 h2 EB hEB X hX => ?_⟩
    obtain ⟨G, G', g1, g2, g3, g4⟩ := hL t t (x t) X (inT t h1 h2) (inT t h1 h2) (in0 t h1 h2) (inX t h1 h2 X hX)
    rw [hEB] at g1
    cases g1
    rw [sub_self, abs_zero, zero_add] at g3 g4
    exact ⟨G', g2, g3.trans (hLa _ (Vec.norm_nonneg _)), g4.trans (hLa _ (Vec.norm_nonneg _))⟩
  obtain ⟨F, u0, hF, hu0, HF⟩ := C129_lattice lat hl S K
  obtain ⟨C, h0, κ, hh0, hκ, H⟩ := C101_rounded_tracking qm _ x p t0 T 1 |L| _ _ F hm hp tame (fun t h1 h2 EB hEB => (size t h1 h2 EB hEB).1)
    one_pos (abs_nonneg L) hT hF
  refine ⟨C, h0, min κ (u0 / h0), hh0, lt_min hκ (by positivity), ?_⟩
  intro rnd u hr h hh hle hu M hM
  refine H rnd u hr h hh hle (hu.trans (mul_le_mul_of_nonneg_right (min_le_left _ _) hh.le)) _ ⟨?_⟩
  have hu' : u ≤ u0 := by
    refine hu.trans ((mul_le_mul_of_nonneg_right (min_le_right _ _) hh.le).trans ?_)
    rw [div_mul_eq_mul_div, div_le_iff₀ hh0]
    exact mul_le_mul_of_nonneg_left hle hu0.le
  intro t h1 h2 t' ht' X hX EB hEB
  obtain ⟨G, G', g1, g2, g3, g4⟩ := HF rnd u hr hu' M hM t t' X (inX t h1 h2 X hX)
  rw [hEB] at g1
  cases g1
  have : F * u ≤ F * (u + |t' - t|) := mul_le_mul_of_nonneg_left (by linarith [abs_nonneg (t' - t)]) hF
  exact ⟨G', g2, g3.trans this, g4.trans this⟩

/-- the functions of the library, rounded correctly -/
noncomputable def roundedLib (p : Nat) : MathLib :=
  ⟨fun x => binary p (Real.sin x), fun x => binary p (Real.cos x), fun x => binary p (Real.sinh x), fun x => binary p (Real.cosh x), fun x => binary p (Real.arctan x)⟩

/-- a line of an undulator, a gradient undulator and a soft-edge dipole in the magnetic field of the earth -/
noncomputable def magnetLine : List Magnet :=
  [.planar 1 (3 / 100) 20 0 ⟨0, 0, 1⟩, .gradient 1 10 (1 / 100) (3 / 100) 20 0 ⟨0, 0, 3⟩,
   .softEdge ⟨⟨0, 1, 0⟩, ⟨0, 0, 4⟩, ⟨0, 0, -1⟩, 1 / 100, ⟨0, 0, 5⟩, ⟨0, 0, 1⟩, 1 / 100⟩ 0 0, .homogeneous 0 ⟨0, 2e-5, 4e-5⟩]

/-- non-vacuity: a line of several magnets; for every bound of the roundoff there are formats with a smaller but positive roundoff and a library for them -/
example : (∀ e ∈ magnetLine, e.Proper) ∧
    ∀ u0 : ℝ, 0 < u0 → ∃ p : Nat, IsRounding (binary p) (2 ^ (-(p : Int))) ∧ (2 : ℝ) ^ (-(p : Int)) ≤ u0 ∧ (roundedLib p).IsAccurate 1 (2 ^ (-(p : Int))) := by
  refine ⟨?_, ?_⟩
  · intro e he
    simp only [magnetLine, List.mem_cons, List.not_mem_nil, or_false] at he
    rcases he with rfl | rfl | rfl | rfl
    · exact ⟨by norm_num, by norm_num⟩
    · exact ⟨by norm_num, by norm_num⟩
    · exact ⟨by norm_num, by norm_num⟩
    · trivial
  · intro u0 hu0
    obtain ⟨n, hn⟩ := exists_pow_lt_of_lt_one hu0 (show (1 / 2 : ℝ) < 1 by norm_num)
    have hr := binary_isRounding (p := n + 1) (by omega)
    have hp : (0 : ℝ) < 2 ^ (-((n + 1 : Nat) : Int)) := by positivity
    refine ⟨n + 1, hr, ?_, ?_⟩
    · rw [zpow_neg, zpow_natCast, pow_succ, mul_inv, ← inv_pow]
      have e : ((2 : ℝ)⁻¹) ^ n = (1 / 2) ^ n := by norm_num
      rw [e]
      have : (0 : ℝ) < (1 / 2) ^ n := by positivity
      linarith
    · have key : ∀ y : ℝ, |binary (n + 1) y - y| ≤ 1 * 2 ^ (-((n + 1 : Nat) : Int)) * (1 + |y|) := by
        intro y
        refine (hr.err y).trans ?_
        rw [one_mul]
        exact mul_le_mul_of_nonneg_left (by linarith) hp.le
      exact ⟨fun x => key _, fun x => key _, fun x => key _, fun x => key _, fun x => key _⟩

/-- non-vacuity of C129_tracking: the circulating electron of C92, beside an undulator -/
example : (∀ e ∈ [Magnet.homogeneous 0 ⟨0, 1, 0⟩, .planar 1 (3 / 100) 20 0 ⟨0, 0, 1⟩], e.Proper) ∧
    Motion (-1 / 1 * InvRestMass) (Lattice.field ([Magnet.homogeneous 0 ⟨0, 1, 0⟩, .planar 1 (3 / 100) 20 0 ⟨0, 0, 1⟩].map Magnet.exact)) circleX circleP 0 1 ∧
    Smooth circleP := by
  refine ⟨?_, ?_, circle_example.2.1⟩
  · intro e he
    simp only [List.mem_cons, List.not_mem_nil, or_false] at he
    rcases he with rfl | rfl
    · trivial
    · exact ⟨by norm_num, by norm_num⟩
  · have hm := circle_example.1
    refine ⟨hm.position, fun t h1 h2 => ?_⟩
    obtain ⟨EB, hEB, hv⟩ := hm.momentum t h1 h2
    refine ⟨EB, ?_, hv⟩
    have hz : (circleX t).z ≤ 1 / 2 := by
      have h2 : (0 : ℝ) < Real.sqrt 2 := by positivity
      have hw : Real.sqrt 2 * circleW = -InvRestMass := by
        unfold circleW
        field_simp
      have hs := abs_le.mp (Real.abs_sin_le_one (circleW * t))
      have hi : SpeedOfLight / InvRestMass ≤ 1 / 2 := by unfold SpeedOfLight InvRestMass; norm_num
      have hi0 : 0 ≤ SpeedOfLight / InvRestMass := div_nonneg SpeedOfLight_pos.le InvRestMass_pos.le
      show SpeedOfLight / (Real.sqrt 2 * circleW) * Real.sin (circleW * t) ≤ 1 / 2
      rw [hw, div_neg]
      nlinarith
    have hu : (PlanarUndulator.Setup 1 (3 / 100) 20).LocalField (t - 0) (circleX t - ⟨0, 0, 1⟩) = .ok ⟨0, 0⟩ := by
      unfold PlanarUndulator.LocalField
      dsimp only
      rw [if_neg]
      rintro ⟨h3, -⟩
      simp only [PlanarUndulator.Setup, Vec.sub_z] at h3
      norm_num at h3
      linarith
    cases hEB
    show Lattice.field [HomogeneousField 0 ⟨0, 1, 0⟩, LocalizedField (PlanarUndulator.Setup 1 (3 / 100) 20).LocalField 0 ⟨0, 0, 1⟩] t (circleX t) = _
    unfold Lattice.field
    simp only [List.foldlM_cons, List.foldlM_nil, LocalizedField, HomogeneousField, hu, Except.map]
    refine congrArg Except.ok ?_
    ext <;> simp

end Teufel
