import Verif.Lemmas.EdgeJump
import Verif.Lemmas.RadiateLip
import Verif.Lemmas.SignalJump
import Mathlib.Topology.Order.IntermediateValue

/-! # Arrival time and field of the radiation of a motion through hard edges -/

namespace Teufel
open Vec

/-- two sources at a distance from the observer -/
structure SourcePair (obs : Vec) (M C d : ℝ) where
  X : Vec
  X' : Vec
  P : Vec
  P' : Vec
  A : Vec
  A' : Vec
  e : ℝ
  e0 : 0 ≤ e
  bX : X.norm ≤ M
  bX' : X'.norm ≤ M
  bP : P.norm ≤ M
  bP' : P'.norm ≤ M
  bA : A.norm ≤ M
  bA' : A'.norm ≤ M
  dX : (X' - X).norm ≤ C * e
  dP : (P' - P).norm ≤ C * e
  dA : (A' - A).norm ≤ C * e
  oX : d ≤ (obs - X).norm
  oX' : d ≤ (obs - X').norm

theorem pair_vec {ι : Type} {e : ι → ℝ} {C M : ℝ} (hC : 0 ≤ C) (he : ∀ i, 0 ≤ e i) (f g : ι → Vec) (hd : ∀ i, Vec.norm (f i - g i) ≤ C * e i)
    (hf : ∀ i, Vec.norm (f i) ≤ M) (hg : ∀ i, Vec.norm (g i) ≤ M) : FunAlg.V (NearBy e) (fun j : ι × Bool => if j.2 then f j.1 else g j.1) := by
  have key : ∀ k : Vec → ℝ, (∀ v, |k v| ≤ Vec.norm v) → (∀ v w, k (v - w) = k v - k w) → NearBy e (fun j : ι × Bool => k (if j.2 then f j.1 else g j.1)) := by
    intro k hk hs
    refine ⟨|M| + C, by positivity, fun i => ⟨fun b => ?_, ?_⟩⟩
    · have m1 := (hk (f i)).trans ((hf i).trans (le_abs_self M))
      have m2 := (hk (g i)).trans ((hg i).trans (le_abs_self M))
      cases b with
      | false => simp only [Bool.false_eq_true, if_false]; linarith
      | true => simp only [if_true]; linarith
    · have h2 := (hk (f i - g i)).trans (hd i)
      rw [hs] at h2
      simp only [if_true, Bool.false_eq_true, if_false]
      exact h2.trans (mul_le_mul_of_nonneg_right (by linarith [abs_nonneg M]) (he i))
  exact ⟨key (fun v => v.x) (fun v => (Way.comp_le v).1) (fun _ _ => rfl), key (fun v => v.y) (fun v => (Way.comp_le v).2.1) (fun _ _ => rfl),
    key (fun v => v.z) (fun v => (Way.comp_le v).2.2) (fun _ _ => rfl)⟩

/-- the field formula with `A / γ` for the acceleration -/
noncomputable def lwOf (q : ℝ) (obs X P A : Vec) : EMField := LW q X (betaOf P) (A / Real.sqrt (1 + Vec.norm P ^ 2)) obs

/-- near sources have near fields -/
theorem source_pairs (q : ℝ) (obs : Vec) {M C d : ℝ} (hC : 0 ≤ C) (hd : 0 < d) {φ : EMField → ℝ} (hφ : Particle.IsComponent φ) :
    ∃ K, 0 ≤ K ∧ ∀ i : SourcePair obs M C d, |φ (lwOf q obs i.X' i.P' i.A') - φ (lwOf q obs i.X i.P i.A)| ≤ K * i.e ∧ |φ (lwOf q obs i.X i.P i.A)| ≤ K := by
  let N := nearBy_alg (ι := SourcePair obs M C d) (e := fun i => i.e) (fun i => i.e0)
  have vx := pair_vec (e := fun i : SourcePair obs M C d => i.e) hC (fun i => i.e0) (fun i => i.X') (fun i => i.X) (fun i => i.dX) (fun i => i.bX') (fun i => i.bX)
  have vp := pair_vec (e := fun i : SourcePair obs M C d => i.e) hC (fun i => i.e0) (fun i => i.P') (fun i => i.P) (fun i => i.dP) (fun i => i.bP') (fun i => i.bP)
  have va := pair_vec (e := fun i : SourcePair obs M C d => i.e) hC (fun i => i.e0) (fun i => i.A') (fun i => i.A) (fun i => i.dA) (fun i => i.bA') (fun i => i.bA)
  have hb := N.vdiv va (N.gamma vp) one_pos (fun j => FunAlg.gamma_ge _)
  obtain ⟨hE, hB⟩ := N.lw q obs vx vp hb (δ := d) hd (by
    rintro ⟨i, b⟩
    cases b with
    | true => exact i.oX'
    | false => exact i.oX)
  obtain ⟨K, hK, hn⟩ := Path.component_alg N hφ hE hB
  exact ⟨K, hK, fun i => ⟨(hn i).2, (hn i).1 false⟩⟩

namespace Edge

theorem gap (Z : List ℝ) {t : ℝ} (ht : t ∉ Z) : ∃ ε, 0 < ε ∧ ε ≤ 1 ∧ ∀ z ∈ Z, ε ≤ |t - z| := by
  induction Z with
  | nil => exact ⟨1, one_pos, le_rfl, by simp⟩
  | cons z Z ih =>
    obtain ⟨ε, h1, h2, h3⟩ := ih fun h => ht (by simp [h])
    have hz : t ≠ z := fun h => ht (by simp [h])
    refine ⟨min ε |t - z|, lt_min h1 (abs_pos.mpr (sub_ne_zero.mpr hz)), (min_le_left _ _).trans h2, fun w hw => ?_⟩
    rcases List.mem_cons.mp hw with rfl | hw
    · exact min_le_right _ _
    · exact (min_le_left _ _).trans (h3 w hw)

/-- what is known about a motion through hard edges; `Z` are the times at which faces are passed and `fld` is the field along the path -/
structure Passed (qm : ℝ) (field : FieldFn) (faces : List (Vec × Vec)) (x p : ℝ → Vec) (t0 T : ℝ) (fld : ℝ → EMField) (Z : List ℝ) (κ M L Mx Mp : ℝ) : Prop where
  mem : ∀ z ∈ Z, z ∈ Set.Icc t0 (t0 + T)
  κ_pos : 0 < κ
  away : ∀ f ∈ faces, Away (fun t => dot (x t - f.1) f.2) (Set.Icc t0 (t0 + T)) Z κ
  M_nonneg : 0 ≤ M
  L_nonneg : 0 ≤ L
  ok : ∀ t ∈ Set.Icc t0 (t0 + T), field t (x t) = .ok (fld t) ∧ (fld t).E.norm ≤ M ∧ (fld t).B.norm ≤ M
  near : ∀ t ∈ Set.Icc t0 (t0 + T), ∀ X, (X - x t).norm ≤ 1 → ∃ F, field t X = .ok F ∧ F.E.norm ≤ M ∧ F.B.norm ≤ M
  sided : ∀ s ∈ Set.Icc t0 (t0 + T), ∀ t ∈ Set.Icc t0 (t0 + T), ∀ X, (X - x t).norm ≤ 1 → (∀ f ∈ faces, SameSide (x s) X f) →
    ∃ F, field t X = .ok F ∧ (F.E - (fld s).E).norm ≤ L * (|t - s| + (X - x s).norm) ∧ (F.B - (fld s).B).norm ≤ L * (|t - s| + (X - x s).norm)
  rate : ∀ t ∈ Set.Icc t0 (t0 + T), t ∉ Z → HasVelocity p (acc qm (p t) (fld t)) t
  bx : ∀ t ∈ Set.Icc t0 (t0 + T), (x t).norm ≤ Mx
  bp : ∀ t ∈ Set.Icc t0 (t0 + T), (p t).norm ≤ Mp
  lx : ∀ s ∈ Set.Icc t0 (t0 + T), ∀ t ∈ Set.Icc t0 (t0 + T), (x t - x s).norm ≤ SpeedOfLight * |t - s|
  lp : ∀ s ∈ Set.Icc t0 (t0 + T), ∀ t ∈ Set.Icc t0 (t0 + T), (p t - p s).norm ≤ |qm| * (M / SpeedOfLight + M) * |t - s|

theorem lip_of_order {f : ℝ → Vec} {a b C : ℝ} (h : ∀ s t, a ≤ s → s ≤ t → t ≤ b → (f t - f s).norm ≤ C * (t - s)) :
    ∀ s ∈ Set.Icc a b, ∀ t ∈ Set.Icc a b, (f t - f s).norm ≤ C * |t - s| := by
  intro s hs t ht
  rcases le_total s t with hst | hst
  · rw [abs_of_nonneg (by linarith)]
    exact h s t hs.1 hst ht.2
  · rw [abs_of_nonpos (by linarith), Vec.norm_sub_comm, neg_sub]
    exact h t s ht.1 hst hs.2

theorem off_faces {faces : List (Vec × Vec)} {x : ℝ → Vec} {t0 T : ℝ} {Z : List ℝ} {κ : ℝ} (hκ : 0 < κ)
    (ha : ∀ f ∈ faces, Away (fun t => dot (x t - f.1) f.2) (Set.Icc t0 (t0 + T)) Z κ) {t : ℝ} (ht : t ∈ Set.Icc t0 (t0 + T)) (hz : t ∉ Z) :
    ∀ f ∈ faces, dot (x t - f.1) f.2 ≠ 0 := by
  intro f hf h0
  obtain ⟨ε, h1, h2, h3⟩ := gap Z hz
  have := ha f hf t ht ε h2 h3
  simp only [h0, abs_zero] at this
  have := mul_pos hκ h1
  linarith

theorem passed {qm : ℝ} {field : FieldFn} {faces : List (Vec × Vec)} {x p : ℝ → Vec} {t0 T : ℝ} (hT : 0 ≤ T) (hm : EdgeMotion qm field faces x p t0 T)
    (hb : BoundedField field) (hs : SidedField field faces) : ∃ fld Z κ M L Mx Mp, Passed qm field faces x p t0 T fld Z κ M L Mx Mp := by
  have hc := SpeedOfLight_pos
  obtain ⟨Z, hZ, κ, hκ, ha⟩ := passings hm
  have lx : ∀ s ∈ Set.Icc t0 (t0 + T), ∀ t ∈ Set.Icc t0 (t0 + T), (x t - x s).norm ≤ SpeedOfLight * |t - s| :=
    lip_of_order fun s t h1 h2 h3 => moved h2 (cont_of_velocity fun r a b => hm.position r (by linarith) (by linarith))
      (fun r a b => hm.position r (by linarith) (by linarith)) (fun r _ _ => Exist.speed (p r))
  have m0 : t0 ∈ Set.Icc t0 (t0 + T) := ⟨le_rfl, by linarith⟩
  have grow : ∀ (f : ℝ → Vec) (C : ℝ), 0 ≤ C → (∀ s ∈ Set.Icc t0 (t0 + T), ∀ t ∈ Set.Icc t0 (t0 + T), (f t - f s).norm ≤ C * |t - s|) →
      ∀ t ∈ Set.Icc t0 (t0 + T), (f t).norm ≤ (f t0).norm + C * T := by
    intro f C hC h t ht
    have h1 := h t0 m0 t ht
    have h2 := Vec.norm_add_le (f t - f t0) (f t0)
    rw [sub_add_cancel] at h2
    have h3 : C * |t - t0| ≤ C * T := by
      refine mul_le_mul_of_nonneg_left ?_ hC
      rw [abs_of_nonneg (by linarith [ht.1])]
      linarith [ht.2]
    linarith
  have bx := grow x _ hc.le lx
  set Mx := (x t0).norm + SpeedOfLight * T with hMx
  have hMx0 : 0 ≤ Mx := add_nonneg (Vec.norm_nonneg _) (by positivity)
  set R := |t0| + |t0 + T| + Mx + 1 with hR
  have hRt : ∀ t ∈ Set.Icc t0 (t0 + T), |t| ≤ R := by
    intro t ht
    rw [abs_le]
    constructor
    · linarith [ht.1, neg_abs_le t0, abs_nonneg (t0 + T)]
    · linarith [ht.2, le_abs_self (t0 + T), abs_nonneg t0]
  have hRX : ∀ t ∈ Set.Icc t0 (t0 + T), ∀ X, (X - x t).norm ≤ 1 → X.norm ≤ R := by
    intro t ht X hX
    have := Vec.norm_add_le (X - x t) (x t)
    rw [sub_add_cancel] at this
    linarith [bx t ht, abs_nonneg t0, abs_nonneg (t0 + T)]
  have self : ∀ t, (x t - x t).norm ≤ 1 := fun t => by rw [sub_self, Vec.norm_zero]; exact zero_le_one
  obtain ⟨M, hM⟩ := hb R
  obtain ⟨L, hL⟩ := hs R
  have hM0 : 0 ≤ M := by
    obtain ⟨EB, -, a, -⟩ := hM t0 (x t0) (hRt t0 m0) (hRX t0 m0 _ (self t0))
    exact (Vec.norm_nonneg _).trans a
  have near : ∀ t ∈ Set.Icc t0 (t0 + T), ∀ X, (X - x t).norm ≤ 1 → ∃ F, field t X = .ok F ∧ F.E.norm ≤ M ∧ F.B.norm ≤ M :=
    fun t ht X hX => hM t X (hRt t ht) (hRX t ht X hX)
  have hex : ∀ t, ∃ F, t ∈ Set.Icc t0 (t0 + T) → field t (x t) = .ok F ∧ F.E.norm ≤ M ∧ F.B.norm ≤ M := by
    intro t
    by_cases ht : t ∈ Set.Icc t0 (t0 + T)
    · obtain ⟨F, h⟩ := near t ht _ (self t)
      exact ⟨F, fun _ => h⟩
    · exact ⟨0, fun h => absurd h ht⟩
  choose fld hfld using hex
  have rate : ∀ t ∈ Set.Icc t0 (t0 + T), t ∉ Z → HasVelocity p (acc qm (p t) (fld t)) t := by
    intro t ht hz
    obtain ⟨EB, h1, h2⟩ := hm.momentum t ht.1 ht.2 (off_faces hκ ha ht hz)
    rw [(hfld t ht).1] at h1
    cases h1
    rw [force_eq_acc] at h2
    exact h2
  have hF0 : 0 ≤ |qm| * (M / SpeedOfLight + M) := by positivity
  have lp : ∀ s ∈ Set.Icc t0 (t0 + T), ∀ t ∈ Set.Icc t0 (t0 + T), (p t - p s).norm ≤ |qm| * (M / SpeedOfLight + M) * |t - s| :=
    lip_of_order fun s t h1 h2 h3 => moved_except (v := fun r => acc qm (p r) (fld r)) Z h2 (Cont.mono hm.continuous h1 h3)
      (fun r a b c => rate r ⟨by linarith, by linarith⟩ c) (fun r a b => by
        have := hfld r ⟨by linarith, by linarith⟩
        exact acc_le _ this.2.1 this.2.2)
  refine ⟨fld, Z, κ, M, |L|, Mx, (p t0).norm + |qm| * (M / SpeedOfLight + M) * T, hZ, hκ, ha, hM0, abs_nonneg L, fun t ht => hfld t ht, near, ?_, rate, bx, grow p _ hF0 lp, lx, lp⟩
  intro s hs' t ht X hX hside
  obtain ⟨F, F', h1, h2, h3, h4⟩ := hL s t (x s) X (hRt s hs') (hRt t ht) (hRX s hs' _ (self s)) (hRX t ht X hX) hside
  rw [(hfld s hs').1] at h1
  cases h1
  have hnn : 0 ≤ |t - s| + (X - x s).norm := add_nonneg (abs_nonneg _) (Vec.norm_nonneg _)
  exact ⟨F', h2, h3.trans (mul_le_mul_of_nonneg_right (le_abs_self L) hnn), h4.trans (mul_le_mul_of_nonneg_right (le_abs_self L) hnn)⟩

namespace Passed
variable {qm : ℝ} {field : FieldFn} {faces : List (Vec × Vec)} {x p : ℝ → Vec} {t0 T : ℝ} {fld : ℝ → EMField} {Z : List ℝ} {κ M L Mx Mp : ℝ}

/-- bound of the acceleration -/
noncomputable def F (qm M : ℝ) : ℝ := |qm| * (M / SpeedOfLight + M)

theorem F_nonneg (S : Passed qm field faces x p t0 T fld Z κ M L Mx Mp) : 0 ≤ F qm M := by
  have := S.M_nonneg
  have := SpeedOfLight_pos
  unfold F
  positivity

/-- between two times without a passage the particle stays on the same sides of the faces -/
theorem same_side (S : Passed qm field faces x p t0 T fld Z κ M L Mx Mp) {s t : ℝ} (hs : s ∈ Set.Icc t0 (t0 + T)) (ht : t ∈ Set.Icc t0 (t0 + T))
    (hz : ∀ z ∈ Z, z ∉ Set.uIcc s t) : ∀ f ∈ faces, SameSide (x s) (x t) f := by
  intro f hf
  have sub : Set.uIcc s t ⊆ Set.Icc t0 (t0 + T) := Set.uIcc_subset_Icc hs ht
  have hne : ∀ r ∈ Set.uIcc s t, dot (x r - f.1) f.2 ≠ 0 := fun r hr => off_faces S.κ_pos S.away (sub hr) (fun h => hz r h hr) f hf
  have hcont : ContinuousOn (fun r => dot (x r - f.1) f.2) (Set.uIcc s t) := by
    have hl : LipschitzOnWith (Real.toNNReal (SpeedOfLight * f.2.norm)) (fun r => dot (x r - f.1) f.2) (Set.uIcc s t) := by
      refine LipschitzOnWith.of_dist_le_mul fun a ha b hb => ?_
      have hc := SpeedOfLight_pos
      rw [Real.dist_eq, Real.dist_eq, Real.coe_toNNReal _ (mul_nonneg hc.le (Vec.norm_nonneg _)), ← dot_sub_left, sub_sub_sub_cancel_right]
      refine (abs_dot_le _ _).trans ?_
      have := mul_le_mul_of_nonneg_right (S.lx b (sub hb) a (sub ha)) (Vec.norm_nonneg f.2)
      linarith
    exact hl.continuousOn
  unfold SameSide
  by_contra hle
  push Not at hle
  have h0 : (0 : ℝ) ∈ Set.uIcc (dot (x s - f.1) f.2) (dot (x t - f.1) f.2) := by
    rw [Set.mem_uIcc]
    rcases le_total 0 (dot (x s - f.1) f.2) with h | h
    · right
      refine ⟨?_, h⟩
      by_contra h'
      push Not at h'
      exact absurd hle (not_le.mpr (mul_pos (lt_of_le_of_ne h (hne s Set.left_mem_uIcc).symm) h'))
    · left
      refine ⟨h, ?_⟩
      by_contra h'
      push Not at h'
      exact absurd hle (not_le.mpr (mul_pos_of_neg_of_neg (lt_of_le_of_ne h (hne s Set.left_mem_uIcc)) h'))
  obtain ⟨r, hr, e⟩ := intermediate_value_uIcc hcont h0
  exact hne r hr e

/-- the acceleration is Lipschitz continuous between the passages -/
theorem rate_lip (S : Passed qm field faces x p t0 T fld Z κ M L Mx Mp) {s t : ℝ} (hs : s ∈ Set.Icc t0 (t0 + T)) (ht : t ∈ Set.Icc t0 (t0 + T))
    (hz : ∀ z ∈ Z, z ∉ Set.uIcc s t) :
    (acc qm (p t) (fld t) - acc qm (p s) (fld s)).norm ≤ |qm| * ((1 / SpeedOfLight + 1) * (L * (1 + SpeedOfLight)) + 2 * M * F qm M) * |t - s| := by
  have hc := SpeedOfLight_pos
  obtain ⟨G, g1, g2, g3⟩ := S.sided s hs t ht (x t) (by rw [sub_self, Vec.norm_zero]; exact zero_le_one) (S.same_side hs ht hz)
  rw [(S.ok t ht).1] at g1
  cases g1
  have h1 : L * (|t - s| + (x t - x s).norm) ≤ L * (1 + SpeedOfLight) * |t - s| := by
    rw [mul_assoc]
    refine mul_le_mul_of_nonneg_left ?_ S.L_nonneg
    linarith [S.lx s hs t ht]
  refine (acc_lip (p s) (p t) (S.ok s hs).2.2 (g2.trans h1) (g3.trans h1)).trans ?_
  rw [mul_assoc |qm|]
  refine mul_le_mul_of_nonneg_left ?_ (abs_nonneg qm)
  have h2 := mul_le_mul_of_nonneg_left (S.lp s hs t ht) (by linarith [S.M_nonneg] : 0 ≤ 2 * M)
  unfold F
  linarith

/-- the acceleration at a point near the exact one, at a time at a distance from all passages -/
theorem rate_near (S : Passed qm field faces x p t0 T fld Z κ M L Mx Mp) {C D h Nf t : ℝ} (hh : 0 < h) (hD : D * h ≤ 1) (hC1 : C * h ≤ 1)
    (hN : ∀ f ∈ faces, f.2.norm ≤ Nf) (hDC : C * Nf < κ * D) (ht : t ∈ Set.Icc t0 (t0 + T)) {X P : Vec} (hX : (X - x t).norm ≤ C * h) (hP : (P - p t).norm ≤ C * h)
    (hz : ∀ z ∈ Z, D * h ≤ |t - z|) : ∃ G, field t X = .ok G ∧
      (acc qm P G - acc qm (p t) (fld t)).norm ≤ |qm| * ((1 / SpeedOfLight + 1) * (L * C) + 2 * M * C) * h := by
  have hside : ∀ f ∈ faces, SameSide (x t) X f := by
    intro f hf
    have h1 := S.away f hf t ht (D * h) hD hz
    simp only at h1
    have e : dot (X - f.1) f.2 = dot (x t - f.1) f.2 + dot (X - x t) f.2 := by rw [← dot_add_left]; congr 1; abel
    have h2 : |dot (X - x t) f.2| ≤ C * h * Nf := (abs_dot_le _ _).trans (mul_le_mul hX (hN f hf) (Vec.norm_nonneg _) ((Vec.norm_nonneg _).trans hX))
    have h3 : |dot (X - x t) f.2| < |dot (x t - f.1) f.2| := by
      have := mul_lt_mul_of_pos_right hDC hh
      linarith
    unfold SameSide
    rw [e]
    set g := dot (x t - f.1) f.2
    set d := dot (X - x t) f.2
    have h4 : |g * d| < g ^ 2 := by
      rw [abs_mul, ← sq_abs]
      have := mul_lt_mul_of_pos_left h3 ((abs_nonneg _).trans_lt h3)
      nlinarith
    have := (abs_lt.mp h4).1
    nlinarith
  obtain ⟨G, g1, g2, g3⟩ := S.sided t ht t ht X (hX.trans hC1) hside
  refine ⟨G, g1, ?_⟩
  rw [sub_self, abs_zero, zero_add] at g2 g3
  have h1 : L * (X - x t).norm ≤ L * C * h := by
    rw [mul_assoc]
    exact mul_le_mul_of_nonneg_left hX S.L_nonneg
  refine (acc_lip (p t) P (S.ok t ht).2.2 (g2.trans h1) (g3.trans h1)).trans ?_
  rw [mul_assoc |qm|]
  refine mul_le_mul_of_nonneg_left ?_ (abs_nonneg qm)
  have h2 := mul_le_mul_of_nonneg_left hP (by linarith [S.M_nonneg] : 0 ≤ 2 * M)
  linarith

/-- arrival time and field of the radiation -/
theorem sent (S : Passed qm field faces x p t0 T fld Z κ M L Mx Mp) {obs : Vec} (H : Way x p t0 T obs) (q : ℝ) {φ : EMField → ℝ} (hφ : Particle.IsComponent φ) :
    ∃ δ K, SentJ (arrival x obs) (fun t => φ (lwOf q obs (x t) (p t) (acc qm (p t) (fld t)))) Z t0 T δ K := by
  obtain ⟨d, hd, hdist⟩ := H.distance
  have hc := SpeedOfLight_pos
  have hF := S.F_nonneg
  have hη0 : 0 < 1 / (2 * (1 + Mp ^ 2)) := by positivity
  set η := 1 / (2 * (1 + Mp ^ 2)) with hη
  have haway : ∀ s ∈ Set.Icc t0 (t0 + T), η ≤ 1 - dot (Way.dir x obs s) (betaOf (p s)) := by
    intro s hs
    refine FunAlg.away (p s) (Mp ^ 2) ?_ _ (H.dir_norm hs)
    rw [← norm_sq]
    exact pow_le_pow_left₀ (Vec.norm_nonneg _) (S.bp s hs) 2
  set Lv := |qm| * ((1 / SpeedOfLight + 1) * (L * (1 + SpeedOfLight)) + 2 * M * F qm M) with hLv
  have hLv0 : 0 ≤ Lv := by
    have := S.L_nonneg
    have := S.M_nonneg
    positivity
  have hMx : 0 ≤ |Mx| := abs_nonneg _
  have hMp : 0 ≤ |Mp| := abs_nonneg _
  obtain ⟨K2, hK2, hpair⟩ := source_pairs q obs (M := |Mx| + |Mp| + F qm M) (C := SpeedOfLight + F qm M + Lv) (by positivity) hd hφ
  have pair : ∀ s ∈ Set.Icc t0 (t0 + T), ∀ t ∈ Set.Icc t0 (t0 + T), (∀ z ∈ Z, z ∉ Set.uIcc s t) ∨ s = t →
      |φ (lwOf q obs (x t) (p t) (acc qm (p t) (fld t))) - φ (lwOf q obs (x s) (p s) (acc qm (p s) (fld s)))| ≤ K2 * |t - s| ∧
        |φ (lwOf q obs (x s) (p s) (acc qm (p s) (fld s)))| ≤ K2 := by
    intro s hs t ht hz
    have n0 := abs_nonneg (t - s)
    have bA : ∀ r ∈ Set.Icc t0 (t0 + T), (acc qm (p r) (fld r)).norm ≤ |Mx| + |Mp| + F qm M := fun r hr => by
      have := acc_le (qm := qm) (p r) (S.ok r hr).2.1 (S.ok r hr).2.2
      unfold F
      linarith
    have up : ∀ {a : ℝ}, a ≤ SpeedOfLight + F qm M + Lv → ∀ {y : ℝ}, y ≤ a * |t - s| → y ≤ (SpeedOfLight + F qm M + Lv) * |t - s| :=
      fun h _ hy => hy.trans (mul_le_mul_of_nonneg_right h n0)
    refine hpair ⟨x s, x t, p s, p t, acc qm (p s) (fld s), acc qm (p t) (fld t), |t - s|, n0, ?_, ?_, ?_, ?_, bA s hs, bA t ht, ?_, ?_, ?_, hdist s hs, hdist t ht⟩
    · linarith [S.bx s hs, le_abs_self Mx]
    · linarith [S.bx t ht, le_abs_self Mx]
    · linarith [S.bp s hs, le_abs_self Mp]
    · linarith [S.bp t ht, le_abs_self Mp]
    · exact up (by linarith) (S.lx s hs t ht)
    · exact up (a := F qm M) (by linarith) (S.lp s hs t ht)
    · rcases hz with hz | rfl
      · exact up (by linarith) (S.rate_lip hs ht hz)
      · rw [sub_self, Vec.norm_zero, sub_self, abs_zero, mul_zero]
  have hup : ∀ s ∈ Set.Icc t0 (t0 + T), ∀ t ∈ Set.Icc t0 (t0 + T), |arrival x obs t - arrival x obs s| ≤ 2 * |t - s| := by
    intro s hs t ht
    have e : arrival x obs t - arrival x obs s = (t - s) + (Vec.norm (obs - x t) - Vec.norm (obs - x s)) / SpeedOfLight := by unfold arrival; ring
    have h1 : |Vec.norm (obs - x t) - Vec.norm (obs - x s)| ≤ Vec.norm (x t - x s) := by
      rw [abs_le]
      have h1 := Vec.norm_sub_le obs (x t) (x s)
      have h2 := Vec.norm_sub_le obs (x s) (x t)
      rw [Vec.norm_sub_comm (x s) (x t)] at h2
      constructor <;> linarith
    rw [e]
    refine (abs_add_le _ _).trans ?_
    rw [abs_div, abs_of_pos hc]
    have h2 := div_le_div_of_nonneg_right (h1.trans (S.lx s hs t ht)) hc.le
    have e2 : SpeedOfLight * |t - s| / SpeedOfLight = |t - s| := by field_simp
    linarith
  have le1 : 2 ≤ 2 + K2 := by linarith
  have le2 : K2 ≤ 2 + K2 := by linarith
  refine ⟨η, 2 + K2, ⟨hη0, by linarith, H.T_nonneg, S.mem, ?_, ?_, ?_, ?_⟩⟩
  · intro s hs t ht hst
    have hder : ∀ s ∈ Set.Icc t0 (t0 + T), HasDerivAt (arrival x obs) (1 - dot (Way.dir x obs s) (betaOf (p s))) s := fun s hs => H.arrival_deriv hs
    have hmono : MonotoneOn (fun r => arrival x obs r - η * r) (Set.Icc t0 (t0 + T)) := by
      have hd' : ∀ r ∈ Set.Icc t0 (t0 + T), HasDerivAt (fun r => arrival x obs r - η * r) (1 - dot (Way.dir x obs r) (betaOf (p r)) - η) r := by
        intro r hr
        have c := (hasDerivAt_id r).const_mul η
        have := (hder r hr).sub c
        rw [mul_one] at this
        exact this
      refine monotoneOn_of_deriv_nonneg (convex_Icc _ _) (fun r hr => (hd' r hr).continuousAt.continuousWithinAt)
        (fun r hr => (hd' r (interior_subset hr)).differentiableAt.differentiableWithinAt) (fun r hr => ?_)
      rw [(hd' r (interior_subset hr)).deriv]
      linarith [haway r (interior_subset hr)]
    have := hmono hs ht hst
    simp only at this
    linarith
  · intro s hs t ht
    exact (hup s hs t ht).trans (mul_le_mul_of_nonneg_right le1 (abs_nonneg _))
  · intro s hs
    exact (pair s hs s hs (Or.inr rfl)).2.trans le2
  · intro s hs t ht hz
    exact (pair s hs t ht (Or.inl hz)).1.trans (mul_le_mul_of_nonneg_right le2 (abs_nonneg _))

end Passed
end Edge
end Teufel
