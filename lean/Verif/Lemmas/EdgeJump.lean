import Verif.Lemmas.EdgePath

/-! # The acceleration in beam lines with hard edges: it jumps at finitely many times and is Lipschitz continuous in between -/

namespace Teufel
open Vec Filter Topology

namespace Edge

/-- the acceleration which the tracker stores -/
noncomputable def acc (qm : ℝ) (u : Vec) (F : EMField) : Vec := (F.E / SpeedOfLight + cross (velOf u) F.B) * qm

theorem vayAccel_eq (qm : ℝ) (P : Vec) (F : EMField) : Particle.vayAccel qm P F.E F.B = acc qm P F := by
  have hb : P / Real.sqrt (P.abs2nd + 1.0) = velOf P := by
    unfold velOf
    rw [show P.abs2nd + 1.0 = 1 + P.abs2nd by norm_num; ring]
  unfold Particle.vayAccel acc
  simp only [hb]
  rw [add_comm]

theorem force_eq_acc (qm : ℝ) (u : Vec) (F : EMField) : (F.E + cross (velOf u * SpeedOfLight) F.B) * (qm / SpeedOfLight) = acc qm u F := by
  have := SpeedOfLight_pos.ne'
  unfold acc
  ext <;> simp [cross] <;> field_simp

theorem acc_le {qm M : ℝ} (u : Vec) {F : EMField} (hE : F.E.norm ≤ M) (hB : F.B.norm ≤ M) : (acc qm u F).norm ≤ |qm| * (M / SpeedOfLight + M) := by
  rw [← force_eq_acc]
  exact force_le hE hB

theorem acc_lip {qm M d : ℝ} (u u' : Vec) {F F' : EMField} (hB : F.B.norm ≤ M) (hdE : (F'.E - F.E).norm ≤ d) (hdB : (F'.B - F.B).norm ≤ d) :
    (acc qm u' F' - acc qm u F).norm ≤ |qm| * ((1 / SpeedOfLight + 1) * d + 2 * M * (u' - u).norm) := by
  have hc := SpeedOfLight_pos
  have c1 : (cross (velOf u') (F'.B - F.B)).norm ≤ 1 * d := norm_cross_bound (velOf_le u') hdB
  have c2 : (cross (velOf u' - velOf u) F.B).norm ≤ 2 * (u' - u).norm * M := norm_cross_bound (velOf_lip _ _) hB
  have c5 : ((F'.E - F.E) * (1 / SpeedOfLight)).norm ≤ d * (1 / SpeedOfLight) := by
    rw [Vec.norm_mul, abs_of_pos (by positivity)]
    exact mul_le_mul_of_nonneg_right hdE (by positivity)
  have e : acc qm u' F' - acc qm u F = ((F'.E - F.E) * (1 / SpeedOfLight) + cross (velOf u') (F'.B - F.B) + cross (velOf u' - velOf u) F.B) * qm := by
    unfold acc
    ext <;> simp [cross] <;> field_simp <;> ring
  rw [e, Vec.norm_mul, mul_comm]
  refine mul_le_mul_of_nonneg_left ?_ (abs_nonneg qm)
  refine (Vec.norm_add_le _ _).trans ?_
  have := Vec.norm_add_le ((F'.E - F.E) * (1 / SpeedOfLight)) (cross (velOf u') (F'.B - F.B))
  have e2 : (1 / SpeedOfLight + 1) * d + 2 * M * (u' - u).norm = d * (1 / SpeedOfLight) + 1 * d + 2 * (u' - u).norm * M := by ring
  rw [e2]
  linarith

/-! ### The field on either side of the faces -/

/-- two points on the same side of a face, none of them on the face -/
def SameSide (X X' : Vec) (f : Vec × Vec) : Prop := 0 < dot (X - f.1) f.2 * dot (X' - f.1) f.2

/-- Lipschitz continuous in bounded regions which are not divided by faces -/
def SidedField (field : FieldFn) (faces : List (Vec × Vec)) : Prop :=
  ∀ R : ℝ, ∃ L : ℝ, ∀ t t' X X', |t| ≤ R → |t'| ≤ R → X.norm ≤ R → X'.norm ≤ R → (∀ f ∈ faces, SameSide X X' f) →
    ∃ F F', field t X = .ok F ∧ field t' X' = .ok F' ∧ (F'.E - F.E).norm ≤ L * (|t' - t| + (X' - X).norm) ∧ (F'.B - F.B).norm ≤ L * (|t' - t| + (X' - X).norm)

theorem plus_sided {f g : FieldFn} {fs gs : List (Vec × Vec)} (hf : SidedField f fs) (hg : SidedField g gs) : SidedField (plus f g) (fs ++ gs) := by
  intro R
  obtain ⟨L1, a1⟩ := hf R
  obtain ⟨L2, a2⟩ := hg R
  refine ⟨L1 + L2, fun t t' X X' b1 b2 b3 b4 b5 => ?_⟩
  obtain ⟨F, F', c1, c2, c3, c4⟩ := a1 t t' X X' b1 b2 b3 b4 fun f hf => b5 f (List.mem_append_left _ hf)
  obtain ⟨G, G', d1, d2, d3, d4⟩ := a2 t t' X X' b1 b2 b3 b4 fun f hf => b5 f (List.mem_append_right _ hf)
  refine ⟨F + G, F' + G', by simp [plus, c1, d1, Except.bind, Except.map], by simp [plus, c2, d2, Except.bind, Except.map], ?_, ?_⟩
  · have eq : (F' + G').E - (F + G).E = (F'.E - F.E) + (G'.E - G.E) := by
      ext <;> simp <;> ring
    rw [eq, add_mul]
    exact (Vec.norm_add_le _ _).trans (add_le_add c3 d3)
  · have eq : (F' + G').B - (F + G).B = (F'.B - F.B) + (G'.B - G.B) := by
      ext <;> simp <;> ring
    rw [eq, add_mul]
    exact (Vec.norm_add_le _ _).trans (add_le_add c4 d4)

theorem regular_sided {f : FieldFn} (hf : RegularField f) : SidedField f [] := by
  intro R
  obtain ⟨L, hL⟩ := hf R
  exact ⟨L, fun t t' X X' b1 b2 b3 b4 _ => hL t t' X X' b1 b2 b3 b4⟩

theorem SameSide.iff {X X' : Vec} {f : Vec × Vec} (h : SameSide X X' f) : dot (X' - f.1) f.2 < 0 ↔ dot (X - f.1) f.2 < 0 := by
  unfold SameSide at h
  constructor
  · intro h'
    by_contra hc
    push Not at hc
    exact absurd h (not_lt.mpr (mul_nonpos_of_nonneg_of_nonpos hc h'.le))
  · intro h'
    by_contra hc
    push Not at hc
    exact absurd h (not_lt.mpr (mul_nonpos_of_nonpos_of_nonneg h'.le hc))

theorem dipole_sided (d : HardEdgeDipole) (t0 : ℝ) (origin : Vec) :
    SidedField (LocalizedField d.LocalField t0 origin).field [(d.p_1 + origin, d.n_1), (d.p_2 + origin, d.n_2)] := by
  have sh : ∀ X q : Vec, X - origin - q = X - (q + origin) := fun X q => by abel
  intro R
  refine ⟨0, fun t t' X X' _ _ _ _ hs => ?_⟩
  have e1 := (hs (d.p_1 + origin, d.n_1) (by simp)).iff
  have e2 := (hs (d.p_2 + origin, d.n_2) (by simp)).iff
  have e : (LocalizedField d.LocalField t0 origin).field t' X' = (LocalizedField d.LocalField t0 origin).field t X := by
    simp only [LocalizedField, HardEdgeDipole.LocalField, sh, e1, e2]
  refine ⟨_, _, rfl, e, ?_, ?_⟩ <;> rw [sub_self, Vec.norm_zero, zero_mul]

theorem faced_sided {e : GeneralField} {fs : List (Vec × Vec)} (h : Faced e fs) : SidedField e.field fs := by
  cases h with
  | jumpless h => exact regular_sided (jumpless_regular h)
  | hardEdge d t0 origin => exact dipole_sided d t0 origin

theorem lattice_sided {lat : Lattice} {fs : List (Vec × Vec)} (h : LatticeFaces lat fs) : SidedField lat.field fs := by
  suffices H : ∀ acc gs, SidedField acc gs → SidedField (from' acc lat) (gs ++ fs) from H (fun _ _ => .ok 0) [] (regular_sided (Reg.homogeneous 0 0))
  induction h with
  | nil => intro acc gs ha; rw [from_nil, List.append_nil]; exact ha
  | cons he _ ih => intro acc gs ha; rw [from_cons, ← List.append_assoc]; exact ih _ _ (plus_sided ha (faced_sided he))

/-! ### The times at which faces are passed -/

/-- the distance from the times in `Z` bounds `g` from below -/
def Away (g : ℝ → ℝ) (s : Set ℝ) (Z : List ℝ) (κ : ℝ) : Prop := ∀ t ∈ s, ∀ ε ≤ 1, (∀ z ∈ Z, ε ≤ |t - z|) → κ * ε ≤ |g t|

/-- a function which does not touch zero has finitely many zeros, and is proportional to the distance from these -/
theorem zeros {g g' : ℝ → ℝ} {a b : ℝ} (hd : ∀ t ∈ Set.Icc a b, HasDerivAt g (g' t) t) (h0 : ∀ t ∈ Set.Icc a b, g t = 0 → g' t ≠ 0) :
    ∃ Z : List ℝ, (∀ z ∈ Z, z ∈ Set.Icc a b) ∧ ∃ κ > 0, Away g (Set.Icc a b) Z κ := by
  refine (isCompact_Icc (a := a) (b := b)).induction_on (p := fun s => ∃ Z : List ℝ, (∀ z ∈ Z, z ∈ Set.Icc a b) ∧ ∃ κ > 0, Away g s Z κ) ?_ ?_ ?_ ?_
  · exact ⟨[], by simp, 1, one_pos, fun t ht => absurd ht (Set.notMem_empty t)⟩
  · rintro s s' hss ⟨Z, hZ, κ, hκ, h⟩
    exact ⟨Z, hZ, κ, hκ, fun t ht => h t (hss ht)⟩
  · rintro s s' ⟨Z, hZ, κ, hκ, h⟩ ⟨Z', hZ', κ', hκ', h'⟩
    refine ⟨Z ++ Z', ?_, min κ κ', lt_min hκ hκ', ?_⟩
    · intro z hz
      rcases List.mem_append.mp hz with hz | hz
      · exact hZ z hz
      · exact hZ' z hz
    · intro t ht ε h1 hz
      rcases le_total ε 0 with hε | hε
      · exact (mul_nonpos_of_nonneg_of_nonpos (lt_min hκ hκ').le hε).trans (abs_nonneg _)
      rcases ht with ht | ht
      · exact (mul_le_mul_of_nonneg_right (min_le_left _ _) hε).trans (h t ht ε h1 fun z hz' => hz z (List.mem_append_left _ hz'))
      · exact (mul_le_mul_of_nonneg_right (min_le_right _ _) hε).trans (h' t ht ε h1 fun z hz' => hz z (List.mem_append_right _ hz'))
  · intro τ hτ
    by_cases hg : g τ = 0
    · have hg' := abs_pos.mpr (h0 τ hτ hg)
      have ho := (hasDerivAt_iff_isLittleO.mp (hd τ hτ)).def (c := |g' τ| / 2) (by positivity)
      refine ⟨_, mem_nhdsWithin_of_mem_nhds ho, [τ], by simpa using hτ, |g' τ| / 2, by positivity, ?_⟩
      intro t ht ε _ hz
      have hz' := hz τ (by simp)
      have ht' : ‖g t - g τ - (t - τ) • g' τ‖ ≤ |g' τ| / 2 * ‖t - τ‖ := ht
      rw [hg, sub_zero, smul_eq_mul, Real.norm_eq_abs, Real.norm_eq_abs] at ht'
      have h1 : |(t - τ) * g' τ| ≤ |g t| + |g t - (t - τ) * g' τ| := by
        have e : (t - τ) * g' τ = g t - (g t - (t - τ) * g' τ) := by ring
        conv_lhs => rw [e]
        exact abs_sub _ _
      rw [abs_mul] at h1
      have := mul_le_mul_of_nonneg_left hz' (by positivity : 0 ≤ |g' τ| / 2)
      linarith
    · have hg' := abs_pos.mpr hg
      have hc := (hd τ hτ).continuousAt
      have ev : ∀ᶠ t in 𝓝 τ, |g τ| / 2 < |g t| := (hc.abs).eventually_const_lt (by linarith)
      refine ⟨_, mem_nhdsWithin_of_mem_nhds ev, [], by simp, |g τ| / 2, by positivity, ?_⟩
      intro t ht ε h1 _
      have ht' : |g τ| / 2 < |g t| := ht
      nlinarith

/-- There are finitely many times at which faces are passed, and at all other times the distance from the faces grows in proportion to the distance from these times. -/
theorem passings {qm : ℝ} {field : FieldFn} {faces : List (Vec × Vec)} {x p : ℝ → Vec} {t0 T : ℝ} (hm : EdgeMotion qm field faces x p t0 T) :
    ∃ Z : List ℝ, (∀ z ∈ Z, z ∈ Set.Icc t0 (t0 + T)) ∧ ∃ κ > 0, ∀ f ∈ faces, Away (fun t => dot (x t - f.1) f.2) (Set.Icc t0 (t0 + T)) Z κ := by
  have hcr : ∀ f ∈ faces, ∀ t ∈ Set.Icc t0 (t0 + T), dot (x t - f.1) f.2 = 0 → dot (velOf (p t)) f.2 ≠ 0 := fun f hf t ht h => hm.crossing t ht.1 ht.2 f hf h
  have hp := hm.position
  clear hm
  induction faces with
  | nil => exact ⟨[], by simp, 1, one_pos, by simp⟩
  | cons f l ih =>
    obtain ⟨Z, hZ, κ, hκ, h⟩ := ih fun f hf => hcr f (by simp [hf])
    obtain ⟨Z', hZ', κ', hκ', h'⟩ := zeros (g := fun t => dot (x t - f.1) f.2) (g' := fun t => dot (velOf (p t) * SpeedOfLight) f.2) (a := t0) (b := t0 + T)
      (by
        intro t ht
        obtain ⟨a, b, c⟩ := hp t ht.1 ht.2
        exact (((a.sub_const f.1.x).mul_const f.2.x).fun_add ((b.sub_const f.1.y).mul_const f.2.y)).fun_add ((c.sub_const f.1.z).mul_const f.2.z))
      (by
        intro t ht h0
        rw [dot_mul_left]
        exact mul_ne_zero (hcr f (by simp) t ht h0) SpeedOfLight_pos.ne')
    refine ⟨Z ++ Z', ?_, min κ κ', lt_min hκ hκ', ?_⟩
    · intro z hz
      rcases List.mem_append.mp hz with hz | hz
      · exact hZ z hz
      · exact hZ' z hz
    · intro f' hf' t ht ε h1 hz
      rcases le_total ε 0 with hε | hε
      · exact (mul_nonpos_of_nonneg_of_nonpos (lt_min hκ hκ').le hε).trans (abs_nonneg _)
      rcases List.mem_cons.mp hf' with rfl | hf'
      · exact (mul_le_mul_of_nonneg_right (min_le_right _ _) hε).trans (h' t ht ε h1 fun z hz' => hz z (List.mem_append_right _ hz'))
      · exact (mul_le_mul_of_nonneg_right (min_le_left _ _) hε).trans (h f' hf' t ht ε h1 fun z hz' => hz z (List.mem_append_left _ hz'))

/-- mean value inequality for a function which is differentiable but for finitely many times -/
theorem moved_except {f v : ℝ → Vec} {C : ℝ} (Z : List ℝ) {a b : ℝ} (hab : a ≤ b) (hc : Cont f a b) (h : ∀ t, a < t → t < b → t ∉ Z → HasVelocity f (v t) t)
    (hC : ∀ t, a < t → t < b → (v t).norm ≤ C) : (f b - f a).norm ≤ C * (b - a) := by
  induction Z generalizing a b with
  | nil => exact moved hab hc (fun t h1 h2 => h t h1 h2 (by simp)) hC
  | cons z Z ih =>
    by_cases hz : a < z ∧ z < b
    · have h1 := ih hz.1.le (hc.mono le_rfl hz.2.le) (fun t u w k => h t u (by linarith [hz.2]) (by simp [k, w.ne])) (fun t u w => hC t u (by linarith [hz.2]))
      have h2 := ih hz.2.le (hc.mono hz.1.le le_rfl) (fun t u w k => h t (by linarith [hz.1]) w (by simp [k, u.ne'])) (fun t u w => hC t (by linarith [hz.1]) w)
      have h3 := Vec.norm_sub_le (f b) (f z) (f a)
      linarith
    · refine ih hab hc (fun t u w k => h t u w ?_) hC
      intro hm
      rcases List.mem_cons.mp hm with rfl | hm
      · exact hz ⟨u, w⟩
      · exact k hm

end Edge
end Teufel
