import Verif.Spec.Regular
import Verif.Lemmas.Gronwall
import Mathlib.Analysis.ODE.ExistUnique

/-! # Existence and uniqueness of the exact motion in regular fields -/

namespace Teufel
open Vec

namespace Exist

/-- the components as an element of a normed space -/
def triple (v : Vec) : ℝ × ℝ × ℝ := (v.x, v.y, v.z)
def vec3 (q : ℝ × ℝ × ℝ) : Vec := ⟨q.1, q.2.1, q.2.2⟩

@[simp] theorem vec3_triple (v : Vec) : vec3 (triple v) = v := rfl

theorem comps_le (v : Vec) : |v.x| ≤ v.norm ∧ |v.y| ≤ v.norm ∧ |v.z| ≤ v.norm := by
  unfold Vec.norm
  refine ⟨Real.abs_le_sqrt ?_, Real.abs_le_sqrt ?_, Real.abs_le_sqrt ?_⟩ <;>
    nlinarith [mul_self_nonneg v.x, mul_self_nonneg v.y, mul_self_nonneg v.z]

theorem triple_norm (v : Vec) : ‖triple v‖ ≤ v.norm := by
  obtain ⟨h1, h2, h3⟩ := comps_le v
  simp only [triple, Prod.norm_def, Real.norm_eq_abs]
  exact max_le h1 (max_le h2 h3)

theorem triple_sub (v w : Vec) : triple v - triple w = triple (v - w) := rfl
theorem vec3_sub (v w : ℝ × ℝ × ℝ) : vec3 v - vec3 w = vec3 (v - w) := rfl

theorem vec3_norm (q : ℝ × ℝ × ℝ) : (vec3 q).norm ≤ 3 * ‖q‖ := by
  refine (norm_le_comps _).trans ?_
  have h1 : |q.1| ≤ ‖q‖ := norm_fst_le q
  have h2 : |q.2.1| ≤ ‖q‖ := (norm_fst_le q.2).trans (norm_snd_le q)
  have h3 : |q.2.2| ≤ ‖q‖ := (norm_snd_le q.2).trans (norm_snd_le q)
  simp only [vec3]
  linarith

/-- nearest number in an interval -/
noncomputable def clamp (a D u : ℝ) : ℝ := max (a - D) (min u (a + D))

theorem clamp_lip (a D u v : ℝ) : |clamp a D u - clamp a D v| ≤ |u - v| := by
  unfold clamp
  refine (abs_max_sub_max_le_max _ _ _ _).trans ?_
  rw [sub_self, abs_zero]
  refine max_le (abs_nonneg _) ((abs_min_sub_min_le_max _ _ _ _).trans ?_)
  rw [sub_self, abs_zero]
  exact max_le le_rfl (abs_nonneg _)

theorem clamp_near {a D : ℝ} (hD : 0 ≤ D) (u : ℝ) : |clamp a D u - a| ≤ D := by
  unfold clamp
  rw [abs_le]
  constructor
  · linarith [le_max_left (a - D) (min u (a + D))]
  · have : max (a - D) (min u (a + D)) ≤ a + D := max_le (by linarith) (min_le_right _ _)
    linarith

theorem clamp_eq {a D u : ℝ} (h : |u - a| ≤ D) : clamp a D u = u := by
  rw [abs_le] at h
  unfold clamp
  rw [min_eq_left (by linarith), max_eq_right (by linarith)]

noncomputable def box (x0 : Vec) (D : ℝ) (X : Vec) : Vec := ⟨clamp x0.x D X.x, clamp x0.y D X.y, clamp x0.z D X.z⟩

theorem norm_mono {v w : Vec} (h1 : |v.x| ≤ |w.x|) (h2 : |v.y| ≤ |w.y|) (h3 : |v.z| ≤ |w.z|) : v.norm ≤ w.norm := by
  unfold Vec.norm
  refine Real.sqrt_le_sqrt ?_
  have a := abs_le_abs_iff_mul_self_le h1
  have b := abs_le_abs_iff_mul_self_le h2
  have c := abs_le_abs_iff_mul_self_le h3
  linarith
where
  abs_le_abs_iff_mul_self_le {a b : ℝ} (h : |a| ≤ |b|) : a * a ≤ b * b := by
    have := sq_le_sq.mpr h
    nlinarith

theorem box_lip (x0 : Vec) (D : ℝ) (X Y : Vec) : (box x0 D X - box x0 D Y).norm ≤ (X - Y).norm :=
  norm_mono (clamp_lip _ _ _ _) (clamp_lip _ _ _ _) (clamp_lip _ _ _ _)

theorem box_near (x0 : Vec) {D : ℝ} (hD : 0 ≤ D) (X : Vec) : (box x0 D X).norm ≤ x0.norm + 3 * D := by
  have e : box x0 D X = x0 + (box x0 D X - x0) := by abel
  rw [e]
  refine (Vec.norm_add_le _ _).trans (add_le_add le_rfl ?_)
  refine (norm_le_comps _).trans ?_
  have a := clamp_near (a := x0.x) hD X.x
  have b := clamp_near (a := x0.y) hD X.y
  have c := clamp_near (a := x0.z) hD X.z
  simp only [sub_x, sub_y, sub_z, box]
  linarith

/-- fields which agree with the given one in a box around `x0` and are bounded and Lipschitz continuous everywhere -/
structure Cut (field : FieldFn) (x0 : Vec) (D lo hi : ℝ) (e b : ℝ → Vec → Vec) (L M : ℝ) : Prop where
  hL : 0 ≤ L
  hM : 0 ≤ M
  lipE : ∀ t t' X X', lo ≤ t → t ≤ hi → lo ≤ t' → t' ≤ hi → (e t' X' - e t X).norm ≤ L * (|t' - t| + (X' - X).norm)
  lipB : ∀ t t' X X', lo ≤ t → t ≤ hi → lo ≤ t' → t' ≤ hi → (b t' X' - b t X).norm ≤ L * (|t' - t| + (X' - X).norm)
  boundE : ∀ t X, lo ≤ t → t ≤ hi → (e t X).norm ≤ M
  boundB : ∀ t X, lo ≤ t → t ≤ hi → (b t X).norm ≤ M
  eq : ∀ t X, lo ≤ t → t ≤ hi → (X - x0).norm ≤ D → field t X = .ok ⟨e t X, b t X⟩

theorem cut_exists {field : FieldFn} (hf : RegularField field) (x0 : Vec) {D lo hi : ℝ} (hD : 0 ≤ D) (hlh : lo ≤ hi) :
    ∃ e b L M, Cut field x0 D lo hi e b L M := by
  set R := |lo| + |hi| + x0.norm + 3 * D with hR
  have hx0 := Vec.norm_nonneg x0
  have hX : ∀ X, (box x0 D X).norm ≤ R := fun X => (box_near x0 hD X).trans (by rw [hR]; linarith [abs_nonneg lo, abs_nonneg hi])
  have ht : ∀ t, lo ≤ t → t ≤ hi → |t| ≤ R := by
    intro t h1 h2
    rw [hR, abs_le]
    constructor
    · linarith [neg_abs_le lo, abs_nonneg hi]
    · linarith [le_abs_self hi, abs_nonneg lo]
  obtain ⟨L0, hL⟩ := hf R
  set L := |L0| with hLdef
  have hL0 : 0 ≤ L := abs_nonneg _
  -- the values
  have hdef : ∀ t X, lo ≤ t → t ≤ hi → ∃ F : EMField, field t (box x0 D X) = .ok F := fun t X h1 h2 => by
    obtain ⟨F, -, h, -⟩ := hL t t (box x0 D X) (box x0 D X) (ht t h1 h2) (ht t h1 h2) (hX X) (hX X)
    exact ⟨F, h⟩
  let val : ℝ → Vec → EMField := fun t X => match field t (box x0 D X) with
    | .ok F => F
    | .error _ => 0
  have hval : ∀ t X, lo ≤ t → t ≤ hi → field t (box x0 D X) = .ok (val t X) := fun t X h1 h2 => by
    obtain ⟨F, h⟩ := hdef t X h1 h2
    simp only [val, h]
  have hlip : ∀ t t' X X', lo ≤ t → t ≤ hi → lo ≤ t' → t' ≤ hi →
      ((val t' X').E - (val t X).E).norm ≤ L * (|t' - t| + (X' - X).norm) ∧ ((val t' X').B - (val t X).B).norm ≤ L * (|t' - t| + (X' - X).norm) := by
    intro t t' X X' h1 h2 h3 h4
    obtain ⟨F, F', e1, e2, e3, e4⟩ := hL t t' (box x0 D X) (box x0 D X') (ht t h1 h2) (ht t' h3 h4) (hX X) (hX X')
    rw [hval t X h1 h2] at e1
    rw [hval t' X' h3 h4] at e2
    cases e1
    cases e2
    have h5 := box_lip x0 D X' X
    have h6 := abs_nonneg (t' - t)
    have h7 := Vec.norm_nonneg (box x0 D X' - box x0 D X)
    have h8 : L0 * (|t' - t| + (box x0 D X' - box x0 D X).norm) ≤ L * (|t' - t| + (X' - X).norm) :=
      (mul_le_mul_of_nonneg_right (le_abs_self L0) (by linarith)).trans (mul_le_mul_of_nonneg_left (by linarith) hL0)
    exact ⟨e3.trans h8, e4.trans h8⟩
  -- bounds: all points of the box are near x0
  have hbox : ∀ X, val lo X = val lo (box x0 D X) := by
    intro X
    have : box x0 D (box x0 D X) = box x0 D X := by
      ext
      · exact clamp_eq (clamp_near hD _)
      · exact clamp_eq (clamp_near hD _)
      · exact clamp_eq (clamp_near hD _)
    simp only [val, this]
  set N := (val lo x0).E.norm + (val lo x0).B.norm + L * ((hi - lo) + (R + x0.norm)) with hN
  have hbound : ∀ t X, lo ≤ t → t ≤ hi → (val t X).E.norm ≤ N ∧ (val t X).B.norm ≤ N := by
    intro t X h1 h2
    have hv : val t X = val t (box x0 D X) := by
      have : box x0 D (box x0 D X) = box x0 D X := by
        ext
        · exact clamp_eq (clamp_near hD _)
        · exact clamp_eq (clamp_near hD _)
        · exact clamp_eq (clamp_near hD _)
      simp only [val, this]
    obtain ⟨a, b⟩ := hlip lo t x0 (box x0 D X) le_rfl hlh h1 h2
    have h3 : (box x0 D X - x0).norm ≤ R + x0.norm := (norm_sub_le' _ _).trans (by linarith [hX X])
    have h4 : |t - lo| ≤ hi - lo := by rw [abs_of_nonneg (by linarith)]; linarith
    have h5 : L * (|t - lo| + (box x0 D X - x0).norm) ≤ L * ((hi - lo) + (R + x0.norm)) := mul_le_mul_of_nonneg_left (by linarith) hL0
    have nE := Vec.norm_nonneg (val lo x0).E
    have nB := Vec.norm_nonneg (val lo x0).B
    rw [hv]
    constructor
    · have : (val t (box x0 D X)).E = (val lo x0).E + ((val t (box x0 D X)).E - (val lo x0).E) := by abel
      rw [this]
      exact (Vec.norm_add_le _ _).trans (by rw [hN]; linarith)
    · have : (val t (box x0 D X)).B = (val lo x0).B + ((val t (box x0 D X)).B - (val lo x0).B) := by abel
      rw [this]
      exact (Vec.norm_add_le _ _).trans (by rw [hN]; linarith)
  refine ⟨fun t X => (val t X).E, fun t X => (val t X).B, L, N, hL0, (Vec.norm_nonneg _).trans (hbound lo x0 le_rfl hlh).1,
    fun t t' X X' h1 h2 h3 h4 => (hlip t t' X X' h1 h2 h3 h4).1, fun t t' X X' h1 h2 h3 h4 => (hlip t t' X X' h1 h2 h3 h4).2,
    fun t X h1 h2 => (hbound t X h1 h2).1, fun t X h1 h2 => (hbound t X h1 h2).2, ?_⟩
  intro t X h1 h2 h3
  obtain ⟨c1, c2, c3⟩ := comps_le (X - x0)
  have hb : box x0 D X = X := by
    ext
    · exact clamp_eq (c1.trans h3)
    · exact clamp_eq (c2.trans h3)
    · exact clamp_eq (c3.trans h3)
  have := hval t X h1 h2
  rw [hb] at this
  exact this

/-- rate of change of the momentum -/
noncomputable def force (qm : ℝ) (e b : ℝ → Vec → Vec) (t : ℝ) (x p : Vec) : Vec := (e t x / SpeedOfLight + cross (velOf p) (b t x)) * qm

noncomputable def A (qm L M : ℝ) : ℝ := |qm| * (L / SpeedOfLight + L + 2 * M)

namespace Cut
variable {field : FieldFn} {x0 : Vec} {D lo hi : ℝ} {e b : ℝ → Vec → Vec} {L M : ℝ}

theorem A_nonneg (h : Cut field x0 D lo hi e b L M) (qm : ℝ) : 0 ≤ A qm L M := by
  have := SpeedOfLight_pos
  have := h.hL
  have := h.hM
  unfold A
  positivity

theorem force_lip (h : Cut field x0 D lo hi e b L M) (qm : ℝ) {t t' : ℝ} (h1 : lo ≤ t) (h2 : t ≤ hi) (h3 : lo ≤ t') (h4 : t' ≤ hi) (x x' p p' : Vec) :
    (force qm e b t' x' p' - force qm e b t x p).norm ≤ A qm L M * (|t' - t| + (x' - x).norm + (p' - p).norm) := by
  have hc := SpeedOfLight_pos
  have hL := h.hL
  have hM := h.hM
  have l1 := h.lipE t t' x x' h1 h2 h3 h4
  have l2 := h.lipB t t' x x' h1 h2 h3 h4
  set d := |t' - t| + (x' - x).norm with hd
  have hd0 : 0 ≤ d := add_nonneg (abs_nonneg _) (Vec.norm_nonneg _)
  have c1 : (cross (velOf p') (b t' x' - b t x)).norm ≤ 1 * (L * d) := norm_cross_bound (velOf_le p') l2
  have c2 : (cross (velOf p' - velOf p) (b t x)).norm ≤ 2 * (p' - p).norm * M := norm_cross_bound (velOf_lip _ _) (h.boundB t x h1 h2)
  have c5 : ((e t' x' - e t x) * (1 / SpeedOfLight)).norm ≤ L * d * (1 / SpeedOfLight) := by
    rw [Vec.norm_mul, abs_of_pos (by positivity)]
    exact mul_le_mul_of_nonneg_right l1 (by positivity)
  have eq : force qm e b t' x' p' - force qm e b t x p =
      ((e t' x' - e t x) * (1 / SpeedOfLight) + cross (velOf p') (b t' x' - b t x) + cross (velOf p' - velOf p) (b t x)) * qm := by
    unfold force
    ext <;> simp [cross] <;> field_simp <;> ring
  rw [eq, Vec.norm_mul, mul_comm]
  unfold A
  rw [mul_assoc]
  refine mul_le_mul_of_nonneg_left ?_ (abs_nonneg qm)
  have n1 := Vec.norm_add_le ((e t' x' - e t x) * (1 / SpeedOfLight) + cross (velOf p') (b t' x' - b t x)) (cross (velOf p' - velOf p) (b t x))
  have n2 := Vec.norm_add_le ((e t' x' - e t x) * (1 / SpeedOfLight)) (cross (velOf p') (b t' x' - b t x))
  have hp := Vec.norm_nonneg (p' - p)
  have : (L / SpeedOfLight + L + 2 * M) * (d + (p' - p).norm) =
    L * d * (1 / SpeedOfLight) + 1 * (L * d) + 2 * (p' - p).norm * M + (L / SpeedOfLight * (p' - p).norm + L * (p' - p).norm + 2 * (M * d)) := by ring
  rw [this]
  have : 0 ≤ L / SpeedOfLight * (p' - p).norm + L * (p' - p).norm + 2 * (M * d) := by positivity
  linarith

theorem force_bound (h : Cut field x0 D lo hi e b L M) (qm : ℝ) {t : ℝ} (h1 : lo ≤ t) (h2 : t ≤ hi) (x p : Vec) :
    (force qm e b t x p).norm ≤ |qm| * (M / SpeedOfLight + M) := by
  have hc := SpeedOfLight_pos
  unfold force
  rw [Vec.norm_mul, mul_comm]
  refine mul_le_mul_of_nonneg_left ((Vec.norm_add_le _ _).trans (add_le_add ?_ ?_)) (abs_nonneg qm)
  · rw [norm_div, abs_of_pos hc]
    exact div_le_div_of_nonneg_right (h.boundE t x h1 h2) hc.le
  · have := norm_cross_bound (velOf_le p) (h.boundB t x h1 h2)
    linarith

end Cut

/-- the equation of motion as a differential equation for six numbers -/
noncomputable def rhs (qm : ℝ) (e b : ℝ → Vec → Vec) (t : ℝ) (w : (ℝ × ℝ × ℝ) × (ℝ × ℝ × ℝ)) : (ℝ × ℝ × ℝ) × (ℝ × ℝ × ℝ) :=
  (triple (velOf (vec3 w.2) * SpeedOfLight), triple (force qm e b t (vec3 w.1) (vec3 w.2)))

theorem rhs_lip {field : FieldFn} {x0 : Vec} {D lo hi : ℝ} {e b : ℝ → Vec → Vec} {L M : ℝ} (h : Cut field x0 D lo hi e b L M) (qm : ℝ) {t : ℝ}
    (h1 : lo ≤ t) (h2 : t ≤ hi) : LipschitzWith (Real.toNNReal (6 * SpeedOfLight + 6 * A qm L M)) (rhs qm e b t) := by
  have hc := SpeedOfLight_pos
  have hA := h.A_nonneg qm
  refine LipschitzWith.of_dist_le_mul fun w w' => ?_
  rw [Real.coe_toNNReal _ (by positivity), dist_eq_norm, dist_eq_norm]
  have n1 : ‖w.1 - w'.1‖ ≤ ‖w - w'‖ := norm_fst_le (w - w')
  have n2 : ‖w.2 - w'.2‖ ≤ ‖w - w'‖ := norm_snd_le (w - w')
  have v1 : (vec3 w.1 - vec3 w'.1).norm ≤ 3 * ‖w - w'‖ := by rw [vec3_sub]; exact (vec3_norm _).trans (by linarith)
  have v2 : (vec3 w.2 - vec3 w'.2).norm ≤ 3 * ‖w - w'‖ := by rw [vec3_sub]; exact (vec3_norm _).trans (by linarith)
  have hw : 0 ≤ ‖w - w'‖ := _root_.norm_nonneg _
  rw [Prod.norm_def]
  refine max_le ?_ ?_
  · show ‖triple _ - triple _‖ ≤ _
    rw [triple_sub]
    refine (triple_norm _).trans ?_
    have : velOf (vec3 w.2) * SpeedOfLight - velOf (vec3 w'.2) * SpeedOfLight = (velOf (vec3 w.2) - velOf (vec3 w'.2)) * SpeedOfLight := by
      ext <;> simp <;> ring
    rw [this, Vec.norm_mul, abs_of_pos hc]
    have := mul_le_mul_of_nonneg_right ((velOf_lip (vec3 w.2) (vec3 w'.2)).trans (mul_le_mul_of_nonneg_left v2 (by norm_num))) hc.le
    nlinarith [mul_nonneg hA hw]
  · show ‖triple _ - triple _‖ ≤ _
    rw [triple_sub]
    refine (triple_norm _).trans ?_
    have := h.force_lip qm h1 h2 h1 h2 (vec3 w'.1) (vec3 w.1) (vec3 w'.2) (vec3 w.2)
    rw [sub_self t, abs_zero, zero_add] at this
    refine this.trans ?_
    have h3 := mul_le_mul_of_nonneg_left (add_le_add v1 v2) hA
    nlinarith [mul_nonneg hc.le hw]

theorem deriv_fst {E F : Type*} [NormedAddCommGroup E] [NormedSpace ℝ E] [NormedAddCommGroup F] [NormedSpace ℝ F] {f : ℝ → E × F} {v : E × F} {t : ℝ}
    (h : HasDerivAt f v t) : HasDerivAt (fun s => (f s).1) v.1 t := by
  have := (hasFDerivAt_fst (𝕜 := ℝ) (p := f t)).comp_hasDerivAt t h
  exact this

theorem deriv_snd {E F : Type*} [NormedAddCommGroup E] [NormedSpace ℝ E] [NormedAddCommGroup F] [NormedSpace ℝ F] {f : ℝ → E × F} {v : E × F} {t : ℝ}
    (h : HasDerivAt f v t) : HasDerivAt (fun s => (f s).2) v.2 t := by
  have := (hasFDerivAt_snd (𝕜 := ℝ) (p := f t)).comp_hasDerivAt t h
  exact this

theorem hasVelocity_iff {f : ℝ → Vec} {v : Vec} {t : ℝ} : HasVelocity f v t ↔ HasDerivAt (fun s => triple (f s)) (triple v) t := by
  constructor
  · rintro ⟨h1, h2, h3⟩
    exact h1.prodMk (h2.prodMk h3)
  · intro h
    have h2 := deriv_snd h
    exact ⟨deriv_fst h, deriv_fst h2, deriv_snd h2⟩

theorem velocity_congr {f : ℝ → Vec} {v w : Vec} {t : ℝ} (h : HasVelocity f v t) (hvw : v = w) : HasVelocity f w t := hvw ▸ h

/-- mean value inequality -/
theorem moved {f v : ℝ → Vec} {lo hi C : ℝ} (h : ∀ t, lo ≤ t → t ≤ hi → HasVelocity f (v t) t) (hC : ∀ t, lo ≤ t → t ≤ hi → (v t).norm ≤ C) {s t : ℝ}
    (hs : lo ≤ s) (hs' : s ≤ hi) (ht : lo ≤ t) (ht' : t ≤ hi) : (f t - f s).norm ≤ C * |t - s| := by
  -- the component along the difference
  set d := f t - f s with hd
  by_cases h0 : d.norm = 0
  · rw [h0]
    exact mul_nonneg ((Vec.norm_nonneg _).trans (hC s hs hs')) (abs_nonneg _)
  have hpos : 0 < d.norm := lt_of_le_of_ne (Vec.norm_nonneg d) (Ne.symm h0)
  have hder : ∀ r ∈ Set.Icc lo hi, HasDerivAt (fun r => dot (f r) d) (dot (v r) d) r := by
    intro r hr
    obtain ⟨a, b, c⟩ := h r hr.1 hr.2
    exact ((a.mul_const d.x).fun_add (b.mul_const d.y)).fun_add (c.mul_const d.z)
  have hb : ∀ r ∈ Set.Icc lo hi, |dot (v r) d| ≤ C * d.norm := fun r hr =>
    (abs_dot_le _ _).trans (mul_le_mul_of_nonneg_right (hC r hr.1 hr.2) hpos.le)
  have key := Taylor.mvt hder hb (s := s) (t := t) ⟨hs, hs'⟩ ⟨ht, ht'⟩
  have e : dot (f t) d - dot (f s) d = d.norm * d.norm := by
    rw [norm_mul_self, hd]
    unfold dot abs2nd
    simp
    ring
  rw [e, abs_of_nonneg (by positivity)] at key
  exact le_of_mul_le_mul_right (by linarith : d.norm * d.norm ≤ C * |t - s| * d.norm) hpos

/-- first order Taylor formula for a function with a Lipschitz continuous derivative -/
theorem taylor {f v : ℝ → Vec} {lo hi C : ℝ} (h : ∀ t, lo ≤ t → t ≤ hi → HasVelocity f (v t) t)
    (hC : ∀ t t', lo ≤ t → t ≤ hi → lo ≤ t' → t' ≤ hi → (v t' - v t).norm ≤ C * |t' - t|) {t s : ℝ} (ht : lo ≤ t - |s|) (ht' : t + |s| ≤ hi) (hC0 : 0 ≤ C) :
    (f (t + s) - f t - v t * s).norm ≤ C * s ^ 2 := by
  have hs := abs_nonneg s
  have hd : ∀ r, t - |s| ≤ r → r ≤ t + |s| → HasVelocity (fun r => f r - v t * (r - t)) (v r - v t) r := by
    intro r h1 h2
    obtain ⟨a, b, c⟩ := h r (by linarith) (by linarith)
    have k : ∀ q : ℝ, HasDerivAt (fun r => q * (r - t)) q r := fun q => by simpa using ((hasDerivAt_id r).sub_const t).const_mul q
    exact ⟨a.fun_sub (k _), b.fun_sub (k _), c.fun_sub (k _)⟩
  have hb : ∀ r, t - |s| ≤ r → r ≤ t + |s| → (v r - v t).norm ≤ C * |s| := by
    intro r h1 h2
    refine (hC t r (by linarith) (by linarith) (by linarith) (by linarith)).trans (mul_le_mul_of_nonneg_left ?_ hC0)
    rw [abs_le]
    constructor <;> linarith
  have := moved hd hb (s := t) (t := t + s) (by linarith) (by linarith) (by linarith [neg_abs_le s]) (by linarith [le_abs_self s])
  have e : f (t + s) - v t * (t + s - t) - (f t - v t * (t - t)) = f (t + s) - f t - v t * s := by
    ext <;> simp <;> ring
  rw [e, add_sub_cancel_left] at this
  rwa [mul_assoc, abs_mul_abs_self, ← sq] at this

/-- the motion in the cut field -/
theorem solve {field : FieldFn} {x0 : Vec} {D lo hi : ℝ} {e b : ℝ → Vec → Vec} {L M : ℝ} (h : Cut field x0 D lo hi e b L M) (qm : ℝ) (p0 : Vec) {t0 : ℝ}
    (h1 : lo ≤ t0) (h2 : t0 ≤ hi) :
    ∃ x p : ℝ → Vec, x t0 = x0 ∧ p t0 = p0 ∧ ∀ t, lo < t → t < hi →
      HasVelocity x (velOf (p t) * SpeedOfLight) t ∧ HasVelocity p (force qm e b t (x t) (p t)) t := by
  have hc := SpeedOfLight_pos
  have hA := h.A_nonneg qm
  have hL := h.hL
  have hM := h.hM
  set N : ℝ := SpeedOfLight + |qm| * (M / SpeedOfLight + M) with hN
  have hN0 : 0 ≤ N := by positivity
  have hP : IsPicardLindelof (rhs qm e b) (tmin := lo) (tmax := hi) ⟨t0, h1, h2⟩ (triple x0, triple p0)
      (Real.toNNReal (N * (hi - lo))) 0 (Real.toNNReal N) (Real.toNNReal (6 * SpeedOfLight + 6 * A qm L M)) := by
    refine ⟨fun t ht => (rhs_lip h qm ht.1 ht.2).lipschitzOnWith, ?_, ?_, ?_⟩
    · intro w _
      refine LipschitzOnWith.continuousOn (K := Real.toNNReal (A qm L M)) (LipschitzOnWith.of_dist_le_mul fun t ht t' ht' => ?_)
      rw [Real.coe_toNNReal _ hA, dist_eq_norm, Real.dist_eq, Prod.norm_def]
      refine max_le ?_ ?_
      · show ‖triple _ - triple _‖ ≤ _
        rw [sub_self, _root_.norm_zero]
        positivity
      · show ‖triple _ - triple _‖ ≤ _
        rw [triple_sub]
        refine (triple_norm _).trans ?_
        have := h.force_lip qm ht'.1 ht'.2 ht.1 ht.2 (vec3 w.1) (vec3 w.1) (vec3 w.2) (vec3 w.2)
        rw [sub_self, sub_self, Vec.norm_zero, add_zero, add_zero] at this
        exact this
    · intro t ht w _
      rw [Real.coe_toNNReal _ hN0, Prod.norm_def]
      refine max_le ?_ ?_
      · refine (triple_norm _).trans ?_
        rw [Vec.norm_mul, abs_of_pos hc]
        have := mul_le_mul_of_nonneg_right (velOf_le (vec3 w.2)) hc.le
        have : 0 ≤ |qm| * (M / SpeedOfLight + M) := by positivity
        linarith
      · refine (triple_norm _).trans ((h.force_bound qm ht.1 ht.2 _ _).trans ?_)
        linarith
    · rw [Real.coe_toNNReal _ hN0, Real.coe_toNNReal _ (mul_nonneg hN0 (by linarith))]
      simp only [NNReal.coe_zero, sub_zero]
      exact mul_le_mul_of_nonneg_left (max_le (by linarith) (by linarith)) hN0
  obtain ⟨α, hα, hd⟩ := hP.exists_eq_forall_mem_Icc_hasDerivWithinAt₀
  refine ⟨fun t => vec3 (α t).1, fun t => vec3 (α t).2, ?_, ?_, ?_⟩
  · show vec3 (α t0).1 = x0
    simp only at hα
    rw [hα]
    rfl
  · show vec3 (α t0).2 = p0
    simp only at hα
    rw [hα]
    rfl
  · intro t h3 h4
    have := (hd t ⟨h3.le, h4.le⟩).hasDerivAt (Icc_mem_nhds h3 h4)
    rw [hasVelocity_iff, hasVelocity_iff]
    exact ⟨deriv_fst this, deriv_snd this⟩

/-- there is only one motion in the cut field -/
theorem unique {field : FieldFn} {x0 : Vec} {D lo hi : ℝ} {e b : ℝ → Vec → Vec} {L M : ℝ} (h : Cut field x0 D lo hi e b L M) (qm : ℝ) {x p x' p' : ℝ → Vec}
    {t0 t1 : ℝ} (h1 : lo ≤ t0) (h2 : t1 ≤ hi)
    (hx : ∀ t, t0 ≤ t → t ≤ t1 → HasVelocity x (velOf (p t) * SpeedOfLight) t) (hp : ∀ t, t0 ≤ t → t ≤ t1 → HasVelocity p (force qm e b t (x t) (p t)) t)
    (hx' : ∀ t, t0 ≤ t → t ≤ t1 → HasVelocity x' (velOf (p' t) * SpeedOfLight) t) (hp' : ∀ t, t0 ≤ t → t ≤ t1 → HasVelocity p' (force qm e b t (x' t) (p' t)) t)
    (ex : x t0 = x' t0) (ep : p t0 = p' t0) (t : ℝ) (ht : t0 ≤ t) (ht' : t ≤ t1) : x t = x' t ∧ p t = p' t := by
  have der : ∀ {x p : ℝ → Vec}, (∀ t, t0 ≤ t → t ≤ t1 → HasVelocity x (velOf (p t) * SpeedOfLight) t) →
      (∀ t, t0 ≤ t → t ≤ t1 → HasVelocity p (force qm e b t (x t) (p t)) t) → ∀ t ∈ Set.Icc t0 t1,
      HasDerivAt (fun s => (triple (x s), triple (p s))) (rhs qm e b t (triple (x t), triple (p t))) t := by
    intro x p hx hp t ht
    exact (hasVelocity_iff.mp (hx t ht.1 ht.2)).prodMk (hasVelocity_iff.mp (hp t ht.1 ht.2))
  have d1 := der hx hp
  have d2 := der hx' hp'
  have key := ODE_solution_unique_of_mem_Icc_right (a := t0) (b := t1) (v := rhs qm e b) (s := fun _ => Set.univ)
    (K := Real.toNNReal (6 * SpeedOfLight + 6 * A qm L M))
    (fun t ht => (rhs_lip h qm (by linarith [ht.1]) (by linarith [ht.2])).lipschitzOnWith)
    (fun t ht => (d1 t ht).continuousAt.continuousWithinAt) (fun t ht => (d1 t ⟨ht.1, ht.2.le⟩).hasDerivWithinAt) (fun _ _ => trivial)
    (fun t ht => (d2 t ht).continuousAt.continuousWithinAt) (fun t ht => (d2 t ⟨ht.1, ht.2.le⟩).hasDerivWithinAt) (fun _ _ => trivial)
    (by simp only [ex, ep])
  have := key ⟨ht, ht'⟩
  simp only [Prod.mk.injEq] at this
  exact ⟨congrArg vec3 this.1, congrArg vec3 this.2⟩

end Exist
end Teufel
