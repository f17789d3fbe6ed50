import Verif.Spec.Edges
import Verif.Lemmas.Regular
import Verif.Props.Existence

/-! # The field of a lattice with hard edges in the vicinity of a point -/

namespace Teufel
open Vec

namespace Edge

/-- defined everywhere and bounded in bounded regions -/
def BoundedField (field : FieldFn) : Prop :=
  ∀ R : ℝ, ∃ M : ℝ, ∀ (t : ℝ) (X : Vec), |t| ≤ R → X.norm ≤ R → ∃ EB, field t X = .ok EB ∧ EB.E.norm ≤ M ∧ EB.B.norm ≤ M

/-- Field and faces near the point `y` which is passed with the velocity `v`.  The normals in `ns` point forward.  The field is one without jumps before all of the planes
through `y` with these normals, and another one behind all of them. -/
def Crossed (field : FieldFn) (faces : List (Vec × Vec)) (y v : Vec) : Prop :=
  ∃ (fm fp : FieldFn) (ns : List Vec) (ρ : ℝ), RegularField fm ∧ RegularField fp ∧ 0 < ρ ∧ (∀ n ∈ ns, 0 < dot v n) ∧
    ∀ X, (X - y).norm ≤ ρ →
      ((∀ n ∈ ns, dot (X - y) n < 0) → (∀ t, field t X = fm t X) ∧ ∀ f ∈ faces, ¬ OnFace X f) ∧
      ((∀ n ∈ ns, 0 < dot (X - y) n) → (∀ t, field t X = fp t X) ∧ ∀ f ∈ faces, ¬ OnFace X f)

/-- the sum of two fields, as in the loop over the elements of a lattice -/
noncomputable def plus (f g : FieldFn) : FieldFn := fun t X => (f t X).bind fun a => (g t X).map (fun b => a + b)

theorem plus_regular {f g : FieldFn} (hf : RegularField f) (hg : RegularField g) : RegularField (plus f g) := by
  intro R
  obtain ⟨L1, a1⟩ := hf R
  obtain ⟨L2, a2⟩ := hg R
  refine ⟨L1 + L2, fun t t' X X' b1 b2 b3 b4 => ?_⟩
  obtain ⟨F, F', c1, c2, c3, c4⟩ := a1 t t' X X' b1 b2 b3 b4
  obtain ⟨G, G', d1, d2, d3, d4⟩ := a2 t t' X X' b1 b2 b3 b4
  refine ⟨F + G, F' + G', by simp [plus, c1, d1, Except.bind, Except.map], by simp [plus, c2, d2, Except.bind, Except.map], ?_, ?_⟩
  · have eq : (F' + G').E - (F + G).E = (F'.E - F.E) + (G'.E - G.E) := by
      ext <;> simp <;> ring
    rw [eq, add_mul]
    exact (Vec.norm_add_le _ _).trans (add_le_add c3 d3)
  · have eq : (F' + G').B - (F + G).B = (F'.B - F.B) + (G'.B - G.B) := by
      ext <;> simp <;> ring
    rw [eq, add_mul]
    exact (Vec.norm_add_le _ _).trans (add_le_add c4 d4)

theorem plus_bounded {f g : FieldFn} (hf : BoundedField f) (hg : BoundedField g) : BoundedField (plus f g) := by
  intro R
  obtain ⟨M1, a1⟩ := hf R
  obtain ⟨M2, a2⟩ := hg R
  refine ⟨M1 + M2, fun t X b1 b2 => ?_⟩
  obtain ⟨F, c1, c2, c3⟩ := a1 t X b1 b2
  obtain ⟨G, d1, d2, d3⟩ := a2 t X b1 b2
  exact ⟨F + G, by simp [plus, c1, d1, Except.bind, Except.map], (Vec.norm_add_le _ _).trans (add_le_add c2 d2), (Vec.norm_add_le _ _).trans (add_le_add c3 d3)⟩

theorem plus_crossed {f g : FieldFn} {fs gs : List (Vec × Vec)} {y v : Vec} (hf : Crossed f fs y v) (hg : Crossed g gs y v) :
    Crossed (plus f g) (fs ++ gs) y v := by
  obtain ⟨fm, fp, ns, ρ, a1, a2, a3, a4, a5⟩ := hf
  obtain ⟨gm, gp, ms, ρ', b1, b2, b3, b4, b5⟩ := hg
  refine ⟨plus fm gm, plus fp gp, ns ++ ms, min ρ ρ', plus_regular a1 b1, plus_regular a2 b2, lt_min a3 b3, ?_, ?_⟩
  · intro n hn
    rcases List.mem_append.mp hn with h | h
    · exact a4 n h
    · exact b4 n h
  · intro X hX
    obtain ⟨c1, c2⟩ := a5 X (hX.trans (min_le_left _ _))
    obtain ⟨d1, d2⟩ := b5 X (hX.trans (min_le_right _ _))
    constructor
    · intro h
      obtain ⟨e1, e2⟩ := c1 fun n hn => h n (List.mem_append_left _ hn)
      obtain ⟨e3, e4⟩ := d1 fun n hn => h n (List.mem_append_right _ hn)
      refine ⟨fun t => by simp only [plus, e1 t, e3 t], fun f hf => ?_⟩
      rcases List.mem_append.mp hf with h | h
      · exact e2 f h
      · exact e4 f h
    · intro h
      obtain ⟨e1, e2⟩ := c2 fun n hn => h n (List.mem_append_left _ hn)
      obtain ⟨e3, e4⟩ := d2 fun n hn => h n (List.mem_append_right _ hn)
      refine ⟨fun t => by simp only [plus, e1 t, e3 t], fun f hf => ?_⟩
      rcases List.mem_append.mp hf with h | h
      · exact e2 f h
      · exact e4 f h

theorem regular_bounded {f : FieldFn} (hf : RegularField f) : BoundedField f := by
  intro R
  obtain ⟨L, hL⟩ := hf |R|
  by_cases hR : 0 ≤ R
  · rw [abs_of_nonneg hR] at hL
    obtain ⟨F0, -, e0, -⟩ := hL 0 0 0 0 (by simpa using hR) (by simpa using hR) (by rw [Vec.norm_zero]; exact hR) (by rw [Vec.norm_zero]; exact hR)
    refine ⟨F0.E.norm + F0.B.norm + |L| * (2 * R), fun t X h1 h2 => ?_⟩
    obtain ⟨F, F', c1, c2, c3, c4⟩ := hL 0 t 0 X (by simpa using hR) h1 (by rw [Vec.norm_zero]; exact hR) h2
    rw [e0] at c1
    cases c1
    rw [sub_zero, sub_zero] at c3 c4
    have hs : 0 ≤ |t| + X.norm := add_nonneg (abs_nonneg _) (Vec.norm_nonneg _)
    have hb : L * (|t| + X.norm) ≤ |L| * (2 * R) :=
      (mul_le_mul_of_nonneg_right (le_abs_self L) hs).trans (mul_le_mul_of_nonneg_left (by linarith) (abs_nonneg L))
    have n1 := Vec.norm_add_le F0.E (F'.E - F0.E)
    have n2 := Vec.norm_add_le F0.B (F'.B - F0.B)
    rw [add_sub_cancel] at n1 n2
    have := Vec.norm_nonneg F0.E
    have := Vec.norm_nonneg F0.B
    exact ⟨F', c2, by linarith, by linarith⟩
  · refine ⟨0, fun t X h1 _ => absurd ((abs_nonneg t).trans h1) hR⟩

theorem regular_crossed {f : FieldFn} (hf : RegularField f) (y v : Vec) : Crossed f [] y v :=
  ⟨f, f, [], 1, hf, hf, one_pos, by simp, fun X _ => ⟨fun _ => ⟨fun _ => rfl, by simp⟩, fun _ => ⟨fun _ => rfl, by simp⟩⟩⟩

/-- one face -/
theorem face (y v q n : Vec) (h : dot (y - q) n = 0 → dot v n ≠ 0) :
    ∃ (ns : List Vec) (ρ : ℝ) (bm bp : Prop), 0 < ρ ∧ (∀ m ∈ ns, 0 < dot v m) ∧ ∀ X, (X - y).norm ≤ ρ →
      ((∀ m ∈ ns, dot (X - y) m < 0) → (dot (X - q) n < 0 ↔ bm) ∧ dot (X - q) n ≠ 0) ∧
      ((∀ m ∈ ns, 0 < dot (X - y) m) → (dot (X - q) n < 0 ↔ bp) ∧ dot (X - q) n ≠ 0) := by
  have split : ∀ X, dot (X - q) n = dot (X - y) n + dot (y - q) n := fun X => by
    rw [← dot_add_left, sub_add_sub_cancel]
  rcases lt_trichotomy (dot (y - q) n) 0 with hd | hd | hd
  · have hn := Vec.norm_nonneg n
    refine ⟨[], -dot (y - q) n / (2 * (n.norm + 1)), True, True, by apply div_pos <;> linarith, by simp, fun X hX => ?_⟩
    have key : dot (X - q) n < 0 := by
      rw [split]
      have h1 := dot_le (X - y) n
      rw [le_div_iff₀ (by positivity)] at hX
      nlinarith [mul_nonneg (Vec.norm_nonneg (X - y)) hn, Vec.norm_nonneg (X - y)]
    exact ⟨fun _ => ⟨by simp [key], key.ne⟩, fun _ => ⟨by simp [key], key.ne⟩⟩
  · rcases lt_or_gt_of_ne (h hd) with hv | hv
    · refine ⟨[-n], 1, False, True, one_pos, by simp [dot_neg_right, hv], fun X _ => ⟨fun hX => ?_, fun hX => ?_⟩⟩
      · have := hX (-n) (by simp)
        rw [dot_neg_right] at this
        rw [split, hd, add_zero]
        exact ⟨by simp; linarith, by linarith⟩
      · have := hX (-n) (by simp)
        rw [dot_neg_right] at this
        rw [split, hd, add_zero]
        exact ⟨by simp; linarith, by linarith⟩
    · refine ⟨[n], 1, True, False, one_pos, by simp [hv], fun X _ => ⟨fun hX => ?_, fun hX => ?_⟩⟩
      · have := hX n (by simp)
        rw [split, hd, add_zero]
        exact ⟨by simp; linarith, by linarith⟩
      · have := hX n (by simp)
        rw [split, hd, add_zero]
        exact ⟨by simp; linarith, by linarith⟩
  · have hn := Vec.norm_nonneg n
    refine ⟨[], dot (y - q) n / (2 * (n.norm + 1)), False, False, by apply div_pos <;> linarith, by simp, fun X hX => ?_⟩
    have key : 0 < dot (X - q) n := by
      rw [split]
      have h1 := (abs_le.mp (abs_dot_le (X - y) n)).1
      rw [le_div_iff₀ (by positivity)] at hX
      nlinarith [mul_nonneg (Vec.norm_nonneg (X - y)) hn, Vec.norm_nonneg (X - y)]
    exact ⟨fun _ => ⟨by simp; linarith, key.ne'⟩, fun _ => ⟨by simp; linarith, key.ne'⟩⟩

open Classical in
theorem dipole_crossed (d : HardEdgeDipole) (t0 : ℝ) (origin y v : Vec)
    (h : ∀ f ∈ [(d.p_1 + origin, d.n_1), (d.p_2 + origin, d.n_2)], OnFace y f → dot v f.2 ≠ 0) :
    Crossed (LocalizedField d.LocalField t0 origin).field [(d.p_1 + origin, d.n_1), (d.p_2 + origin, d.n_2)] y v := by
  obtain ⟨ns, ρ, bm, bp, a1, a2, a3⟩ := face y v (d.p_1 + origin) d.n_1 (h (d.p_1 + origin, d.n_1) (by simp))
  obtain ⟨ms, ρ', cm, cp, b1, b2, b3⟩ := face y v (d.p_2 + origin) d.n_2 (h (d.p_2 + origin, d.n_2) (by simp))
  have sh : ∀ X q : Vec, X - origin - q = X - (q + origin) := fun X q => by abel
  refine ⟨(HomogeneousField 0 (if bm ∧ cm then d.B_val else 0)).field, (HomogeneousField 0 (if bp ∧ cp then d.B_val else 0)).field, ns ++ ms, min ρ ρ',
    Reg.homogeneous _ _, Reg.homogeneous _ _, lt_min a1 b1, ?_, ?_⟩
  · intro n hn
    rcases List.mem_append.mp hn with h | h
    · exact a2 n h
    · exact b2 n h
  · intro X hX
    obtain ⟨c1, c2⟩ := a3 X (hX.trans (min_le_left _ _))
    obtain ⟨d1, d2⟩ := b3 X (hX.trans (min_le_right _ _))
    constructor
    · intro hs
      obtain ⟨e1, e2⟩ := c1 fun n hn => hs n (List.mem_append_left _ hn)
      obtain ⟨e3, e4⟩ := d1 fun n hn => hs n (List.mem_append_right _ hn)
      refine ⟨fun t => ?_, by simp [OnFace, e2, e4]⟩
      simp only [LocalizedField, HardEdgeDipole.LocalField, HomogeneousField, sh, e1, e3]
    · intro hs
      obtain ⟨e1, e2⟩ := c2 fun n hn => hs n (List.mem_append_left _ hn)
      obtain ⟨e3, e4⟩ := d2 fun n hn => hs n (List.mem_append_right _ hn)
      refine ⟨fun t => ?_, by simp [OnFace, e2, e4]⟩
      simp only [LocalizedField, HardEdgeDipole.LocalField, HomogeneousField, sh, e1, e3]

theorem dipole_bounded (d : HardEdgeDipole) (t0 : ℝ) (origin : Vec) : BoundedField (LocalizedField d.LocalField t0 origin).field := by
  intro R
  refine ⟨d.B_val.norm, fun t X _ _ => ⟨_, rfl, ?_, ?_⟩⟩
  · show (0 : Vec).norm ≤ _
    rw [Vec.norm_zero]
    exact Vec.norm_nonneg _
  · dsimp only
    split_ifs
    · exact le_rfl
    · rw [Vec.norm_zero]
      exact Vec.norm_nonneg _

theorem jumpless_regular {e : GeneralField} (h : Jumpless e) : RegularField e.field := by
  have w : ∀ {l z : ℝ}, 0 < l * z → Real.sqrt (l * z / Pi) ≠ 0 := fun h => Real.sqrt_ne_zero'.mpr (div_pos h Real.pi_pos)
  cases h with
  | homogeneous E B => exact Reg.homogeneous E B
  | planar u t0 o hu => exact Reg.localized (Reg.planar u (hu.imp id fun h => by omega)) t0 o
  | gradient u t0 o hu => exact Reg.localized (Reg.gradient u (hu.imp id fun h => by omega)) t0 o
  | softEdge d t0 o h1 h2 => exact Reg.localized (Reg.softEdge d h1 h2) t0 o
  | wave l A z t0 o h1 => exact Reg.localized (Reg.wave _ h1 (w h1)) t0 o
  | packet l A z tau t0 o h1 h2 => exact Reg.localized (Reg.packet _ tau h1 h2 (w h1)) t0 o

theorem faced_bounded {e : GeneralField} {fs : List (Vec × Vec)} (h : Faced e fs) : BoundedField e.field := by
  cases h with
  | jumpless h => exact regular_bounded (jumpless_regular h)
  | hardEdge d t0 origin => exact dipole_bounded d t0 origin

theorem faced_crossed {e : GeneralField} {fs : List (Vec × Vec)} (h : Faced e fs) (y v : Vec) (hv : ∀ f ∈ fs, OnFace y f → dot v f.2 ≠ 0) :
    Crossed e.field fs y v := by
  cases h with
  | jumpless h => exact regular_crossed (jumpless_regular h) y v
  | hardEdge d t0 origin => exact dipole_crossed d t0 origin y v hv

/-- the loop over the elements from a given partial sum on -/
noncomputable def from' (acc : FieldFn) (lat : Lattice) : FieldFn :=
  fun t X => (acc t X).bind fun a => lat.foldlM (fun total e => (e.field t X).map (fun f => total + f)) a

theorem from_nil (acc : FieldFn) : from' acc [] = acc := by
  funext t X
  simp only [from']
  cases acc t X <;> rfl

theorem from_cons (acc : FieldFn) (e : GeneralField) (l : Lattice) : from' acc (e :: l) = from' (plus acc e.field) l := by
  funext t X
  simp only [from', plus, List.foldlM_cons]
  cases acc t X with
  | error _ => rfl
  | ok a => cases h : e.field t X <;> simp [h, Except.bind, Except.map, bind]

theorem lattice_bounded {lat : Lattice} {fs : List (Vec × Vec)} (h : LatticeFaces lat fs) : BoundedField lat.field := by
  suffices H : ∀ acc, BoundedField acc → BoundedField (from' acc lat) from H (fun _ _ => .ok 0) (regular_bounded (Reg.homogeneous 0 0))
  induction h with
  | nil => intro acc ha; rw [from_nil]; exact ha
  | cons he _ ih => intro acc ha; rw [from_cons]; exact ih _ (plus_bounded ha (faced_bounded he))

theorem lattice_crossed {lat : Lattice} {fs : List (Vec × Vec)} (h : LatticeFaces lat fs) (y v : Vec) (hv : ∀ f ∈ fs, OnFace y f → dot v f.2 ≠ 0) :
    Crossed lat.field fs y v := by
  suffices H : ∀ acc gs, Crossed acc gs y v → Crossed (from' acc lat) (gs ++ fs) y v from
    H (fun _ _ => .ok 0) [] (regular_crossed (Reg.homogeneous 0 0) y v)
  induction h with
  | nil => intro acc gs ha; rw [from_nil, List.append_nil]; exact ha
  | cons he _ ih =>
    intro acc gs ha
    rw [from_cons, ← List.append_assoc]
    exact ih (fun f hf => hv f (List.mem_append_right _ hf)) _ _ (plus_crossed ha (faced_crossed he y v fun f hf => hv f (List.mem_append_left _ hf)))

end Edge
end Teufel
