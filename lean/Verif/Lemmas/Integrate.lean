import Verif.Lemmas.Retarded
import Mathlib.MeasureTheory.Integral.IntervalIntegral.Basic
import Mathlib.Analysis.SpecialFunctions.Integrals.Basic

/-! Helper lemmas for the recording of fields into traces -/

namespace Teufel
open Vec
namespace Particle

theorem cround_spec {x : ℝ} (h : -(1 / 2) < x) : (cround x : ℝ) - 1 / 2 ≤ x ∧ x < (cround x : ℝ) + 1 / 2 ∧ 0 ≤ cround x := by
  unfold cround
  by_cases h0 : 0 ≤ x
  · rw [if_pos h0]
    have h1 := Int.floor_le (x + 1 / 2)
    have h2 := Int.lt_floor_add_one (x + 1 / 2)
    refine ⟨by linarith, by linarith, ?_⟩
    apply Int.floor_nonneg.mpr; linarith
  · rw [if_neg h0]
    have : ⌈x - 1 / 2⌉ = 0 := by
      rw [Int.ceil_eq_iff]; push_cast; constructor <;> linarith
    rw [this]; push_cast
    exact ⟨by linarith, by linarith, trivial⟩

/-- a component of the electromagnetic field (or any linear combination of components) -/
structure IsComponent (φ : EMField → ℝ) : Prop where
  add : ∀ a b, φ (a + b) = φ a + φ b
  smul : ∀ (a : EMField) (k : ℝ), φ (a * k) = φ a * k

theorem mem_irange {a b i : Int} : i ∈ irange a b ↔ a ≤ i ∧ i < b := by
  simp only [irange, List.mem_map, List.mem_range]
  constructor
  · rintro ⟨k, hk, rfl⟩; omega
  · rintro ⟨h1, h2⟩; exact ⟨(i - a).toNat, by omega, by omega⟩

/-- the increments of component φ at index i -/
noncomputable def incr (φ : EMField → ℝ) (i : Int) (adds : List (Int × EMField)) : ℝ :=
  (adds.map (fun a => if a.1 = i then φ a.2 else 0)).sum

theorem incr_append (φ : EMField → ℝ) (i : Int) (a b : List (Int × EMField)) : incr φ i (a ++ b) = incr φ i a + incr φ i b := by
  simp [incr]

theorem incr_nil (φ : EMField → ℝ) (i : Int) : incr φ i [] = 0 := rfl

theorem incr_single (φ : EMField → ℝ) (i j : Int) (f : EMField) : incr φ i [(j, f)] = if j = i then φ f else 0 := by
  simp [incr]

theorem incr_irange (φ : EMField → ℝ) (i a b : Int) (F : Int → EMField) :
    incr φ i ((irange a b).map (fun k => (k, F k))) = if a ≤ i ∧ i < b then φ (F i) else 0 := by
  have key : ∀ n : Nat, ((List.range n).map (fun k : Nat => if a + (k : Int) = i then φ (F (a + (k : Int))) else 0)).sum
      = if a ≤ i ∧ i < a + n then φ (F i) else 0 := by
    intro n
    induction n with
    | zero => simp only [List.range_zero, List.map_nil, List.sum_nil]; rw [if_neg (by omega)]
    | succ n ih =>
      rw [List.range_succ, List.map_append, List.sum_append, ih]
      simp only [List.map_cons, List.map_nil, List.sum_cons, List.sum_nil, add_zero]
      by_cases h : a + (n : Int) = i
      · rw [if_pos h, h, if_neg (by omega), if_pos (by push_cast; omega)]; simp
      · rw [if_neg h, add_zero]
        by_cases h2 : a ≤ i ∧ i < a + n
        · rw [if_pos h2, if_pos (by push_cast; omega)]
        · rw [if_neg h2, if_neg (by push_cast; omega)]
  have := key (b - a).toNat
  simp only [incr, irange, List.map_map]
  rw [show ((fun a : Int × EMField => if a.1 = i then φ a.2 else 0) ∘ (fun k => (k, F k)) ∘ fun k : Nat => a + (k : Int))
    = fun k : Nat => if a + (k : Int) = i then φ (F (a + (k : Int))) else 0 from rfl]
  rw [this]
  by_cases h : a ≤ i ∧ i < b
  · rw [if_pos h, if_pos (by omega)]
  · rw [if_neg h, if_neg (by omega)]

theorem addInt_ok (tr : FieldTrace) (hw : tr.WF) (idx : Int) (f : EMField) (h0 : 0 ≤ idx) (h1 : idx < tr.N) :
    addInt tr idx f = .ok { tr with trace := tr.trace.set idx.toNat ((tr.trace[idx.toNat]?).getD 0 + f) } := by
  simp only [FieldTrace.WF] at hw
  have h2 : idx.toNat < tr.trace.length := by omega
  simp only [addInt]
  rw [if_neg (by omega)]
  simp only [FieldTrace.addAt]
  rw [if_neg (by omega), List.getElem?_eq_getElem h2]
  rfl

/-- result of a list of additions with indices in range -/
theorem adds_ok (adds : List (Int × EMField)) (tr : FieldTrace) (hw : tr.WF) (hr : ∀ a ∈ adds, 0 ≤ a.1 ∧ a.1 < tr.N) :
    ∃ tr', adds.foldlM (fun tr a => addInt tr a.1 a.2) tr = .ok tr' ∧ tr'.t0 = tr.t0 ∧ tr'.dt = tr.dt ∧ tr'.N = tr.N ∧ tr'.WF ∧
      ∀ φ, IsComponent φ → ∀ i : Nat, i < tr.N →
        φ ((tr'.trace[i]?).getD 0) = φ ((tr.trace[i]?).getD 0) + incr φ i adds := by
  induction adds generalizing tr with
  | nil => exact ⟨tr, rfl, rfl, rfl, rfl, hw, fun φ _ i _ => by simp [incr_nil]⟩
  | cons a as ih =>
    obtain ⟨h0, h1⟩ := hr a (by simp)
    simp only [List.foldlM_cons]
    rw [addInt_ok tr hw a.1 a.2 h0 h1]
    simp only [bind, Except.bind]
    have hlen : tr.trace.length = tr.N := hw
    obtain ⟨tr', e1, e2, e3, e4, e5, e6⟩ := ih
      { tr with trace := tr.trace.set a.1.toNat ((tr.trace[a.1.toNat]?).getD 0 + a.2) }
      (by simp only [FieldTrace.WF, List.length_set]; exact hw) (fun b hb => hr b (by simp [hb]))
    refine ⟨tr', e1, e2, e3, e4, e5, ?_⟩
    intro φ hφ i hi
    rw [e6 φ hφ i hi]
    rw [show a :: as = [a] ++ as from rfl, incr_append]
    rw [show [a] = [(a.1, a.2)] from rfl, incr_single]
    by_cases h : a.1 = i
    · rw [if_pos h]
      have : a.1.toNat = i := by omega
      simp only [this]
      rw [List.getElem?_set_self (by omega)]
      simp only [Option.getD_some]
      rw [hφ.add]; ring
    · rw [if_neg h]
      simp only
      rw [List.getElem?_set_ne (by omega)]
      ring

/-- integral of a linear function over the overlap of two intervals -/
theorem overlap_integral (α β a b A B : ℝ) :
    (∫ t in Set.Icc a b ∩ Set.Icc A B, (α + β * t)) =
      if max a A ≤ min b B then (min b B - max a A) * ((α + β * max a A) + (α + β * min b B)) / 2 else 0 := by
  rw [Set.Icc_inter_Icc]
  by_cases h : max a A ≤ min b B
  · rw [if_pos h]
    rw [MeasureTheory.integral_Icc_eq_integral_Ioc, ← intervalIntegral.integral_of_le h]
    rw [intervalIntegral.integral_add (by simp) (by apply Continuous.intervalIntegrable; fun_prop)]
    rw [intervalIntegral.integral_const, intervalIntegral.integral_const_mul, integral_id]
    simp only [smul_eq_mul]
    ring
  · rw [if_neg h]
    have h' : ¬ (a ⊔ A ≤ b ⊓ B) := h
    rw [Set.Icc_eq_empty h']; simp

/-- the closed form used in the case analysis: contribution to bucket `[A,B]` -/
noncomputable def bucketVal (v1 v2 ts1 ts2 A B : ℝ) : ℝ :=
  if max ts1 A ≤ min ts2 B then
    (min ts2 B - max ts1 A) * ((v1 + (v2 - v1) * ((max ts1 A - ts1) / (ts2 - ts1))) + (v1 + (v2 - v1) * ((min ts2 B - ts1) / (ts2 - ts1)))) / 2
  else 0

theorem bucket_integral (v1 v2 ts1 ts2 A B : ℝ) :
    (∫ t in Set.Icc ts1 ts2 ∩ Set.Icc A B, (v1 + (v2 - v1) * ((t - ts1) / (ts2 - ts1)))) = bucketVal v1 v2 ts1 ts2 A B := by
  have e : ∀ t, v1 + (v2 - v1) * ((t - ts1) / (ts2 - ts1))
      = (v1 - (v2 - v1) * (ts1 / (ts2 - ts1))) + (v2 - v1) / (ts2 - ts1) * t := by intro t; ring
  simp only [bucketVal, e]
  exact overlap_integral _ _ _ _ _ _

theorem bucketVal_zero {v1 v2 ts1 ts2 A B : ℝ} (h : min ts2 B ≤ max ts1 A) : bucketVal v1 v2 ts1 ts2 A B = 0 := by
  unfold bucketVal
  split
  · rename_i h'
    rw [le_antisymm h h']; ring
  · rfl

theorem bucketVal_of {v1 v2 ts1 ts2 A B lo hi : ℝ} (hlo : max ts1 A = lo) (hhi : min ts2 B = hi) (h : lo ≤ hi) :
    bucketVal v1 v2 ts1 ts2 A B
      = (hi - lo) * ((v1 + (v2 - v1) * ((lo - ts1) / (ts2 - ts1))) + (v1 + (v2 - v1) * ((hi - ts1) / (ts2 - ts1)))) / 2 := by
  unfold bucketVal; rw [hlo, hhi, if_pos h]

theorem linField_comp {φ : EMField → ℝ} (hφ : IsComponent φ) (f1 f2 : EMField) {ts1 ts2 : ℝ} (h : ts1 < ts2) (t : ℝ) :
    φ (linField f1 f2 ts1 ts2 t) = φ f1 + (φ f2 - φ f1) * ((t - ts1) / (ts2 - ts1)) := by
  have h' : ts2 - ts1 ≠ 0 := by linarith
  simp only [linField]
  rw [hφ.add, hφ.smul, hφ.smul]
  field_simp
  ring

/-- heart of C14 and C15: the additions made for one step -/
theorem stepAdds_spec (t0 dt : ℝ) (hdt : 0 < dt) (n : Nat) (ts1 ts2 : ℝ) (h12 : ts1 < ts2) (f1 f2 : EMField)
    (hmin : ts2 > t0 - dt * 0.5) (hmax : ts1 < t0 + dt * ((n : ℝ) - 0.5)) :
    ∃ adds, stepAdds t0 dt n ts1 ts2 f1 f2 = .ok adds ∧ (∀ a ∈ adds, 0 ≤ a.1 ∧ a.1 < n) ∧
      ∀ φ, IsComponent φ → ∀ i : Nat, i < n →
        incr φ i adds * dt = bucketVal (φ f1) (φ f2) ts1 ts2 (t0 + ((i : ℝ) - 1 / 2) * dt) (t0 + ((i : ℝ) + 1 / 2) * dt) := by
  have hne : ts2 - ts1 ≠ 0 := by linarith
  -- positions in units of dt
  obtain ⟨u1, hu1⟩ : ∃ u, u = (ts1 - t0) / dt := ⟨_, rfl⟩
  obtain ⟨u2, hu2⟩ : ∃ u, u = (ts2 - t0) / dt := ⟨_, rfl⟩
  have hts1 : ts1 = t0 + u1 * dt := by rw [hu1]; field_simp; ring
  have hts2 : ts2 = t0 + u2 * dt := by rw [hu2]; field_simp; ring
  have hu12 : u1 < u2 := by
    have : u1 * dt < u2 * dt := by linarith
    exact lt_of_mul_lt_mul_right this hdt.le
  have hu2min : -(1 / 2) < u2 := by
    have : (-(1/2)) * dt < u2 * dt := by norm_num at hmin ⊢; linarith
    exact lt_of_mul_lt_mul_right this hdt.le
  have hu1max : u1 < (n : ℝ) - 1 / 2 := by
    have : u1 * dt < ((n : ℝ) - 1/2) * dt := by norm_num at hmax ⊢; linarith
    exact lt_of_mul_lt_mul_right this hdt.le
  -- comparison of times through u
  have cmp : ∀ a b : ℝ, a ≤ b → t0 + a * dt ≤ t0 + b * dt := fun a b h => by
    have := mul_le_mul_of_nonneg_right h hdt.le; linarith
  obtain ⟨r21, r22, r20⟩ := cround_spec hu2min
  obtain ⟨k2, hk2⟩ : ∃ k, k = cround u2 := ⟨_, rfl⟩
  rw [← hk2] at r21 r22 r20
  obtain ⟨m2, hm2⟩ : ∃ m : Int, m = if k2 > (n : Int) then (n : Int) else k2 := ⟨_, rfl⟩
  have hm2n : m2 ≤ n := by rw [hm2]; split <;> omega
  have hm2k : m2 ≤ k2 := by rw [hm2]; split <;> omega
  have hm20 : 0 ≤ m2 := by rw [hm2]; split <;> omega
  have hm2lt : m2 < n → m2 = k2 := by intro h; rw [hm2] at h ⊢; split <;> [(rename_i h'; rw [if_pos h'] at h; omega); rfl]
  have half : (0.5 : ℝ) = 1 / 2 := by norm_num
  -- value of a full bucket
  have fullv : ∀ (φ : EMField → ℝ), IsComponent φ → ∀ i : Nat, u1 ≤ (i : ℝ) - 1/2 → (i : ℝ) + 1/2 ≤ u2 →
      φ (linField f1 f2 ts1 ts2 (t0 + ((i : Int) : ℝ) * dt)) * dt
        = bucketVal (φ f1) (φ f2) ts1 ts2 (t0 + ((i : ℝ) - 1 / 2) * dt) (t0 + ((i : ℝ) + 1 / 2) * dt) := by
    intro φ hφ i h1 h2
    have e1 := cmp _ _ h1
    have e2 := cmp _ _ h2
    rw [← hts1] at e1
    rw [← hts2] at e2
    rw [bucketVal_of (max_eq_right e1) (min_eq_right e2) (cmp _ _ (by linarith)), linField_comp hφ _ _ h12]
    push_cast
    field_simp
    ring
  -- value of the last bucket
  have lastv : ∀ (φ : EMField → ℝ), IsComponent φ → ∀ i : Nat, (i : Int) = k2 → u1 ≤ (i : ℝ) - 1/2 →
      φ ((linField f1 f2 ts1 ts2 (t0 + (((i : Int) : ℝ) - 0.5) * dt) + f2) * (0.5 : ℝ) * ((ts2 - (t0 + (((i : Int) : ℝ) - 0.5) * dt)) / dt)) * dt
        = bucketVal (φ f1) (φ f2) ts1 ts2 (t0 + ((i : ℝ) - 1 / 2) * dt) (t0 + ((i : ℝ) + 1 / 2) * dt) := by
    intro φ hφ i hik h1
    have hik' : (k2 : ℝ) = (i : ℝ) := by rw [← hik]; push_cast; rfl
    rw [hik'] at r21 r22
    have e1 := cmp _ _ h1
    have e2 := cmp _ _ r22.le
    have e3 := cmp _ _ r21
    rw [← hts1] at e1
    rw [← hts2] at e2 e3
    rw [bucketVal_of (max_eq_right e1) (min_eq_left e2) e3, hφ.smul, hφ.smul, hφ.add, linField_comp hφ _ _ h12, half]
    push_cast
    field_simp
    ring
  -- buckets after the end
  have afterv : ∀ (φ : EMField → ℝ) (i : Nat), k2 < (i : Int) →
      bucketVal (φ f1) (φ f2) ts1 ts2 (t0 + ((i : ℝ) - 1 / 2) * dt) (t0 + ((i : ℝ) + 1 / 2) * dt) = 0 := by
    intro φ i hi
    apply bucketVal_zero
    have : (k2 : ℝ) + 1 ≤ (i : ℝ) := by exact_mod_cast hi
    have e := cmp u2 ((i : ℝ) - 1/2) (by linarith)
    rw [← hts2] at e
    exact le_trans (min_le_left _ _) (le_trans e (le_max_right _ _))
  simp only [stepAdds]
  rw [← hu2, ← hk2, ← hm2]
  by_cases hstart : ts1 ≤ t0 - dt * 0.5
  · rw [if_pos hstart, if_neg hne]
    have hu1le : u1 ≤ -(1/2) := by
      have : u1 * dt ≤ (-(1/2)) * dt := by rw [half] at hstart; linarith
      exact le_of_mul_le_mul_right this hdt
    refine ⟨_, rfl, ?_, ?_⟩
    · intro a ha
      rw [List.mem_append] at ha
      rcases ha with ha | ha
      · rw [List.mem_map] at ha
        obtain ⟨k, hk, rfl⟩ := ha
        rw [mem_irange] at hk
        simp only; omega
      · split at ha
        · simp only [List.mem_singleton] at ha; rw [ha]; simp only; omega
        · simp at ha
    · intro φ hφ i hi
      have hi0 : (0 : ℝ) ≤ (i : ℝ) := Nat.cast_nonneg i
      rw [incr_append, incr_irange φ i 0 m2 (fun idx => linField f1 f2 ts1 ts2 (t0 + (idx : ℝ) * dt))]
      have tail : incr φ i (if m2 < (n : Int) then [(m2, (linField f1 f2 ts1 ts2 (t0 + ((m2 : ℝ) - 0.5) * dt) + f2) * (0.5 : ℝ) * ((ts2 - (t0 + ((m2 : ℝ) - 0.5) * dt)) / dt))] else [])
          = if m2 = i then φ ((linField f1 f2 ts1 ts2 (t0 + ((m2 : ℝ) - 0.5) * dt) + f2) * (0.5 : ℝ) * ((ts2 - (t0 + ((m2 : ℝ) - 0.5) * dt)) / dt)) else 0 := by
        by_cases hm : m2 < (n : Int)
        · rw [if_pos hm, incr_single]
        · rw [if_neg hm, incr_nil, if_neg (by omega)]
      rw [tail]
      rcases lt_trichotomy (i : Int) m2 with hlt | heq | hgt
      · rw [if_pos ⟨by omega, hlt⟩, if_neg (by omega), add_zero]
        have : (i : ℝ) + 1 ≤ (k2 : ℝ) := by exact_mod_cast (show (i : Int) + 1 ≤ k2 by omega)
        exact fullv φ hφ i (by linarith) (by linarith)
      · rw [if_neg (by omega), if_pos heq.symm, zero_add]
        have hk : (i : Int) = k2 := by rw [heq]; exact hm2lt (by omega)
        rw [← heq]
        exact lastv φ hφ i hk (by linarith)
      · rw [if_neg (by omega), if_neg (by omega), add_zero, zero_mul]
        exact (afterv φ i (by rw [← hm2lt (by omega)]; exact hgt)).symm
  · rw [if_neg hstart]
    have hu1gt : -(1/2) < u1 := by
      have : (-(1/2)) * dt < u1 * dt := by rw [half] at hstart; linarith
      exact lt_of_mul_lt_mul_right this hdt.le
    obtain ⟨r11, r12, r10⟩ := cround_spec hu1gt
    rw [← hu1]
    obtain ⟨k1, hk1⟩ : ∃ k, k = cround u1 := ⟨_, rfl⟩
    rw [← hk1] at r11 r12 r10 ⊢
    have hk1n : k1 < n := by
      have : (k1 : ℝ) < (n : ℝ) := by linarith
      exact_mod_cast this
    have hk12 : k1 ≤ k2 := by
      have : (k1 : ℝ) < (k2 : ℝ) + 1 := by linarith
      have : k1 < k2 + 1 := by exact_mod_cast this
      omega
    have hk1m : k1 ≤ m2 := by rw [hm2]; split <;> omega
    -- buckets before the start
    have beforev : ∀ (φ : EMField → ℝ) (i : Nat), (i : Int) < k1 →
        bucketVal (φ f1) (φ f2) ts1 ts2 (t0 + ((i : ℝ) - 1 / 2) * dt) (t0 + ((i : ℝ) + 1 / 2) * dt) = 0 := by
      intro φ i hi
      apply bucketVal_zero
      have : (i : ℝ) + 1 ≤ (k1 : ℝ) := by exact_mod_cast hi
      have e := cmp ((i : ℝ) + 1/2) u1 (by linarith)
      rw [← hts1] at e
      exact le_trans (min_le_right _ _) (le_trans e (le_max_left _ _))
    by_cases hsame : k1 = m2
    · rw [if_pos hsame]
      have hkk : k1 = k2 := by rw [hsame]; exact hm2lt (by omega)
      refine ⟨_, rfl, by simp; omega, ?_⟩
      intro φ hφ i hi
      rw [incr_single]
      by_cases hik : k1 = (i : Int)
      · rw [if_pos hik, hφ.smul, hφ.smul, hφ.add]
        have hik' : (k1 : ℝ) = (i : ℝ) := by rw [hik]; push_cast; rfl
        have hik2 : (k2 : ℝ) = (i : ℝ) := by rw [← hkk]; exact hik'
        rw [hik'] at r11
        rw [hik2] at r22
        have e1 := cmp _ _ r11
        have e2 := cmp _ _ r22.le
        rw [← hts1] at e1
        rw [← hts2] at e2
        rw [bucketVal_of (max_eq_left e1) (min_eq_left e2) h12.le, sub_self, zero_div, mul_zero, add_zero, div_self hne, half]
        field_simp
        ring
      · rw [if_neg hik, zero_mul]
        rcases lt_or_gt_of_ne hik with h | h
        · exact (afterv φ i (by omega)).symm
        · exact (beforev φ i h).symm
    · rw [if_neg hsame, if_neg hne]
      refine ⟨_, rfl, ?_, ?_⟩
      · intro a ha
        rw [List.mem_append, List.mem_append] at ha
        rcases ha with (ha | ha) | ha
        · simp only [List.mem_singleton] at ha; rw [ha]; simp only; omega
        · rw [List.mem_map] at ha
          obtain ⟨k, hk, rfl⟩ := ha
          rw [mem_irange] at hk
          simp only; omega
        · split at ha
          · simp only [List.mem_singleton] at ha; rw [ha]; simp only; omega
          · simp at ha
      · intro φ hφ i hi
        rw [incr_append, incr_append, incr_single, incr_irange φ i (k1 + 1) m2 (fun idx => linField f1 f2 ts1 ts2 (t0 + (idx : ℝ) * dt))]
        have tail : incr φ i (if m2 < (n : Int) then [(m2, (linField f1 f2 ts1 ts2 (t0 + ((m2 : ℝ) - 0.5) * dt) + f2) * (0.5 : ℝ) * ((ts2 - (t0 + ((m2 : ℝ) - 0.5) * dt)) / dt))] else [])
            = if m2 = i then φ ((linField f1 f2 ts1 ts2 (t0 + ((m2 : ℝ) - 0.5) * dt) + f2) * (0.5 : ℝ) * ((ts2 - (t0 + ((m2 : ℝ) - 0.5) * dt)) / dt)) else 0 := by
          by_cases hm : m2 < (n : Int)
          · rw [if_pos hm, incr_single]
          · rw [if_neg hm, incr_nil, if_neg (by omega)]
        rw [tail]
        have hkm : k1 + 1 ≤ m2 := by omega
        rcases lt_trichotomy (i : Int) k1 with hlt | heq | hgt
        · rw [if_neg (by omega), if_neg (by omega), if_neg (by omega), add_zero, add_zero, zero_mul]
          exact (beforev φ i hlt).symm
        · rw [if_pos heq.symm, if_neg (by omega), if_neg (by omega), add_zero, add_zero, ← heq]
          have hik' : (k1 : ℝ) = (i : ℝ) := by rw [← heq]; push_cast; rfl
          rw [hik'] at r11 r12
          have hk2i : (i : ℝ) + 1 ≤ (k2 : ℝ) := by rw [← hik']; exact_mod_cast (show k1 + 1 ≤ k2 by omega)
          have e1 := cmp _ _ r11
          have e2 := cmp ((i : ℝ) + 1/2) u2 (by linarith)
          have e3 := cmp _ _ r12.le
          rw [← hts1] at e1 e3
          rw [← hts2] at e2
          rw [bucketVal_of (max_eq_left e1) (min_eq_right e2) e3, hφ.smul, hφ.smul, hφ.add, linField_comp hφ _ _ h12,
            sub_self, zero_div, mul_zero, add_zero, half]
          push_cast
          field_simp
        · rw [if_neg (by omega), zero_add]
          have hlow : u1 ≤ (i : ℝ) - 1/2 := by
            have : (k1 : ℝ) + 1 ≤ (i : ℝ) := by exact_mod_cast (show k1 + 1 ≤ (i : Int) by omega)
            linarith
          rcases lt_trichotomy (i : Int) m2 with hlt | heq | hgt'
          · rw [if_pos ⟨by omega, hlt⟩, if_neg (by omega), add_zero]
            have : (i : ℝ) + 1 ≤ (k2 : ℝ) := by exact_mod_cast (show (i : Int) + 1 ≤ k2 by omega)
            exact fullv φ hφ i hlow (by linarith)
          · rw [if_neg (by omega), if_pos heq.symm, zero_add]
            have hk : (i : Int) = k2 := by rw [heq]; exact hm2lt (by omega)
            rw [← heq]
            exact lastv φ hφ i hk hlow
          · rw [if_neg (by omega), if_neg (by omega), add_zero, zero_mul]
            exact (afterv φ i (by rw [← hm2lt (by omega)]; exact hgt')).symm

end Particle
end Teufel
