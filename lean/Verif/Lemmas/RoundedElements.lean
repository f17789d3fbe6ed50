import Verif.Spec.MathLib
import Verif.Spec.Rounding
import Verif.Lemmas.Appr
import Verif.Lemmas.Undulator
import Verif.Lemmas.Rounding
import Mathlib.Analysis.SpecialFunctions.Trigonometric.ArctanDeriv

/-!
# Rounding errors of the fields of lattice elements
-/

namespace Teufel
open Vec

variable {ι : Type*} {u : ι → ℝ} {rnd : ι → ℝ → ℝ} {a b c d : ι → ℝ}

namespace Appr

theorem congr (h : Appr u a b) (e : ∀ i, b i = c i) : Appr u a c := by
  rwa [← funext e]

theorem div_const (h : Appr u a b) (k : ℝ) (hu : ∀ i, 0 ≤ u i) : Appr u (fun i => a i / k) (fun i => b i / k) := by
  simpa only [div_eq_mul_inv] using h.mul hu (.const k⁻¹)

/-- a function of the mathematical library -/
theorem apply {f f' : ℝ → ℝ} (hd : ∀ y, HasDerivAt f (f' y) y) (hc : Continuous f') {g : ι → ℝ → ℝ} {K : ℝ} (hg : ∀ i, Accurate f (g i) K (u i))
    (hu : ∀ i, 0 ≤ u i) (h : Appr u a b) : Appr u (fun i => g i (a i)) (fun i => f (b i)) := by
  obtain ⟨K1, M1, u0, hK, hM, hu0, H⟩ := h
  obtain ⟨Mf, L, hMf, hL, hf⟩ := Und.hyp_lip (k := M1 + K1) hd hc
  refine ⟨|K| * (1 + Mf) + L * K1, Mf, min u0 1, by positivity, hMf, lt_min hu0 one_pos, ?_⟩
  intro i hi
  obtain ⟨h1, h2⟩ := H i (hi.trans (min_le_left _ _))
  have hu1 : u i ≤ 1 := hi.trans (min_le_right _ _)
  have hui := hu i
  have hb : |b i| ≤ M1 + K1 := by linarith
  have ha : |a i| ≤ M1 + K1 := by
    have := abs_add_le (a i - b i) (b i)
    rw [sub_add_cancel] at this
    nlinarith
  obtain ⟨f1, f2⟩ := hf (a i) ha
  refine ⟨(hf (b i) hb).1, ?_⟩
  have e1 := hg i (a i)
  have e2 := f2 (b i) hb
  have e3 := abs_sub_le (g i (a i)) (f (a i)) (f (b i))
  have e4 : K * u i * (1 + |f (a i)|) ≤ |K| * (1 + Mf) * u i := by
    have : K * u i ≤ |K| * u i := mul_le_mul_of_nonneg_right (le_abs_self K) hui
    have : K * u i * (1 + |f (a i)|) ≤ |K| * u i * (1 + |f (a i)|) := mul_le_mul_of_nonneg_right this (by positivity)
    have : |K| * u i * (1 + |f (a i)|) ≤ |K| * u i * (1 + Mf) := mul_le_mul_of_nonneg_left (by linarith) (by positivity)
    linarith
  have e5 : L * |a i - b i| ≤ L * (K1 * u i) := mul_le_mul_of_nonneg_left h2 hL
  linarith

/-- comparisons are decided rightly up to the error -/
theorem compare (h : Appr u a b) (h' : Appr u c d) (hu : ∀ i, 0 ≤ u i) : ∃ C u0 : ℝ, 0 ≤ C ∧ 0 < u0 ∧ ∀ i, u i ≤ u0 →
    (a i ≤ c i → b i ≤ d i + C * u i) ∧ (c i ≤ a i → d i ≤ b i + C * u i) := by
  obtain ⟨K, M, u0, hK, hM, hu0, H⟩ := h
  obtain ⟨K', M', u0', hK', hM', hu0', H'⟩ := h'
  refine ⟨K + K', min u0 u0', by positivity, lt_min hu0 hu0', ?_⟩
  intro i hi
  have h2 := abs_le.mp (H i (hi.trans (min_le_left _ _))).2
  have h2' := abs_le.mp (H' i (hi.trans (min_le_right _ _))).2
  constructor <;> intro h <;> linarith

open Classical in
/-- a factor which is applied as long as it is below one -/
theorem switch {q p r : ι → ℝ} {t : ι → Prop} (hu : ∀ i, 0 ≤ u i) (hq : Appr u q b) (hp : Appr u p (fun i => b i * r i))
    (ht : ∃ C u0 : ℝ, 0 ≤ C ∧ 0 < u0 ∧ ∀ i, u i ≤ u0 → (t i → r i ≤ 1 + C * u i) ∧ (¬ t i → 1 - C * u i ≤ r i)) :
    Appr u (fun i => if t i then p i else q i) (fun i => b i * min 1 (r i)) := by
  obtain ⟨K, M, u0, hK, hM, hu0, H⟩ := hq
  obtain ⟨K', M', u0', hK', hM', hu0', H'⟩ := hp
  obtain ⟨C, u1, hC, hu1, HC⟩ := ht
  refine ⟨K + K' + M * C, M + M', min u0 (min u0' u1), by positivity, by positivity, lt_min hu0 (lt_min hu0' hu1), ?_⟩
  intro i hi
  simp only [le_min_iff] at hi
  obtain ⟨h1, h2⟩ := H i hi.1
  obtain ⟨h3, h4⟩ := H' i hi.2.1
  obtain ⟨h5, h6⟩ := HC i hi.2.2
  have hui := hu i
  have p1 : 0 ≤ K * u i := by positivity
  have p2 : 0 ≤ K' * u i := by positivity
  have p3 : 0 ≤ M * (C * u i) := by positivity
  dsimp only at h3 h4
  refine ⟨?_, ?_⟩ <;> dsimp only
  · rcases min_choice 1 (r i) with e | e <;> rw [e]
    · rw [mul_one]; linarith
    · linarith
  · by_cases hti : t i
    · rw [if_pos hti]
      have h7 := h5 hti
      have h8 : |b i * r i - b i * min 1 (r i)| ≤ M * (C * u i) := by
        rw [← mul_sub, abs_mul]
        refine mul_le_mul h1 ?_ (abs_nonneg _) hM
        rcases le_total 1 (r i) with e | e
        · rw [min_eq_left e, abs_of_nonneg (by linarith)]; linarith
        · rw [min_eq_right e, sub_self, abs_zero]; positivity
      have := abs_sub_le (p i) (b i * r i) (b i * min 1 (r i))
      linarith
    · rw [if_neg hti]
      have h7 := h6 hti
      have h8 : |b i - b i * min 1 (r i)| ≤ M * (C * u i) := by
        rw [show b i - b i * min 1 (r i) = b i * (1 - min 1 (r i)) by ring, abs_mul]
        refine mul_le_mul h1 ?_ (abs_nonneg _) hM
        rcases le_total 1 (r i) with e | e
        · rw [min_eq_left e, sub_self, abs_zero]; positivity
        · rw [min_eq_right e, abs_of_nonneg (by linarith)]; linarith
      have := abs_sub_le (q i) (b i) (b i * min 1 (r i))
      linarith

open Classical in
/-- a value which is replaced by zero -/
theorem gate {t t' : ι → Prop} (hu : ∀ i, 0 ≤ u i) (h : Appr u a b)
    (ht : ∃ C u0 : ℝ, 0 ≤ C ∧ 0 < u0 ∧ ∀ i, u i ≤ u0 → ¬ (t' i ↔ t i) → |b i| ≤ C * u i) :
    Appr u (fun i => if t' i then a i else 0) (fun i => if t i then b i else 0) := by
  obtain ⟨K, M, u0, hK, hM, hu0, H⟩ := h
  obtain ⟨C, u1, hC, hu1, HC⟩ := ht
  refine ⟨K + C, M, min u0 u1, by positivity, hM, lt_min hu0 hu1, ?_⟩
  intro i hi
  obtain ⟨h1, h2⟩ := H i (hi.trans (min_le_left _ _))
  have h3 := HC i (hi.trans (min_le_right _ _))
  have hui := hu i
  have p1 : 0 ≤ K * u i := by positivity
  have p2 : 0 ≤ C * u i := by positivity
  refine ⟨?_, ?_⟩ <;> dsimp only
  · split
    · exact h1
    · simpa using hM
  · by_cases e' : t' i <;> by_cases e : t i
    · rw [if_pos e', if_pos e]; linarith
    · rw [if_pos e', if_neg e, sub_zero]
      have := h3 (by tauto)
      have := abs_add_le (a i - b i) (b i)
      rw [sub_add_cancel] at this
      linarith
    · rw [if_neg e', if_pos e, zero_sub, abs_neg]
      have := h3 (by tauto)
      linarith
    · rw [if_neg e', if_neg e, sub_zero, abs_zero]; linarith

end Appr

theorem VAppr.congr {a b c : ι → Vec} (h : VAppr u a b) (e : ∀ i, b i = c i) : VAppr u a c := by
  rwa [← funext e]

theorem VAppr.sub (hr : Rounds u rnd) {a b c d : ι → Vec} (h : VAppr u a b) (h' : VAppr u c d) :
    VAppr u (fun i => Rounded.vsub (rnd i) (a i) (c i)) (fun i => b i - d i) :=
  ⟨(h.x.sub h'.x).round hr, (h.y.sub h'.y).round hr, (h.z.sub h'.z).round hr⟩

namespace Rounded

/-- one component of the ramps -/
noncomputable def ramp1 (rnd : ℝ → ℝ) (z z1 z2 l b : ℝ) : ℝ :=
  let b := if z < rnd (z1 + l) then rnd (b * rnd (rnd (z - z1) / l)) else b
  if rnd (z2 - l) ≤ z then rnd (b * rnd (rnd (z2 - z) / l)) else b

theorem ramp_comp (rnd : ℝ → ℝ) (z z1 z2 l : ℝ) (B : Vec) :
    rampField rnd z z1 z2 l B = ⟨ramp1 rnd z z1 z2 l B.x, ramp1 rnd z z1 z2 l B.y, ramp1 rnd z z1 z2 l B.z⟩ := by
  unfold rampField ramp1
  dsimp only
  split_ifs <;> rfl

theorem ramp_exact {z z1 z2 l : ℝ} (hl : 0 < l) (B : Vec) :
    Teufel.rampField z z1 z2 l B = B * (min 1 ((z - z1) / l)) * (min 1 ((z2 - z) / l)) := by
  have e1 : z < z1 + l → min 1 ((z - z1) / l) = (z - z1) / l := fun h => min_eq_right (by rw [div_le_one hl]; linarith)
  have e2 : ¬ z < z1 + l → min 1 ((z - z1) / l) = 1 := fun h => min_eq_left (by rw [one_le_div hl]; linarith)
  have e3 : z2 - l ≤ z → min 1 ((z2 - z) / l) = (z2 - z) / l := fun h => min_eq_right (by rw [div_le_one hl]; linarith)
  have e4 : ¬ z2 - l ≤ z → min 1 ((z2 - z) / l) = 1 := fun h => min_eq_left (by rw [one_le_div hl]; linarith)
  unfold Teufel.rampField
  dsimp only
  split_ifs with h1 h2 h2
  · rw [e1 h2, e3 h1]
  · rw [e2 h2, e3 h1]; ext <;> simp
  · rw [e1 h2, e4 h1]; ext <;> simp
  · rw [e2 h2, e4 h1]; ext <;> simp

variable {z z' b b' z1' z2' : ι → ℝ} {z1 z2 l : ℝ}

theorem appr_ratio (hr : Rounds u rnd) (l : ℝ) (h : Appr u a b) (h' : Appr u c d) :
    Appr u (fun i => rnd i (rnd i (a i - c i) / l)) (fun i => (b i - d i) / l) :=
  (((h.sub h').round hr).div_const l hr.nonneg).round hr

theorem appr_ramp (hr : Rounds u rnd) (hl : 0 < l) (hz : Appr u z' z) (h1 : Appr u z1' (fun _ => z1)) (h2 : Appr u z2' (fun _ => z2)) (hb : Appr u b' b) :
    Appr u (fun i => ramp1 (rnd i) (z' i) (z1' i) (z2' i) l (b' i)) (fun i => b i * min 1 ((z i - z1) / l) * min 1 ((z2 - z i) / l)) := by
  classical
  have s1 : Appr u (fun i => if z' i < rnd i (z1' i + l) then rnd i (b' i * rnd i (rnd i (z' i - z1' i) / l)) else b' i)
      (fun i => b i * min 1 ((z i - z1) / l)) := by
    have := Appr.switch (t := fun i => z' i < rnd i (z1' i + l)) hr.nonneg hb ((hb.mul hr.nonneg (appr_ratio hr l hz h1)).round hr) ?_
    · convert this using 2
    · obtain ⟨C, u0, hC, hu0, H⟩ := hz.compare ((h1.add (.const l)).round hr) hr.nonneg
      refine ⟨C / l, u0, by positivity, hu0, fun i hi => ⟨fun h => ?_, fun h => ?_⟩⟩
      · have := (H i hi).1 h.le
        rw [div_le_iff₀ hl, add_mul, div_mul_eq_mul_div, div_mul_cancel₀ _ hl.ne']
        linarith
      · have := (H i hi).2 (not_lt.mp h)
        rw [le_div_iff₀ hl, sub_mul, div_mul_eq_mul_div, div_mul_cancel₀ _ hl.ne']
        linarith
  have := Appr.switch (t := fun i => rnd i (z2' i - l) ≤ z' i) hr.nonneg s1 ((s1.mul hr.nonneg (appr_ratio hr l h2 hz)).round hr) ?_
  · convert this using 2
    unfold ramp1
    dsimp only
  · obtain ⟨C, u0, hC, hu0, H⟩ := hz.compare ((h2.sub (.const l)).round hr) hr.nonneg
    refine ⟨C / l, u0, by positivity, hu0, fun i hi => ⟨fun h => ?_, fun h => ?_⟩⟩
    · have := (H i hi).2 h
      rw [div_le_iff₀ hl, add_mul, div_mul_eq_mul_div, div_mul_cancel₀ _ hl.ne']
      linarith
    · have := (H i hi).1 (not_le.mp h).le
      rw [le_div_iff₀ hl, sub_mul, div_mul_eq_mul_div, div_mul_cancel₀ _ hl.ne']
      linarith

theorem min_abs_le (r : ℝ) : |min 1 r| ≤ |r| := by
  rcases le_total 1 r with e | e
  · rw [min_eq_left e, abs_one]; exact e.trans (le_abs_self r)
  · rw [min_eq_right e]

open Classical in
theorem appr_gate (hr : Rounds u rnd) (hl : 0 < l) (hz : Appr u z' z) (h1 : Appr u z1' (fun _ => z1)) (h2 : Appr u z2' (fun _ => z2)) (hb : Appr u b' b) :
    Appr u (fun i => if z1' i ≤ z' i ∧ z' i < z2' i then ramp1 (rnd i) (z' i) (z1' i) (z2' i) l (b' i) else 0)
      (fun i => if z1 ≤ z i ∧ z i < z2 then b i * min 1 ((z i - z1) / l) * min 1 ((z2 - z i) / l) else 0) := by
  suffices H : _ by
    have := Appr.gate (t' := fun i => z1' i ≤ z' i ∧ z' i < z2' i) (t := fun i => z1 ≤ z i ∧ z i < z2) hr.nonneg (appr_ramp hr hl hz h1 h2 hb) H
    convert this using 2 <;> congr
  obtain ⟨C1, u1, hC1, hu1, H1⟩ := hz.compare h1 hr.nonneg
  obtain ⟨C2, u2, hC2, hu2, H2⟩ := hz.compare h2 hr.nonneg
  obtain ⟨Kb, Mb, u3, hKb, hMb, hu3, H3⟩ := hb
  obtain ⟨Kz, Mz, u4, hKz, hMz, hu4, H4⟩ := hz
  obtain ⟨R, hR⟩ : ∃ R, R = (Mz + |z1| + |z2|) / l := ⟨_, rfl⟩
  have hR0 : 0 ≤ R := by rw [hR]; positivity
  refine ⟨Mb * R * ((C1 + C2) / l), min (min u1 u2) (min u3 u4), by positivity, lt_min (lt_min hu1 hu2) (lt_min hu3 hu4), ?_⟩
  intro i hi hne
  simp only [le_min_iff] at hi
  obtain ⟨g1, g2⟩ := H1 i hi.1.1
  obtain ⟨g3, g4⟩ := H2 i hi.1.2
  have hbi := (H3 i hi.2.1).1
  have hzi := (H4 i hi.2.2).1
  have hui := hr.nonneg i
  have p1 : 0 ≤ C1 * u i := by positivity
  have p2 : 0 ≤ C2 * u i := by positivity
  have r1 : |(z i - z1) / l| ≤ R := by
    rw [abs_div, abs_of_pos hl, hR]
    refine div_le_div_of_nonneg_right ?_ hl.le
    have := abs_sub (z i) z1
    have := abs_nonneg z2
    linarith
  have r2 : |(z2 - z i) / l| ≤ R := by
    rw [abs_div, abs_of_pos hl, hR]
    refine div_le_div_of_nonneg_right ?_ hl.le
    have := abs_sub z2 (z i)
    have := abs_nonneg z1
    linarith
  have key : |(z i - z1) / l| ≤ (C1 + C2) / l * u i ∨ |(z2 - z i) / l| ≤ (C1 + C2) / l * u i := by
    have n1 : |z i - z1| ≤ (C1 + C2) * u i → |(z i - z1) / l| ≤ (C1 + C2) / l * u i := by
      intro h
      rw [abs_div, abs_of_pos hl, div_mul_eq_mul_div]
      exact div_le_div_of_nonneg_right h hl.le
    have n2 : |z2 - z i| ≤ (C1 + C2) * u i → |(z2 - z i) / l| ≤ (C1 + C2) / l * u i := by
      intro h
      rw [abs_div, abs_of_pos hl, div_mul_eq_mul_div]
      exact div_le_div_of_nonneg_right h hl.le
    by_cases in1 : z1 ≤ z i ∧ z i < z2
    · have : ¬ (z1' i ≤ z' i ∧ z' i < z2' i) := fun h => hne ⟨fun _ => in1, fun _ => h⟩
      rw [not_and_or, not_le, not_lt] at this
      rcases this with h | h
      · left; apply n1
        have := g1 h.le
        rw [abs_of_nonneg (by linarith [in1.1])]; linarith
      · right; apply n2
        have := g4 h
        rw [abs_of_nonneg (by linarith [in1.2])]; linarith
    · have h' : z1' i ≤ z' i ∧ z' i < z2' i := by by_contra h; exact hne ⟨fun x => absurd x h, fun x => absurd x in1⟩
      rw [not_and_or, not_le, not_lt] at in1
      rcases in1 with h | h
      · left; apply n1
        have := g2 h'.1
        rw [abs_of_nonpos (by linarith)]; linarith
      · right; apply n2
        have := g3 h'.2.le
        rw [abs_of_nonpos (by linarith)]; linarith
  have m1 := min_abs_le ((z i - z1) / l)
  have m2 := min_abs_le ((z2 - z i) / l)
  rw [abs_mul, abs_mul]
  have q0 : 0 ≤ (C1 + C2) / l * u i := by positivity
  rcases key with k | k
  · calc |b i| * |min 1 ((z i - z1) / l)| * |min 1 ((z2 - z i) / l)| ≤ Mb * ((C1 + C2) / l * u i) * R := by
          refine mul_le_mul (mul_le_mul hbi (m1.trans k) (abs_nonneg _) hMb) (m2.trans r2) (abs_nonneg _) (by positivity)
      _ = _ := by ring
  · calc |b i| * |min 1 ((z i - z1) / l)| * |min 1 ((z2 - z i) / l)| ≤ Mb * R * ((C1 + C2) / l * u i) := by
          refine mul_le_mul (mul_le_mul hbi (m1.trans r1) (abs_nonneg _) hMb) (m2.trans k) (abs_nonneg _) (by positivity)
      _ = _ := by ring

theorem appr_zStart (hr : Rounds u rnd) (l : ℝ) (N : Int) : Appr u (fun i => zStart (rnd i) l N) (fun _ => -((N : ℝ) + 1) * l / 2) := by
  have := (((Appr.const (u := u) (-((N : ℝ) + 1) * l)).round hr).div_const 2.0 hr.nonneg).round hr
  exact this.congr fun i => by norm_num

theorem appr_zEnd (hr : Rounds u rnd) (l : ℝ) (N : Int) : Appr u (fun i => zEnd (rnd i) l N) (fun _ => ((N : ℝ) + 1) * l / 2) := by
  have := (((Appr.const (u := u) (((N : ℝ) + 1) * l)).round hr).div_const 2.0 hr.nonneg).round hr
  exact this.congr fun i => by norm_num

theorem appr_kz (hr : Rounds u rnd) (l : ℝ) : Appr u (fun i => waveNumber (rnd i) l) (fun _ => 2 * Pi / l) := by
  have := ((((Appr.const (u := u) 2.0).mul hr.nonneg ((Appr.const (u := u) Pi).round hr)).round hr).div_const l hr.nonneg).round hr
  exact this.congr fun i => by norm_num

open Classical in
theorem appr_undulator (hr : Rounds u rnd) (hl : 0 < l) (N : Int) (hz : Appr u z' z) {B' B : ι → Vec} (hB : VAppr u B' B) :
    VAppr u (fun i => undulatorB (rnd i) l N (z' i) (B' i)) (fun i => if -((N : ℝ) + 1) * l / 2 ≤ z i ∧ z i < ((N : ℝ) + 1) * l / 2 then
      Teufel.rampField (z i) (-((N : ℝ) + 1) * l / 2) (((N : ℝ) + 1) * l / 2) l (B i) else 0) := by
  have h1 := appr_zStart hr l N
  have h2 := appr_zEnd hr l N
  refine ⟨?_, ?_, ?_⟩
  · convert appr_gate hr hl hz h1 h2 hB.x using 2
    · unfold undulatorB; rw [ramp_comp]; split_ifs <;> rfl
    · rw [ramp_exact hl]; split_ifs <;> rfl
  · convert appr_gate hr hl hz h1 h2 hB.y using 2
    · unfold undulatorB; rw [ramp_comp]; split_ifs <;> rfl
    · rw [ramp_exact hl]; split_ifs <;> rfl
  · convert appr_gate hr hl hz h1 h2 hB.z using 2
    · unfold undulatorB; rw [ramp_comp]; split_ifs <;> rfl
    · rw [ramp_exact hl]; split_ifs <;> rfl

section
variable {M : ι → MathLib} {K : ℝ}

theorem appr_sin (hM : ∀ i, (M i).IsAccurate K (u i)) (hu : ∀ i, 0 ≤ u i) (h : Appr u a b) : Appr u (fun i => (M i).sin (a i)) (fun i => Real.sin (b i)) :=
  h.apply Real.hasDerivAt_sin Real.continuous_cos (fun i => (hM i).sin) hu

theorem appr_cos (hM : ∀ i, (M i).IsAccurate K (u i)) (hu : ∀ i, 0 ≤ u i) (h : Appr u a b) : Appr u (fun i => (M i).cos (a i)) (fun i => Real.cos (b i)) :=
  h.apply Real.hasDerivAt_cos Real.continuous_sin.neg (fun i => (hM i).cos) hu

theorem appr_sinh (hM : ∀ i, (M i).IsAccurate K (u i)) (hu : ∀ i, 0 ≤ u i) (h : Appr u a b) : Appr u (fun i => (M i).sinh (a i)) (fun i => Real.sinh (b i)) :=
  h.apply Real.hasDerivAt_sinh Real.continuous_cosh (fun i => (hM i).sinh) hu

theorem appr_cosh (hM : ∀ i, (M i).IsAccurate K (u i)) (hu : ∀ i, 0 ≤ u i) (h : Appr u a b) : Appr u (fun i => (M i).cosh (a i)) (fun i => Real.cosh (b i)) :=
  h.apply Real.hasDerivAt_cosh Real.continuous_sinh (fun i => (hM i).cosh) hu

theorem appr_atan (hM : ∀ i, (M i).IsAccurate K (u i)) (hu : ∀ i, 0 ≤ u i) (h : Appr u a b) : Appr u (fun i => (M i).atan (a i)) (fun i => Real.arctan (b i)) :=
  h.apply (f' := fun y => 1 / (1 + y ^ 2)) Real.hasDerivAt_arctan (by
    refine continuous_const.div (by fun_prop) fun y => ?_
    positivity) (fun i => (hM i).atan) hu

variable {X' X : ι → Vec}

theorem appr_planarCore (hr : Rounds u rnd) (hM : ∀ i, (M i).IsAccurate K (u i)) (B l : ℝ) (hX : VAppr u X' X) :
    VAppr u (fun i => planarCore (rnd i) (M i) B l (X' i)) (fun i => ⟨0, B * Real.sin (2 * Pi / l * (X i).z) * Real.cosh (2 * Pi / l * (X i).y),
      B * Real.cos (2 * Pi / l * (X i).z) * Real.sinh (2 * Pi / l * (X i).y)⟩) := by
  have hu := hr.nonneg
  have kz := ((appr_kz hr l).mul hu hX.z).round hr
  have ky := ((appr_kz hr l).mul hu hX.y).round hr
  exact ⟨.const 0, ((((Appr.const B).mul hu (appr_sin hM hu kz)).round hr).mul hu (appr_cosh hM hu ky)).round hr,
    ((((Appr.const B).mul hu (appr_cos hM hu kz)).round hr).mul hu (appr_sinh hM hu ky)).round hr⟩

theorem appr_ky (hr : Rounds u rnd) (kx : ℝ) {l : ℝ} (hl : 0 < l) :
    Appr u (fun i => gradientKy (rnd i) kx l) (fun _ => Real.sqrt (2 * Pi / l * (2 * Pi / l) + kx * kx)) := by
  have hu := hr.nonneg
  have hk := appr_kz hr l
  have hpi := Pi_pos
  have := (((((hk.mul hu hk).round hr).add (((Appr.const kx).mul hu (.const kx)).round hr)).round hr).sqrt hu
    (m := 2 * Pi / l * (2 * Pi / l)) (by positivity) fun i => by nlinarith [mul_self_nonneg kx]).round hr
  exact this

theorem appr_gradientCore (hr : Rounds u rnd) (hM : ∀ i, (M i).IsAccurate K (u i)) (B kx m : ℝ) {l : ℝ} (hl : 0 < l) (N : Int) (hX : VAppr u X' X) :
    VAppr u (fun i => gradientCore (rnd i) (M i) B kx m l (X' i)) (fun i => (TransverseGradientUndulator.Setup B kx m l N).core (X i)) := by
  have hu := hr.nonneg
  have hpi := Pi_pos
  have zz := ((appr_kz hr l).mul hu hX.z).round hr
  have zy := ((appr_kz hr l).mul hu hX.y).round hr
  have hk := appr_ky hr kx hl
  have yy := (hk.mul hu hX.y).round hr
  have xx := ((Appr.const kx).mul hu hX.x).round hr
  have hs := appr_sin hM hu zz
  have hp : Appr u (fun i => gradientPeak (rnd i) (M i) B m l (X' i)) (fun i => B * (1 + m * Real.sin (2 * Pi / l * (X i).z))) := by
    have := ((Appr.const B).mul hu (((Appr.const 1.0).add (((Appr.const m).mul hu hs).round hr)).round hr)).round hr
    exact this.congr fun i => by norm_num
  have hky : 0 < Real.sqrt (2 * Pi / l * (2 * Pi / l) + kx * kx) := Real.sqrt_pos.mpr (by
    have : 0 < 2 * Pi / l * (2 * Pi / l) := by positivity
    nlinarith [mul_self_nonneg kx])
  refine ⟨?_, ?_, ?_⟩
  · exact ((Appr.const 0).add (((((((((((hp.mul hu (.const kx)).round hr).div hu hk hky fun _ => le_rfl).round hr).mul hu
      (appr_cos hM hu xx)).round hr).mul hu (appr_sinh hM hu yy)).round hr).mul hu hs).round hr))).round hr
  · exact ((((((hp.mul hu hs).round hr).mul hu (appr_cosh hM hu zy)).round hr)).add
      (((((((hp.mul hu (appr_sin hM hu xx)).round hr).mul hu (appr_cosh hM hu yy)).round hr).mul hu hs).round hr))).round hr
  · exact ((((((hp.mul hu (appr_cos hM hu zz)).round hr).mul hu (appr_sinh hM hu zy)).round hr)).add
      (((((((((((hp.mul hu (appr_kz hr l)).round hr).div hu hk hky fun _ => le_rfl).round hr).mul hu
      (appr_sin hM hu xx)).round hr).mul hu (appr_sinh hM hu yy)).round hr).mul hu (appr_cos hM hu zz)).round hr))).round hr

theorem appr_softEdge (hr : Rounds u rnd) (hM : ∀ i, (M i).IsAccurate K (u i)) (d : SoftEdgeDipole) (hX : VAppr u X' X) :
    VAppr u (fun i => vmul (rnd i) d.B_val (softEdgeScale (rnd i) (M i) d (X' i))) (fun i => d.B_val *
      (1 - (Real.arctan (2 * dot (X i - d.p_1) d.n_1 / d.t_1) / Pi + 1 / 2) - (Real.arctan (2 * dot (X i - d.p_2) d.n_2 / d.t_2) / Pi + 1 / 2))) := by
  have hu := hr.nonneg
  have hpi := Pi_pos
  have vc : ∀ v : Vec, VAppr u (fun _ => v) (fun _ => v) := fun v => .refl _ v.norm fun _ => le_rfl
  have part : ∀ (p n : Vec) (t : ℝ), Appr u (fun i => rnd i (rnd i ((M i).atan (rnd i (rnd i (2.0 * rdot (rnd i) (vsub (rnd i) (X' i) p) n) / t)) / rnd i Pi) + 0.5))
      (fun i => Real.arctan (2 * dot (X i - p) n / t) / Pi + 1 / 2) := by
    intro p n t
    have := ((((appr_atan hM hu (((((Appr.const 2.0).mul hu ((hX.sub hr (vc p)).dot hr (vc n))).round hr).div_const t hu).round hr)).div hu
      ((Appr.const Pi).round hr) hpi fun _ => le_rfl).round hr).add (.const 0.5)).round hr
    exact this.congr fun i => by norm_num
  have hs := ((((Appr.const 1.0).sub (part d.p_1 d.n_1 d.t_1)).round hr).sub (part d.p_2 d.n_2 d.t_2)).round hr
  have := (vc d.B_val).mul hr hs
  exact this.congr fun i => by norm_num

end
end Rounded
end Teufel
