import Verif.Model.RoundedDipole
import Verif.Props.RoundedFields

/-!
# Rounding errors of the fields of hard-edge dipoles
-/

namespace Teufel
open Vec

namespace Rounded

theorem sign_neg {rnd : ℝ → ℝ} {u : ℝ} (hr : IsRounding rnd u) (hu : u < 1) (x : ℝ) : rnd x < 0 ↔ x < 0 := by
  have h := abs_le.mp (hr.err x)
  have hu0 := hr.u_nonneg
  rcases lt_or_ge x 0 with hx | hx
  · rw [abs_of_neg hx] at h
    exact ⟨fun _ => hx, fun _ => by nlinarith⟩
  · rw [abs_of_nonneg hx] at h
    exact ⟨fun h' => by nlinarith, fun h' => by linarith⟩

theorem round_zero {rnd : ℝ → ℝ} {u : ℝ} (hr : IsRounding rnd u) : rnd 0 = 0 := by
  have h := hr.err 0
  rw [abs_zero, mul_zero, sub_zero] at h
  exact abs_nonpos_iff.mp h

theorem sign_pos {rnd : ℝ → ℝ} {u : ℝ} (hr : IsRounding rnd u) (hu : u < 1) (x : ℝ) : 0 < rnd x ↔ 0 < x := by
  have h := sign_neg hr hu (-x)
  rw [hr.neg] at h
  simpa using h

theorem sign_mul {rnd : ℝ → ℝ} {u : ℝ} (hr : IsRounding rnd u) (hu : u < 1) (x c : ℝ) : rnd x * c < 0 ↔ x * c < 0 := by
  rw [mul_neg_iff, mul_neg_iff, sign_neg hr hu, sign_pos hr hu]

/-- the rounded number of `(1 + e)²`, where `e` is the weight of the last digit of 1 -/
theorem square {p : Nat} (hp : 3 ≤ p) {e : ℝ} (he : e = ((2 : ℝ) ^ (p - 1))⁻¹) : binary p ((1 + e) * (1 + e)) = 1 + 2 * e := by
  have hw : (0 : ℝ) < 2 ^ (p - 1) := by positivity
  have he0 : 0 < e := by rw [he]; positivity
  have he4 : e ≤ 1 / 4 := by
    rw [he, show (1 / 4 : ℝ) = (2 ^ 2)⁻¹ by norm_num]
    exact inv_anti₀ (by norm_num) (pow_le_pow_right₀ (by norm_num) (by omega))
  have hwe : (2 : ℝ) ^ (p - 1) * e = 1 := by rw [he]; exact mul_inv_cancel₀ hw.ne'
  have hpos : 0 < (1 + e) * (1 + e) := by positivity
  have hlog : Int.log 2 |(1 + e) * (1 + e)| = 0 := by
    rw [abs_of_pos hpos]
    have h1 : Int.log 2 ((1 + e) * (1 + e)) < 1 := (Int.lt_zpow_iff_log_lt (by norm_num) hpos).mp (by norm_num; nlinarith)
    have h2 : 0 ≤ Int.log 2 ((1 + e) * (1 + e)) := (Int.zpow_le_iff_le_log (by norm_num) hpos).mp (by norm_num; nlinarith)
    omega
  have hulp : ulp p ((1 + e) * (1 + e)) = e := by
    unfold ulp
    rw [hlog, zero_sub, zpow_neg, show ((p : Int) - 1) = ((p - 1 : Nat) : Int) by omega, zpow_natCast, he]
  have hx : (1 + e) * (1 + e) / e = ((2 ^ (p - 1) + 2 : Int) : ℝ) + e := by
    rw [div_eq_iff he0.ne']
    push_cast
    nlinarith
  have hfl : ⌊(1 + e) * (1 + e) / e⌋ = 2 ^ (p - 1) + 2 := by
    rw [hx, Int.floor_intCast_add, Int.floor_eq_zero_iff.mpr ⟨he0.le, by linarith⟩, add_zero]
  unfold binary
  rw [if_neg hpos.ne', hulp]
  unfold nearestEven
  rw [hfl, if_pos (by rw [hx]; linarith)]
  push_cast
  nlinarith

end Rounded

/-- a vector along one of the coordinate axes -/
def AlongAxis (n : Vec) : Prop := (n.y = 0 ∧ n.z = 0) ∨ (n.x = 0 ∧ n.z = 0) ∨ (n.x = 0 ∧ n.y = 0)

/-- C131: with exact arithmetic the computed field is that of the other chapters. -/
theorem C131_exact (d : HardEdgeDipole) : Rounded.hardEdgeField id d = d.LocalField := by
  classical
  rfl

/-- C131: whatever the rounding errors, the computed field of a hard-edge dipole is its full field or zero. -/
theorem C131_values (rnd : ℝ → ℝ) (d : HardEdgeDipole) (t : ℝ) (X : Vec) :
    Rounded.hardEdgeField rnd d t X = .ok ⟨0, d.B_val⟩ ∨ Rounded.hardEdgeField rnd d t X = .ok ⟨0, 0⟩ := by
  unfold Rounded.hardEdgeField
  dsimp only
  split_ifs
  · exact .inl rfl
  · exact .inr rfl

/-- C131: in every bounded region the computed field of a hard-edge dipole is exactly the exact one, except possibly within a constant times the unit roundoff
from the limiting planes. -/
theorem C131_away_partial (d : HardEdgeDipole) (o : Vec) (R : ℝ) :
    ∃ K u0 : ℝ, 0 ≤ K ∧ 0 < u0 ∧ ∀ rnd u, IsRounding rnd u → u ≤ u0 → ∀ t0 t t' X, X.norm ≤ R →
      K * u < |dot (X - o - d.p_1) d.n_1| → K * u < |dot (X - o - d.p_2) d.n_2| →
      Rounded.localized rnd (Rounded.hardEdgeField rnd d) t0 o t' X = (LocalizedField d.LocalField t0 o).field t X := by
  classical
  have vc := fun v : Vec => Rounded.const (R := R) (K := 1) v
  obtain ⟨K1, M1, u1, hK1, hM1, hu1, H1⟩ := ((Rounded.place (R := R) (K := 1) o).sub Rounded.rounds (vc d.p_1)).dot Rounded.rounds (vc d.n_1)
  obtain ⟨K2, M2, u2, hK2, hM2, hu2, H2⟩ := ((Rounded.place (R := R) (K := 1) o).sub Rounded.rounds (vc d.p_2)).dot Rounded.rounds (vc d.n_2)
  refine ⟨K1 + K2, min u1 u2, by positivity, lt_min hu1 hu2, ?_⟩
  intro rnd u hr hu t0 t t' X hX a1 a2
  have hu0 := hr.u_nonneg
  have hM : MathLib.exact.IsAccurate 1 u := by
    refine ⟨?_, ?_, ?_, ?_, ?_⟩ <;>
    · intro y
      simp only [MathLib.exact, sub_self, abs_zero]
      positivity
  have g1 := (H1 ⟨rnd, u, MathLib.exact, X, hr, hM, hX⟩ (hu.trans (min_le_left _ _))).2
  have g2 := (H2 ⟨rnd, u, MathLib.exact, X, hr, hM, hX⟩ (hu.trans (min_le_right _ _))).2
  dsimp only at g1 g2
  have k1 : 0 ≤ K1 * u := mul_nonneg hK1 hu0
  have k2 : 0 ≤ K2 * u := mul_nonneg hK2 hu0
  have same : ∀ {a b k : ℝ}, |a - b| ≤ k → k < |b| → (a < 0 ↔ b < 0) := by
    intro a b k h1 h2
    have := abs_le.mp h1
    rcases lt_or_ge b 0 with hb | hb
    · rw [abs_of_neg hb] at h2
      exact ⟨fun _ => hb, fun _ => by linarith⟩
    · rw [abs_of_nonneg hb] at h2
      exact ⟨fun _ => by linarith, fun _ => by linarith⟩
  have s1 := same g1 (by linarith)
  have s2 := same g2 (by linarith)
  simp only [Rounded.localized, Rounded.hardEdgeField, LocalizedField, HardEdgeDipole.LocalField, s1, s2]

/-- C131: if both limiting planes are perpendicular to coordinate axes then rounding makes no difference at all. -/
theorem C131_axis_partial (d : HardEdgeDipole) (h1 : AlongAxis d.n_1) (h2 : AlongAxis d.n_2) (rnd : ℝ → ℝ) (u : ℝ) (hr : IsRounding rnd u) (hu : u < 1)
    (t t' : ℝ) (X : Vec) : Rounded.hardEdgeField rnd d t' X = d.LocalField t X := by
  classical
  have key : ∀ p n : Vec, AlongAxis n → (Rounded.rdot rnd (Rounded.vsub rnd X p) n < 0 ↔ dot (X - p) n < 0) := by
    intro p n h
    have z := Rounded.round_zero hr
    have e : ∀ a c : ℝ, rnd (rnd a * c) < 0 ↔ a * c < 0 := fun a c => by rw [Rounded.sign_neg hr hu, Rounded.sign_mul hr hu]
    rcases h with ⟨ha, hb⟩ | ⟨ha, hb⟩ | ⟨ha, hb⟩ <;>
      simp [Rounded.rdot, Rounded.vsub, Vec.dot, ha, hb, z, hr.idem, e]
  simp only [Rounded.hardEdgeField, HardEdgeDipole.LocalField, key _ _ h1, key _ _ h2]

/-- C131 is false for tilted planes: however many digits are used, there are a dipole and a position, all given by numbers with that many digits, where the
exact field is that of the inside and the computed field is zero. -/
theorem C131_full_statement_false (p : Nat) (hp : 3 ≤ p) :
    ∃ d : HardEdgeDipole, ∃ X : Vec,
      (∀ v ∈ [d.B_val, d.p_1, d.n_1, d.p_2, d.n_2, X], binary p v.x = v.x ∧ binary p v.y = v.y ∧ binary p v.z = v.z) ∧
      ∀ t, d.LocalField t X = .ok ⟨0, d.B_val⟩ ∧ Rounded.hardEdgeField (binary p) d t X = .ok ⟨0, 0⟩ ∧ d.B_val ≠ 0 := by
  classical
  obtain ⟨e, he⟩ : ∃ e : ℝ, e = ((2 : ℝ) ^ (p - 1))⁻¹ := ⟨_, rfl⟩
  have hw : (0 : ℝ) < 2 ^ (p - 1) := by positivity
  have he0 : 0 < e := by rw [he]; positivity
  have hr := binary_isRounding (p := p) (by omega)
  have hez : e = (2 : ℝ) ^ (-((p - 1 : Nat) : Int)) := by rw [he, zpow_neg, zpow_natCast]
  have hwe : (2 : ℝ) ^ (p - 1) * e = 1 := by rw [he]; exact mul_inv_cancel₀ hw.ne'
  have exact' : ∀ m : Int, |m| ≤ 2 ^ p → binary p ((m : ℝ) * e) = m * e := fun m hm => by rw [hez]; exact binary_exact (by omega) m _ hm
  have hpp : (2 : Int) ^ p = 2 * 2 ^ (p - 1) := by rw [← pow_succ']; congr 1; omega
  have h4 : (4 : Int) ≤ 2 ^ (p - 1) := by
    calc (4 : Int) = 2 ^ 2 := by norm_num
      _ ≤ 2 ^ (p - 1) := pow_le_pow_right₀ (by norm_num) (by omega)
  have b1 : binary p (1 + e) = 1 + e := by
    have := exact' (2 ^ (p - 1) + 1) (by rw [abs_of_nonneg (by positivity)]; omega)
    push_cast at this
    rwa [add_mul, hwe, one_mul] at this
  have b2 : binary p (1 + 2 * e) = 1 + 2 * e := by
    have := exact' (2 ^ (p - 1) + 2) (by rw [abs_of_nonneg (by positivity)]; omega)
    push_cast at this
    rwa [add_mul, hwe] at this
  have one : binary p 1 = 1 := by simpa using binary_zpow (p := p) (by omega) 0
  have z := binary_zero p
  have n1 : binary p (-1 - e) = -1 - e := by rw [show -1 - e = -(1 + e) by ring, binary_neg, b1]
  have none : binary p (-1) = -1 := by rw [binary_neg, one]
  refine ⟨⟨⟨0, 1, 0⟩, 0, ⟨1 + e, 1, 0⟩, 0, ⟨1, 0, 0⟩⟩, ⟨-1 - e, 1 + 2 * e, 0⟩, ?_, ?_⟩
  · intro v hv
    simp only [List.mem_cons, List.not_mem_nil, or_false] at hv
    rcases hv with rfl | rfl | rfl | rfl | rfl | rfl <;> simp [b1, b2, one, z, n1]
  · intro t
    have sq : binary p ((-1 - e) * (1 + e)) = -(1 + 2 * e) := by
      rw [show (-1 - e) * (1 + e) = -((1 + e) * (1 + e)) by ring, binary_neg, Rounded.square hp he]
    refine ⟨?_, ?_, ?_⟩
    · simp only [HardEdgeDipole.LocalField]
      rw [if_pos]
      constructor
      · simp [Vec.dot]
        nlinarith
      · simp [Vec.dot]
        linarith
    · simp only [Rounded.hardEdgeField]
      rw [if_neg]
      rintro ⟨h, -⟩
      simp [Rounded.rdot, Rounded.vsub, n1, b2, z, sq] at h
    · intro h
      have := congrArg Vec.y h
      simp at this

/-- non-vacuity: a dipole with planes across the beam in double precision; inside, the computed field is the full field -/
example : Rounded.hardEdgeField binary64 ⟨⟨0, 1, 0⟩, ⟨0, 0, 1⟩, ⟨0, 0, -1⟩, ⟨0, 0, 2⟩, ⟨0, 0, 1⟩⟩ 0 ⟨0, 0, 3 / 2⟩ = .ok ⟨0, ⟨0, 1, 0⟩⟩ := by
  rw [C131_axis_partial _ (.inr (.inr ⟨rfl, rfl⟩)) (.inr (.inr ⟨rfl, rfl⟩)) binary64 u64 (binary_isRounding (by norm_num)) (by norm_num) 0 0]
  simp only [HardEdgeDipole.LocalField]
  rw [if_pos]
  constructor <;> norm_num [Vec.dot]

/-- non-vacuity of C131_away_partial: for a sufficiently accurate format the middle of a tilted dipole is far enough from both planes -/
example : ∃ u0 : ℝ, 0 < u0 ∧ ∀ rnd u, IsRounding rnd u → u ≤ u0 → ∀ t,
    Rounded.localized rnd (Rounded.hardEdgeField rnd ⟨⟨0, 1, 0⟩, ⟨0, 0, -1⟩, ⟨1 / 10, 0, -1⟩, ⟨0, 0, 1⟩, ⟨1 / 10, 0, 1⟩⟩) 0 ⟨0, 0, 5⟩ t ⟨0, 0, 5⟩ = .ok ⟨0, ⟨0, 1, 0⟩⟩ := by
  classical
  obtain ⟨K, u0, hK, hu0, H⟩ := C131_away_partial ⟨⟨0, 1, 0⟩, ⟨0, 0, -1⟩, ⟨1 / 10, 0, -1⟩, ⟨0, 0, 1⟩, ⟨1 / 10, 0, 1⟩⟩ ⟨0, 0, 5⟩ (Vec.norm ⟨0, 0, 5⟩)
  refine ⟨min u0 (1 / (2 * (K + 1))), lt_min hu0 (by positivity), fun rnd u hr hu t => ?_⟩
  have hKu : K * u < 1 := by
    have h1 := hu.trans (min_le_right _ _)
    rw [le_div_iff₀ (by positivity)] at h1
    have := hr.u_nonneg
    nlinarith
  rw [H rnd u hr (hu.trans (min_le_left _ _)) 0 0 t ⟨0, 0, 5⟩ le_rfl (by simpa [Vec.dot] using hKu) (by simpa [Vec.dot] using hKu)]
  simp only [LocalizedField, HardEdgeDipole.LocalField]
  rw [if_pos]
  constructor <;> norm_num [Vec.dot]

end Teufel
