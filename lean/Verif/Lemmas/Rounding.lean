import Verif.Spec.Rounding
import Mathlib.Algebra.Order.Field.Power
import Mathlib.Tactic.Linarith
import Mathlib.Tactic.Positivity
import Mathlib.Tactic.Ring
import Mathlib.Tactic.NormNum
import Mathlib.Tactic.FieldSimp

/-! # Properties of rounding to binary digits -/

namespace Teufel

theorem nearestEven_cases (x : ℝ) : (nearestEven x = ⌊x⌋ ∧ x - ⌊x⌋ ≤ 1 / 2) ∨ (nearestEven x = ⌊x⌋ + 1 ∧ 1 / 2 ≤ x - ⌊x⌋) := by
  unfold nearestEven
  split_ifs with h1 h2 h3
  · exact Or.inl ⟨rfl, h1.le⟩
  · exact Or.inr ⟨rfl, h2.le⟩
  · exact Or.inl ⟨rfl, not_lt.mp h2⟩
  · exact Or.inr ⟨rfl, not_lt.mp h1⟩

theorem nearestEven_near (x : ℝ) : |(nearestEven x : ℝ) - x| ≤ 1 / 2 := by
  have h1 := Int.floor_le x
  have h2 := Int.lt_floor_add_one x
  rcases nearestEven_cases x with ⟨h, h'⟩ | ⟨h, h'⟩
  · rw [h, abs_le]; constructor <;> linarith
  · rw [h, abs_le]; push_cast; constructor <;> linarith

theorem nearestEven_int (n : Int) : nearestEven (n : ℝ) = n := by
  unfold nearestEven
  rw [if_pos]
  · simp
  · simp

/-- the nearest integer, if there is only one -/
theorem nearestEven_eq {x : ℝ} {n : Int} (h : |x - n| < 1 / 2) : nearestEven x = n := by
  have h1 := nearestEven_near x
  rw [abs_lt] at h
  rw [abs_le] at h1
  have a : ((nearestEven x - n : Int) : ℝ) < 1 := by push_cast; linarith
  have b : (-1 : ℝ) < ((nearestEven x - n : Int) : ℝ) := by push_cast; linarith
  have a' : nearestEven x - n < 1 := by exact_mod_cast a
  have b' : -1 < nearestEven x - n := by exact_mod_cast b
  omega

/-- ties go to the even integer -/
theorem nearestEven_tie (n : Int) (h : n % 2 = 0) : nearestEven ((n : ℝ) + 1 / 2) = n := by
  have hf : ⌊(n : ℝ) + 1 / 2⌋ = n := by
    rw [Int.floor_eq_iff]; constructor <;> linarith
  unfold nearestEven
  rw [hf]
  norm_num
  exact h

theorem nearestEven_mono : Monotone nearestEven := by
  intro x y hxy
  rcases lt_or_eq_of_le (Int.floor_mono hxy) with h | h
  · rcases nearestEven_cases x with ⟨e, _⟩ | ⟨e, _⟩ <;> rcases nearestEven_cases y with ⟨e', _⟩ | ⟨e', _⟩ <;> omega
  · unfold nearestEven
    rw [← h]
    split_ifs <;> first | omega | (exfalso; linarith)

theorem nearestEven_neg (x : ℝ) : nearestEven (-x) = -nearestEven x := by
  have h1 := Int.floor_le x
  have h2 := Int.lt_floor_add_one x
  by_cases hx : x = ⌊x⌋
  · have : nearestEven (-x) = nearestEven (((-⌊x⌋ : Int)) : ℝ) := by rw [hx]; push_cast; simp
    rw [this, nearestEven_int, hx, nearestEven_int, Int.floor_intCast]
  · have hlt : (⌊x⌋ : ℝ) < x := lt_of_le_of_ne h1 (Ne.symm hx)
    have hf : ⌊-x⌋ = -⌊x⌋ - 1 := by
      rw [Int.floor_eq_iff]; push_cast; constructor <;> linarith
    unfold nearestEven
    rw [hf]
    push_cast
    split_ifs <;> first | omega | (exfalso; linarith)

theorem nearestEven_bounds {x : ℝ} {a b : Int} (h1 : (a : ℝ) ≤ x) (h2 : x ≤ b) : a ≤ nearestEven x ∧ nearestEven x ≤ b := by
  have := nearestEven_mono h1
  have h := nearestEven_mono h2
  rw [nearestEven_int] at this h
  exact ⟨this, h⟩

theorem ulp_pos (p : Nat) (x : ℝ) : 0 < ulp p x := by unfold ulp; positivity

theorem ulp_neg (p : Nat) (x : ℝ) : ulp p (-x) = ulp p x := by unfold ulp; rw [abs_neg]

theorem two_zpow_add (a b : Int) : (2 : ℝ) ^ (a + b) = 2 ^ a * 2 ^ b := zpow_add₀ two_ne_zero a b

/-- a number of `p` digits lies between these multiples of its last digit -/
theorem ulp_le {p : Nat} (hp : 1 ≤ p) {x : ℝ} (hx : x ≠ 0) : (2 : ℝ) ^ (p - 1) * ulp p x ≤ |x| ∧ |x| < 2 ^ p * ulp p x := by
  have ha : 0 < |x| := abs_pos.mpr hx
  have h1 := Int.zpow_log_le_self (b := 2) (by norm_num) ha
  have h2 := Int.lt_zpow_succ_log_self (b := 2) (by norm_num) |x|
  unfold ulp
  push_cast at h1 h2
  constructor
  · have : (2 : ℝ) ^ (p - 1) = 2 ^ ((p - 1 : Int)) := by
      rw [← zpow_natCast]; congr 1; omega
    rw [this, ← two_zpow_add]
    have e : ((p : Int) - 1) + (Int.log 2 |x| - (p - 1 : Int)) = Int.log 2 |x| := by ring
    rw [e]; exact h1
  · rw [← zpow_natCast, ← two_zpow_add]
    have e : (p : Int) + (Int.log 2 |x| - (p - 1 : Int)) = Int.log 2 |x| + 1 := by ring
    rw [e]; exact h2

theorem binary_eq {p : Nat} {x : ℝ} (hx : x ≠ 0) : binary p x = nearestEven (x / ulp p x) * ulp p x := if_neg hx

theorem binary_zero (p : Nat) : binary p 0 = 0 := if_pos rfl

theorem binary_neg (p : Nat) (x : ℝ) : binary p (-x) = -binary p x := by
  by_cases hx : x = 0
  · rw [hx, neg_zero, binary_zero, neg_zero]
  · rw [binary_eq hx, binary_eq (neg_ne_zero.mpr hx), ulp_neg, neg_div, nearestEven_neg]
    push_cast; ring

theorem binary_err {p : Nat} (hp : 1 ≤ p) (x : ℝ) : |binary p x - x| ≤ (2 : ℝ) ^ (-(p : Int)) * |x| := by
  by_cases hx : x = 0
  · rw [hx, binary_zero]; simp
  · have hu := ulp_pos p x
    have h := nearestEven_near (x / ulp p x)
    obtain ⟨h1, _⟩ := ulp_le hp hx
    rw [binary_eq hx]
    have e : (nearestEven (x / ulp p x) : ℝ) * ulp p x - x = ((nearestEven (x / ulp p x) : ℝ) - x / ulp p x) * ulp p x := by
      field_simp
    rw [e, abs_mul, abs_of_pos hu]
    have e2 : (2 : ℝ) ^ (-(p : Int)) * (2 ^ (p - 1) * ulp p x) = 1 / 2 * ulp p x := by
      rw [← mul_assoc, ← zpow_natCast, ← two_zpow_add]
      have : (-(p : Int) + ((p - 1 : Nat) : Int)) = -1 := by omega
      rw [this]; norm_num
    calc _ ≤ 1 / 2 * ulp p x := by gcongr
      _ = _ := e2.symm
      _ ≤ _ := by gcongr

/-- multiples of the last digit are not changed -/
theorem binary_of_mul {p : Nat} {x : ℝ} (n : Int) (h : x = n * ulp p x) : binary p x = x := by
  by_cases hx : x = 0
  · rw [hx, binary_zero]
  · rw [binary_eq hx]
    have : x / ulp p x = n := by
      rw [div_eq_iff (ulp_pos p x).ne']; exact h
    rw [this, nearestEven_int]; exact h.symm

theorem ulp_of_between {p : Nat} {x : ℝ} {e : Int} (h1 : (2 : ℝ) ^ (e + (p - 1 : Int)) ≤ |x|) (h2 : |x| < (2 : ℝ) ^ (e + p)) : ulp p x = 2 ^ e := by
  have hx : 0 < |x| := lt_of_lt_of_le (by positivity) h1
  unfold ulp
  congr 1
  have a : e + (p - 1 : Int) ≤ Int.log 2 |x| := by
    rw [← Int.zpow_le_iff_le_log (by norm_num) hx]; push_cast; exact h1
  have b : Int.log 2 |x| < e + p := by
    rw [← Int.lt_zpow_iff_log_lt (by norm_num) hx]; push_cast; exact h2
  omega

theorem ulp_zpow (p : Nat) (k : Int) : ulp p ((2 : ℝ) ^ k) = 2 ^ (k - (p - 1 : Int)) := by
  unfold ulp
  rw [abs_of_pos (by positivity)]
  have := Int.log_zpow (R := ℝ) (b := 2) (by norm_num) k
  push_cast at this
  rw [this]

/-- powers of two are not changed -/
theorem binary_zpow {p : Nat} (hp : 1 ≤ p) (k : Int) : binary p ((2 : ℝ) ^ k) = 2 ^ k := by
  apply binary_of_mul (2 ^ (p - 1))
  rw [ulp_zpow]
  push_cast
  rw [← zpow_natCast, ← two_zpow_add]
  congr 1
  omega

/-- numbers of at most `p` digits are not changed -/
theorem binary_exact {p : Nat} (hp : 1 ≤ p) (m : Int) (e : Int) (hm : |m| ≤ 2 ^ p) : binary p ((m : ℝ) * 2 ^ e) = m * 2 ^ e := by
  by_cases h0 : m = 0
  · rw [h0]; simp [binary_zero]
  · have hx : (m : ℝ) * 2 ^ e ≠ 0 := mul_ne_zero (by exact_mod_cast h0) (by positivity)
    rcases lt_or_eq_of_le hm with hm | hm
    · have habs : |(m : ℝ) * 2 ^ e| < 2 ^ (e + p) := by
        rw [abs_mul, abs_of_pos (show (0 : ℝ) < 2 ^ e by positivity), two_zpow_add, mul_comm, zpow_natCast]
        gcongr
        exact_mod_cast hm
      have hl : Int.log 2 |(m : ℝ) * 2 ^ e| < e + p := by
        rw [← Int.lt_zpow_iff_log_lt (by norm_num) (abs_pos.mpr hx)]; push_cast; exact habs
      have : ∃ k : Nat, e = (Int.log 2 |(m : ℝ) * 2 ^ e| - (p - 1 : Int)) + k := ⟨(e - (Int.log 2 |(m : ℝ) * 2 ^ e| - (p - 1 : Int))).toNat, by omega⟩
      obtain ⟨k, hk⟩ := this
      apply binary_of_mul (m * 2 ^ k)
      unfold ulp
      push_cast
      have : (2 : ℝ) ^ e = 2 ^ k * 2 ^ (Int.log 2 |(m : ℝ) * 2 ^ e| - (p - 1 : Int)) := by
        rw [← zpow_natCast, ← two_zpow_add, add_comm, ← hk]
      rw [mul_assoc, ← this]
    · have h2 : (m : ℝ) = 2 ^ p ∨ (m : ℝ) = -2 ^ p := by
        rcases (abs_eq (by positivity)).mp hm with h | h <;> rw [h] <;> simp
      rcases h2 with h | h <;> rw [h]
      · rw [← zpow_natCast, ← two_zpow_add]; exact binary_zpow hp _
      · rw [neg_mul, binary_neg, ← zpow_natCast, ← two_zpow_add, binary_zpow hp]

/-- rounding in terms of digits -/
theorem binary_form {p : Nat} (hp : 1 ≤ p) (x : ℝ) : ∃ m e : Int, |m| ≤ 2 ^ p ∧ binary p x = m * 2 ^ e := by
  by_cases hx : x = 0
  · exact ⟨0, 0, by simp, by rw [hx, binary_zero]; simp⟩
  · refine ⟨nearestEven (x / ulp p x), Int.log 2 |x| - (p - 1 : Int), ?_, binary_eq hx⟩
    obtain ⟨_, h⟩ := ulp_le hp hx
    have hu := ulp_pos p x
    have h' : |x / ulp p x| ≤ 2 ^ p := by
      rw [abs_div, abs_of_pos hu, div_le_iff₀ hu]; exact h.le
    obtain ⟨a, b⟩ := abs_le.mp h'
    obtain ⟨c, d⟩ := nearestEven_bounds (a := -2 ^ p) (b := 2 ^ p) (by push_cast; exact a) (by push_cast; exact b)
    exact abs_le.mpr ⟨c, d⟩

theorem binary_idem {p : Nat} (hp : 1 ≤ p) (x : ℝ) : binary p (binary p x) = binary p x := by
  obtain ⟨m, e, h, hx⟩ := binary_form hp x
  rw [hx, binary_exact hp m e h]

theorem binary_nonneg (p : Nat) {x : ℝ} (hx : 0 ≤ x) : 0 ≤ binary p x := by
  rcases eq_or_lt_of_le hx with h | h
  · rw [← h, binary_zero]
  · rw [binary_eq h.ne']
    have hu := ulp_pos p x
    have := (nearestEven_mono (show (((0 : Int)) : ℝ) ≤ x / ulp p x by push_cast; positivity))
    rw [nearestEven_int] at this
    have : (0 : ℝ) ≤ nearestEven (x / ulp p x) := by exact_mod_cast this
    positivity

private theorem binary_mono_pos {p : Nat} (hp : 1 ≤ p) {x y : ℝ} (hx : 0 < x) (h : x ≤ y) : binary p x ≤ binary p y := by
  have hy : 0 < y := lt_of_lt_of_le hx h
  have hl : Int.log 2 |x| ≤ Int.log 2 |y| := by
    rw [abs_of_pos hx, abs_of_pos hy]; exact Int.log_mono_right hx h
  rw [binary_eq hx.ne', binary_eq hy.ne']
  have ux := ulp_pos p x
  have uy := ulp_pos p y
  rcases eq_or_lt_of_le hl with e | e
  · have : ulp p x = ulp p y := by unfold ulp; rw [e]
    rw [this]
    have := nearestEven_mono (div_le_div_of_nonneg_right h uy.le)
    gcongr
    
  · obtain ⟨_, a⟩ := ulp_le hp hx.ne'
    obtain ⟨b, _⟩ := ulp_le hp hy.ne'
    rw [abs_of_pos hx] at a
    rw [abs_of_pos hy] at b
    have a' : x / ulp p x ≤ ((2 ^ p : Int) : ℝ) := by
      rw [div_le_iff₀ ux]; push_cast; exact a.le
    have b' : ((2 ^ (p - 1) : Int) : ℝ) ≤ y / ulp p y := by
      rw [le_div_iff₀ uy]; push_cast; exact b
    have a2 := nearestEven_mono a'
    have b2 := nearestEven_mono b'
    rw [nearestEven_int] at a2 b2
    have hu : 2 * ulp p x ≤ ulp p y := by
      unfold ulp
      have : (2 : ℝ) * 2 ^ (Int.log 2 |x| - (p - 1 : Int)) = 2 ^ (Int.log 2 |x| + 1 - (p - 1 : Int)) := by
        have : Int.log 2 |x| + 1 - (p - 1 : Int) = 1 + (Int.log 2 |x| - (p - 1 : Int)) := by ring
        rw [this, two_zpow_add]; norm_num
      rw [this]
      exact zpow_le_zpow_right₀ (by norm_num) (by omega)
    have a3 : (nearestEven (x / ulp p x) : ℝ) ≤ 2 ^ p := by exact_mod_cast a2
    have b3 : (2 : ℝ) ^ (p - 1) ≤ nearestEven (y / ulp p y) := by exact_mod_cast b2
    have hpp : (2 : ℝ) ^ p = 2 * 2 ^ (p - 1) := by
      rw [← pow_succ']; congr 1; omega
    calc (nearestEven (x / ulp p x) : ℝ) * ulp p x ≤ 2 ^ p * ulp p x := by gcongr
      _ = 2 ^ (p - 1) * (2 * ulp p x) := by rw [hpp]; ring
      _ ≤ 2 ^ (p - 1) * ulp p y := by gcongr
      _ ≤ _ := by gcongr

theorem binary_mono {p : Nat} (hp : 1 ≤ p) : Monotone (binary p) := by
  intro x y h
  rcases lt_trichotomy x 0 with hx | hx | hx
  · rcases lt_or_ge y 0 with hy | hy
    · have := binary_mono_pos hp (neg_pos.mpr hy) (neg_le_neg h)
      rw [binary_neg, binary_neg] at this
      linarith
    · have a := binary_nonneg p hy
      have b := binary_nonneg p (neg_nonneg.mpr hx.le)
      rw [binary_neg] at b
      linarith
  · rw [hx, binary_zero]; exact binary_nonneg p (hx ▸ h)
  · exact binary_mono_pos hp hx h

/-- rounding to `p` binary digits is a rounding function -/
theorem binary_isRounding {p : Nat} (hp : 1 ≤ p) : IsRounding (binary p) (2 ^ (-(p : Int))) :=
  ⟨binary_mono hp, binary_idem hp, binary_neg p, binary_err hp⟩

theorem binary64_isRounding : IsRounding binary64 u64 := binary_isRounding (p := 53) (by norm_num)

/-- exact arithmetic -/
theorem id_isRounding : IsRounding id 0 := ⟨monotone_id, fun _ => rfl, fun _ => rfl, fun x => by simp⟩

/-- the value of a rounded number from its digits -/
theorem binary_digits {p : Nat} (x : ℝ) (m e : Int) (h1 : (2 : ℝ) ^ (e + (p - 1 : Int)) ≤ |x|) (h2 : |x| < (2 : ℝ) ^ (e + p))
    (h : |x / 2 ^ e - m| < 1 / 2) : binary p x = m * 2 ^ e := by
  have hx : x ≠ 0 := by
    intro h0
    rw [h0, abs_zero] at h1
    exact absurd h1 (not_le.mpr (by positivity))
  rw [binary_eq hx, ulp_of_between h1 h2, nearestEven_eq h]

namespace IsRounding
variable {rnd : ℝ → ℝ} {u : ℝ}

theorem zero (h : IsRounding rnd u) : rnd 0 = 0 := by
  have := h.neg 0
  rw [neg_zero] at this
  linarith

theorem u_nonneg (h : IsRounding rnd u) : 0 ≤ u := by
  have := h.err 1
  rw [abs_one, mul_one] at this
  exact le_trans (abs_nonneg _) this

theorem nonneg (h : IsRounding rnd u) {x : ℝ} (hx : 0 ≤ x) : 0 ≤ rnd x := by
  have := h.mono hx
  rwa [h.zero] at this

theorem le_one_add (h : IsRounding rnd u) {x : ℝ} (hx : 0 ≤ x) : rnd x ≤ (1 + u) * x := by
  have := abs_le.mp (h.err x)
  rw [abs_of_nonneg hx] at this
  linarith [this.2]

theorem one_sub_le (h : IsRounding rnd u) {x : ℝ} (hx : 0 ≤ x) : (1 - u) * x ≤ rnd x := by
  have := abs_le.mp (h.err x)
  rw [abs_of_nonneg hx] at this
  linarith [this.1]

theorem abs_rnd (h : IsRounding rnd u) (x : ℝ) : |rnd x| = rnd |x| := by
  rcases le_total 0 x with hx | hx
  · rw [abs_of_nonneg hx, abs_of_nonneg (h.nonneg hx)]
  · rw [abs_of_nonpos hx, h.neg]
    have := h.nonneg (neg_nonneg.mpr hx)
    rw [h.neg] at this
    exact abs_of_nonpos (by linarith)

theorem abs_le (h : IsRounding rnd u) (x : ℝ) : |rnd x| ≤ (1 + u) * |x| := by
  rw [h.abs_rnd]; exact h.le_one_add (abs_nonneg x)

/-- no number but zero is rounded to zero -/
theorem ne_zero (h : IsRounding rnd u) (hu : u < 1) {x : ℝ} (hx : x ≠ 0) : rnd x ≠ 0 := by
  intro h0
  have := h.err x
  rw [h0, zero_sub, abs_neg] at this
  have hp := abs_pos.mpr hx
  nlinarith

end IsRounding

end Teufel
