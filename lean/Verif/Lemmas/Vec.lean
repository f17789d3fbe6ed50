import Verif.Model.Vec

/-! Helper lemmas on vectors. -/

namespace Teufel.Vec

theorem abs2nd_nonneg (a : Vec) : 0 ≤ a.abs2nd := by unfold abs2nd; nlinarith [sq_nonneg a.x, sq_nonneg a.y, sq_nonneg a.z]
theorem dot_self (a : Vec) : dot a a = a.abs2nd := rfl
theorem norm_def (a : Vec) : a.norm = Real.sqrt a.abs2nd := rfl
theorem norm_nonneg (a : Vec) : 0 ≤ a.norm := Real.sqrt_nonneg _
theorem norm_sq (a : Vec) : a.norm ^ 2 = a.abs2nd := by rw [norm_def, Real.sq_sqrt (abs2nd_nonneg a)]
theorem norm_mul_self (a : Vec) : a.norm * a.norm = a.abs2nd := by rw [← sq, norm_sq]

theorem abs2nd_eq_zero {a : Vec} : a.abs2nd = 0 ↔ a = 0 := by
  constructor
  · intro h
    unfold abs2nd at h
    have hx : a.x * a.x = 0 := by nlinarith [mul_self_nonneg a.x, mul_self_nonneg a.y, mul_self_nonneg a.z]
    have hy : a.y * a.y = 0 := by nlinarith [mul_self_nonneg a.x, mul_self_nonneg a.y, mul_self_nonneg a.z]
    have hz : a.z * a.z = 0 := by nlinarith [mul_self_nonneg a.x, mul_self_nonneg a.y, mul_self_nonneg a.z]
    ext
    · simpa using mul_self_eq_zero.mp hx
    · simpa using mul_self_eq_zero.mp hy
    · simpa using mul_self_eq_zero.mp hz
  · rintro rfl; simp [abs2nd]

theorem norm_eq_zero {a : Vec} : a.norm = 0 ↔ a = 0 := by
  rw [← abs2nd_eq_zero, ← norm_sq]; simp

theorem norm_pos {a : Vec} (h : a ≠ 0) : 0 < a.norm :=
  lt_of_le_of_ne (norm_nonneg a) (fun e => h (norm_eq_zero.mp e.symm))

theorem norm_zero : (0 : Vec).norm = 0 := norm_eq_zero.mpr rfl

theorem dot_comm (a b : Vec) : dot a b = dot b a := by unfold dot; ring
theorem dot_add_left (a b c : Vec) : dot (a + b) c = dot a c + dot b c := by simp [dot]; ring
theorem dot_sub_left (a b c : Vec) : dot (a - b) c = dot a c - dot b c := by simp [dot]; ring
theorem dot_add_right (a b c : Vec) : dot a (b + c) = dot a b + dot a c := by simp [dot]; ring
theorem dot_sub_right (a b c : Vec) : dot a (b - c) = dot a b - dot a c := by simp [dot]; ring
theorem dot_mul_left (a b : Vec) (k : ℝ) : dot (a * k) b = dot a b * k := by simp [dot]; ring
theorem dot_mul_right (a b : Vec) (k : ℝ) : dot a (b * k) = dot a b * k := by simp [dot]; ring
theorem dot_div_left (a b : Vec) (k : ℝ) : dot (a / k) b = dot a b / k := by simp [dot]; ring
theorem dot_div_right (a b : Vec) (k : ℝ) : dot a (b / k) = dot a b / k := by simp [dot]; ring
theorem dot_neg_left (a b : Vec) : dot (-a) b = -dot a b := by simp [dot]; ring
theorem dot_neg_right (a b : Vec) : dot a (-b) = -dot a b := by simp [dot]; ring
@[simp] theorem dot_zero_left (b : Vec) : dot 0 b = 0 := by simp [dot]
@[simp] theorem dot_zero_right (b : Vec) : dot b 0 = 0 := by simp [dot]

theorem lagrange (a b : Vec) : (cross a b).abs2nd = a.abs2nd * b.abs2nd - (dot a b) ^ 2 := by
  simp [abs2nd, dot]; ring

theorem dot_sq_le (a b : Vec) : (dot a b) ^ 2 ≤ a.abs2nd * b.abs2nd := by
  have := lagrange a b; have := abs2nd_nonneg (cross a b); linarith

theorem abs_dot_le (a b : Vec) : |dot a b| ≤ a.norm * b.norm := by
  apply abs_le_of_sq_le_sq _ (mul_nonneg (norm_nonneg a) (norm_nonneg b))
  rw [mul_pow, norm_sq, norm_sq]; exact dot_sq_le a b

theorem dot_le (a b : Vec) : dot a b ≤ a.norm * b.norm := le_trans (le_abs_self _) (abs_dot_le a b)

theorem abs2nd_add (a b : Vec) : (a + b).abs2nd = a.abs2nd + 2 * dot a b + b.abs2nd := by
  simp [abs2nd, dot]; ring

theorem norm_add_le (a b : Vec) : (a + b).norm ≤ a.norm + b.norm := by
  apply le_of_sq_le_sq _ (add_nonneg (norm_nonneg a) (norm_nonneg b))
  rw [norm_sq, abs2nd_add, add_sq, norm_sq, norm_sq]
  have := dot_le a b; nlinarith

theorem abs2nd_neg (a : Vec) : (-a).abs2nd = a.abs2nd := by simp [abs2nd]
theorem norm_neg (a : Vec) : (-a).norm = a.norm := by rw [norm_def, abs2nd_neg, ← norm_def]
theorem norm_sub_comm (a b : Vec) : (a - b).norm = (b - a).norm := by
  rw [← norm_neg]; congr 1; abel

theorem norm_sub_le (a b c : Vec) : (a - c).norm ≤ (a - b).norm + (b - c).norm := by
  have := norm_add_le (a - b) (b - c)
  rwa [sub_add_sub_cancel] at this

theorem abs2nd_mul (a : Vec) (k : ℝ) : (a * k).abs2nd = a.abs2nd * k ^ 2 := by simp [abs2nd]; ring
theorem abs2nd_div (a : Vec) (k : ℝ) : (a / k).abs2nd = a.abs2nd / k ^ 2 := by simp [abs2nd]; ring
theorem norm_mul (a : Vec) (k : ℝ) : (a * k).norm = a.norm * |k| := by
  rw [norm_def, abs2nd_mul, Real.sqrt_mul (abs2nd_nonneg a), Real.sqrt_sq_eq_abs, ← norm_def]

theorem normalize_eq (a : Vec) : a.normalize = a / a.norm := rfl

theorem normalize_abs2nd {a : Vec} (h : a ≠ 0) : a.normalize.abs2nd = 1 := by
  rw [normalize_eq, abs2nd_div, norm_sq, div_self]
  intro e; exact h (abs2nd_eq_zero.mp e)

theorem normalize_norm {a : Vec} (h : a ≠ 0) : a.normalize.norm = 1 := by
  rw [norm_def, normalize_abs2nd h, Real.sqrt_one]

theorem normalize_mul_norm {a : Vec} (h : a ≠ 0) : a.normalize * a.norm = a := by
  have := (norm_pos h).ne'
  ext <;> simp <;> field_simp

theorem dot_cross_left (a b : Vec) : dot a (cross a b) = 0 := by simp [dot]; ring
theorem dot_cross_right (a b : Vec) : dot b (cross a b) = 0 := by simp [dot]; ring

theorem mul_zero' (k : ℝ) : (0 : Vec) * k = 0 := by ext <;> simp
theorem mul_zero_r (a : Vec) : a * (0:ℝ) = 0 := by ext <;> simp
theorem mul_one' (a : Vec) : a * (1:ℝ) = a := by ext <;> simp
theorem add_mul' (a b : Vec) (k : ℝ) : (a + b) * k = a * k + b * k := by ext <;> simp <;> ring
theorem mul_add' (a : Vec) (k l : ℝ) : a * (k + l) = a * k + a * l := by ext <;> simp <;> ring
theorem mul_assoc' (a : Vec) (k l : ℝ) : a * k * l = a * (k * l) := by ext <;> simp <;> ring
theorem zero_div' (k : ℝ) : (0 : Vec) / k = 0 := by ext <;> simp

end Teufel.Vec
