import Verif.Spec.Frame
import Verif.Lemmas.Vec

/-! Algebra of a change of the coordinate system -/

namespace Teufel
open Vec
namespace Frame
variable (F : Frame)

theorem dir_add (u v : Vec) : F.dir (u + v) = F.dir u + F.dir v := by unfold dir; ext <;> simp <;> ring
theorem dir_sub (u v : Vec) : F.dir (u - v) = F.dir u - F.dir v := by unfold dir; ext <;> simp <;> ring
theorem dir_mul (u : Vec) (k : ℝ) : F.dir (u * k) = F.dir u * k := by unfold dir; ext <;> simp <;> ring
theorem dir_div (u : Vec) (k : ℝ) : F.dir (u / k) = F.dir u / k := by unfold dir; ext <;> simp <;> ring
theorem dir_zero : F.dir 0 = 0 := by unfold dir; ext <;> simp

theorem dir_dot (u v : Vec) : dot (F.dir u) (F.dir v) = dot u v := by
  have e : dot (F.dir u) (F.dir v) = u.x * v.x * dot F.a F.a + u.y * v.y * dot F.b F.b + u.z * v.z * dot F.c F.c +
      (u.x * v.y + u.y * v.x) * dot F.a F.b + (u.x * v.z + u.z * v.x) * dot F.a F.c + (u.y * v.z + u.z * v.y) * dot F.b F.c := by
    unfold dir; simp only [dot, add_x, add_y, add_z, mul_x, mul_y, mul_z]; ring
  rw [e, F.aa, F.bb, F.cc, F.ab, F.ac, F.bc]
  simp only [dot]; ring

theorem abs2nd_dot (v : Vec) : v.abs2nd = dot v v := rfl

theorem dir_abs2nd (v : Vec) : (F.dir v).abs2nd = v.abs2nd := by rw [abs2nd_dot, dir_dot, abs2nd_dot]
theorem dir_norm (v : Vec) : Vec.norm (F.dir v) = Vec.norm v := by rw [norm_def, dir_abs2nd, norm_def]

theorem hand_sq : F.hand * F.hand = 1 := by
  have e : F.hand * F.hand = dot F.a F.a * (dot F.b F.b * dot F.c F.c - dot F.b F.c * dot F.b F.c) - dot F.a F.b * (dot F.a F.b * dot F.c F.c - dot F.b F.c * dot F.a F.c)
      + dot F.a F.c * (dot F.a F.b * dot F.b F.c - dot F.b F.b * dot F.a F.c) := by
    unfold hand; simp only [dot, cross]; ring
  rw [e, F.aa, F.bb, F.cc, F.ab, F.ac, F.bc]; norm_num

theorem eq_of_dist (u v : Vec) (h : dot (u - v) (u - v) = 0) : u = v := by
  have e : (u.x - v.x) * (u.x - v.x) + (u.y - v.y) * (u.y - v.y) + (u.z - v.z) * (u.z - v.z) = 0 := h
  have h1 := mul_self_nonneg (u.x - v.x)
  have h2 := mul_self_nonneg (u.y - v.y)
  have h3 := mul_self_nonneg (u.z - v.z)
  ext
  · have := mul_self_eq_zero.mp (by linarith : (u.x - v.x) * (u.x - v.x) = 0); linarith
  · have := mul_self_eq_zero.mp (by linarith : (u.y - v.y) * (u.y - v.y) = 0); linarith
  · have := mul_self_eq_zero.mp (by linarith : (u.z - v.z) * (u.z - v.z) = 0); linarith

theorem cross_ab : cross F.a F.b = F.c * F.hand := by
  apply eq_of_dist
  have e : dot (cross F.a F.b - F.c * F.hand) (cross F.a F.b - F.c * F.hand) = (dot F.a F.a * dot F.b F.b - dot F.a F.b * dot F.a F.b) - 2 * F.hand * F.hand + F.hand * F.hand * dot F.c F.c := by
    have : dot (cross F.a F.b) F.c = F.hand := rfl
    conv_rhs => rw [show 2 * F.hand * F.hand = 2 * dot (cross F.a F.b) F.c * F.hand by rw [this]]
    simp only [dot, cross, sub_x, sub_y, sub_z, mul_x, mul_y, mul_z]; ring
  rw [e, F.aa, F.bb, F.cc, F.ab]
  have := F.hand_sq
  linarith

theorem cross_bc : cross F.b F.c = F.a * F.hand := by
  apply eq_of_dist
  have e : dot (cross F.b F.c - F.a * F.hand) (cross F.b F.c - F.a * F.hand) = (dot F.b F.b * dot F.c F.c - dot F.b F.c * dot F.b F.c) - 2 * F.hand * F.hand + F.hand * F.hand * dot F.a F.a := by
    have : dot (cross F.b F.c) F.a = F.hand := by unfold hand; simp only [dot, cross]; ring
    conv_rhs => rw [show 2 * F.hand * F.hand = 2 * dot (cross F.b F.c) F.a * F.hand by rw [this]]
    simp only [dot, cross, sub_x, sub_y, sub_z, mul_x, mul_y, mul_z]; ring
  rw [e, F.aa, F.bb, F.cc, F.bc]
  have := F.hand_sq
  linarith

theorem cross_ac : cross F.a F.c = F.b * (-F.hand) := by
  apply eq_of_dist
  have e : dot (cross F.a F.c - F.b * (-F.hand)) (cross F.a F.c - F.b * (-F.hand)) = (dot F.a F.a * dot F.c F.c - dot F.a F.c * dot F.a F.c) - 2 * F.hand * F.hand + F.hand * F.hand * dot F.b F.b := by
    have : dot (cross F.a F.c) F.b = -F.hand := by unfold hand; simp only [dot, cross]; ring
    conv_rhs => rw [show 2 * F.hand * F.hand = -2 * dot (cross F.a F.c) F.b * F.hand by rw [this]; ring]
    simp only [dot, cross, sub_x, sub_y, sub_z, mul_x, mul_y, mul_z]; ring
  rw [e, F.aa, F.bb, F.cc, F.ac]
  have := F.hand_sq
  linarith

theorem dir_cross (u v : Vec) : cross (F.dir u) (F.dir v) = F.dir (cross u v) * F.hand := by
  have e : cross (F.dir u) (F.dir v) = cross F.a F.b * (u.x * v.y - u.y * v.x) + cross F.a F.c * (u.x * v.z - u.z * v.x) + cross F.b F.c * (u.y * v.z - u.z * v.y) := by
    unfold dir; ext <;> simp only [cross, add_x, add_y, add_z, mul_x, mul_y, mul_z] <;> ring
  rw [e, cross_ab, cross_ac, cross_bc]
  unfold dir
  ext <;> simp only [cross, add_x, add_y, add_z, mul_x, mul_y, mul_z] <;> ring

end Frame
end Teufel
