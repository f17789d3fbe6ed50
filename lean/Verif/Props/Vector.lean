import Verif.Lemmas.Vec

/-! # C67: vector and frame algebra -/

namespace Teufel

open Vec

/-- C67: cross product is orthogonal to both factors and antisymmetric. -/
theorem C67_cross_orthogonal (a b : Vec) :
    dot (cross a b) a = 0 ∧ dot (cross a b) b = 0 ∧ cross a b = -cross b a := by
  refine ⟨?_, ?_, ?_⟩
  · simp only [dot, cross]; ring
  · simp only [dot, cross]; ring
  · ext <;> simp [cross] <;> ring

/-- C67: Lagrange identity, |a×b|² = |a|²|b|² − (a·b)². -/
theorem C67_lagrange (a b : Vec) :
    norm (cross a b) ^ 2 = norm a ^ 2 * norm b ^ 2 - dot a b ^ 2 := by
  simp only [norm_sq, abs2nd, cross, dot]; ring

/-- C67: the norm is the square root of the scalar product with itself, and it is non-negative. -/
theorem C67_norm_spec (a : Vec) : 0 ≤ norm a ∧ norm a ^ 2 = dot a a ∧ (norm a = 0 ↔ a = 0) := by
  refine ⟨Real.sqrt_nonneg _, ?_, Vec.norm_eq_zero⟩
  simp only [norm_sq, abs2nd, dot]

/-- C67: normalising any non-zero vector gives a unit vector of the same direction. -/
theorem C67_normalize (a : Vec) (h : a ≠ 0) :
    norm (normalize a) = 1 ∧ normalize a * norm a = a :=
  ⟨normalize_norm h, normalize_mul_norm h⟩

/-- an orthonormal triple -/
def Frame3 (ex ey ez : Vec) : Prop :=
  dot ex ex = 1 ∧ dot ey ey = 1 ∧ dot ez ez = 1 ∧ dot ex ey = 0 ∧ dot ey ez = 0 ∧ dot ez ex = 0

/-- completeness relation for an orthonormal triple: it is proved through the Gram determinant -/
theorem orthonormal_complete {ex ey ez : Vec} (h : Frame3 ex ey ez) (a : Vec) :
    ex * dot a ex + ey * dot a ey + ez * dot a ez = a := by
  obtain ⟨h1, h2, h3, h4, h5, h6⟩ := h
  -- ez = ± ex × ey
  have hd : dot ez (cross ex ey) ^ 2 = 1 := by
    have : dot ez (cross ex ey) ^ 2 =
        dot ex ex * (dot ey ey * dot ez ez - dot ey ez ^ 2)
        - dot ex ey * (dot ex ey * dot ez ez - dot ey ez * dot ez ex)
        + dot ez ex * (dot ex ey * dot ey ez - dot ey ey * dot ez ex) := by
      simp only [dot, cross]; ring
    rw [this, h1, h2, h3, h4, h5, h6]; ring
  -- the difference is orthogonal to the three vectors
  set r : Vec := a - (ex * dot a ex + ey * dot a ey + ez * dot a ez) with hr
  have r1 : dot r ex = 0 := by
    have : dot r ex = dot a ex - (dot a ex * dot ex ex + dot a ey * dot ex ey + dot a ez * dot ez ex) := by
      simp only [hr, dot, sub_x, sub_y, sub_z, add_x, add_y, add_z, mul_x, mul_y, mul_z]; ring
    rw [this, h1, h4, h6]; ring
  have r2 : dot r ey = 0 := by
    have : dot r ey = dot a ey - (dot a ex * dot ex ey + dot a ey * dot ey ey + dot a ez * dot ey ez) := by
      simp only [hr, dot, sub_x, sub_y, sub_z, add_x, add_y, add_z, mul_x, mul_y, mul_z]; ring
    rw [this, h2, h4, h5]; ring
  have r3 : dot r ez = 0 := by
    have : dot r ez = dot a ez - (dot a ex * dot ez ex + dot a ey * dot ey ez + dot a ez * dot ez ez) := by
      simp only [hr, dot, sub_x, sub_y, sub_z, add_x, add_y, add_z, mul_x, mul_y, mul_z]; ring
    rw [this, h3, h5, h6]; ring
  -- Cramer's rule
  have c : ∀ v : Vec, r * dot ez (cross ex ey) = cross ey ez * dot r ex + cross ez ex * dot r ey + cross ex ey * dot r ez := by
    intro _
    ext <;> simp only [dot, cross, add_x, add_y, add_z, mul_x, mul_y, mul_z] <;> ring
  have c0 := c 0
  rw [r1, r2, r3] at c0
  have hne : dot ez (cross ex ey) ≠ 0 := by
    intro h0; rw [h0] at hd; norm_num at hd
  have : r = 0 := by
    have hx := congrArg Vec.x c0
    have hy := congrArg Vec.y c0
    have hz := congrArg Vec.z c0
    simp only [add_x, add_y, add_z, mul_x, mul_y, mul_z, mul_zero, add_zero, mul_eq_zero, hne, or_false] at hx hy hz
    ext <;> assumption
  have h2 : a - (ex * dot a ex + ey * dot a ey + ez * dot a ez) = 0 := this
  exact (sub_eq_zero.mp h2).symm

/-- C67: transformation into an orthonormal frame preserves all scalar products (hence lengths),
and the original vector is recovered from its components. -/
theorem C67_frame_isometry (ex ey ez : Vec) (h : Frame3 ex ey ez) (a b : Vec) :
    dot (transform a ex ey ez) (transform b ex ey ez) = dot a b ∧
    norm (transform a ex ey ez) = norm a ∧
    ex * (transform a ex ey ez).x + ey * (transform a ex ey ez).y + ez * (transform a ex ey ez).z = a := by
  have key : ∀ a b : Vec, dot (transform a ex ey ez) (transform b ex ey ez) = dot a b := by
    intro a b
    conv_rhs => rw [← orthonormal_complete h a]
    simp only [transform, dot, add_x, add_y, add_z, mul_x, mul_y, mul_z]; ring
  refine ⟨key a b, ?_, orthonormal_complete h a⟩
  have := key a a
  simp only [Vec.norm]
  congr 1

/-- non-vacuity: a rotated orthonormal frame, and a non-zero vector -/
example : Frame3 ⟨3/5, 4/5, 0⟩ ⟨-4/5, 3/5, 0⟩ ⟨0, 0, 1⟩ ∧ (⟨1, 2, 3⟩ : Vec) ≠ 0 := by
  refine ⟨⟨?_, ?_, ?_, ?_, ?_, ?_⟩, ?_⟩ <;> try (simp only [dot]; norm_num)
  intro h; have := congrArg Vec.x h; simp at this

end Teufel
