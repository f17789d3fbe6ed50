import Verif.Model.Basic

/-!
# Cartesian vectors

Models `src/vector.cpp` / `src/vector.h`.
-/

namespace Teufel

/-- class `Vector`, src/vector.h; components are reals instead of doubles -/
@[ext] structure Vec where
  x : ℝ
  y : ℝ
  z : ℝ

namespace Vec

/-- default constructor, src/vector.cpp:26-31; also `VectorZero` -/
noncomputable instance : Zero Vec := ⟨⟨0, 0, 0⟩⟩
/-- `operator+`, `operator+=`, src/vector.cpp:50-65 -/
noncomputable instance : Add Vec := ⟨fun a b => ⟨a.x + b.x, a.y + b.y, a.z + b.z⟩⟩
/-- `operator-`, `operator-=`, src/vector.cpp:67-82 -/
noncomputable instance : Sub Vec := ⟨fun a b => ⟨a.x - b.x, a.y - b.y, a.z - b.z⟩⟩
/-- unary `operator-`, src/vector.cpp:84-91 -/
noncomputable instance : Neg Vec := ⟨fun a => ⟨-a.x, -a.y, -a.z⟩⟩
/-- `operator*`, `operator*=`, src/vector.cpp:93-108 -/
noncomputable instance : HMul Vec ℝ Vec := ⟨fun a f => ⟨a.x * f, a.y * f, a.z * f⟩⟩
/-- `operator/`, `operator/=`, src/vector.cpp:110-125 -/
noncomputable instance : HDiv Vec ℝ Vec := ⟨fun a f => ⟨a.x / f, a.y / f, a.z / f⟩⟩

@[simp] theorem zero_x : (0 : Vec).x = 0 := rfl
@[simp] theorem zero_y : (0 : Vec).y = 0 := rfl
@[simp] theorem zero_z : (0 : Vec).z = 0 := rfl
@[simp] theorem add_x (a b : Vec) : (a + b).x = a.x + b.x := rfl
@[simp] theorem add_y (a b : Vec) : (a + b).y = a.y + b.y := rfl
@[simp] theorem add_z (a b : Vec) : (a + b).z = a.z + b.z := rfl
@[simp] theorem sub_x (a b : Vec) : (a - b).x = a.x - b.x := rfl
@[simp] theorem sub_y (a b : Vec) : (a - b).y = a.y - b.y := rfl
@[simp] theorem sub_z (a b : Vec) : (a - b).z = a.z - b.z := rfl
@[simp] theorem neg_x (a : Vec) : (-a).x = -a.x := rfl
@[simp] theorem neg_y (a : Vec) : (-a).y = -a.y := rfl
@[simp] theorem neg_z (a : Vec) : (-a).z = -a.z := rfl
@[simp] theorem mul_x (a : Vec) (f : ℝ) : (a * f).x = a.x * f := rfl
@[simp] theorem mul_y (a : Vec) (f : ℝ) : (a * f).y = a.y * f := rfl
@[simp] theorem mul_z (a : Vec) (f : ℝ) : (a * f).z = a.z * f := rfl
@[simp] theorem div_x (a : Vec) (f : ℝ) : (a / f).x = a.x / f := rfl
@[simp] theorem div_y (a : Vec) (f : ℝ) : (a / f).y = a.y / f := rfl
@[simp] theorem div_z (a : Vec) (f : ℝ) : (a / f).z = a.z / f := rfl

/-- The additive group structure (used for sums and permutations of sums). -/
noncomputable instance : AddCommGroup Vec where
  add_assoc a b c := by ext <;> simp [add_assoc]
  zero_add a := by ext <;> simp
  add_zero a := by ext <;> simp
  add_comm a b := by ext <;> simp [add_comm]
  neg_add_cancel a := by ext <;> simp
  sub_eq_add_neg a b := by ext <;> simp [sub_eq_add_neg]
  nsmul := nsmulRec
  zsmul := zsmulRec

/-- `dot`, src/vector.cpp:153-160 -/
noncomputable def dot (a b : Vec) : ℝ := a.x * b.x + a.y * b.y + a.z * b.z

/-- `cross`, src/vector.cpp:162-169 -/
noncomputable def cross (a b : Vec) : Vec :=
  ⟨a.y * b.z - a.z * b.y, a.z * b.x - a.x * b.z, a.x * b.y - a.y * b.x⟩

/-- `Vector::abs2nd`, src/vector.cpp:132-135 -/
noncomputable def abs2nd (a : Vec) : ℝ := a.x * a.x + a.y * a.y + a.z * a.z

/-- `Vector::norm`, src/vector.cpp:127-130 -/
noncomputable def norm (a : Vec) : ℝ := Real.sqrt (a.x * a.x + a.y * a.y + a.z * a.z)

/-- `Vector::normalize`, src/vector.cpp:137-143.
For the null vector the C++ code divides by zero (result NaN); the real division used here gives the
null vector, therefore every theorem about `normalize` carries the guard `a ≠ 0`. -/
noncomputable def normalize (a : Vec) : Vec := ⟨a.x / a.norm, a.y / a.norm, a.z / a.norm⟩

/-- `Vector::transform`, src/vector.cpp:145-151 -/
noncomputable def transform (v ex ey ez : Vec) : Vec := ⟨dot v ex, dot v ey, dot v ez⟩

/-- `Vector::square`, src/vector.cpp:40-43 -/
noncomputable def square (a : Vec) : Vec := ⟨a.x * a.x, a.y * a.y, a.z * a.z⟩

/-- `Vector::root`, src/vector.cpp:45-48 (`sqrt` of a negative number is NaN in C++, 0 here) -/
noncomputable def root (a : Vec) : Vec := ⟨Real.sqrt a.x, Real.sqrt a.y, Real.sqrt a.z⟩

@[simp] theorem cross_x (a b : Vec) : (cross a b).x = a.y * b.z - a.z * b.y := rfl
@[simp] theorem cross_y (a b : Vec) : (cross a b).y = a.z * b.x - a.x * b.z := rfl
@[simp] theorem cross_z (a b : Vec) : (cross a b).z = a.x * b.y - a.y * b.x := rfl
@[simp] theorem normalize_x (a : Vec) : (normalize a).x = a.x / a.norm := rfl
@[simp] theorem normalize_y (a : Vec) : (normalize a).y = a.y / a.norm := rfl
@[simp] theorem normalize_z (a : Vec) : (normalize a).z = a.z / a.norm := rfl
@[simp] theorem transform_x (v a b c : Vec) : (transform v a b c).x = dot v a := rfl
@[simp] theorem transform_y (v a b c : Vec) : (transform v a b c).y = dot v b := rfl
@[simp] theorem transform_z (v a b c : Vec) : (transform v a b c).z = dot v c := rfl

end Vec

open Vec in
/-- `Vector::isNull`, src/vector.h:88 -/
def Vec.isNull (a : Vec) : Prop := a.x = 0 ∧ a.y = 0 ∧ a.z = 0

/-- `Vector::normalize` where the C++ code divides by zero for the null vector, src/vector.cpp:137-143 -/
noncomputable def normalizeE (v : Vec) : Except Err Vec :=
  open Classical in if v = 0 then .error .nan else .ok (Vec.normalize v)

end Teufel
