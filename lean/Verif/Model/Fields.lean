import Verif.Model.Vec

/-!
# Electromagnetic fields and the lattice

Models `src/fields.cpp` / `src/fields.h`.
-/

namespace Teufel

open Vec

/-- class `ElMagField`, src/fields.h:36-95 -/
@[ext] structure EMField where
  E : Vec
  B : Vec

namespace EMField

/-- default constructor / `ElMagFieldZero`, src/fields.cpp:27-42, src/fields.h:98 -/
noncomputable instance : Zero EMField := ⟨⟨0, 0⟩⟩
/-- `operator+`, `operator+=`, src/fields.cpp:50-63 -/
noncomputable instance : Add EMField := ⟨fun a b => ⟨a.E + b.E, a.B + b.B⟩⟩
/-- `operator-`, `operator-=`, src/fields.cpp:65-78 -/
noncomputable instance : Sub EMField := ⟨fun a b => ⟨a.E - b.E, a.B - b.B⟩⟩
/-- additive inverse (not a C++ operator; only used to state group laws) -/
noncomputable instance : Neg EMField := ⟨fun a => ⟨-a.E, -a.B⟩⟩
/-- `operator*`, `operator*=`, src/fields.cpp:80-86,96-101 -/
noncomputable instance : HMul EMField ℝ EMField := ⟨fun a f => ⟨a.E * f, a.B * f⟩⟩
/-- `operator/`, `operator/=`, src/fields.cpp:88-94,103-108 -/
noncomputable instance : HDiv EMField ℝ EMField := ⟨fun a f => ⟨a.E / f, a.B / f⟩⟩

@[simp] theorem zero_E : (0 : EMField).E = 0 := rfl
@[simp] theorem zero_B : (0 : EMField).B = 0 := rfl
@[simp] theorem add_E (a b : EMField) : (a + b).E = a.E + b.E := rfl
@[simp] theorem add_B (a b : EMField) : (a + b).B = a.B + b.B := rfl
@[simp] theorem sub_E (a b : EMField) : (a - b).E = a.E - b.E := rfl
@[simp] theorem sub_B (a b : EMField) : (a - b).B = a.B - b.B := rfl
@[simp] theorem neg_E (a : EMField) : (-a).E = -a.E := rfl
@[simp] theorem neg_B (a : EMField) : (-a).B = -a.B := rfl
@[simp] theorem mul_E (a : EMField) (f : ℝ) : (a * f).E = a.E * f := rfl
@[simp] theorem mul_B (a : EMField) (f : ℝ) : (a * f).B = a.B * f := rfl
@[simp] theorem div_E (a : EMField) (f : ℝ) : (a / f).E = a.E / f := rfl
@[simp] theorem div_B (a : EMField) (f : ℝ) : (a / f).B = a.B / f := rfl

noncomputable instance : AddCommGroup EMField where
  add_assoc a b c := by ext <;> simp [add_assoc]
  zero_add a := by ext <;> simp
  add_zero a := by ext <;> simp
  add_comm a b := by ext <;> simp [add_comm]
  neg_add_cancel a := by ext <;> simp
  sub_eq_add_neg a b := by ext <;> simp [sub_eq_add_neg]
  nsmul := nsmulRec
  zsmul := zsmulRec

/-- `ElMagField::Poynting`, src/fields.cpp:48 -/
noncomputable def Poynting (f : EMField) : Vec := cross f.E f.B / MuNull

end EMField

/-- A field evaluation `GeneralField::Field(t,X)`, src/fields.h:183.
Field evaluation may raise an exception (FEL_1D does), hence `Except`. -/
abbrev FieldFn := ℝ → Vec → Except Err EMField

/-- class `GeneralField`, src/fields.h:155-185: what the rest of the program can observe of it. -/
structure GeneralField where
  /-- `is_external()`, src/fields.h:172 -/
  isExternal : Bool
  /-- `Field(t,X)`, src/fields.h:183 -/
  field : FieldFn

/-- class `HomogeneousField`, src/fields.cpp:155-163 -/
noncomputable def HomogeneousField (E B : Vec) : GeneralField :=
  { isExternal := true, field := fun _ _ => .ok ⟨E, B⟩ }

/-- class `LocalizedField` with given `LocalField`, src/fields.cpp:173-183 -/
noncomputable def LocalizedField (localField : FieldFn) (t0 : ℝ) (origin : Vec) : GeneralField :=
  { isExternal := true, field := fun t X => localField (t - t0) (X - origin) }

/-- class `InteractionField`, src/fields.h:308-345, with the field it currently has -/
def InteractionField (field : FieldFn) : GeneralField :=
  { isExternal := false, field := field }

/-- class `Lattice`, src/fields.h:369-408: the vector of element pointers -/
abbrev Lattice := List GeneralField

namespace Lattice

/-- `Lattice::addElement`, src/fields.cpp:208-211 -/
def addElement (L : Lattice) (e : GeneralField) : Lattice := L ++ [e]

/-- `Lattice::count`, src/fields.cpp:213 -/
def count (L : Lattice) : Int := L.length

/-- `Lattice::at`, src/fields.cpp:215-220 -/
def elemAt (L : Lattice) (index : Int) : Except Err GeneralField :=
  if index < 0 then .error .io
  else if index ≥ (L.length : Int) then .error .io
  else match L[index.toNat]? with
    | some e => .ok e
    | none => .error .ub

/-- `Lattice::remove`, src/fields.cpp:222-227 -/
def remove (L : Lattice) (index : Int) : Except Err Lattice :=
  if index < 0 then .error .io
  else if index ≥ (L.length : Int) then .error .io
  else .ok (L.eraseIdx index.toNat)

/-- `Lattice::Field`, src/fields.cpp:229-239: accumulation in storage order -/
noncomputable def field (L : Lattice) : FieldFn := fun t X =>
  L.foldlM (fun total e => (e.field t X).map (fun f => total + f)) 0

/-- a lattice is itself a `GeneralField`, src/fields.h:369-378 -/
noncomputable def asField (L : Lattice) : GeneralField := { isExternal := false, field := L.field }

end Lattice

end Teufel
