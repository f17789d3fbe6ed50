import Verif.Model.ObserverFiles

/-!
# Specification: reading an HDF5 file

What a program sees that opens an HDF5 file: multidimensional arrays in row-major order and attributes of datasets.
-/

namespace Teufel

/-- position of the element with the given indices in an array of the given extent; `none` if the number of indices is
wrong or one of them is out of range -/
def rowMajor : List Nat → List Nat → Option Nat
  | [], [] => some 0
  | d :: ds, i :: is => if i < d then (rowMajor ds is).map (fun k => i * ds.prod + k) else none
  | _, _ => none

namespace H5File

/-- one element of a dataset -/
def entry (f : H5File) (name : String) (idx : List Nat) : Option ℝ :=
  match f.dataset name with
  | none => none
  | some d => (rowMajor d.dims idx).bind (fun k => d.data[k]?)

/-- the extent of a dataset -/
def extent (f : H5File) (name : String) : Option (List Nat) := (f.dataset name).map H5Dataset.dims

/-- an integer attribute of a dataset -/
def intAttr (f : H5File) (name attr : String) : Option Nat := (f.dataset name).bind (fun d => d.int attr)

/-- a real attribute of a dataset -/
def realAttr (f : H5File) (name attr : String) : Option ℝ := (f.dataset name).bind (fun d => d.real attr)

/-- three elements that differ in the last index, as a vector -/
def vec (f : H5File) (name : String) (idx : List Nat) (v : Vec) : Prop :=
  f.entry name (idx ++ [0]) = some v.x ∧ f.entry name (idx ++ [1]) = some v.y ∧ f.entry name (idx ++ [2]) = some v.z

/-- six elements that differ in the last index, as a field -/
def field (f : H5File) (name : String) (idx : List Nat) (F : EMField) : Prop :=
  f.entry name (idx ++ [0]) = some F.E.x ∧ f.entry name (idx ++ [1]) = some F.E.y ∧ f.entry name (idx ++ [2]) = some F.E.z ∧
  f.entry name (idx ++ [3]) = some F.B.x ∧ f.entry name (idx ++ [4]) = some F.B.y ∧ f.entry name (idx ++ [5]) = some F.B.z

/-- every dataset has as many numbers as its extent says -/
def Consistent (f : H5File) : Prop := ∀ d ∈ f, d.data.length = d.dims.prod

end H5File

end Teufel
