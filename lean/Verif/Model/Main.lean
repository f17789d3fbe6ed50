import Verif.Model.Faults

/-!
# The program `teufel` as seen by the caller

Models the command line and the exit status of `main` of `src/teufel_hybrid.cpp`.
-/

namespace Teufel
namespace Lib

/-- how the program ends: with an exit status, or by an exception nobody catches; src/teufel_hybrid.cpp:74-829 -/
inductive Exit where
  | status (n : Nat)
  | terminated (e : Err)

/-- `main`, src/teufel_hybrid.cpp:72-824, with the arguments `argv` (the first one is the name of the program); `load` is the library
function which reads a file as XML, `none` if there is no such file or it is not well-formed (lines 160-183).  The other
arguments are as for `programOn`.  All nodes get the same arguments and read the same file. -/
noncomputable def main (L : Lib) (load : String → Option Xml) (fine : String → Bool) (rnd : Nat → (Nat → Nat → ℝ) × (Nat → Nat → Nat → ℝ)) (J : Indet) (nodes : Nat) (argv : List String) :
    Exit × List OutFile :=
  match argv with
  | _ :: file :: _ =>
    match load file with
    | none => (.status 1, [])
    | some doc =>
      match L.programOn fine rnd J nodes doc with
      | .ok disk => (.status 0, disk)
      | .error (e, disk) => (.terminated e, disk)
  | _ => (.status 1, [])

end Lib
end Teufel
