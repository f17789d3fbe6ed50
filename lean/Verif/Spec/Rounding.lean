import Mathlib.Data.Int.Log
import Mathlib.Data.Real.Basic
import Mathlib.Data.Real.Archimedean

/-!
# Rounding

The rest of the model computes with real numbers.  Here is what is assumed about the arithmetic of the machine where
rounding is taken into account: the result of every operation is the exact result, rounded by a function `rnd`.

`IsRounding rnd u` lists the properties used.  `binary p` is rounding to the nearest number with `p` binary digits, ties to
even, as done by the C++ type `double` with `p = 53`.  Simplification: the range of exponents is not limited, there
is no overflow and no loss of accuracy for numbers below 1e-308.
-/

namespace Teufel

/-- `rnd` is a rounding function with unit roundoff `u` -/
structure IsRounding (rnd : ℝ → ℝ) (u : ℝ) : Prop where
  mono : Monotone rnd
  idem : ∀ x, rnd (rnd x) = rnd x
  neg : ∀ x, rnd (-x) = -rnd x
  err : ∀ x, |rnd x - x| ≤ u * |x|

/-- the integer nearest to `x`, ties to even -/
noncomputable def nearestEven (x : ℝ) : Int :=
  if x - ⌊x⌋ < 1 / 2 then ⌊x⌋
  else if 1 / 2 < x - ⌊x⌋ then ⌊x⌋ + 1
  else if ⌊x⌋ % 2 = 0 then ⌊x⌋ else ⌊x⌋ + 1

/-- the weight of the last of `p` binary digits of `x` -/
noncomputable def ulp (p : Nat) (x : ℝ) : ℝ := (2 : ℝ) ^ (Int.log 2 |x| - (p - 1 : Int))

/-- rounding to `p` binary digits -/
noncomputable def binary (p : Nat) (x : ℝ) : ℝ := if x = 0 then 0 else nearestEven (x / ulp p x) * ulp p x

/-- the rounding of C++ `double` -/
noncomputable abbrev binary64 : ℝ → ℝ := binary 53

/-- the unit roundoff of `double` -/
noncomputable abbrev u64 : ℝ := (2 : ℝ) ^ (-53 : Int)

end Teufel
