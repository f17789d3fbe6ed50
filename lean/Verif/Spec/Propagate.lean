import Verif.Model.Propagate
import Verif.Spec.Mesh
import Verif.Spec.Kirchhoff

/-!
# Specification: vacuum fields near a surface, least squares, propagation from a surface
-/

namespace Teufel

open Vec

/-- `d` is the derivative of `G` at the point `P` in the direction `v` -/
def HasDirDeriv (G : Vec → Vec) (P v d : Vec) : Prop :=
  HasDerivAt (fun s : ℝ => (G (P + v * s)).x) d.x 0 ∧
  HasDerivAt (fun s : ℝ => (G (P + v * s)).y) d.y 0 ∧
  HasDerivAt (fun s : ℝ => (G (P + v * s)).z) d.z 0

/-- `d` is the time derivative of `G` at the time `t` -/
def HasRate (G : ℝ → Vec) (t : ℝ) (d : Vec) : Prop :=
  HasDerivAt (fun s : ℝ => (G s).x) d.x t ∧ HasDerivAt (fun s : ℝ => (G s).y) d.y t ∧ HasDerivAt (fun s : ℝ => (G s).z) d.z t

/-- `G` is differentiable at `P` with the partial derivatives `gx`, `gy`, `gz` -/
def HasJacobian (G : Vec → Vec) (P gx gy gz : Vec) : Prop := ∀ v : Vec, HasDirDeriv G P v (gx * v.x + gy * v.y + gz * v.z)

/-- Maxwell's equations in vacuum at the time `t` and the point `P`; `et`, `bt` are the time derivatives -/
def VacuumMaxwell (E B : ℝ → Vec → Vec) (t : ℝ) (P et bt : Vec) : Prop :=
  HasRate (fun s => E s P) t et ∧ HasRate (fun s => B s P) t bt ∧
  ∃ ex ey ez bx by' bz : Vec, HasJacobian (E t) P ex ey ez ∧ HasJacobian (B t) P bx by' bz ∧
    ex.x + ey.y + ez.z = 0 ∧ bx.x + by'.y + bz.z = 0 ∧
    (⟨ey.z - ez.y, ez.x - ex.z, ex.y - ey.x⟩ : Vec) = -bt ∧
    (⟨by'.z - bz.y, bz.x - bx.z, bx.y - by'.x⟩ : Vec) = et / (SpeedOfLight * SpeedOfLight)

/-- scalar product of a row of a matrix with a vector -/
noncomputable def rowDot (r x : List ℝ) : ℝ := (List.zipWith (fun a b : ℝ => a * b) r x).sum

/-- sum of the squares of the residuals of `A x = b` -/
noncomputable def residual (A : List (List ℝ)) (b x : List ℝ) : ℝ := (List.zipWith (fun r c => (rowDot r x - c) ^ 2) A b).sum

/-- `x` solves `A x = b` in the sense of least squares -/
def IsLeastSquares (A : List (List ℝ)) (b x : List ℝ) : Prop :=
  x.length = 6 ∧ ∀ y : List ℝ, y.length = 6 → residual A b x ≤ residual A b y

/-- the columns of `A` are linearly independent -/
def FullRank (A : List (List ℝ)) : Prop := ∀ y : List ℝ, y.length = 6 → (∀ r ∈ A, rowDot r y = 0) → ∀ c ∈ y, c = 0

/-- `G` is a polynomial of second order in the plane spanned by `xi` and `eta` through `P` -/
def Quadratic (G : Vec → Vec) (P xi eta : Vec) : Prop :=
  ∃ q0 q1 q2 q3 q4 q5 : Vec, ∀ x y : ℝ, G (P + xi * x + eta * y) = q0 + q1 * x + q2 * y + q3 * (x * x) + q4 * (y * y) + q5 * (x * y)

/-- trace of the fields that Kirchhoff's formula gives at the position `X` for the sampling of the trace `like`, summed over
the cells of the source (positions `P`, normals `n`, areas `a`, and traces of the field and its derivatives) -/
noncomputable def kirchhoffSample (N : Nat) (X : Vec) (P n : Nat → Vec) (a : Nat → ℝ) (F Ft Fn : Nat → FieldTrace) (t : ℝ) : EMField :=
  ((List.range N).map (fun i =>
    let tret := t - (X - P i).norm / SpeedOfLight
    kirchhoff X (P i) (n i) ((F i).fieldAtTime tret) ((Ft i).fieldAtTime tret) ((Fn i).fieldAtTime tret) * (a i / (4 * Pi)))).sum

/-- the trace `src`, delayed by `delay` and sampled like `target`, either vanishes or carries energy -/
def Visible (src : FieldTrace) (delay : ℝ) (target : FieldTrace) : Prop :=
  (∀ i < target.N, src.fieldAtTime (target.t0 + (i : ℝ) * target.dt - delay) = 0) ∨
    ((List.range target.N).map (fun i : Nat => (src.fieldAtTime (target.t0 + (i : ℝ) * target.dt - delay)).Poynting)).sum * target.dt ≠ 0

open Classical in
/-- what the programs use of the trace `src`: nothing, if the energy flow of the trace, delayed by `delay` and sampled like `target`, sums up to zero -/
noncomputable def carried (src : FieldTrace) (delay : ℝ) (target : FieldTrace) : FieldTrace :=
  if ((List.range target.N).map (fun i : Nat => (src.fieldAtTime (target.t0 + (i : ℝ) * target.dt - delay)).Poynting)).sum * target.dt = 0
    then ⟨src.t0, src.dt, 0, []⟩ else src

end Teufel
