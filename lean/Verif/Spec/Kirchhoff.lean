import Verif.Model.SourceScreen
import Mathlib.Analysis.Calculus.Deriv.Basic

/-!
# Specification: Kirchhoff's diffraction formula

A field `V` that satisfies the wave equation inside a closed surface with outward normal `n` is given there by
`V(X) = 1/(4π) ∮ { [∂V/∂n]/R - [V] ∂(1/R)/∂n + [∂V/∂t] (∂R/∂n)/(cR) } dA`, the brackets denoting retarded values and
`R` the distance between `X` and the surface element.
-/

namespace Teufel

open Vec

/-- derivative of `g` at the point `P` in the direction `n` -/
noncomputable def dirDeriv (g : Vec → ℝ) (P n : Vec) : ℝ := deriv (fun s : ℝ => g (P + n * s)) 0

/-- the integrand of Kirchhoff's formula for observation in `X`: surface element at `P` with outward normal `n`,
retarded field `F`, its time derivative `Ft` and normal derivative `Fn` -/
noncomputable def kirchhoff (X P n : Vec) (F Ft Fn : EMField) : EMField :=
  Fn * (1 / (X - P).norm) - F * dirDeriv (fun Q => 1 / (X - Q).norm) P n
    + Ft * (dirDeriv (fun Q => (X - Q).norm) P n / (SpeedOfLight * (X - P).norm))

namespace SourceScreen

/-- part of a field perpendicular to the unit vector `n` -/
noncomputable def transversal (n : Vec) (F : EMField) : EMField := ⟨F.E - n * dot F.E n, F.B - n * dot F.B n⟩

/-- the transversal part of the fields stored in the file for the cell `c`, in the frame used in the file -/
noncomputable def recorded (f : ScreenFile) (s : SourceScreen) (c : Nat × Nat) : FieldTrace :=
  { t0 := s.dtx * (((c.1 : Int) - (s.Nx : Int) / 2 : Int) : ℝ) + s.dty * (((c.2 : Int) - (s.Ny : Int) / 2 : Int) : ℝ)
    dt := s.dt
    N := s.NOTS
    trace := ((f.fields.drop ((c.1 * s.Ny + c.2) * s.NOTS)).take s.NOTS).map (transversal s.axes.normal) }

/-- centre of a cell in the local frame -/
noncomputable def centre (s : SourceScreen) (c : Nat × Nat) : Vec :=
  s.axes.dX * (((c.1 : Int) - (s.Nx : Int) / 2 : Int) : ℝ) + s.axes.dY * (((c.2 : Int) - (s.Ny : Int) / 2 : Int) : ℝ)

/-- the samples of the time derivative of a trace -/
noncomputable def rate (tr : FieldTrace) : FieldTrace :=
  match tr.derivative with
  | .ok d => d
  | .error _ => tr

open Classical in
/-- Kirchhoff's formula for a radiation that crosses the screen against the normal, so that its derivative in the
direction of the normal is `1/c` times the time derivative, evaluated in the frame used in the file.  Cells contribute
at times for which their retarded time has been recorded. -/
noncomputable def radiated (f : ScreenFile) (s : SourceScreen) (t : ℝ) (X : Vec) : EMField :=
  (((cells s.Nx s.Ny).map (fun c =>
    let tr := recorded f s c
    let tret := t - (X - centre s c).norm / SpeedOfLight
    if tr.t0 ≤ tret ∧ tret ≤ tr.t0 + ((tr.N - 1 : Nat) : ℝ) * tr.dt then
      kirchhoff X (centre s c) s.axes.normal (tr.fieldAtTime tret) ((rate tr).fieldAtTime tret) ((rate tr).fieldAtTime tret / SpeedOfLight)
    else 0)).sum) * (s.axes.dx * s.axes.dy / (4 * Pi))

/-- energy that crosses the screen against its normal -/
noncomputable def energy (f : ScreenFile) (s : SourceScreen) : ℝ :=
  ((cells s.Nx s.Ny).map (fun c => -dot (recorded f s c).poynting s.axes.normal * (s.axes.dx * s.axes.dy))).sum

end SourceScreen

end Teufel
