import Verif.Model.FEL1D

/-!
# Specification: histories of the one-dimensional FEL interaction

What a program can do with an FEL interaction: construct it, hand it the beam once before tracking (`init`), hand it
the beam after every tracking step (`step`), and evaluate its field (`Field`, which does not change it).
-/

namespace Teufel
open Vec

namespace FEL

/-- what the two constructors can return; the number of cells is an `int` -/
inductive Constructed : FEL → Prop
  | default {dt : ℝ} {n : Int} {f : FEL} : n < 2 ^ 31 → FEL.default dt n = .ok f → Constructed f
  | ofInput {dt : ℝ} {i : Input} {f : FEL} : (∀ n, i.N = some n → n < 2 ^ 31) → FEL.ofInput dt i = .ok f → Constructed f

/-- every state of an FEL interaction that can occur, with arbitrary beams handed to it in any order -/
inductive Reachable : FEL → Prop
  | start {f : FEL} : Constructed f → Reachable f
  | init {f f' : FEL} (b : Beam) : Reachable f → f.init b = .ok f' → Reachable f'
  | step {f f' : FEL} (b : Beam) : Reachable f → f.step b = .ok f' → Reachable f'

/-- the course of a tracking run as seen by the FEL interaction: `h k` is its state after `k` calls, the first of
which is `init`, the others `step`; `b k` is the beam handed over with call number `k+1` -/
structure Course (h : Nat → FEL) (b : Nat → Beam) (n : Nat) : Prop where
  start : Constructed (h 0)
  first : 1 ≤ n → (h 0).init (b 0) = .ok (h 1)
  next : ∀ k, 1 ≤ k → k < n → (h k).step (b k) = .ok (h (k + 1))

/-- parameters which make physical sense -/
structure Sane (f : FEL) : Prop where
  two : 2 ≤ f.N
  int : (f.N : Int) < 2 ^ 31
  dt : 0 < f.dt
  ds : f.ds = f.dt * SpeedOfLight
  zR : f.zR ≠ 0
  w0 : f.w0 ≠ 0

/-- two interactions with the same parameters at the same time -/
structure SameSetup (f g : FEL) : Prop where
  N : g.N = f.N
  dt : g.dt = f.dt
  ds : g.ds = f.ds
  time : g.time = f.time
  steps : g.steps = f.steps
  head : g.head = f.head
  prop : g.prop = f.prop
  ex : g.ex = f.ex
  zR : g.zR = f.zR
  w0 : g.w0 = f.w0
  zw : g.zw = f.zw
  stepOutput : g.stepOutput = f.stepOutput

/-- the fields of `h` are the sums of the fields of `f` and `g` -/
structure Superposed (f g h : FEL) : Prop where
  left : SameSetup f h
  right : SameSetup g h
  E : h.E = List.zipWith (· + ·) f.E g.E
  prev : h.prev = List.zipWith (· + ·) f.prev g.prev

/-- what one particle of charge Q contributes to the transverse current: its normalised transverse acceleration times
its charge, per unit of the area of the optical mode and of time, in units of the field change it causes -/
noncomputable def Contribution (f : FEL) (p : Particle) : ℝ :=
  let w := f.w0 * Real.sqrt (1 + ((f.steps * f.ds - f.zw) / f.zR) ^ 2)
  dot p.ACur f.ex / Real.sqrt (1 + p.PCur.abs2nd) * p.getCharge / (Pi * w ^ 2 / 2) / f.dt * (MuNull * SpeedOfLight ^ 2)

/-- distance of a particle behind the head of the grid in units of the grid spacing -/
noncomputable def cellsBehindHead (f : FEL) (p : Particle) : ℝ := dot (f.head - p.XCur) f.prop / f.ds

/-- a pulse of amplitude `E0`, wavelength `lambda` and rms duration `tau` of the field amplitude, at the time `t` after its
maximum -/
noncomputable def Pulse (E0 lambda tau t : ℝ) : ℝ :=
  E0 * Real.cos (2 * Real.pi * (SpeedOfLight / lambda) * t) * Real.exp (-(t ^ 2 / (2 * tau ^ 2)))

/-- what the input file prescribes for the field a time `t` behind the head of the grid -/
noncomputable def Input.prescribed (i : Input) (t : ℝ) : ℝ :=
  match i.seed with
  | none => 0
  | some s => Pulse s.E0 s.lambda s.tau (t - s.tstart)

/-- row `k` and column `j` of a data set of an output file -/
def OutputFile.at (o : OutputFile) (data : List ℝ) (k j : Nat) : Option ℝ := if k < o.records ∧ j < o.cells then data[k * o.cells + j]? else none

/-- a program in which `Field` answers irrespective of the time requested: src/fel1d.cpp:329-357 without lines 332-340 -/
noncomputable def FieldAnyTime (f : FEL) : FieldFn := fun _ X => f.Field f.time X

/-- a program in which `step` accepts the beam and its particles at any time: src/fel1d.cpp:223-327 without the checks
in lines 226-234 and 255-263.  (A copy of the beam claiming the time of the interaction is handed over.) -/
noncomputable def stepAnyTime (b : Beam) (f : FEL) : Except Err FEL := do
  let ps ← b.traverse
  let J ← (ps.map (fun p : Particle => { p with tCur := f.time })).foldlM f.deposit (List.replicate f.N 0)
  let next ← f.propagate J
  let E ← (intLoop 1 (f.N - 1)).foldlM (correct f.dt J) f.E
  let f' := { f with steps := f.steps + 1, time := f.time + f.dt, head := f.head + f.prop * f.ds, prev := E, E := next }
  let due ← f.recordDue f'.steps
  return if due then { f' with fields := f.fields ++ [next], currents := f.currents ++ [J] } else f'

end FEL
end Teufel
