import Verif.Model.Hybrid
import Mathlib.Analysis.SpecialFunctions.Exp
import Mathlib.Analysis.SpecialFunctions.Trigonometric.Basic

/-!
# The one-dimensional FEL interaction

Models `src/fel1d.cpp`.  Console output is not modelled; of the HDF5 calls of `write_output` only the data handed to
them (dimensions, buffers and attributes) are modelled.
-/

namespace Teufel
open Vec

/-- element of a `std::vector`; reading outside is undefined; `field_E[i]`, `previous_E[i]` in src/fel1d.cpp:171-357 -/
def cellAt (l : List ℝ) (i : Int) : Except Err ℝ :=
  if i < 0 then .error .ub
  else match l[i.toNat]? with
    | some x => .ok x
    | none => .error .ub

/-- assignment to an element of a `std::vector`; writing outside is undefined; src/fel1d.cpp:171-327 -/
def cellPut (l : List ℝ) (i : Int) (x : ℝ) : Except Err (List ℝ) :=
  if 0 ≤ i ∧ i.toNat < l.length then .ok (l.set i.toNat x) else .error .ub

/-- the index sequence of `for (int i=start; i<stop; i++)`; src/fel1d.cpp:171-357 -/
def intLoop (start stop : Int) : List Int := (List.range (stop - start).toNat).map (fun k : Nat => start + k)

/-- C `rint()` in the default rounding mode: nearest integer, halves to even; src/fel1d.cpp:282, 342 and src/parser.cpp:139 -/
noncomputable def crint (x : ℝ) : Int :=
  if x - ⌊x⌋ < 1 / 2 then ⌊x⌋
  else if 1 / 2 < x - ⌊x⌋ then ⌊x⌋ + 1
  else if ⌊x⌋ % 2 = 0 then ⌊x⌋ else ⌊x⌋ + 1

/-- conversion of an integral `double` to `int`: undefined if the value is not representable; src/fel1d.cpp:282, 342 and src/parser.cpp:139 -/
def toInt32 (i : Int) : Except Err Int := if -2 ^ 31 ≤ i ∧ i < 2 ^ 31 then .ok i else .error .ub

/-- class `FEL_1D`, src/fel1d.h:143-211.  `stepOutput = none`: the member has not been initialised.
The grid vector `dz` is used for printing only and left out. -/
structure FEL where
  N : Nat
  dt : ℝ
  ds : ℝ
  time : ℝ
  steps : Nat
  head : Vec
  origin : Vec
  prop : Vec
  ex : Vec
  ey : Vec
  zR : ℝ
  w0 : ℝ
  zw : ℝ
  E : List ℝ
  prev : List ℝ
  fields : List (List ℝ)
  currents : List (List ℝ)
  stepOutput : Option Int

namespace FEL

/-- the members set by the constructors before `setup` is called, with the fields as `setup` leaves them,
src/fel1d.cpp:138-156: all fields are zero and are the first record of the storage -/
def setup (N : Nat) (dt ds : ℝ) (pos prop ex ey : Vec) (stepOutput : Option Int) (zR w0 zw : ℝ) : FEL :=
  { N, dt, ds, time := 0, steps := 0, head := pos, origin := pos, prop, ex, ey, zR, w0, zw
    E := List.replicate N 0, prev := List.replicate N 0
    fields := [List.replicate N 0], currents := [List.replicate N 0], stepOutput }

/-- constructor `FEL_1D(double time_step, int field_size)`, src/fel1d.cpp:29-47.  The second assignment to `e_x`
(line 42) overwrites the first one, and `e_y` keeps the value of the default constructor of `Vector`.
A vector of negative size throws `std::length_error`. -/
noncomputable def default (time_step : ℝ) (field_size : Int) : Except Err FEL :=
  if field_size < 0 then .error .range
  else .ok (setup field_size.toNat time_step (time_step * SpeedOfLight) 0 ⟨0, 0, 1⟩ ⟨0, 1, 0⟩ 0 (some 1) 1 1e-3 1)

/-- `<seed>` node: amplitude, wavelength, duration, start time; src/fel1d.cpp:127-134 -/
structure SeedInput where
  E0 : ℝ
  lambda : ℝ
  tau : ℝ
  tstart : ℝ

/-- the parts of the `<fel1d>` node of the input file the constructor evaluates (values of attributes as the
calculator returns them).  `log`: whether the file attribute is there, and the step attribute.  src/fel1d.cpp:49-136. -/
structure Input where
  N : Option Int
  position : Option Vec
  prop : Option Vec
  pol : Option Vec
  log : Option (Bool × Option Int)
  mode : Option (ℝ × ℝ × ℝ)
  seed : Option SeedInput

/-- the value given to cell `i` by `seed`, src/fel1d.cpp:173-178 -/
noncomputable def seedValue (dt : ℝ) (s : SeedInput) (i : Nat) : ℝ :=
  s.E0 * Real.cos (2 * Pi * SpeedOfLight / s.lambda * (i * dt - s.tstart)) * Real.exp (-(1 / 2) * ((i * dt - s.tstart) / s.tau) ^ 2)

/-- `seed`, src/fel1d.cpp:171-194 -/
noncomputable def seed (f : FEL) (s : SeedInput) : Except Err FEL :=
  if s.lambda = 0 ∨ s.tau = 0 then .error .nan
  else
    let E := (List.range f.N).map (seedValue f.dt s)
    .ok { f with E := E, prev := E, fields := [E], currents := [List.replicate f.N 0], steps := 0 }

/-- `step_Output` as set from the `<log>` node, src/fel1d.cpp:101-113 -/
def logStep : Option (Bool × Option Int) → Except Err (Option Int)
  | none => .ok none
  | some (false, _) => .error .io
  | some (true, none) => .ok (some 1)
  | some (true, some s) => .ok (some s)

/-- constructor from the input file, src/fel1d.cpp:49-136.  All missing parts raise an `IOexception`, a negative number
of cells `std::length_error`.  Normalising a null vector (lines 84, 98) does not stop the constructor, so these are the
last failures of the model. -/
noncomputable def ofInput (time_step : ℝ) (i : Input) : Except Err FEL := do
  let n ← match i.N with
    | none => .error .io
    | some n => .ok n
  let pos ← match i.position with
    | none => .error .io
    | some v => .ok v
  let prop0 ← match i.prop with
    | none => .error .io
    | some v => .ok v
  let pol ← match i.pol with
    | none => .error .io
    | some v => .ok v
  let stepOutput ← logStep i.log
  let (zR, w0, zw) ← match i.mode with
    | none => .error .io
    | some m => .ok m
  if n < 0 then throw .range
  let prop ← normalizeE prop0
  let ex ← normalizeE (pol - prop * dot pol prop)
  let ey := cross prop ex
  let f := setup n.toNat time_step (time_step * SpeedOfLight) pos prop ex ey stepOutput zR w0 zw
  match i.seed with
  | none => return f
  | some s => f.seed s

/-- one iteration of the propagation loop, src/fel1d.cpp:213, 306 -/
noncomputable def propagateCell (dt : ℝ) (E prev J : List ℝ) (next : List ℝ) (i : Int) : Except Err (List ℝ) := do
  let a ← cellAt E (i - 1)
  let b ← cellAt E (i + 1)
  let c ← cellAt prev (i - 1)
  let j ← cellAt J i
  cellPut next (i + 1) (a + b - c + dt * dt * j)

/-- `next_E`, src/fel1d.cpp:202-213, 296-306.  In `init` there is no current: the term with `J_x` is missing, which
is the same as a current of zero. -/
noncomputable def propagate (f : FEL) (J : List ℝ) : Except Err (List ℝ) := do
  let e0 ← cellAt f.E 0
  let next ← cellPut (List.replicate f.N 0) 1 e0
  (intLoop 1 (f.N - 1)).foldlM (propagateCell f.dt f.E f.prev J) next

/-- the correction of the current field, src/fel1d.cpp:309-310 -/
noncomputable def correct (dt : ℝ) (J : List ℝ) (E : List ℝ) (i : Int) : Except Err (List ℝ) := do
  let e ← cellAt E i
  let j ← cellAt J i
  cellPut E i (e + dt * dt * j)

/-- `init`, src/fel1d.cpp:196-221 -/
noncomputable def init (b : Beam) (f : FEL) : Except Err FEL := do
  if f.dt = 0 then .error .nan
  if 1e-9 < |b.dt - f.dt| / f.dt then .error .io
  let next ← f.propagate (List.replicate f.N 0)
  return { f with steps := f.steps + 1, time := f.time + f.dt, head := f.head + f.prop * f.ds, prev := f.E, E := next }

/-- the deposition of one cell, src/fel1d.cpp:287-290 -/
noncomputable def depositCell (ds dz jx : ℝ) (J : List ℝ) (i : Int) : Except Err (List ℝ) := do
  let j ← cellAt J i
  cellPut J i (j + jx * Real.exp (-(dz - i * ds) ^ 2 / (2 * (2 * ds) ^ 2)) / (2 * Real.sqrt (2 * Pi)))

/-- size of the optical mode, src/fel1d.cpp:236-239 -/
noncomputable def modeArea (f : FEL) : ℝ :=
  let w := f.w0 * Real.sqrt (1 + ((f.steps * f.ds - f.zw) / f.zR) ^ 2)
  1 / 2 * Pi * w * w

/-- the contribution of one particle to the current density, src/fel1d.cpp:253-290 -/
noncomputable def deposit (f : FEL) (J : List ℝ) (p : Particle) : Except Err (List ℝ) := do
  if 1 / 4 * f.dt < |p.tCur - f.time| then .error .io
  let dz := dot (f.head - p.XCur) f.prop
  if dz < 0 ∨ dz > f.N * f.ds then .error .io
  if f.zR = 0 ∨ f.w0 = 0 ∨ f.ds = 0 then .error .nan
  let gamma := Real.sqrt (p.PCur.abs2nd + 1)
  let jx := dot (p.ACur / gamma) f.ex * p.getCharge / f.modeArea / f.dt * MuNull * SpeedOfLight * SpeedOfLight
  let center ← toInt32 (crint (dz / f.ds))
  let start := if center - 10 < 0 then 0 else center - 10
  let stop := if center + 11 > f.N then (f.N : Int) else center + 11
  (intLoop start stop).foldlM (depositCell f.ds dz jx) J

/-- the output condition `0 == N_steps % step_Output`, src/fel1d.cpp:322: reading an uninitialised variable and the
remainder of a division by zero are undefined -/
def recordDue (f : FEL) (steps : Nat) : Except Err Bool :=
  match f.stepOutput with
  | none => .error .ub
  | some d => if d = 0 then .error .ub else .ok (decide ((steps : Int).tmod d = 0))

/-- `step`, src/fel1d.cpp:223-327 -/
noncomputable def step (b : Beam) (f : FEL) : Except Err FEL := do
  if |(b.NOTS : ℝ) * f.dt - f.time| > 1 / 4 * f.dt then .error .io
  let ps ← b.traverse
  let J ← ps.foldlM f.deposit (List.replicate f.N 0)
  let next ← f.propagate J
  let E ← (intLoop 1 (f.N - 1)).foldlM (correct f.dt J) f.E
  let f' := { f with steps := f.steps + 1, time := f.time + f.dt, head := f.head + f.prop * f.ds, prev := E, E := next }
  let due ← f.recordDue f'.steps
  return if due then { f' with fields := f.fields ++ [next], currents := f.currents ++ [J] } else f'

/-- `Field`, src/fel1d.cpp:329-357 -/
noncomputable def Field (f : FEL) : FieldFn := fun t X => do
  if 1 / 4 * f.dt < |t - f.time| then .error .io
  let dz := dot (f.head - X) f.prop
  if f.ds = 0 then .error .nan
  let index ← toInt32 (crint (dz / f.ds))
  if index < 0 ∨ index ≥ f.N then .error .io
  let e ← cellAt f.E index
  return ⟨f.ex * e, f.ey * e / SpeedOfLight⟩

/-- the contents of the HDF5 file written by `write_output`: dimensions (records, cells), attributes and the two data
sets, src/fel1d.cpp:369-376, 396-400, 430-443, 462-478 -/
structure OutputFile where
  records : Nat
  cells : Nat
  N_field : Int
  N_steps : Int
  N_output : Int
  dt : ℝ
  w0 : ℝ
  z_Rayl : ℝ
  z_waist : ℝ
  origin : Vec
  prop : Vec
  InteractionField : List ℝ
  CurrentDensity : List ℝ

/-- the loops filling the buffer, src/fel1d.cpp:383-388, 458-463: `n` rows of `N` values each; reading outside of one of the
vectors is undefined -/
def fillBuffer (n N : Nat) (rows : List (List ℝ)) : Except Err (List ℝ) :=
  (List.range n).foldlM (fun (buf : List ℝ) (ix : Nat) =>
    match rows[ix]? with
    | none => .error .ub
    | some row => (List.range N).foldlM (fun (buf : List ℝ) (iy : Nat) => do
      let e ← cellAt row iy
      return buf ++ [e]) buf) []

/-- `write_output` of an interaction with `createOutput`, src/fel1d.cpp:359-492; `dz` is the vector computed by `setup`
in line 141.  The size of the buffer is computed as a product of two `int` (line 379).  An uninitialised output step
cannot be written.  Failures of the HDF5 library are not modelled. -/
noncomputable def writeOutput (f : FEL) : Except Err OutputFile := do
  let n := f.fields.length
  if 2 ^ 31 ≤ f.N * n then .error .ub
  let E ← fillBuffer n f.N f.fields
  let out ← match f.stepOutput with
    | none => .error .ub
    | some d => .ok d
  let J ← fillBuffer n f.N f.currents
  return { records := n, cells := f.N, N_field := f.N, N_steps := n, N_output := out, dt := f.dt, w0 := f.w0, z_Rayl := f.zR
           z_waist := f.zw, origin := f.origin, prop := f.prop * (-f.dt * SpeedOfLight), InteractionField := E, CurrentDensity := J }

end FEL
end Teufel
