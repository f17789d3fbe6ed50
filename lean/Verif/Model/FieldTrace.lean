import Verif.Model.Fields
import Mathlib.Algebra.Order.Floor.Ring
import Mathlib.Algebra.Order.Archimedean.Real.Basic

/-!
# Field traces

Models `src/fieldtrace.cpp` / `src/fieldtrace.h`.
-/

namespace Teufel

open Vec

/-- class `FieldTrace`, src/fieldtrace.h: start time, time step, number of samples, samples -/
@[ext] structure FieldTrace where
  t0 : ℝ
  dt : ℝ
  N : Nat
  trace : List EMField

namespace FieldTrace

/-- constructor, src/fieldtrace.cpp:27-33 -/
noncomputable def new (t0 dt : ℝ) (N : Nat) : FieldTrace :=
  { t0 := t0, dt := dt, N := N, trace := List.replicate N 0 }

/-- `FieldTrace::zero`, src/fieldtrace.cpp:43-47 (`trace[i]`, i<N, is in range iff the invariant
`trace.length = N` holds; otherwise undefined) -/
noncomputable def zero (s : FieldTrace) : FieldTrace :=
  { s with trace := List.replicate s.N 0 ++ s.trace.drop s.N }

/-- `operator=`, src/fieldtrace.cpp:54-74 -/
noncomputable def assign (s t : FieldTrace) : Except Err FieldTrace :=
  if s.N ≠ t.N then .error .io
  else .ok { s with t0 := t.t0, dt := t.dt, trace := t.trace }

/-- `operator*`, src/fieldtrace.cpp:76-82 -/
noncomputable def smul (s : FieldTrace) (k : ℝ) : FieldTrace := { s with trace := s.trace.map (· * k) }

/-- `operator/`, src/fieldtrace.cpp:84-90 -/
noncomputable def sdiv (s : FieldTrace) (k : ℝ) : FieldTrace := { s with trace := s.trace.map (· / k) }

open Classical in
/-- the three guards shared by `operator+`, `operator+=`, `operator-`,
src/fieldtrace.cpp:94-96,105-107,115-117 -/
noncomputable def guardMatch (s o : FieldTrace) : Except Err Unit :=
  if s.N ≠ o.N then .error .io
  else if s.t0 ≠ o.t0 then .error .io
  else if s.dt ≠ o.dt then .error .io
  else .ok ()

/-- `operator+=`, src/fieldtrace.cpp:103-111: the object after the call and the exception raised, if any.
The loop updates sample after sample (samples beyond the vector end are not modelled, excluded by `WF`). -/
noncomputable def addAssign (s o : FieldTrace) : FieldTrace × Option Err :=
  let sums := (List.range s.N).foldl (fun (tr : List EMField) i => tr.set i ((tr[i]?).getD 0 + (o.trace[i]?).getD 0)) s.trace
  match guardMatch s o with
  | .error e => (s, some e)
  | .ok _ => ({ s with trace := sums }, none)

/-- `operator+`, src/fieldtrace.cpp:92-101 -/
noncomputable def add (s o : FieldTrace) : Except Err FieldTrace := do
  guardMatch s o
  return { s with trace := List.zipWith (· + ·) s.trace o.trace }

/-- `operator-`, src/fieldtrace.cpp:113-122 -/
noncomputable def sub (s o : FieldTrace) : Except Err FieldTrace := do
  guardMatch s o
  return { s with trace := List.zipWith (· - ·) s.trace o.trace }

/-- `get_field(index)`, src/fieldtrace.cpp:159-164 -/
def getField (s : FieldTrace) (index : Nat) : Except Err EMField :=
  if index ≥ s.N then .error .io
  else match s.trace[index]? with
    | some f => .ok f
    | none => .error .ub

/-- `set_field(index,f)`, src/fieldtrace.cpp:166-171 -/
def setField (s : FieldTrace) (index : Nat) (f : EMField) : Except Err FieldTrace :=
  if index ≥ s.N then .error .io
  else if index < s.trace.length then .ok { s with trace := s.trace.set index f }
  else .error .ub

/-- `add(index,f)`, src/fieldtrace.cpp:185-190 -/
noncomputable def addAt (s : FieldTrace) (index : Nat) (f : EMField) : Except Err FieldTrace :=
  if index ≥ s.N then .error .io
  else match s.trace[index]? with
    | some g => .ok { s with trace := s.trace.set index (g + f) }
    | none => .error .ub

/-- `get_buffer`, src/fieldtrace.cpp:124-130: the values written to a buffer of `Nb` fields -/
def getBuffer (s : FieldTrace) (Nb : Nat) : Except Err (List EMField) :=
  if Nb ≠ s.N then .error .io
  else (List.range s.N).mapM s.getField

/-- one iteration of the loop of `set_buffer`, src/fieldtrace.cpp:137 -/
def setFrom (buf : List EMField) (tr : FieldTrace) (it : Nat) : Except Err FieldTrace :=
  match buf[it]? with
  | some f => tr.setField it f
  | none => .error .ub

/-- `set_buffer`, src/fieldtrace.cpp:132-138.  The caller passes a buffer `buf` and claims it holds
`Nb` fields; reading past the end of the buffer is undefined. -/
def setBuffer (s : FieldTrace) (buf : List EMField) (Nb : Nat) : Except Err FieldTrace :=
  if Nb ≠ s.N then .error .io
  else (List.range s.N).foldlM (setFrom buf) s

/-- `get_time(index)`, src/fieldtrace.cpp:140-145 -/
noncomputable def getTime (s : FieldTrace) (index : Nat) : Except Err ℝ :=
  if index ≥ s.N then .error .io else .ok (s.t0 + index * s.dt)

/-- `get_last_time()`, src/fieldtrace.cpp:147-152 -/
noncomputable def getLastTime (s : FieldTrace) : Except Err ℝ :=
  if s.N > 0 then s.getTime (s.N - 1) else .ok s.t0

/-- `get_center_time()`, src/fieldtrace.cpp:154-157 -/
noncomputable def getCenterTime (s : FieldTrace) : ℝ := s.t0 + 0.5 * s.dt * s.N

/-- the guarded sample used in src/fieldtrace.cpp:179,181: zero outside `[0,N)` -/
noncomputable def sampleOrZero (s : FieldTrace) (index : Int) : EMField :=
  if 0 ≤ index ∧ index < (s.N : Int) then (s.trace[index.toNat]?).getD 0 else 0

/-- `get_field(time)`, src/fieldtrace.cpp:173-183.
Simplification: the casts of `floor(ref)` and `N` to `int` are exact; `getFieldAt` below is the function with these casts, and
`C17_lookup_defined_partial` says when the two agree.
`getD` in `sampleOrZero` is only reached if the trace is shorter than `N`, excluded by `WF`. -/
noncomputable def fieldAtTime (s : FieldTrace) (time : ℝ) : EMField :=
  let ref := (time - s.t0) / s.dt
  let index : Int := ⌊ref⌋
  let frac : ℝ := ref - index
  let f1 := s.sampleOrZero index
  let f2 := s.sampleOrZero (index + 1)
  f1 * (1.0 - frac) + f2 * frac

/-- the guarded sample with `(int)N`, src/fieldtrace.cpp:179,181: the cast of a `size_t` to an `int` keeps the low 32 bits -/
noncomputable def sampleInt (s : FieldTrace) (index : Int) : Except Err EMField :=
  if 0 ≤ index ∧ index < Int.bmod s.N (2 ^ 32) then
    match s.trace[index.toNat]? with
    | some f => .ok f
    | none => .error .ub
  else .ok 0

/-- `get_field(time)`, src/fieldtrace.cpp:173-183, with the conversion of `floor(ref)` to an `int`, which is undefined outside the range
of an `int` and for a time step of zero (`ref` is infinite or not a number), and the signed addition `index+1` -/
noncomputable def getFieldAt (s : FieldTrace) (time : ℝ) : Except Err EMField :=
  let ref := (time - s.t0) / s.dt
  let index : Int := ⌊ref⌋
  let frac : ℝ := ref - index
  if s.dt = 0 ∨ index < -2 ^ 31 ∨ 2 ^ 31 ≤ index then .error .ub
  else do
    let f1 ← s.sampleInt index
    if index + 1 = 2 ^ 31 then throw .ub
    let f2 ← s.sampleInt (index + 1)
    return f1 * (1.0 - frac) + f2 * frac

/-- `Poynting()`, src/fieldtrace.cpp:192-198 -/
noncomputable def poynting (s : FieldTrace) : Vec :=
  (s.trace.foldl (fun sum f => sum + f.Poynting) 0) * s.dt

/-- `derivative()`, src/fieldtrace.cpp:200-211.
`trace[1]`, `trace[N-1]` and `trace[N-2]` are read without any check: for `N < 2` this is a read
outside the vector (for `N = 0` also `N-1` wraps around), i.e. undefined behaviour. -/
noncomputable def derivative (s : FieldTrace) : Except Err FieldTrace :=
  if s.N < 2 ∨ s.trace.length < s.N then .error .ub
  else
    let tr := fun i => (s.trace[i]?).getD 0
    .ok { s with trace := (List.range s.N).map (fun i =>
      if i = 0 then (tr 1 - tr 0) / s.dt
      else if i = s.N - 1 then (tr (s.N - 1) - tr (s.N - 2)) / s.dt
      else (tr (i + 1) - tr (i - 1)) / (2.0 * s.dt)) }

/-- the per-sample action of `cancel_long_fields`, src/fieldtrace.cpp:218-222 -/
noncomputable def cancelLong (n : Vec) (f : EMField) : EMField :=
  ⟨f.E - n * dot f.E n, f.B - n * dot f.B n⟩

/-- `cancel_long_fields`, src/fieldtrace.cpp:213-224 -/
noncomputable def cancelLongFields (s : FieldTrace) (normal : Vec) : FieldTrace :=
  { s with trace := s.trace.map (cancelLong normal.normalize) }

open Classical in
/-- `retard`, src/fieldtrace.cpp:226-244.  Returns the new target; the second component is the
exception raised after the target has been filled (if any). -/
noncomputable def retard (s : FieldTrace) (delta_t : ℝ) (target : FieldTrace) :
    FieldTrace × Option Err :=
  let target' := { target with
    trace := (List.range target.N).map (fun i : Nat => s.fieldAtTime (target.t0 + (i : ℝ) * target.dt - delta_t)) }
  (target', if target'.poynting.norm = 0 then some .io else none)

/-- the per-sample action of `transform`, src/fieldtrace.cpp:250-254 -/
noncomputable def transformField (ex ey ez : Vec) (f : EMField) : EMField :=
  ⟨⟨dot f.E ex, dot f.E ey, dot f.E ez⟩, ⟨dot f.B ex, dot f.B ey, dot f.B ez⟩⟩

/-- `transform`, src/fieldtrace.cpp:246-256 -/
noncomputable def transform (s : FieldTrace) (ex ey ez : Vec) : FieldTrace :=
  { s with trace := s.trace.map (transformField ex ey ez) }

/-- class invariant maintained by every constructor and method: the vector has `N` entries; src/fieldtrace.h:166-174 -/
def WF (s : FieldTrace) : Prop := s.trace.length = s.N

end FieldTrace

end Teufel
