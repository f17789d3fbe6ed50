import Verif.Model.Beam

/-!
# Loggers

Models `src/logger.cpp` / `src/logger.h` except for the file output.  `unsigned int` counters are unbounded.
NaN values which the code stores silently are kept as `Except.error Err.nan` entries of the columns.
-/

namespace Teufel
open Vec

/-- `log_requested`, src/logger.h:97, 214, 299 (identical in all three classes): `step % stepsize` with a
zero `stepsize` is undefined behaviour -/
def logRequested (stepsize step : Nat) : Except Err Bool :=
  if stepsize = 0 then .error .ub else .ok (decide (step % stepsize = 0))

/-- class `ParameterLogger<Bunch>`, src/logger.h:71-180 -/
structure ParamLog where
  stepsize : Nat
  bunching : Option ℝ
  NOTS : Nat
  Time : List (Except Err ℝ)
  Pos : List (Except Err Vec)
  BG : List (Except Err Vec)
  PosRMS : List (Except Err Vec)
  Gamma : List (Except Err ℝ)
  BGRMS : List Vec
  PosBG : List Vec
  BF : List (Except Err ℝ)
  Delta : List (Except Err ℝ)

namespace ParamLog

/-- constructor, src/logger.cpp:39-48, and `record_bunching`, src/logger.cpp:50-55 -/
def new (stepsize : Nat) (bunching : Option ℝ) : ParamLog := ⟨stepsize, bunching, 0, [], [], [], [], [], [], [], [], []⟩

/-- the value pushed into `BF`, src/logger.cpp:70-76 -/
noncomputable def bfValue (L : ParamLog) (b : Bunch) : Except Err ℝ :=
  match L.bunching with
  | some freq => (b.BunchingFactor freq).map (fun z => ‖z‖)
  | none => .ok 0

/-- `update`, src/logger.cpp:57-78 -/
noncomputable def update (L : ParamLog) (b : Bunch) : ParamLog :=
  { L with
    NOTS := L.NOTS + 1
    Time := L.Time ++ [b.avgTime]
    Pos := L.Pos ++ [b.avgPosition]
    BG := L.BG ++ [b.avgMomentum]
    PosRMS := L.PosRMS ++ [b.rmsPosition]
    Gamma := L.Gamma ++ [b.avgGamma]
    BGRMS := L.BGRMS ++ [0]
    PosBG := L.PosBG ++ [0]
    BF := L.BF ++ [L.bfValue b]
    Delta := L.Delta ++ [b.delta] }

/-- the table row `i` written by `WriteData`, src/logger.cpp:163-188: reading outside a column is undefined -/
noncomputable def row (L : ParamLog) (i : Nat) :
    Except Err (Except Err ℝ × Except Err Vec × Except Err Vec × Except Err ℝ × Except Err ℝ × Except Err Vec × Except Err ℝ) := do
  let t ← Particle.vecAt L.Time i
  let x ← Particle.vecAt L.Pos i
  let bg ← Particle.vecAt L.BG i
  let g ← Particle.vecAt L.Gamma i
  let d ← Particle.vecAt L.Delta i
  let r ← Particle.vecAt L.PosRMS i
  let f ← Particle.vecAt L.BF i
  return (t, x, bg, g, d, r, f)

/-- the table written by `WriteData`, src/logger.cpp:161-188 -/
noncomputable def table (L : ParamLog) := (List.range L.NOTS).mapM L.row

end ParamLog

/-- class `TrajectoryLogger<Bunch>`, src/logger.h:140-190 -/
structure TrajLog where
  stepsize : Nat
  NOP : Nat
  NOTS : Nat
  data : List (List ℝ)

namespace TrajLog

/-- constructor, src/logger.cpp:210-219 -/
def new (b : Bunch) (stepsize number : Nat) : TrajLog :=
  ⟨stepsize, if b.getNOP > number then number else b.getNOP, 0, []⟩

/-- `update`, src/logger.cpp:229-238: the buffer has room for `NOP*6` values; the entries not written by
`bufferCoordinates` stay indeterminate (`junk`), writing more is undefined behaviour -/
def update (junk : Nat → ℝ) (L : TrajLog) (b : Bunch) : Except Err TrajLog := do
  let vals ← b.bufferCoordinates L.NOP
  if vals.length ≤ L.NOP * 6 then
    return { L with data := L.data ++ [vals ++ (List.range (L.NOP * 6 - vals.length)).map junk], NOTS := L.NOTS + 1 }
  else .error .ub

/-- the buffer written by `WriteData`, src/logger.cpp:260-267 -/
def output (L : TrajLog) : Except Err (List ℝ) := do
  let recs ← (List.range L.NOTS).mapM (fun i : Nat => do
    let src ← Particle.vecAt L.data i
    if 6 * L.NOP ≤ src.length then return src.take (6 * L.NOP) else Except.error Err.ub)
  return recs.flatten

end TrajLog

/-- class `ProbeLogger<Beam>`, src/logger.h:208-275 -/
structure ProbeLog where
  stepsize : Nat
  NOP : Nat
  NOD : Nat
  NOTS : Nat
  data : List (List ℝ)

namespace ProbeLog

/-- constructor, src/logger.cpp:338-348 -/
def new (b : Beam) (stepsize number : Nat) : Except Err ProbeLog := do
  let n ← b.getNOP
  return ⟨stepsize, if n > number then number else n, Beam.getProbeBufferSize 1, 0, []⟩

/-- `update`, src/logger.cpp:358-367; the buffer has room for `getProbeBufferSize(NOP)` values.
`fuel` limits the iterations of `Beam::bufferProbe`. -/
def update (fuel : Nat) (L : ProbeLog) (b : Beam) : Except Err ProbeLog := do
  let vals ← b.bufferProbe L.NOP fuel
  if vals.length ≤ Beam.getProbeBufferSize L.NOP then
    return { L with data := L.data ++ [vals], NOTS := L.NOTS + 1 }
  else .error .ub

end ProbeLog
end Teufel
