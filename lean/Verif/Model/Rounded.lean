import Verif.Model.Retarded
import Verif.Model.FEL1D

/-!
# Decisions made with rounded numbers

The other files of the model compute with real numbers.  Two places where the program takes decisions that depend on
the last digits of its numbers are modelled here a second time, with every result of an arithmetic operation
rounded by a function `rnd` (`Spec/Rounding.lean`; the C++ program uses `binary64`, with `rnd = id` the
definitions agree with the other model):

* which samples of a trace the field of a trajectory step is added to, and
* whether clocks of particles and interaction fields agree.

Simplification: multiplications and additions are rounded separately (no fused multiply-add instructions), which is what the
compiler does with the flags of `CMakeLists.txt` on x86-64.
-/

namespace Teufel
open Vec

namespace Rounded

/-- `Vector::operator-`, src/vector.cpp:67-74 -/
noncomputable def vsub (rnd : ℝ → ℝ) (a b : Vec) : Vec := ⟨rnd (a.x - b.x), rnd (a.y - b.y), rnd (a.z - b.z)⟩

/-- `Vector::norm`, src/vector.cpp:127-130 -/
noncomputable def vnorm (rnd : ℝ → ℝ) (v : Vec) : ℝ :=
  rnd (Real.sqrt (rnd (rnd (rnd (v.x * v.x) + rnd (v.y * v.y)) + rnd (v.z * v.z))))

/-- `ChargedParticle::RetardedTime`, src/particle.cpp:560-568, for a trajectory point with time `t` and position `x` -/
noncomputable def retardedTime (rnd : ℝ → ℝ) (obs : Vec) (t : ℝ) (x : Vec) : ℝ :=
  rnd (t + rnd (vnorm rnd (vsub rnd obs x) / SpeedOfLight))

/-- `int idx = round((ts-t0)/dt)`, src/particle.cpp:805, 831, 833.  Numbers beyond the range of an `int` are undefined
behaviour. -/
noncomputable def bucket (rnd : ℝ → ℝ) (t0 dt ts : ℝ) : Except Err Int := toInt32 (Particle.cround (rnd (rnd (ts - t0) / dt)))

/-- start of the time covered by the trace, src/particle.cpp:780 -/
noncomputable def tmin (rnd : ℝ → ℝ) (t0 dt : ℝ) : ℝ := rnd (t0 - rnd (dt * 0.5))

/-- end of the time covered by the trace, src/particle.cpp:781 -/
noncomputable def tmax (rnd : ℝ → ℝ) (t0 dt : ℝ) (nots : Nat) : ℝ := rnd (t0 + rnd (dt * rnd ((nots : ℝ) - 0.5)))

open Classical in
/-- the indices passed to `trace->add` for one trajectory step, src/particle.cpp:795-864, in program order -/
noncomputable def stepIndices (rnd : ℝ → ℝ) (t0 dt : ℝ) (nots : Nat) (ts1 ts2 : ℝ) : Except Err (List Int) :=
  if ts2 > tmin rnd t0 dt ∧ ts1 < tmax rnd t0 dt nots then
    if ts1 ≤ tmin rnd t0 dt then do
      let idx2 ← bucket rnd t0 dt ts2
      let idx2 := if idx2 > nots then (nots : Int) else idx2
      if rnd (ts2 - ts1) = 0 then .error .nan
      return Particle.irange 0 idx2 ++ (if idx2 < nots then [idx2] else [])
    else do
      let idx1 ← bucket rnd t0 dt ts1
      let idx2 ← bucket rnd t0 dt ts2
      let idx2 := if idx2 > nots then (nots : Int) else idx2
      if idx1 = idx2 then return [idx1]
      else do
        if rnd (ts2 - ts1) = 0 then .error .nan
        return [idx1] ++ Particle.irange (idx1 + 1) idx2 ++ (if idx2 < nots then [idx2] else [])
  else return []

/-- `trace->add(idx,..)` checks the index, src/fieldtrace.cpp:185-190 -/
def checkIndex (nots : Nat) (idx : Int) : Except Err Unit := if 0 ≤ idx ∧ idx < nots then .ok () else .error .io

/-- the outcome of `integrateFieldTrace`, src/particle.cpp:771-867, for a trajectory with the given times and positions.
The recorded values are left out. -/
noncomputable def record (rnd : ℝ → ℝ) (t0 dt : ℝ) (nots : Nat) (obs : Vec) : List (ℝ × Vec) → Except Err Unit
  | a :: b :: rest => do
    if nots < 2 then return ()
    let idx ← stepIndices rnd t0 dt nots (retardedTime rnd obs a.1 a.2) (retardedTime rnd obs b.1 b.2)
    idx.forM (checkIndex nots)
    record rnd t0 dt nots obs (b :: rest)
  | _ => .ok ()

/-- the comparison `0.25*dt < fabs(t-time)`, src/fel1d.cpp:257, 332: the time `t` of a particle against the `time` of the field -/
noncomputable def sameTime (rnd : ℝ → ℝ) (dt t time : ℝ) : Except Err Unit :=
  if rnd (0.25 * dt) < |rnd (t - time)| then .error .io else .ok ()

/-- the comparison `fabs(step_beam*dt-time)>0.25*dt`, src/fel1d.cpp:227 -/
noncomputable def sameStep (rnd : ℝ → ℝ) (dt : ℝ) (step : Nat) (time : ℝ) : Except Err Unit :=
  if |rnd (rnd ((step : ℝ) * dt) - time)| > rnd (0.25 * dt) then .error .io else .ok ()

/-- `t_current += dt` and `time += dt`, src/particle.cpp:485, src/fel1d.cpp:217, 314 -/
noncomputable def tick (rnd : ℝ → ℝ) (dt t : ℝ) : ℝ := rnd (t + dt)

/-- the clocks during one pass of the main loop, src/teufel_hybrid.cpp:513-577: the particle moves and asks the interaction for
its field, then the interaction makes its step.  State: the time of the particle and the time of the field. -/
noncomputable def clockStep (rnd : ℝ → ℝ) (dt : ℝ) (s : ℝ × ℝ) (step : Nat) : Except Err (ℝ × ℝ) := do
  let t := tick rnd dt s.1
  sameTime rnd dt t s.2
  sameStep rnd dt (step + 1) s.2
  sameTime rnd dt t s.2
  return (t, tick rnd dt s.2)

/-- the clocks of a whole run of `n` steps.  Particle and field start at time zero, `init` makes one step of
the field, src/teufel_hybrid.cpp:498-513, src/fel1d.cpp:217. -/
noncomputable def clocks (rnd : ℝ → ℝ) (dt : ℝ) (n : Nat) : Except Err (ℝ × ℝ) :=
  (List.range n).foldlM (clockStep rnd dt) (0, tick rnd dt 0)

end Rounded
end Teufel
