import Verif.Model.Elements

/-!
# Numbers reported on the console

Most of the console output is not modelled.  Modelled here are the numbers computed for it.
-/

namespace Teufel
open Vec

/-- what `GaussianWave::Setup` and `GaussianWavePacket::Setup` print: peak field, size of the waist, power; src/wave.cpp:79-82 and 163-167 -/
structure WaveReport where
  E0 : ℝ
  w0 : ℝ
  Ptot : ℝ

/-- the report of a Gaussian wave, src/wave.cpp:79-82 = 163-166 (`norm` of a complex number is the square of its modulus) -/
noncomputable def GaussianWave.report (g : GaussianWave) : WaveReport :=
  let I0 := Complex.normSq g.A / 2.0 * EpsNull * SpeedOfLight
  { E0 := Real.sqrt (Complex.normSq g.A), w0 := g.w0, Ptot := Pi / 2.0 * I0 * g.w0 * g.w0 }

end Teufel
