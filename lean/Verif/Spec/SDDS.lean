import Verif.Model.SDDS
import Mathlib.Algebra.BigOperators.Group.Finset.Basic

/-!
# What an SDDS import should do

Vocabulary for C62 and C63, independent of the code of the constructor.
-/

namespace Teufel
open Vec

/-- the file has a column of this name whose first `n` entries are the numbers `v 0, ..., v (n-1)` -/
def SddsFile.HasColumn (f : SddsFile) (name : String) (n : Nat) (v : Nat → ℝ) : Prop :=
  ∃ l, f.column name = some l ∧ ∀ i, i < n → l[i]? = some (.ok (v i))

open Classical in
/-- the columns of the file list time, position, momentum (in units of `mc`), slopes and Lorentz factor of the particles
`ps`, one entry for each of them in the same order -/
structure SddsFile.Lists (f : SddsFile) (ps : List Particle) : Prop where
  t : f.column "t" = some (ps.map (fun p => .ok p.tCur))
  x : f.column "x" = some (ps.map (fun p => .ok p.XCur.x))
  y : f.column "y" = some (ps.map (fun p => .ok p.XCur.y))
  z : f.column "z" = some (ps.map (fun p => .ok p.XCur.z))
  px : f.column "px" = some (ps.map (fun p => .ok p.PCur.x))
  py : f.column "py" = some (ps.map (fun p => .ok p.PCur.y))
  pz : f.column "pz" = some (ps.map (fun p => .ok p.PCur.z))
  p : f.column "p" = some (ps.map (fun p => .ok (Real.sqrt (p.PCur.x ^ 2 + p.PCur.y ^ 2 + p.PCur.z ^ 2))))
  xp : f.column "xp" = some (ps.map (fun p => if p.PCur.z = 0 then .error .nan else .ok (p.PCur.x / p.PCur.z)))
  yp : f.column "yp" = some (ps.map (fun p => if p.PCur.z = 0 then .error .nan else .ok (p.PCur.y / p.PCur.z)))
  gamma : f.column "gamma" = some (ps.map (fun p => .ok (Real.sqrt (1 + p.PCur.x ^ 2 + p.PCur.y ^ 2 + p.PCur.z ^ 2))))

/-- six coordinates of the particles in the file -/
structure SddsTable where
  x : Nat → ℝ
  xp : Nat → ℝ
  y : Nat → ℝ
  yp : Nat → ℝ
  p : Nat → ℝ
  t : Nat → ℝ

/-- the file announces `n` particles of total charge `Q` (in Coulomb, unsigned) with the coordinates `T` -/
structure SddsFile.Holds (f : SddsFile) (n : Nat) (Q : ℝ) (T : SddsTable) : Prop where
  count : f.long "Particles" = some (n : Int)
  charge : f.double "Charge" = some Q
  x : f.HasColumn "x" n T.x
  xp : f.HasColumn "xp" n T.xp
  y : f.HasColumn "y" n T.y
  yp : f.HasColumn "yp" n T.yp
  p : f.HasColumn "p" n T.p
  t : f.HasColumn "t" n T.t

/-- mean of the arrival times -/
noncomputable def SddsTable.mean (T : SddsTable) (n : Nat) : ℝ := (∑ i ∈ Finset.range n, T.t i) / n

/-- `ex`, `ey` are orthogonal unit vectors perpendicular to the unit vector `es`, which points along `dir` -/
structure TransverseFrame (dir ex ey es : Vec) : Prop where
  along : ∃ k : ℝ, 0 < k ∧ dir = es * k
  es_unit : dot es es = 1
  ex_unit : dot ex ex = 1
  ey_unit : dot ey ey = 1
  ex_es : dot ex es = 0
  ey_es : dot ey es = 0
  ex_ey : dot ex ey = 0

/-- Particle `q` is the one described by row `i` of the file in the frame `ex`, `ey`, `es`, `tbar` being the mean arrival
time: it starts at `t = 0` and has done nothing else; its momentum has the length and the slopes given in the
file; on its straight way with velocity `c * P / γ` it crosses the transverse position given in the file at the time
of arrival relative to the mean (`s` is that velocity). -/
structure SddsParticle (T : SddsTable) (tbar : ℝ) (ex ey es : Vec) (i : Nat) (q : Particle) : Prop where
  start : q.NP = 1 ∧ q.Time = [0] ∧ q.tCur = 0 ∧ q.X = [q.XCur] ∧ q.P = [q.PCur] ∧ q.A = [0]
  momentum : q.PCur.norm = T.p i
  forward : 0 < T.p i → 0 < dot q.PCur es
  slope_x : dot q.PCur ex = T.xp i * dot q.PCur es
  slope_y : dot q.PCur ey = T.yp i * dot q.PCur es
  arrival : q.XCur + q.PCur * (SpeedOfLight / Real.sqrt (1 + q.PCur.norm ^ 2) * (T.t i - tbar)) = ex * T.x i + ey * T.y i

end Teufel
