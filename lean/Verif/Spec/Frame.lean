import Verif.Model.Observers

/-!
# Change of the coordinate system

Coordinates may be described in another cartesian system: with another origin, other directions of the axes - right or left handed - and another zero of
time.  The magnetic field is an axial vector: its sign depends on the handedness.
-/

namespace Teufel
open Vec

/-- another cartesian coordinate system -/
structure Frame where
  /-- components of the old axes in the new system -/
  (a b c : Vec)
  /-- the old origin in the new system -/
  o : Vec
  /-- the old zero of time -/
  τ : ℝ
  aa : dot a a = 1
  bb : dot b b = 1
  cc : dot c c = 1
  ab : dot a b = 0
  ac : dot a c = 0
  bc : dot b c = 0

namespace Frame

/-- a direction (velocity, momentum, acceleration, electric field) in the new system -/
noncomputable def dir (F : Frame) (v : Vec) : Vec := F.a * v.x + F.b * v.y + F.c * v.z

/-- a position in the new system -/
noncomputable def place (F : Frame) (x : Vec) : Vec := F.dir x + F.o

/-- 1 if the handedness of the axes is kept, -1 if not -/
noncomputable def hand (F : Frame) : ℝ := dot (cross F.a F.b) F.c

/-- an electromagnetic field in the new system -/
noncomputable def field (F : Frame) (f : EMField) : EMField := ⟨F.dir f.E, F.dir f.B * F.hand⟩

/-- `f'` describes, in the new system, the same external field as `f` -/
def SameField (F : Frame) (f f' : FieldFn) : Prop := ∀ t x, f' (t + F.τ) (F.place x) = (f t x).map F.field

/-- the samples of a trace in the new system -/
noncomputable def trace (F : Frame) (tr : FieldTrace) : FieldTrace := { tr with t0 := tr.t0 + F.τ, trace := tr.trace.map F.field }

/-- a particle, its trajectory and the state of its tracking in the new system -/
noncomputable def particle (F : Frame) (p : Particle) : Particle :=
  { p with
    tCur := p.tCur + F.τ, XCur := F.place p.XCur, PCur := F.dir p.PCur, ACur := F.dir p.ACur
    ECur := F.dir p.ECur, BCur := F.dir p.BCur * F.hand
    Time := p.Time.map (· + F.τ), X := p.X.map F.place, P := p.P.map F.dir, A := p.A.map F.dir
    VYp := F.dir p.VYp }

/-- a bunch in the new system -/
noncomputable def bunch (F : Frame) (b : Bunch) : Bunch := { b with P := b.P.map F.particle }

/-- a beam in the new system -/
noncomputable def beam (F : Frame) (b : Beam) : Beam := { b with B := b.B.map F.bunch }

/-- a source of radiation in the new system: the same beam, the same bunch, or the same external field -/
inductive SameSource (F : Frame) : RadSource → RadSource → Prop
  | beam (b : Beam) : SameSource F (.beam b) (.beam (F.beam b))
  | bunch (b : Bunch) : SameSource F (.bunch b) (.bunch (F.bunch b))
  | lattice {f f' : FieldFn} (h : F.SameField f f') : SameSource F (.lattice f) (.lattice f')

/-- a point observer in the new system -/
noncomputable def point (F : Frame) (s : PointObs) : PointObs := ⟨F.place s.Pos, F.trace s.trace⟩

/-- a screen in the new system.  Its normal is an axial vector: it is computed from the cross product of the two pitch vectors. -/
noncomputable def screen (F : Frame) (s : Screen) : Screen :=
  { s with Origin := F.place s.Origin, dX := F.dir s.dX, dY := F.dir s.dY, normal := F.dir s.normal * F.hand, t0 := s.t0 + F.τ
           Traces := s.Traces.map (List.map F.trace) }

/-- a meshed screen in the new system -/
noncomputable def mesh (F : Frame) (s : MeshObs) : MeshObs := { s with points := s.points.map F.place, A := s.A.map F.trace }

/-- a snapshot observer in the new system -/
noncomputable def snapshot (F : Frame) (s : Snapshot) : Snapshot :=
  { s with O := F.place s.O, dX := F.dir s.dX, dY := F.dir s.dY, tObs := s.tObs + F.τ, FieldArray := s.FieldArray.map (List.map F.field) }

/-- the source consists of external fields, or the first signals of all its particles have arrived at `X` before `t` -/
def Arrived (t : ℝ) (X : Vec) : RadSource → Prop
  | .beam b => ∀ bu ∈ b.B, ∀ p ∈ bu.P, ∀ T, p.RetardedTime 0 X = .ok T → T < t
  | .bunch b => ∀ p ∈ b.P, ∀ T, p.RetardedTime 0 X = .ok T → T < t
  | .lattice _ => True

end Frame
end Teufel
