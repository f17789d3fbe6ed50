import Verif.Model.Observers

/-!
# Specification of observers

An observer is a collection of samples: every cell has a number of samples, every sample is a field.
-/

namespace Teufel
namespace Observer

/-- cell (two indices, the second one is 0 for a mesh, both are 0 for a point) and sample number -/
abbrev Key := (Nat × Nat) × Nat

/-- the cells -/
def cellsOf : Observer → List (Nat × Nat)
  | .screen s => cells s.Nx s.Ny
  | .snapshot s => cells s.Nx s.Ny
  | .point _ => [(0, 0)]
  | .mesh s => (List.range s.Np).map (fun i => (i, 0))

/-- all samples: the samples of one cell follow each other, cells are in row order -/
def keys : Observer → List Key
  | .screen s => s.samples
  | .snapshot s => (cells s.Nx s.Ny).map (fun c => (c, 0))
  | .point s => (List.range s.trace.N).map (fun it => ((0, 0), it))
  | .mesh s => (List.range s.Np).flatMap (fun i => (List.range s.Nt).map (fun it => ((i, 0), it)))

/-- the access to one sample: `ScreenObserver::getField(ix,iy,it)`, `SnapshotObserver::getField(ix,iy)`, or
`FieldTrace::get_field(it)` of the trace of a point or of a cell of a mesh (`MeshedScreen::get_trace`) -/
def get (o : Observer) (k : Key) : Except Err EMField :=
  match o with
  | .screen s => s.getField k.1.1 k.1.2 k.2
  | .snapshot s => s.getField k.1.1 k.1.2
  | .point s => s.trace.getField k.2
  | .mesh s => do
    let tr ← MeshObs.at' s.A k.1.1
    tr.getField k.2

/-- overwrite one sample: `setField`, `FieldTrace::set_field` -/
def put (o : Observer) (k : Key) (f : EMField) : Except Err Observer :=
  match o with
  | .screen s => (s.setField k.1.1 k.1.2 k.2 f).map .screen
  | .snapshot s => (s.setField k.1.1 k.1.2 f).map .snapshot
  | .point s => (s.trace.setField k.2 f).map (fun tr => .point { s with trace := tr })
  | .mesh s => do
    let tr ← MeshObs.at' s.A k.1.1
    let tr ← tr.setField k.2 f
    return .mesh { s with A := s.A.set k.1.1 tr }

/-- a newly constructed observer -/
inductive Fresh : Observer → Prop
  | screen (position dx dy : Vec) (nx ny : Nat) (t0 dt dtx dty : ℝ) (nots : Nat) : Fresh (.screen (Screen.new position dx dy nx ny t0 dt dtx dty nots))
  | snapshot (position dx dy : Vec) (nx ny : Nat) (t : ℝ) : Fresh (.snapshot (Snapshot.new position dx dy nx ny t))
  | point (position : Vec) (t0 dt : ℝ) (nots : Nat) : Fresh (.point (PointObs.new position t0 dt nots))
  | mesh (points : List Vec) (t0s : List ℝ) (dt : ℝ) (nt : Nat) (h : t0s.length = points.length) : Fresh (.mesh (MeshObs.new points t0s dt nt))

/-- the source of radiation is a beam or bunch as the program constructs them: the stored numbers of bunches and
particles are those of the vectors -/
def _root_.Teufel.RadSource.Counted : RadSource → Prop
  | .beam b => b.NOB = b.B.length ∧ ∀ bu ∈ b.B, bu.NOP = bu.P.length
  | .bunch b => b.NOP = b.P.length
  | .lattice _ => True

/-- the states of an observer after any sequence of calls -/
inductive Reachable : Observer → Prop
  | fresh {o} : Fresh o → Reachable o
  | integrate {o o' src} : Reachable o → RadSource.Counted src → o.integrate src = .ok o' → Reachable o'
  | put {o o' k f} : Reachable o → k ∈ o.keys → o.put k f = .ok o' → Reachable o'
  | fromBuffer {o o' vals} : Reachable o → vals.length = 6 * o.keys.length → o.fromBuffer vals (6 * o.keys.length) = .ok o' → Reachable o'

/-- the number of doubles in the buffer can be represented in the integer type used to compute it: 32-bit unsigned
for screens and snapshots, 32-bit signed for meshes, 64-bit for points (not a restriction) -/
def Fits : Observer → Prop
  | .screen s => 6 * (s.Nx * s.Ny * s.NOTS) < 2 ^ 32
  | .snapshot s => 6 * (s.Nx * s.Ny) < 2 ^ 32
  | .point _ => True
  | .mesh s => 6 * (s.Np * s.Nt) < 2 ^ 31

/-- the value to which `integrate` adds the recorded field: traces are accumulated, snapshots are replaced -/
noncomputable def startValue (o : Observer) (v : EMField) : EMField :=
  match o with
  | .snapshot _ => 0
  | _ => v

/-- time and place of a sample -/
noncomputable def samplePoint (o : Observer) (k : Key) : Except Err (ℝ × Vec) :=
  match o with
  | .screen s => .ok (s.CellTimeZero k.1.1 k.1.2 + k.2 * s.dt, s.CellPosition k.1.1 k.1.2)
  | .snapshot s => .ok (s.tObs, s.CellPosition k.1.1 k.1.2)
  | .point s => .ok (s.trace.t0 + k.2 * s.trace.dt, s.Pos)
  | .mesh s => do
    let pos ← MeshObs.at' s.points k.1.1
    let tr ← MeshObs.at' s.A k.1.1
    return (tr.t0 + k.2 * tr.dt, pos)

/-- what an observer of this kind records of a single particle: traces by `ChargedParticle::integrateFieldTrace`
into an empty trace, snapshots by `ChargedParticle::RetardedField` -/
noncomputable def particleSample (o : Observer) (k : Key) (p : Particle) : Except Err EMField :=
  match o with
  | .screen s => do
    let tr ← p.integrateFieldTrace (s.CellPosition k.1.1 k.1.2) (FieldTrace.new (s.CellTimeZero k.1.1 k.1.2) s.dt s.NOTS)
    tr.getField k.2
  | .snapshot s => p.RetardedFieldAt s.tObs (s.CellPosition k.1.1 k.1.2)
  | .point s => do
    let tr ← p.integrateFieldTrace s.Pos (FieldTrace.new s.trace.t0 s.trace.dt s.trace.N)
    tr.getField k.2
  | .mesh s => do
    let pos ← MeshObs.at' s.points k.1.1
    let tr0 ← MeshObs.at' s.A k.1.1
    let tr ← p.integrateFieldTrace pos (FieldTrace.new tr0.t0 tr0.dt s.Nt)
    tr.getField k.2

end Observer
end Teufel
