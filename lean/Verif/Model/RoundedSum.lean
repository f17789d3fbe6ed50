import Verif.Model.Bunch
import Verif.Model.Observers

/-!
# The sum of the fields of all particles in rounded arithmetic

The fields of the particles are added up in two stages.  Every node adds the fields of its particles to the samples
of its own trace, one after the other.  Then `MPI_Reduce` adds up the traces of the nodes.  Every addition is
rounded, by the function `rnd`.

Not modelled here: how the contributions of a particle are computed in rounded arithmetic.  They are the values of an
arbitrary function of the particle.
-/

namespace Teufel

open Classical in
/-- the calls `trace->add(idx,field)` made for one particle by `integrateFieldTrace`, in program order, src/particle.cpp:771-867 -/
noncomputable def Particle.additions (p : Particle) (obs : Vec) (t0 dt : ℝ) (nots : Nat) : Except Err (List (Int × EMField)) :=
  if nots < 2 ∨ p.NP < 2 then .ok []
  else if dt = 0 then .error .nan
  else do
    let parts ← (List.range (p.NP - 1)).mapM (fun step => do
      let ts1 ← p.RetardedTime (step : Nat) obs
      let ts2 ← p.RetardedTime (step + 1 : Nat) obs
      if ts2 > t0 - dt * 0.5 ∧ ts1 < t0 + dt * ((nots : ℝ) - 0.5) then do
        let f1 ← p.RetardedFieldIdx (step : Nat) obs
        let f2 ← p.RetardedFieldIdx (step + 1 : Nat) obs
        Particle.stepAdds t0 dt nots ts1 ts2 f1 f2
      else .ok [])
    return parts.flatten

namespace Rounded

/-- `ElMagField::operator+=`, src/fields.cpp:58-63 and src/vector.cpp:59-65 -/
noncomputable def fieldAdd (rnd : ℝ → ℝ) (a b : EMField) : EMField :=
  ⟨⟨rnd (a.E.x + b.E.x), rnd (a.E.y + b.E.y), rnd (a.E.z + b.E.z)⟩, ⟨rnd (a.B.x + b.B.x), rnd (a.B.y + b.B.y), rnd (a.B.z + b.B.z)⟩⟩

/-- `FieldTrace::add`, src/fieldtrace.cpp:185-190, on the samples of the trace, with an `int` index as in src/particle.cpp:799-864 -/
noncomputable def addInt (rnd : ℝ → ℝ) (tr : List EMField) (a : Int × EMField) : Except Err (List EMField) :=
  if a.1 < 0 then .error .io
  else match tr[a.1.toNat]? with
    | some g => .ok (tr.set a.1.toNat (fieldAdd rnd g a.2))
    | none => .error .io

/-- the trace of `n` samples recorded by one node, src/bunch.cpp:739-745, src/beam.cpp:443-450: `ps` are the particles of the
node, `c p` the additions made for the particle `p` -/
noncomputable def nodeTrace {α} (rnd : ℝ → ℝ) (n : Nat) (c : α → List (Int × EMField)) (ps : List α) : Except Err (List EMField) :=
  (ps.flatMap c).foldlM (addInt rnd) (List.replicate n 0)

/-- `MPI_Reduce` with `MPI_SUM`, one of the numbers, src/teufel_hybrid.cpp:749-757: the numbers of all ranks are added up
pairwise, in any order and with any bracketing.  Each is used once. -/
inductive MpiSum (rnd : ℝ → ℝ) : List ℝ → ℝ → Prop where
  | one (x : ℝ) : MpiSum rnd [x] x
  | add {l l1 l2 : List ℝ} {a b : ℝ} : MpiSum rnd l1 a → MpiSum rnd l2 b → l.Perm (l1 ++ l2) → MpiSum rnd l (rnd (a + b))

/-- `MPI_Reduce` with `MPI_SUM`, src/teufel_hybrid.cpp:749-757: `bufs` are the buffers of the nodes, `out` a buffer rank 0 may
receive.  Order and bracketing may differ from number to number. -/
def MpiReduce (rnd : ℝ → ℝ) (bufs : List (List ℝ)) (out : List ℝ) : Prop :=
  (∀ b ∈ bufs, b.length = out.length) ∧ ∀ (j : Nat) (h : j < out.length), MpiSum rnd (bufs.map (fun b => b.getD j 0)) out[j]

/-- one trace of an observation: every node records the fields of its particles, then the traces are added up,
src/teufel_hybrid.cpp:708-757; `nodes` are the particles of the nodes, `out` are the numbers rank 0 may receive -/
def Observed {α} (rnd : ℝ → ℝ) (n : Nat) (c : α → List (Int × EMField)) (nodes : List (List α)) (out : List ℝ) : Prop :=
  ∃ traces, nodes.mapM (nodeTrace rnd n c) = .ok traces ∧ MpiReduce rnd (traces.map (fun tr => tr.flatMap EMField.comps)) out

end Rounded
end Teufel
