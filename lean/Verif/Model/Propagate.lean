import Verif.Model.Mesh

/-!
# The tools `propagate` and `reflection`

Models `src/propagate.cpp` and `src/reflection.cpp`.  Both are identical apart from the check of the command line,
the reflection of the fields at the source screen and messages (`reflection` also prints bounding boxes and energy flows).
-/

namespace Teufel

open Vec

namespace Propagate

/-- the three file names, src/propagate.cpp:65-72 and src/reflection.cpp:66-73.  `argv` includes the program name,
`minimum` is the number in the comparison with `argc`.  `none` stands for printing the usage and leaving the program.
`argv[argc]` is a null pointer, from which no string can be constructed. -/
def arguments (minimum : Nat) (argv : List String) : Except Err (Option (String × String × String)) :=
  if argv.length < minimum then .ok none
  else do
    let a ← Particle.vecAt argv 1
    let b ← Particle.vecAt argv 2
    let c ← Particle.vecAt argv 3
    return some (a, b, c)

/-- the minimum used in src/propagate.cpp:65 -/
def propagateMinimum : Nat := 3

/-- the minimum used in src/reflection.cpp:66 -/
def reflectionMinimum : Nat := 4

/-- reflection of one sample, src/reflection.cpp:161-168 -/
noncomputable def reflectField (normal : Vec) (f : EMField) : EMField :=
  let En := normal * dot f.E normal
  let Et := f.E - En
  let Bn := normal * dot f.B normal
  let Bt := f.B - Bn
  ⟨En - Et, Bt - Bn⟩

/-- one cell of the loop in src/reflection.cpp:152-172 -/
noncomputable def reflectCell (g : MeshGeometry) (m : Mesh) (index : Nat) : Except Err Mesh := do
  let trace ← m.getTrace index
  let n ← Particle.vecAt g.normal index
  let n ← n
  let normal ← normalizeE n
  let trace ← (List.range trace.N).foldlM (fun (tr : FieldTrace) (it : Nat) => do
    let f ← tr.getField it
    tr.setField it (reflectField normal f)) trace
  m.setTrace index trace

/-- the loop in src/reflection.cpp:152-172 -/
noncomputable def reflect (g : MeshGeometry) (m : Mesh) : Except Err Mesh := (List.range m.Np).foldlM (reflectCell g) m

/-- The linear least-squares solver `A.bdcSvd(...).solve(b)`, src/propagate.cpp:224-243 and src/reflection.cpp:306-325: given the rows of `A` and the
right hand side it returns the six coefficients.  The model is parametrised over the solver. -/
abbrev Solver := List (List ℝ) → List ℝ → List ℝ

/-- one row of the matrix `A`, src/propagate.cpp:166-185 and src/reflection.cpp:248-267 -/
noncomputable def designRow (xi eta n ref p : Vec) : List ℝ :=
  let c := (p - ref).transform xi eta n
  [1, c.x, c.y, c.x * c.x, c.y * c.y, c.x * c.y]

/-- the transversal derivatives of one field component, `fit(1)` and `fit(2)`, src/propagate.cpp:224-243 and src/reflection.cpp:306-325 -/
noncomputable def slopes (solve : Solver) (A : List (List ℝ)) (b : List ℝ) : Except Err (ℝ × ℝ) := do
  let fit := solve A b
  let dx ← Particle.vecAt fit 1
  let dy ← Particle.vecAt fit 2
  return (dx, dy)

/-- the normal derivatives from Maxwell's equations and their back-transformation, src/propagate.cpp:245-266 and src/reflection.cpp:327-348.
`dx`, `dy` are the transversal derivatives of the local field components, `dt` their time derivatives. -/
noncomputable def normalDerivative (xi eta n : Vec) (dx dy dt : EMField) : EMField :=
  let dz_Ex := dx.E.z - dt.B.y
  let dz_Ey := dy.E.z + dt.B.x
  let dz_Ez := -dx.E.x - dy.E.y
  let dz_Bx := dx.B.z + dt.E.y / (SpeedOfLight * SpeedOfLight)
  let dz_By := dy.B.z - dt.E.x / (SpeedOfLight * SpeedOfLight)
  let dz_Bz := -dx.B.x - dy.B.y
  ⟨xi * dz_Ex + eta * dz_Ey + n * dz_Ez, xi * dz_Bx + eta * dz_By + n * dz_Bz⟩

/-- transversal derivatives of all six components, src/propagate.cpp:203-243 and src/reflection.cpp:285-325.  The four values that the code does not
extract are computed as well. -/
noncomputable def gradients (solve : Solver) (A : List (List ℝ)) (F : List EMField) : Except Err (EMField × EMField) := do
  let ex ← slopes solve A (F.map (fun f => f.E.x))
  let ey ← slopes solve A (F.map (fun f => f.E.y))
  let ez ← slopes solve A (F.map (fun f => f.E.z))
  let bx ← slopes solve A (F.map (fun f => f.B.x))
  let by' ← slopes solve A (F.map (fun f => f.B.y))
  let bz ← slopes solve A (F.map (fun f => f.B.z))
  return (⟨⟨ex.1, ey.1, ez.1⟩, ⟨bx.1, by'.1, bz.1⟩⟩, ⟨⟨ex.2, ey.2, ez.2⟩, ⟨bx.2, by'.2, bz.2⟩⟩)

/-- one sample of the normal derivatives, src/propagate.cpp:201-267 and src/reflection.cpp:283-349 -/
noncomputable def normalSample (solve : Solver) (xi eta n : Vec) (A : List (List ℝ)) (nbh : List FieldTrace)
    (localTrace localDt : FieldTrace) (dn : FieldTrace) (it : Nat) : Except Err FieldTrace := do
  let t ← localTrace.getTime it
  let g ← gradients solve A (nbh.map (fun tr => tr.fieldAtTime t))
  let dt ← localDt.getField it
  dn.setField it (normalDerivative xi eta n g.1 g.2 dt)

/-- the normal derivatives for one source cell, src/propagate.cpp:148-268 and src/reflection.cpp:230-350; the buffer for the neighbourhood has room
for 24 indices -/
noncomputable def normalTrace (solve : Solver) (m : Mesh) (g : MeshGeometry) (dts : List FieldTrace) (index : Nat) : Except Err FieldTrace := do
  let nbh ← m.getNeighbourhood index 24
  let ref ← Particle.vecAt m.points index
  let xi ← Particle.vecAt g.xi index
  let xi ← xi
  let eta ← Particle.vecAt g.eta index
  let eta ← eta
  let n ← Particle.vecAt g.normal index
  let n ← n
  let pts ← nbh.mapM (fun i : Nat => Particle.vecAt m.points i)
  let localTrace ← m.getTrace index
  let traces ← nbh.mapM (fun i : Nat => m.getTrace i)
  let localDt ← Particle.vecAt dts index
  (List.range m.Nt).foldlM (normalSample solve xi eta n (pts.map (designRow xi eta n ref))
    (traces.map (fun tr => tr.transform xi eta n)) localTrace (localDt.transform xi eta n)) localTrace

/-- one `try` block, src/propagate.cpp:372-411 and src/reflection.cpp:483-530: `(propagated_trace, component)` before and after.  An exception of
`retard` skips the addition.  `factor` is NaN if source and target coincide. -/
noncomputable def addTerm (src : FieldTrace) (delay : ℝ) (factor : Except Err ℝ) (dA : ℝ) (s : FieldTrace × FieldTrace) :
    Except Err (FieldTrace × FieldTrace) :=
  match src.retard delay s.2 with
  | (component, some _) => .ok (s.1, component)
  | (component, none) => do
    let k ← factor
    match s.1.addAssign ((component.smul k).smul dA) with
    | (r, none) => return (r, component)
    | (_, some e) => .error e

/-- the source with everything computed before the propagation; src/propagate.cpp:100-290 and src/reflection.cpp:182-372 -/
structure Source where
  mesh : Mesh
  geometry : MeshGeometry
  dts : List FieldTrace
  dns : List FieldTrace

/-- the contributions of one source cell, src/propagate.cpp:362-411 and src/reflection.cpp:473-530 -/
noncomputable def addCell (s : Source) (target : Vec) (acc : FieldTrace × FieldTrace) (isource : Nat) : Except Err (FieldTrace × FieldTrace) := do
  let pos ← Particle.vecAt s.mesh.points isource
  let area ← Particle.vecAt s.geometry.area isource
  let n ← Particle.vecAt s.geometry.normal isource
  let n ← n
  let dA := area / (4 * Pi)
  let RVec := target - pos
  let R := RVec.norm
  let R2 := R * R
  let R3 := R2 * R
  let quot := fun (a b : ℝ) => open Classical in if b = 0 then (.error .nan : Except Err ℝ) else .ok (a / b)
  let t1 ← s.mesh.getTrace isource
  let acc ← addTerm t1 (R / SpeedOfLight) (quot (-dot RVec n) R3) dA acc
  let t2 ← Particle.vecAt s.dts isource
  let acc ← addTerm t2 (R / SpeedOfLight) (quot (-dot RVec n) (R2 * SpeedOfLight)) dA acc
  let t3 ← Particle.vecAt s.dns isource
  addTerm t3 (R / SpeedOfLight) (quot 1 R) dA acc

/-- the trace computed for one target cell, src/propagate.cpp:355-413 and src/reflection.cpp:466-532 -/
noncomputable def propagatedTrace (s : Source) (target : Mesh) (index : Nat) : Except Err FieldTrace := do
  let pos ← Particle.vecAt target.points index
  let tr ← target.getTrace index
  let r ← (List.range s.mesh.Np).foldlM (addCell s pos) (tr.zero, tr.zero)
  return r.1

/-- the loop over the target cells, src/propagate.cpp:353-437 and src/reflection.cpp:464-556 (the iterations are independent of each other) -/
noncomputable def propagateTo (s : Source) (target : Mesh) : Except Err Mesh :=
  (List.range target.Np).foldlM (fun (m : Mesh) (index : Nat) => do
    let tr ← propagatedTrace s m index
    m.setTrace index tr) target

/-- everything computed from the source screen, src/propagate.cpp:100-290 and src/reflection.cpp:182-372 -/
noncomputable def prepare (solve : Solver) (m : Mesh) (g : MeshGeometry) : Except Err Source := do
  let traces ← (List.range m.Np).mapM (fun i : Nat => m.getTrace i)
  if m.dt = 0 ∧ m.Np ≠ 0 then throw .nan
  let dts ← traces.mapM FieldTrace.derivative
  let dns ← (List.range m.Np).mapM (normalTrace solve m g dts)
  return ⟨m, g, dts, dns⟩

/-- the whole program: file written and its content, or `none` after printing the usage.  `reflected` distinguishes the
two programs, `read` gives the content of the files.  src/propagate.cpp:54-468 and src/reflection.cpp:55-587. -/
noncomputable def main (reflected : Bool) (solve : Solver) (argv : List String) (read : String → Except Err MeshFile) :
    Except Err (Option (String × MeshFile)) := do
  let args ← arguments (if reflected then reflectionMinimum else propagateMinimum) argv
  match args with
  | none => return none
  | some (sourcefile, infile, outfile) =>
    let sf ← read sourcefile
    let m ← Mesh.ofFile sf
    let g ← m.init
    let m ← if reflected then reflect g m else pure m
    let s ← prepare solve m g
    let tf ← read infile
    let t ← Mesh.ofFile tf
    let _ ← t.init
    let t ← propagateTo s t.zero
    let f ← t.writeFile
    return some (outfile, f)

end Propagate

end Teufel
