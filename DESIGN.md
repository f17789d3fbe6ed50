# TEUFEL formal model: design

Subject: lehnertu/TEUFEL, C++ sources in `/repo/src` (about 14 500 lines with headers).
The model is written in Lean 4 (4.33.0) with Mathlib and lives in `lean/Verif`.
135 properties are listed in `properties.jsonl`; `MANIFEST.json` maps them to 520 theorems.

## Layout

| directory | content |
|-----------|---------|
| `lean/Verif/Model/*.lean` | the model, one file per C++ source file or group; every definition cites file and lines |
| `lean/Verif/Spec/*.lean`  | small independent specifications the theorems are stated against |
| `lean/Verif/Lemmas/*.lean`| helper lemmas, never cited in the manifest |
| `lean/Verif/Props/*.lean` | the property theorems (named `Cnn_...`), each with a non-vacuity `example` beside it |
| `seeded/LOG.jsonl` | wrong programs the theorems were tested against, one edit of the model per line |

## Modelling conventions

* A C++ method that mutates its object is a function returning the new object. Where an exception can leave
  a half-updated object behind that is used later, the error outcome carries the object.
* `throw IOexception` / `throw RANGEexception` are the outcomes `Err.io` / `Err.range` of `Except Err`.
* Undefined behaviour (access outside a `std::vector` or a `new[]` buffer, signed overflow, conversion of an
  unrepresentable number to `int`, reading an uninitialised variable, null pointers) is the distinct outcome `Err.ub`.
* `double` is modelled by the reals `ℝ`, `Pi` by `Real.pi`. Rounding is not modelled, except in `Model/Rounded`, `Model/RoundedVay`, `Model/RoundedSum`, `Model/RoundedElements` and `Model/RoundedDipole` (C89, C90, C101, C116, C129-C135), where every
  operation is followed by a rounding function (binary64 without limits of the exponent, no fused operations). A division by zero is the
  outcome `Err.nan`; the C++ program would go on with inf or NaN, so a theorem that concludes a normal result says
  that no such division happens, and structural errors are reported before `Err.nan`.
* Loops that need not terminate are modelled with fuel and the outcome `Err.diverge`; the theorems show that the
  fuel suffices.
* Container, buffer and communication code is written over `ℝ` too. It only copies values.
* Fixed-width integers are modelled where width can matter (observer and FEL buffer sizes, cell indices of the FEL,
  mesh time step); elsewhere indices are `Nat`/`Int`.
* External fields (`GeneralField::Field`) are arbitrary functions `ℝ → Vec → Except Err EMField`.
* `rand`/`std::normal_distribution` samples are arbitrary parameters.
* MPI: `Bcast`, `Allgather`, `Reduce(SUM)` are modelled by their specification on the list of per-rank buffers;
  ranks are run in lockstep between collectives. That this is no restriction is proved (C91): `Model/MPI` runs the nodes
  as concurrent processes, a node leaves a collective operation as soon as those it needs data from have entered it
  (everybody for barrier and allgather, the root for broadcast, everybody on the root for reduce), and every schedule
  gives the outcome of the lockstep program. OpenMP loops are arbitrary interleavings of atomic per-cell updates
  over any assignment of cells to threads. The unsynchronised progress counter of those loops is not modelled
  (its unprotected read is a data race, but its value is only printed).
* HDF5 and SDDS files are records of named datasets, attributes, parameters and columns.
* pugixml documents are trees of named nodes with string attributes. muParser is a parameter: an arbitrary partial
  evaluator from variable environment and expression to a number.
* The least-squares solver (Eigen) of the propagation programs is a parameter constrained by its specification.

## Trusted base

* Lean's kernel.
* Axioms: every manifest theorem depends on exactly `propext`, `Classical.choice`, `Quot.sound`, except
  `C55_reflection` (`propext`, `Quot.sound`), as reported by `#print axioms`. Mathlib's reals need all three.
  There are no axioms of our own, no `sorry`, no `native_decide`, no `bv_decide`.
* Our reading of the C++ text. The code is neither compiled nor run here.
* The conventions above: reals for doubles, and the stated semantics of MPI, OpenMP, HDF5, SDDS, XML, muParser and
  the least-squares solver.

## Source coverage

| source | modelled in | not modelled |
|--------|-------------|--------------|
| `vector.*` | `Model/Vec` | – |
| `fields.*` | `Model/Fields` | – |
| `fieldtrace.*` | `Model/FieldTrace` | – |
| `particle.*` | `Model/Particle`, `Model/Retarded`, `Model/RoundedVay` | – |
| `bunch.*` | `Model/Bunch`, `Model/SDDS` | random generator (samples are parameters), console output |
| `beam.*` | `Model/Beam`, `Model/Output` | library calls of the writers |
| `logger.*` | `Model/Logger`, `Model/Program` (files) | failures of HDF5/SDDS calls other than creating the file (`Model/Faults`) |
| `dipole.*`, `undulator.*`, `wave.*` | `Model/Elements`, `Model/Reports`, constructors from XML in `Model/Parser` | other console output |
| `fel1d.*` | `Model/FEL1D` | printing |
| `screen.*`, `snapshot.*`, `point_observer.*`, `mesh.*`, `observer.h` | `Model/Observers`, `Model/Mesh`, `Model/Parallel`, `Model/ObserverFiles`, `Model/MeshReports` | failures of HDF5/SDDS calls |
| `source_screen.*` | `Model/SourceScreen`, `Model/ObserverFiles` (reading), `Model/SourceFiles` (files written) | messages; all processes writing the same two files at once |
| `propagate.cpp`, `reflection.cpp` | `Model/Propagate`, `Model/MeshReports` | other printing |
| `parser.*` | `Model/Parser` | console output |
| `teufel_hybrid.cpp` | `Model/Hybrid`, `Model/Output`, `Model/Observers`, `Model/Program`, `Model/Faults`, `Model/Crash`, `Model/Main`, `Model/Nodes` | printing, timing, memory report |
| `global.*` | constants in `Model/Basic` | `current_time` |
| `pec_plate.*` | – | whole file: a stub whose field is zero and whose `update` does nothing |
| `tests/`, `examples/`, `scripts/`, `lib/` | – | test and example programs, notebooks, third-party libraries |

## Properties: what is modelled, how it is proved, outcome

`proved`: the statement of `properties.jsonl` for all inputs it quantifies over. `partial`: the theorem named `_partial` carries an extra hypothesis or restriction; where the code violates the property a theorem named `_full_statement_false` refutes the full statement with a concrete witness.

| id | property | model | method | outcome |
|---|---|---|---|---|
| C01 | Trajectory length bookkeeping | `Model/Particle`: the four trajectory vectors, NP, every public mutator | invariant preserved by every operation, induction over arbitrary operation lists; accessors decided by index range | proved |
| C02 | Vay tracker stays on the mass shell | `InitVay`, `StepVay` over ℝ with an arbitrary field function | the quadratic for γ² solved algebraically; induction over steps | proved |
| C03 | Magnetic fields do no work | Vay stepping with E=0 | Lagrange identity; induction over steps | proved |
| C04 | Force-free motion is uniform | Vay stepping with vanishing Lorentz force | algebra, induction over steps | proved |
| C05 | Equidistant trajectory sampling | `InitVay` followed by n times `StepVay` | induction, preservation of the stored prefix | proved |
| C06 | Particle state message round trip | `serialize` and the buffer constructor | round trip on the flattened list | proved |
| C07 | Full trajectory message round trip | `serializeTraj` and the trajectory constructor | round trip by induction on the trajectory; UB when there is no point | proved |
| C08 | Shifting a particle moves its whole history | `Shift` | exact effect per index; negation witness | partial: Proved for the current point and all recorded points except the last one. The code shifts indices 0..NP-2 only, so the last recorded point stays: C08_full_statement_false gives the witness, C08_last_point_stays proves it for every particle, C08_shift_lost_by_tracking shows that tracking then restarts from the unshifted point. |
| C09 | Mirroring a particle reflects its whole history | `Mirror` | exact effect per index, reflection geometry; negation witness | partial: Proved for the current point and all recorded points except the last one; the last recorded point and the momentum carried by the Vay integrator are not mirrored by the code (C09_last_point_stays, C09_carried_momentum_stays, C09_full_statement_false). |
| C10 | Coordinates at intermediate times | `CoordinatesAtTime` | bisection invariant, well-founded recursion | proved |
| C11 | Light-cone correctness and causality of the retarded field | `RetardedField(t,X)`: the three branches, bisection and secant search | branch analysis, bracketing invariant, convergence condition; two negation witnesses | partial: Proved: empty trajectory, observer after the end, continuation into the past for trajectories starting at t=0, interior points under a step-length condition or when the search converges. False in general: the continuation ignores the start time, and the secant search stops after 10 iterations (two full_statement_false theorems with witnesses). |
| C12 | Structure of the Lienard-Wiechert field | `RetardedField(index,X)` against the textbook formula of `Spec/LW` | algebra | proved |
| C13 | Signals arrive in emission order | `RetardedTime` on subluminal trajectories | triangle inequality; invariant of tracked particles | proved |
| C14 | Field recording never leaves the time window buffer | `integrateFieldTrace`: bucket loops with checked accesses | floor bounds on bucket indices | proved |
| C15 | Field recording conserves the time integral | `integrateFieldTrace` | telescoping sums over buckets and steps | proved |
| C16 | Field trace arithmetic and its guards | `FieldTrace` operators with their exceptions | list reasoning, exact failure conditions | proved |
| C17 | Field trace lookup by time | `get_time`, `get_field(time)` | floor arithmetic; negation witness | partial: Zero is returned at least one time step outside the trace; closer than one step the code extrapolates with a ramp (C17_ramps), so the documented zero outside is false (C17_outside_full_statement_false). The conversion of the sample index to an int is undefined 2^31 steps away from the trace (C17_lookup_undefined, C17_lookup_full_statement_false); C17_lookup_defined_partial: defined closer than that for traces of less than 2^31 samples. |
| C18 | Field trace derivative | `derivative` | algebra per index; negation witness for short traces | partial: The derivative is the documented finite difference, exact for quadratic traces; traces with fewer than two samples make the code read outside the trace (C18_short_trace_full_statement_false). |
| C19 | Field trace index guards and bulk access | `get_field`, `set_field`, `add`, `get_buffer`, `set_buffer` | list reasoning | proved |
| C20 | Removal of longitudinal fields | `cancel_long_fields` | frame algebra | proved |
| C21 | Retarded transfer between traces | `retard` | whole-step shift by induction over samples | proved |
| C22 | Lattice superposition | `Lattice`: list of field functions | refinement of the loop to a sum, permutation invariance, histories of add/remove | proved |
| C23 | Placement of localized fields | `LocalizedField` | algebra | proved |
| C24 | Hard-edge dipole region | `HardEdgeDipole::LocalField` | order reasoning | proved |
| C25 | Soft-edge dipole profile | `SoftEdgeDipole::LocalField` | arctan bounds and monotonicity | proved |
| C26 | Planar undulator field | `PlanarUndulator::LocalField` against `Spec/Maxwell` | derivatives of the closed forms, continuity at the joints, integrals | proved |
| C27 | Transverse gradient undulator field | `TransverseGradientUndulator::LocalField` | derivatives of the closed forms; negation witness | partial: Maxwell's equations hold for every gradient without modulation; with modulation the field has a divergence (C27_maxwell_full_statement_false). The field integrals are proved in both directions and for every offset (at least one period): zero without modulation, m*N*lambda/2 times the amplitude at the offset with modulation m. |
| C28 | Gaussian wave structure | `GaussianWave`, `GaussianWavePacket` | algebra, Gaussian integral for the power | proved |
| C29 | Distribution container guards | `Distribution` guards, buffers, `subDist` | list reasoning | proved |
| C30 | Linear correlations | `addCorrelation` of bunches and distributions, `scale` | loop invariant over particles | proved |
| C31 | Beam and bunch accounting | `Bunch`/`Beam` containers | invariant over operation lists (`Spec/BeamOps`) | proved |
| C32 | Beam step exchange | `bufferStep`/`setStepFromBuffer` | round trip by induction over bunches and particles | proved |
| C33 | Probe particle selection | `bufferProbe`: the round-robin loop with its indices | loop invariant; exact list of selected particles | proved |
| C34 | Bounded coordinate buffering | `bufferCoordinates` | list reasoning, size guard | proved |
| C35 | Particle distribution over nodes | node distribution of the hybrid program | chunking lemma for all particle and node numbers | proved |
| C36 | Distributed tracking equals serial tracking | tracking loop of `teufel_hybrid` on n nodes: state of every rank, broadcast, allgather, interactions | simulation relation between n-node run and serial run, induction over steps | proved |
| C37 | Radiation observation is independent of the node count | observation part of `teufel_hybrid`: per-rank integration and reduction | sums over ranks, additivity of every observer integration | proved |
| C38 | Lattice observation is independent of the node count | lattice observation on n nodes | closed form of the sum; negation witness | partial: Proved for one node; with n nodes the recorded field is n times the lattice field (C38_factor_partial), because every node integrates the lattice and all contributions are summed (C38_full_statement_false). |
| C39 | Observer buffer size and round trip | `getBufferSize`, `getBuffer`, `fromBuffer` of all four observers with 32-bit arithmetic | index arithmetic; negation witness | partial: Round trip proved for all observers whose buffer size fits into 32 bits; beyond that the size computation wraps around and the buffer is overrun (C39_overflow, C39_full_statement_false). |
| C40 | Thread schedule independence of observers | arbitrary interleavings of the cell updates of an OpenMP loop (`Model/Parallel`) | commutation of updates of distinct cells, induction over schedules | proved |
| C41 | Logger sampling | the three loggers, `update` in the tracking loop | induction over steps | proved |
| C42 | Watch points are written exactly once | watch points: schedule of the main loop, both file writers | induction over steps, list of written files | proved |
| C43 | Interaction fields are excluded from lattice observation | removal loop before lattice observation | list filter, index bookkeeping while erasing | proved |
| C44 | FEL field advances in lockstep with the beam | FEL `init`/`step` called by the main loop | invariant over runs | proved |
| C45 | FEL vacuum propagation | `FEL_1D::step` without current | linear recurrences; exact evolution of every cell | proved |
| C46 | FEL index safety | index computations of `init`, `step`, `Field` with checked accesses | rounding bounds; negation witness | partial: init and step proved for all inputs. Field: proved for positions whose distance to the head in cells fits an int; the conversion precedes the range check, so farther positions are undefined (C46_Field_full_statement_false). Grids with fewer than two cells are accepted but overrun (C46_small_grid). |
| C47 | FEL output storage | output storage of `init`/`step` | invariant over steps; negation witness | partial: Records are exact for all steps but the first: the step done by init is never recorded (C47_records_full_statement_false). Without a log node the output step is uninitialised (C47_no_log). |
| C48 | FEL linear superposition | `FEL_1D::step` | linearity of the recurrence, induction over steps | proved |
| C49 | Default FEL field is a plane wave | `Field` after construction | algebra; negation witness for the other constructor | partial: Proved for interactions created from the input file; the other constructor leaves the magnetic field zero (C49_full_statement_false). |
| C50 | Source screen grid is orthogonal | `SourceScreen` constructor geometry | algebra; negation witness | partial: The two grid directions need not be orthogonal: they are for 1 m cells or when the projections of the given directions are orthogonal; C50_full_statement_false gives a counterexample. |
| C51 | Source screen fields are given in the laboratory frame | `SourceScreen::LocalField`, `totalEnergy` | frame algebra; negation witnesses | partial: Field components in the file are projections on the screen's own axes, laboratory components only for aligned screens (C51_aligned); the energy is right only for the normal (0,0,-1), in general it carries the factor -n.z. |
| C52 | Perfect conductor boundary conditions | surface source construction in `reflection.cpp` | algebra | proved |
| C53 | Normal derivatives from Maxwell's equations | normal derivative computation in `propagate.cpp`/`reflection.cpp` | algebra with Maxwell equations of `Spec/Maxwell`; least-squares solver by its specification | proved |
| C54 | Screen-to-screen propagation sums all contributions | the propagation loop over source cells with skipped terms | fold over cells against the Kirchhoff sum of `Spec/Kirchhoff`; negation witness | partial: C54_exactly, C54_screen_exactly: what is computed for every target cell, without restriction (Kirchhoff's sum without the traces the energy flow of which vanishes). The sum of all contributions follows (C54_propagated_partial, C54_screen_partial) if no retarded trace has vanishing energy flow without vanishing itself; C54_full_statement_false shows that it does not hold otherwise. |
| C55 | Command line validation of the propagation tools | argument checks of both mains | decision logic; negation witness | partial: reflection checks for all three arguments; propagate accepts argc==3 and then constructs a string from the null pointer argv[3] (C55_full_statement_false). |
| C56 | Mesh cell frames | `MeshedScreen::init` | frame algebra, exact criterion; negation witness | partial: Areas, normals and frames are proved for all meshes except those whose average normal is close to the negative y axis; there the comparison without fabs picks an axis parallel to the normals and the frame is NaN (C56_full_statement_false). C56_frame_iff is the exact criterion. |
| C57 | Mesh neighbourhood | `get_Neighbourhood` | list filter; negation witness (fan of 25 triangles) | partial: The returned list is exactly the set of touching cells; it fits the buffer iff there are at most as many as the buffer has room for. The fixed buffer of 24 is overrun by a fan of 25 triangles (C57_full_statement_false). |
| C58 | Mesh time step query | `get_dt` returning `int` | truncation; negation witness | partial: get_dt returns the time step truncated to an int, so it is right only for integral time steps (C58_full_statement_false: for every step between 0 and 1 s it returns 0). |
| C59 | Mesh energy balance | `totalEnergy` | sums over cells | proved |
| C60 | Input file acceptance | `InputParser`: lattice, beam, tracking, observers on XML trees | fold over the document with calculator state against the declarative reading of `Spec/Input` | proved |
| C61 | Calculator variables | `parseCalc`, `parseDouble`; `Props/InputValues` | environment invariant over the document | proved |
| C62 | Beam export can be re-imported | SDDS writer and reader as records | evaluation of writer then reader; negation witness | partial: The property fails: the count is written as NumberOfParticles and read as Particles, so every re-import gives an empty bunch (C62_reimport_empty, C62_full_statement_false). C62_renamed_partial: with the name corrected the count agrees but the charge is multiplied by -e. The export of single bunches is modelled as well: its particle count and rows are stated by C62_bunch_file, and C62_bunch_reimport_empty shows that its file cannot be re-imported as more than an empty bunch either. C62_beam_columns and C62_bunch_columns state which quantity is found under which column name. |
| C63 | SDDS import geometry | SDDS import geometry | frame algebra; negation witness | partial: x is in the x-z plane only for horizontal beams (C63_horizontal); in general it is not (C63_full_statement_false), and the frame is left-handed (C63_left_handed). Everything else of the property is proved for all files and directions. |
| C64 | Beam input conserves charge and energy | `parseBeam` particle and bunch entries | composition of parser and bunch constructor; negation witness | partial: Proved for non-zero charge and non-zero charge-to-mass ratio (and, for particles, a non-zero direction): charge, charge-to-mass ratio, Lorentz factor, start time and phase space coordinates including correlations. The full statement is refuted: a particle of charge 0 has an undefined charge-to-mass ratio. |
| C65 | Snapshot grid and particle positions | `SnapshotObserver` grid and particle positions | algebra, list lengths | proved |
| C66 | Screen grid geometry | `ScreenObserver` constructor | algebra | proved |
| C67 | Vector and frame algebra | `Vector` | algebra | proved |
| C68 | Radiation fields follow from the true acceleration | acceleration stored by `StepVay` used by `RetardedField` | algebra; negation witness | partial: Proved for accelerations perpendicular to the velocity; the code uses (d(beta gamma)/dt)/gamma as velocity derivative, which is wrong for longitudinal components (C68_full_statement_false). |
| C69 | Bunch statistics | `avg*`, `rms*`, `delta`, `BunchingFactor` | refinement of the loops to finite sums | proved |
| C70 | Probe log does not depend on the number of nodes | probe logger in the n-node run | simulation with the one-node run; negation witness | partial: Proved for requests of no more particles than the first node tracks (all output of the run is that of a run on one node). Refuted otherwise: the probe logger only sees the particles tracked by the first node, so a log of three particles contains two of them when there are two nodes. |
| C71 | FEL current deposition conserves the current | current deposition loop of `FEL_1D::step` | Poisson summation for the Gaussian, window bounds; negation witness | partial: Proved (Poisson summation) for particles at least ten cells away from both ends of the grid. Refuted near the ends: the part of the Gaussian outside the grid is lost; at least 15 percent for a particle at the head. Particles outside the grid end the step with an exception. |
| C72 | Source screen file validation | `SourceScreen` constructor on arbitrary files | exact acceptance condition | partial: Refuted for files with a single sample per cell (C72_full_statement_false). C72_exactly: which of the files with all attributes are usable; C72_accepts_partial, C72_rejects. |
| C73 | Mesh file round trip | `MeshedScreen` reader and writer | round trip | proved |
| C74 | Bunches created from distributions | `Bunch(Distribution…)` | list reasoning | proved |
| C75 | Definitions are read once and first | position of `calc` entries | evaluation of witness documents; congruence of the parser in the top-level definitions | partial: Refuted: the position of calc entries matters inside sections, and calc children of undulators and dipoles are evaluated twice. Proved: definitions at the top level are known everywhere in the sections. |
| C76 | FEL initial field | `FEL_1D` constructor from the input, `setup`, `seed` | composition of loops; list of cells | proved: From the input entry as the calculator returns it; seeds with zero wavelength or duration give NaN and are excluded by the constructor having succeeded. |
| C77 | Propagation programs as a whole | the two propagation mains with an abstract file system | composition of C52, C53, C54, C73 | partial: Proved for files, inputs and target fields. C77_result_exactly: what is written for every cell, without restriction (Kirchhoff's sum without the traces the energy flow of which vanishes); C77_result_partial: all contributions, if no retarded trace has vanishing energy flow without vanishing itself; C77_full_statement_false. The least-squares solver is a parameter. |
| C78 | FEL output file | `FEL_1D::write_output` | induction over steps, list of rows; negation witness | partial: Proved for every interval of two or more steps. Refuted for interval 1 (the default): the first step is never recorded, so row k>=1 is the field after k+1 steps and there are n rows (C78_every_step). |
| C79 | Observer output files | the file writers of screen, snapshot and point observers | row-major index lemmas over nested loops; composition with the reachability of observers | proved: Screen, snapshot and point observer after any history, for grids whose buffers fit into 32 bits; beyond that the screen's writer overruns its buffer (C79_screen_overflow). Mesh files are covered by C73. Failures of HDF5/SDDS calls are not modelled. |
| C80 | Recorded screens can be used as sources | reader part of the `SourceScreen` constructor on the written file | composition of C79, C50, C51, C72; negation witness | partial: Proved for screens with perpendicular pitch vectors. Refuted otherwise: the source screen turns the second pitch vector (and by a formula that mixes lengths), so cells move. |
| C81 | Logger output files | `WriteData` of the three loggers, `Model/Program` | history lemma over the run (C41), row-major index lemmas; negation witness | partial: Proved for parameter loggers without restriction and for trajectory and probe loggers whose files hold fewer than 2^32 numbers. Refuted beyond: the buffer size is computed with 32-bit numbers and the writer overruns it (C81_trajectory_overflow, C81_probe_overflow). |
| C82 | The output of the program does not depend on the number of nodes | the program from document to files, `Model/Program`: parsing on every node, tracking, loggers, observation, writing | simulation of the n-node run by the one-node run (C36), random numbers do not change the structure of what is parsed, observers agree (C37); negation witness | partial: Proved for documents whose observers observe the beam and whose probe log has no more particles than the first node tracks. Refuted for observers of the lattice: the file holds the field times the number of nodes (see C38). For larger probe logs see C70. |
| C83 | Contents of the observation files of a run | `Model/Program`; `Shows` in `Spec/Program` says where a sample stands in each kind of file | composition of C36, C88 (`tracked_alone`, `run_together`), C37, C38, C73, C79 along the parts of a successful run | partial: Names and order proved without restriction. Contents for observers of the beam: C83_coupled_partial with interactions (particles of the serial calculation Coupled.after), C83_observers_partial without (each particle moved alone). For observers of the lattice the theorem shows what is actually written, the field times the number of nodes; the intended statement is refuted for more than one node (C38, C82_full_statement_false). C83_full_statement_false. |
| C84 | Names and order of the files of a run | `Model/Program` | induction over the steps for the watch files; interactions and loggers keep their number; one file per observer (C83) | proved: For every document for which the program succeeds. Whether a file with an existing name is replaced is left to the file system. |
| C85 | Contents of the watch point and log files of a run | `Model/Program`, `Model/Beam`; `AllAfter`/`AfterSteps` describe particles moved alone | composition of C36, C88 (`master_current`, `run_together`), C42, C81 along the parts of a successful run; records depend only on the current points (`SamePoint`) | partial: Watch points (HDF5 and SDDS), parameter logs, trajectory logs (files of 2^32 numbers or more make the run fail), with interactions (…_coupled) and in terms of particles moved alone without them. The parameter Charge of SDDS watch files is the total charge multiplied by the elementary charge once more: the statement with the charge in Coulomb is refuted (C85_full_statement_false). |
| C86 | Valid inputs run to completion | `Model/Program`; `ObserverFits`, `LogFits`, `ProbeFits` in Props/ProgramRuns and Props/ProgramComplete say what observers and logs need | progress lemma over the steps (`coupled_progress`) with the invariant that all loggers are usable; interactions: `C88_stays_on_grid` and files by C76; the field of every particle exists by C11, C14 (`C11_defined`, `C14_no_index_error`), coordinates by C10; files by C79, C81, C73 | proved: C86_complete is the statement; C86_coupled replaces the static conditions on interactions by success of the serial calculation; C86_without_interactions and C86_runs are simpler forms with fewer conditions on times. Conditions on sizes: LogFits, ProbeFits, ObserverFits. |
| C87 | An output file which cannot be created costs only itself | `Model/Faults` (the program on a file system where a predicate says which files can be created) | simulation of the program without faults, stage by stage; loggers keep their kind during the run | partial: Proved if trajectory, probe and interaction logs can be created (others may fail). The full statement is false: an exception of such a log ends the program (`C87_stops`, `C87_stops_probe` and `C87_stops_interaction` say exactly what is written then). |
| C88 | Particles and interactions advance together | `Model/Hybrid`, `Model/Program` (`FELProgram.run`); the serial calculation is `Coupled.after` in `Spec/Coupled` | refinement: the distributed run equals a reference run with one beam (`runSteps_abs`), which keeps the invariant `Together` with the serial calculation; particles are slower than light and grids move with light, so a particle falls back by less than two cells per step (`C88_stays_on_grid`) | proved: Serial calculation: Coupled.after in Spec/Coupled. C88_succeeds is for output objects that do not fail; C88_stays_on_grid gives conditions on the input under which the serial calculation succeeds. |
| C89 | Rounding errors do not separate the clocks | `Model/Rounded` (clocks and comparisons with a rounding function), `Spec/Rounding` (rounding functions, binary64) | induction on the accumulated error; witness by induction inside one binade, using ties to even | partial: C89_no_mismatch_partial: up to n^2 u <= 1/8 (2^25 steps in double precision, C89_double). Refuted beyond: with a time step of 1+2^-27 s a run of 2^27-1 steps is stopped (C89_full_statement_false). Particles starting at time zero. |
| C90 | Field recording in floating point arithmetic | `Model/Rounded` (index decisions of integrateFieldTrace with a rounding function) | error bounds of the window ends and of the quotient; witness evaluated exactly as fractions | partial: C90_record_partial: retarded times at least 8u(\|t0\|+N dt) away from both ends of the trace. C90_record_exact_partial: the same in terms of exact arrival times (C90_arrival bounds the error of the computed ones). Refuted in general by a concrete double precision case (C90_full_statement_false); C90_overflow: the conversion to int precedes the comparison with the length. |
| C91 | The schedule of the nodes does not matter | `Model/MPI` (nodes, collective operations, interleavings), `Model/Nodes` (the program of one node) | one-step confluence of the interleaving semantics, termination by a multiset order, and a lockstep execution which follows `Lib.program` | proved: Nodes as concurrent processes with all collective operations of main in their places (Model/MPI, Model/Nodes); C91_every_schedule and C91_completes for inputs the lockstep program accepts, C91_failure for the others, C91_ends for all. |
| C92 | Tracked trajectories converge to the exact motion with second order | `Spec/Motion` (equation of motion), `Model/Particle` (InitVay, StepVay) | each half step is implicit in the momentum at its end (`vay_implicit`); central differences by the mean value theorem (`Lemmas/Taylor`); discrete Gronwall estimate by induction over the steps (`Lemmas/Gronwall`) | proved: Exact arithmetic. The exact motion (Spec/Motion) is given as differentiable functions with a smooth momentum; C118 proves that it exists and is unique in fields without jumps. C92_second_order gives the order, C92_converges the limit; the example is an electron circulating in a uniform magnetic field. |
| C93 | The recorded field converges to the Lienard-Wiechert field of the exact motion | `Spec/Radiation` (arrival time, exact signal), `Spec/LW`, `Model/Retarded` (recording) | C92 for the stored points; the field formula preserves closeness and first order expansions (`Lemmas/FunAlg`); the piecewise linear signal of C15 is within O(h²) of the exact one at every time and its steps telescope over the sample (`Lemmas/Signal`, `Lemmas/Radiate`) | proved: Exact arithmetic; existence of the exact motion is a hypothesis (as in C92), existence of the exact signal at the observer is proved (C93_signal). C93_second_order and C93_converges are for magnetic fields, where the acceleration used by the code is the true one (C68); C93_limit gives the limit in all fields. The particle has no stored history before the start of the tracking. |
| C94 | The files of a run converge to the exact solution | `Spec/Charges` (exact motion of the particles of a beam), the whole program (`Model/Program`) | C83 and C85 reduce the files to single particles tracked alone through the lattice; C92 and C93 compare these with the exact motion; common constants for finitely many particles; sums over the particles | proved: Exact arithmetic, no interactions; the exact motion of each particle is a hypothesis (Charge.Moves), as in C92 and C93. Observers: magnetic fields (C68), traces of at least two samples; snapshots are not covered. The example runs the program for all small time steps on any number of nodes. |
| C95 | The exit status tells the caller whether the run succeeded | `Model/Main` (command line and exit status around `Model/Faults`) | case analysis; with a file system without faults the program with files equals the program (`programOn_all`); negation witness from C87 | partial: C95_status_partial: file systems on which all files can be created. C95_full_statement_false: a parameter log that cannot be created is lost with exit status 0 (see C87 for what is written then). |
| C96 | Snapshots of the radiated field converge to the field of the exact motion | `Model/Retarded` (field at a time by bisection and interpolation), program as C94 | interpolation errors of the tracked trajectory (C92) at the emission time, which lies in the interval found by the bisection; Lipschitz bounds of the Lienard-Wiechert field; sum over particles as in C94 | proved: C96_limit (also electric fields, limit expressed by the acceleration the code stores: rate of momentum over gamma), C96_second_order (magnetic fields: the exact Lienard-Wiechert field), C96_snapshots (files of a run). |
| C97 | Tracking and radiation do not depend on the choice of the coordinate system | `Spec/Frame` (coordinate systems) with `Model/Particle`, `Model/Retarded`, `Model/Observers` | every operation on vectors commutes with orthogonal maps (cross products up to the handedness); induction over steps, particles, intervals, cells | proved: C97_reading, C97_particle, C97_beam, C97_signal, C97_point, C97_screen, C97_mesh. |
| C98 | The field at a given time does not depend on the choice of the coordinate system | as C97, with `RetardedFieldAt` | as C97 for interpolated sources; witness: a charge moving at constant velocity, seen in two systems with different zero of time | partial: C98_snapshot_partial, C98_particle_partial: zero of time kept, or first signals arrived. C98_full_statement_false: before the first signal the charge is extrapolated backwards with the absolute time of observation instead of the time since the start of the trajectory (src/particle.cpp:652), so the field depends on the zero of time. |
| C99 | A plane orbit stays in its plane and radiates linearly polarised light into it | `Spec/Plane` with `Model/Particle`, `Model/Retarded`, `Model/Elements`, `Model/FEL1D`, `Model/Program` | closure of vectors along and perpendicular to the plane under the operations of the code; invariants of the folds; coupled tracking of C83 for files | proved: C99_motion, C99_polarisation, C99_snapshot, C99_lattice, C99_interaction, C99_files. |
| C100 | The energy of tracked particles changes by the work of the electric field | `Spec/Energy` (energy in Joule, potentials, constants of the SI) with `Model/Particle` | derivative of the relativistic factor along the exact motion, convergence of momenta and positions (C92), mean value theorem for the potential | proved: C100_constants (constants of Spec/Energy), C100_work, C100_energy; C100_homogeneous gives the potential of homogeneous fields. Exact arithmetic; the exact motion is a hypothesis as in C92. |
| C101 | Rounding errors do not spoil the tracked trajectory | `Model/RoundedVay` (every operation of the tracker rounded), `Spec/Rounding`, `Spec/Computed` (fields with rounding errors) | calculus of relative errors of families (`Lemmas/Appr`) gives the defect of one step; induction over the steps with the exact motion, as C92 | proved: C101_rounded_tracking (error bound, no undefined operation), C101_precision (convergence), C101_clock_stops (the term u/h is needed), C101_without_rounding (same tracker as C92). No overflow and underflow; computed fields are a hypothesis (Spec/Computed), discharged for lattices of magnets by C129. |
| C102 | Files written by a source screen | `Model/SourceFiles` (end of the constructor, `WriteField`, `getBuffer`) | content of the buffer by induction over the three loops as C70; reloading by equality of all stored traces | partial: C102_debug_files gives the content of both files, C102_not_creatable the failure. Using the file as input: C102_reload_partial for screens along the axes x and y; false for other orientations (C102_full_statement_false): the file contains components along the directions of the screen and reading it projects them again. |
| C103 | Requests for output do not disturb the simulation | `Model/Parser`, `Model/Program`, `Model/Output`, `Model/Hybrid`; `Spec/Requests` (removal of requests) | simulation relation between the two runs: parser states, nodes equal, output objects a sublist; induction over entries and time steps | proved: Fewer (Spec/Requests) says which requests may be removed; observers containing definitions of variables are kept because later entries may use the variables. Which files remain follows from C84_names. The model has no memory corruption and no exhaustion of resources by output. |
| C104 | Macro-particles may be divided | `Model/Particle`, `Model/Retarded`, `Model/FEL1D`, `Model/Program`; `Spec/Shares` (divided macro-particles), `Spec/Coupled` | tracking and observation commute with a common factor of charge and mass; deposition in the cells is additive in the charge; induction over the time steps of the serial calculation; then C83 and C88 for the files | proved: Divided (Spec/Shares) says how the macro-particles of two beams correspond; a part may have any non-zero share, also a negative one. Logged bunch statistics are not covered: they count macro-particles without regard to their charge (C69), so they do change when only some macro-particles are divided. |
| C105 | Motion in a planar undulator | `Model/Elements`, `Model/Particle`; `Spec/Undulator` (textbook formulas), `Spec/Motion` | canonical momentum is constant; the exact motion is constructed from a separable equation; its momentum has a Lipschitz second derivative because the corners of the envelope are zeros of the sine; then C92 | proved: C105_tracked and C105_no_net_deflection have no hypothesis about an exact motion: its existence and smoothness are proved (Und.exists_motion). swing (Spec/Undulator) describes the oscillation including the matching periods, C105_shape says what it looks like. The matching periods are covered in the midplane only, because above it their field is not free of divergence. |
| C106 | Resonance condition of undulator radiation | `Model/Elements`, `Model/Particle`; `Spec/Undulator` (`resonantWavelength`, `slip`) | c t - z - slip(z)/(2 gamma^2) is monotone along the exact motion of C105, with bounds for 1/sqrt(1-u); then C92 | proved: C106_tracked is end to end (the exact motion is constructed in the proof), C106_resonance is the statement for exact motions over whole periods, C106_wavelength connects the two. |
| C107 | The interaction field is radiated by the beam | `Model/FEL1D`; `Spec/Wave` (wave equation on the grid), `Spec/LW` | recurrence of the cells solved in closed form with alternating sums, by induction over the steps; bound by summation by parts; negation witness: one particle | partial: Refuted (C107_full_statement_false). C107_computed: the source of the equation the code solves is the difference of the deposited currents of two consecutive steps at the same place, with a plus sign. C107_solution: closed form of the field for all runs starting without field. C107_vanishes: after a given time the field is proportional to the time step. C107_opposite: the field of an accelerated charge points opposite to its Lienard-Wiechert field. |
| C108 | Motion in homogeneous fields | `Model/Elements`, `Model/Particle`, `Model/Program`; `Spec/Helix` (rotation about an axis), `Spec/Motion` | a step of the algorithm is a rotation about the field by 2 arctan(omega h/2) (Cayley transform); induction over the steps; bounds for arctan; the true motion by uniqueness of the equations of motion; watch points through C85 | proved: C108_helix: every motion in a homogeneous magnetic field is the helix; C108_exists: it exists for all starting points; C108_on_orbit: the stored points; C108_watches: the files of the program; C108_electric: the homogeneous electric field (momenta). |
| C109 | Tracked motion can be run backwards | `Model/Particle`; `Spec/Reversal` (time-reversed field) | the solution of the implicit equation of the step is unique, and the reversed data solve it; induction over the steps | proved: C109_retraced; in real arithmetic. |
| C110 | The numbers reported for Gaussian waves are true | `Model/Elements`, `Model/Reports`; `Spec/Paraxial` (power through a plane) | Gaussian integral over the plane and mean over a period; constants compared by C100 | proved: C110_reported; the power agrees within 1e-9 because the code uses decimal values for both vacuum constants. |
| C111 | Gaussian waves obey the paraxial wave equation | `Model/Elements`; `Spec/Paraxial` (amplitude, paraxial equation) | derivatives of the textbook beam; uniqueness of the amplitude; negation in the waist on the axis | partial: Refuted (C111_full_statement_false; C111_never: for no Gaussian wave at all). C111_paraxial_partial: the amplitude times exp(i arctan(z/zR)) obeys the equation, i.e. the Gouy phase is missing. |
| C112 | Reports on meshed screens | `Model/Mesh`, `Model/MeshReports` | induction over the cells: the best cell so far is the first largest | proved: C112_report, C112_flow. |
| C113 | The bounding box of a screen contains all samples | `Model/Mesh`, `Model/MeshReports` | induction over the cells with smallest/largest values so far; negation witness: one cell, two samples | partial: Refuted (C113_full_statement_false): get_dt() returns an int, so the box ends at the latest start time. C113_box_partial: positions, start of the time range, whole-second time steps. |
| C114 | The radiated field obeys Maxwell's equations | `Model/Particle`; `Spec/Radiation`, `Spec/LW`, `Spec/Propagate` (Maxwell) | implicit function theorem for the retarded time; derivatives of the Liénard-Wiechert field; four rational identities; convergence by C96. This also validates `Spec/LW` | proved: C114_limit (existence of the limit field, Maxwell, second order convergence), C114_radiation, C114_beam (superposition), C114_field_exists (uniqueness), C114_before_start (exact). |
| C115 | The field of particles in uniform motion is Coulomb's, seen from a moving frame | `Model/Particle`; `Spec/Uniform` (Coulomb, boost, flux) | Heaviside form of the boosted field, Liénard-Wiechert field without acceleration about the present position; explicit primitive for the flux; C96 | proved: C115_before_start (exact), C115_gauss (flux through all spheres), C115_tracked (second order convergence after the start). |
| C116 | The number of nodes changes recorded fields by rounding errors only | `Model/RoundedSum` (rounded accumulation, `MPI_Reduce` as a relation: any order, any bracketing); `Spec/RoundedSum` | Induction over the tree of additions; rounding bound of each addition; permutation of the contributions | proved: C116_sum (error bound), C116_nodes_agree and C116_double (two runs), C116_not_identical (runs on one and two nodes that differ), C116_exact_reduce, C116_exact_node and C116_exact_recorded (without rounding the model is the one of the other claims). How the contributions of a particle are computed in rounded arithmetic is not modelled: they are arbitrary functions of the particle. |
| C117 | The reported field carries the power of Lienard's formula | `Model/Retarded`; `Spec/Lienard` (energy flux through a sphere, Lienard formula) | Poynting vector of the Lienard-Wiechert field in powers of 1/R; integral over the azimuth, explicit primitive over the polar angle; limit | partial: The power agrees with the formula evaluated with the stored acceleration divided by gamma (C117_power_partial), hence with the true one for transverse acceleration (C117_transverse), in particular for all particles tracked in magnetic fields (C117_magnetic_tracking). For acceleration along the velocity it is too large by gamma^4 (C117_longitudinal, C117_full_statement_false). The factor eps0 mu0 c^2 is 1 within 1e-9 (C117_constants). |
| C118 | Tracking converges in every beam line without hard edges | `Spec/Regular` (fields without jumps), `Spec/Motion`, `Model/Elements`, `Model/Fields` (Lattice), `Model/Particle` | cut-off of the field, Picard-Lindelöf and Gronwall from Mathlib for existence and uniqueness (`Lemmas/Existence`); local Lipschitz continuity of each element (`Lemmas/Regular`); the estimate of C92 with Taylor remainders of first order | proved: Exact arithmetic. C118_lattice: the fields of these lattices are Lipschitz continuous in bounded regions (undulators with a period or a number of periods that is not negative); C118_motion_exists, C118_motion_unique, C118_first_order hold in all such fields. Hard-edge dipoles, whose fields jump, are the subject of C120. Order two holds where the exact motion is smooth (C92). |
| C119 | The files of runs in beam lines without hard edges converge to the exact solution | as C94 and C118 | the chain of C93 and C94 with the size of the errors as a parameter; momentum and its rate of change are Lipschitz continuous by C118, hence so are arrival times and fields (`Lemmas/RadiateLip`); signal reconstruction with first-order nodes (`Lemmas/Signal`) | proved: Exact arithmetic. Extends C93 and C94, which need a smooth momentum, to motions with kinks; the order of convergence is one instead of two. C119_limit says what the samples converge to where there are electric fields. Hard-edge dipoles are the subject of C120. The example is a run with a particle entering an undulator; its exact motion comes from C118. |
| C120 | Tracking through the edges of hard-edge dipoles converges to the exact motion | as C94 and C118, with `Spec/Edges`: the faces of a lattice and the motion in a field that jumps at them | one step error is O(h²) away from the faces and O(h) in a zone of width O(h) around a crossing, which takes a bounded number of steps (`Lemmas/EdgeStep`, `EdgeZone`); every point of time has a vicinity through which the error is carried, and a supremum argument covers the whole motion (`Lemmas/EdgeCross`, `EdgePath`) | proved: Exact arithmetic. Extends C118 and the watch files and logs of C119 to lattices with hard-edge dipoles. A motion that touches a face tangentially is excluded: there the exact motion need not depend continuously on the start. The plane of a face counts as a face over its whole extent, also where the other face already cuts the field off. Files of observers are the subject of C121. Examples: an electron flying into a dipole and circulating in it, and a run of the program with a particle starting on the entrance face. |
| C121 | The radiation recorded from particles passing hard-edge dipoles converges to the exact field | as C93 and C120 | the acceleration stored at a node is that of the exact motion up to O(h) unless a face is passed within O(h) of it (`Lemmas/EdgeJump`, `EdgeSignal`); the sum of interpolated integrals differs from the integral of the exact, piecewise Lipschitz signal by O(h), the nodes near the jumps contributing their bounded values over an interval of length O(h) (`Lemmas/SignalJump`) | proved: Exact arithmetic. Extends C93 and the observer files of C119 to lattices with hard-edge dipoles, with the faces, motions and exclusions of C120. With electric fields on the way the samples converge to the field formula with dp/dt over gamma in place of the acceleration (C121_limit), which is the program's own formula and not the exact field. Examples: an electron flying into a dipole, and a run of the program with a particle starting on the entrance face. |
| C122 | Contents of the probe file of a run | as C81 and C85 (coupled runs) | induction over the steps of the coupled system: after every step each particle stores the field it has just felt and the acceleration computed from it (`after_feels`); the particles of the first node are the first of the beam (`first_node`); C81 for the file | proved: Exact arithmetic. With interactions the acting field is that of the interaction state before the step (Coupled.Acting); without them it is the field of the lattice (C122_lattice_field). A file of 2^32 numbers or more makes the run fail (C81_probe_overflow), so the theorem needs no size condition. Example: the probe file of a particle in a homogeneous electric field on three nodes. |
| C123 | Files of a run which is interrupted or fails | the program as a sequence of writes (`Model/Crash`): results of all parts together with the files written on the way, also by parts which fail | erasing the writes gives the program (`C123_complete`); induction over the steps: the files of the steps done are those of C42, the ones of a step in progress come from the beam before the interactions are advanced (`start_beam`, `step_beam`) | proved: Exact arithmetic; a single file is written at once (the HDF5 and SDDS libraries are not modelled), all files can be created (C87 treats the other case). The total charge in SDDS files is left open here (C85). Example: an interaction whose log has step size 0 stops the program in its first step; the watch point at step 0 is on the disk and nothing else. |
| C124 | A longer run continues a shorter one | the program (`Model/Program`), input documents which differ in the attribute `n` of `<tracking>` (`Spec/LongerRun`) | the attribute has no influence on anything else which is read (`parse_other`); the contents of the files are functions of the particles after the steps in question (C85, C122); trajectories only grow (`after_begins`), so that signals of the common part are the same and later ones arrive too late for the sample (C13, C15); for snapshots the bisection finds the same step of both trajectories because the signals arrive in order (`field_begins`) | proved: Exact arithmetic. For recorded radiation the time steps are positive and (except for snapshots) no particle hits the observer. The random numbers of the first node are the same in both runs. Example: one and two steps of a free particle with watch point, log, probe, observer and snapshot on different numbers of nodes. |
| C125 | A beam may be simulated in parts | the program (`Model/Program`), input documents which split the entries of `<beam>` (`Spec/Parts`) | plain entries leave the definitions alone and add the same bunch wherever they stand (`step_plain`, `parse_parts`); without interactions particles are tracked one by one (`coupled_alone`), and samples are sums over particles (C83), rows a list of particles (C85) | proved: Exact arithmetic. All three runs succeed. Bunches created from random numbers are left out, because their coordinates depend on the position of the entry in the file. Example: two particles on five nodes, and each of them alone on three nodes or on one. |
| C126 | The order of the elements of the lattice does not matter | the program (`Model/Program`), input documents with another order of the lattice (`Spec/Order`) | without definitions every element is read in the same environment, so the lattices are permutations (`parse_order`) with the same field (C22); by induction on the steps the coupled calculation of lattice, beam and interactions is the same (`after_extends`); files by C83, C85 and C88 | proved: Exact arithmetic: the sums over the elements are equal, not their roundings. Both runs succeed. Elements with definitions are left out, because a definition may be used by the elements behind it. Example: an electric and a magnetic background in either order, on five and on three nodes. |
| C127 | Only the product of charge and field matters for the motion | tracking and radiation of a particle, the program (`Model/Particle`, `Model/Retarded`, `Model/Program`) | the Vay algorithm uses charge and field as a product only (`step_recharge`, `init_recharge`), induction on the steps; the Lienard-Wiechert field is proportional to the charge (C104); files by C83 and C85 | proved: Exact arithmetic. Without interactions, which are not scaled by the same factor as the lattice. For the files both runs succeed. Example: a particle in a field of 2 V/m on five nodes, and one of twice the charge in 1 V/m on three nodes. |
| C128 | Scaling laws of beams with interactions | FEL interactions, tracking, the program (`Model/FEL1D`, `Model/Particle`, `Model/Program`) | every operation of the interaction is linear in field and current, and the current is charge over mode area (`deposit_rescale`, `step_rescale`); the motion by the lemmas of C104 and C127, induction on the steps; files by C83, C85 and C88 | proved: Exact arithmetic. For the files both runs succeed, and the relation of charges, masses, lattices and interactions is stated for what is read from the input files. Example: a particle in 2 V/m on five nodes and one of twice the charge in 1 V/m on three nodes with an interaction of twice the width. |
| C129 | Rounding errors of fields and of the whole tracking | the fields of these elements and their sum, every operation rounded (`Model/RoundedElements`) | calculus of approximations (`Lemmas/Appr`), extended by functions of the library, by switches between formulas that agree at the switch and by gates where the value vanishes (`Lemmas/RoundedElements`); induction on the lattice; tracking by C101 and C118 | proved: No overflow, underflow or fused multiply-add, as in C89, C90 and C101. The accuracy of sin, cos, sinh, cosh and atan is a hypothesis; waves and hard-edge dipoles are not in this rounded model (the latter have jumps, so rounding may matter there). C129_tracking discharges the hypothesis of C101 about the computed field. With exact arithmetic the rounded model is the exact one (C129_exact). |
| C130 | Rounded tracking through beam lines converges | the rounded tracker (`Model/RoundedVay`) and the rounded fields (`Model/RoundedElements`) | the run estimate of C101 with the bounds of the motion in a regular field of C118, which grow like 1/h for half steps of at least h/2; fields by C129 | proved: Removes the assumption of a smooth motion from C101 and C129, at the price of one order in the time step (C118 does the same for exact arithmetic). No overflow, underflow or fused multiply-add; the accuracy of the mathematical library is a hypothesis. The constants are not computed. |
| C131 | Rounding errors of hard-edge dipoles | `HardEdgeDipole::LocalField` with every operation rounded (`Model/RoundedDipole`) | calculus of approximations for the distances from the planes; rounding preserves signs; counterexample from the rounded square of 1 + 2^(1-p) | partial: C131_away_partial: the computed field is exactly the exact one everywhere except possibly within a constant times the unit roundoff from the limiting planes. C131_axis_partial: no exception if the planes are perpendicular to coordinate axes. C131_values: it is always the full field or zero. Refuted for tilted planes with any number of digits (C131_full_statement_false). So the bound of C129, an error of the order of the unit roundoff everywhere, cannot hold for lattices with hard-edge dipoles. No overflow, underflow or fused multiply-add. |
| C132 | Magnetic fields do no work, up to rounding | `Rounded.InitVay`, `Rounded.StepVay` (`Model/RoundedVay`) | rounding error of one step from C101; the exact step keeps the momentum (C03); induction over the steps | proved: C132_no_work: the rounded version of C03, for arbitrary magnetic fields, which need not be continuous; the constants depend only on the charge-to-mass ratio and bounds of momentum, field and region. C132_magnets and C132_hardEdge: in the fields of lattices and hard-edge dipoles as computed with rounding. Time steps up to one second; the number of steps times the unit roundoff must be below a constant. No overflow or underflow. |
| C133 | Slower than light in spite of rounding | `Rounded.InitVay`, `Rounded.StepVay` (`Model/RoundedVay`) | rounding error of one step from C101; bounded momentum keeps a margin to the speed of light; induction over the steps | proved: The rounded version of C02 and C05. The bound of the unit roundoff depends only on the charge-to-mass ratio, bounds of start position, momentum and fields, and the duration of the run. The fields need not be continuous. Time steps up to one second. No overflow or underflow. C133_unbounded_momentum_false: with any number of digits there is a particle so fast that it moves exactly by c times the time step, so the bound of the momentum cannot be left out. |
| C134 | Mirror images and opposite charges are tracked alike to the last bit | `Rounded.InitVay`, `Rounded.StepVay` (`Model/RoundedVay`), mirror image in `Spec/MirrorImage` | every intermediate quantity is shown to be even or odd, because rounding commutes with the sign; induction over the steps | proved: Bitwise version of the reflection and charge symmetry. `C134_start` and `C134_step` cover every call, also those that fail; `C134_mirror` a whole run. `Spec/MirrorImage` says what the mirror image is: magnetic fields are axial vectors. The sign of zero is not modelled. No overflow or underflow. |
| C135 | Macro-particles follow the path of a single particle to the last bit | `Rounded.InitVay`, `Rounded.StepVay` (`Model/RoundedVay`) | charge and mass are read only in the quotient at the start; induction over the steps | proved: Bitwise version of the first part of C104. The ratio means the exact quotient of the two stored numbers; the code divides them first. No hypothesis on the rounding function is needed. No overflow or underflow. |

## Disagreements between code and documentation found by the proofs

Each of these is a theorem in the model unless marked (text), in which case it was found while reading.

* Shifting and mirroring a particle miss its last recorded point (C08, C09); mirroring also misses the momentum
  carried by the integrator.
* The retarded field before the start of a trajectory ignores the start time; the secant search stops after ten
  iterations without having converged (C11).
* The field of accelerated particles uses `A/γ` for `dβ/dt`, right only for transverse acceleration (C68). The power radiated by a particle accelerated along its velocity is
  therefore too large by `γ⁴` (C117).
* `FieldTrace::get_field(time)` ramps over one step outside the trace instead of returning zero (C17); traces of
  fewer than two samples are read outside their bounds by `derivative` (C18).
* The modulated transverse gradient undulator field has a divergence, and its field integral does not vanish (C27).
* Lattice observers are integrated on every rank and then summed: the field is multiplied by the number of nodes (C38).
* Buffer sizes are computed in 32 bits and wrap (C39).
* FEL: positions far from the head are converted to `int` before the range check (C46); grids of fewer than two
  cells overrun (C46); the first step is never recorded (C47, C78); without a `log` node the output interval is
  uninitialised (C47); the default constructor leaves the magnetic field zero (C49); current is lost near the ends
  of the grid (C71).
* Source screen: non-orthogonal grids are accepted (C50); field components are relative to the screen's axes and the
  energy carries a factor −n.z (C51).
* The file of a screen with oblique pitch vectors, used as a source, yields other cell positions (C80). The writer of
  a large screen overruns its 32-bit sized buffers (C79), those of trajectory and probe loggers as well (C81).
* Propagation: traces without energy flow are skipped (C54); `propagate` accepts a missing third argument (C55).
* Mesh: missing `fabs` in the choice of the frame (C56), neighbour buffer of 24 entries (C57), `get_dt` returns an
  `int` (C58).
* SDDS export cannot be re-imported: parameter names differ, and the charge is off by a factor −e (C62); the import
  frame is left-handed while the manual says right-handed (C63).
* Input: particles of charge zero have an undefined charge-to-mass ratio (C64); definitions inside an entry are read
  too late for the entry's own attributes, or twice (C75).
* The probe log depends on the number of nodes (C70); the file of an observer of the lattice holds the field times the
  number of nodes (C38, and C82 for the whole program).
* The parameter `Charge` of an SDDS watch file, declared in Coulomb, is the total charge in Coulomb times the elementary
  charge (src/beam.cpp:329, 375; C85).
* (text) The manual says `n` cannot be calculated, but the parser evaluates it. Every node parses the input with its
  own random seed. Default widths of zero violate the precondition of `std::normal_distribution`.
* (text) File name pointers handed to loggers point into the XML document; `fn[100]` in the SDDS constructor can
  overflow; mesh files are read into buffers of the announced size; triangle indices are not checked; several
  destructors use `delete` on arrays.
* C87: a trajectory, probe or interaction log which cannot be created throws outside of any `try` (src/teufel_hybrid.cpp:656-660), so that
  all later logs and all observations are lost, while the same problem with a parameter log, watch point or observer is
  only reported.
* C131: close to a tilted limiting plane of a hard-edge dipole rounding errors of the scalar product decide whether the field is there
  (`C131_full_statement_false`, for any number of digits).
* C02 and C133: with rounded numbers a particle with a momentum of 2^p m c, p the number of binary digits, moves with the speed of light
  (`C133_unbounded_momentum_false`); C02 is about exact arithmetic.
* C89: the FEL interaction compares a sum of time steps with a product; in runs of more than about 10^8 steps rounding errors can exceed the
  tolerance and end the program.
* C90: `integrateFieldTrace` decides with one rounded expression whether a signal is inside of the trace and with another one
  which sample it belongs to. In double precision they can disagree, and the exception of `FieldTrace::add` is thrown inside of a parallel
  loop, which ends the program. A realistic case is given. Also the index is converted to `int` before it is limited.
* A file that cannot be created does not show in the exit status (C95).
* (text) the memory report of `teufel_hybrid.cpp` (lines 122, 146 and others) converts kilobytes with `std::stoi`: on a node with 2 TiB
  of memory or more the program ends with an exception before reading its input.
* Before the first signal of a particle arrives, the field at a given time depends on the choice of the zero of time: the position of the
  charge is extrapolated with the absolute time instead of the time since the start of the trajectory (`src/particle.cpp:652`, C98).
* C102: the file `SourceScreenTraces_DEBUG.h5` contains components along the directions of the screen beside a normal and pitch vectors in laboratory coordinates; used as input for a source it gives wrong fields unless the screen is aligned with x and y. The names of the two files are fixed: they are overwritten by every further source screen, by every process, and creating them is required for the program to run.
* C107: `FEL_1D::step` adds `+ dt² µ0 c² dJ/dt` to the field (Maxwell's equations have a minus sign) and adds the same amount to the field
  stored for the previous step, so that the field is driven by the difference of the currents of consecutive steps; the field
  created by a given beam is proportional to the time step.
* C17: `FieldTrace::get_field(time)` converts the index to an `int` before checking its range (undefined 2^31 steps away from the trace).
* C111: `GaussianWave::LocalField` (src/wave.cpp) leaves out the phase shift `arctan(z/zR)` of a focused beam, so that the field does not obey the
  paraxial wave equation; beyond the waist the phase is wrong by up to half a period compared to before it.
* C113: the time range printed by `reflection` for a screen ends at the latest start time of its traces, because `get_dt()` returns an `int` (C58).
* C72: `SourceScreen::SourceScreen` (src/source_screen.cpp) checks neither the number of samples (one sample per cell makes `FieldTrace::derivative` read
  behind the end), nor the time step (zero gives NaN), nor the directions (parallel ones give NaN).
* The SDDS import trusts the parameter `Particles`: with fewer rows than that it reads behind the end of the columns (`C63_short`).
* (text) `wave.h` documents the opposite sign of the imaginary part; `source_screen.cpp` documents the opposite sign
  of the normal derivative; `subDist` documents a different fill value; `getTotalCharge` documents other units.
