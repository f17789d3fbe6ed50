{"id": "C01", "title": "Trajectory length bookkeeping", "statement": "After any history of particle operations (initialise, store a point, step, load a step buffer, clear, shift, mirror, pre-allocate) the reported number of trajectory points equals the number of retrievable times, positions, momenta and accelerations; querying an index succeeds exactly for 0 <= index < count and raises IOexception for every other index.", "quantifier": "all finite sequences of public operations on a particle, all integer indices", "why_tests_cant": "A test runs a few fixed sequences; the claim is an invariant over all histories and both sides of every index boundary.", "anchors": ["src/particle.cpp: ChargedParticle::initTrajectory, storeTrajectoryPoint, clearTrajectory, TrajTime, TrajPoint, TrajMomentum, TrajAccel", "src/particle.h: getNP"]}
{"id": "C02", "title": "Vay tracker stays on the mass shell", "statement": "At every stage of tracking with the Vay algorithm the internally carried Lorentz factor equals sqrt(1+|p|^2) of the internally carried half-step momentum, whatever electric and magnetic fields are applied, so every position update moves the particle by strictly less than c*dt.", "quantifier": "all initial momenta, all field values at every step, all time steps, any number of steps", "why_tests_cant": "Fields and step counts are unbounded real inputs; a numeric test samples a handful of field configurations.", "anchors": ["src/particle.cpp: ChargedParticle::InitVay, StepVay"]}
{"id": "C03", "title": "Magnetic fields do no work", "statement": "If the electric field is zero wherever the particle is pushed, then the magnitude of the half-step momentum (hence the kinetic energy) never changes during Vay tracking, for an arbitrary position- and time-dependent magnetic field and any number of steps.", "quantifier": "all magnetic field maps B(t,x), all initial states, any number of steps", "why_tests_cant": "The regression tests check one circular orbit numerically; the claim is an exact conservation law for every field map.", "anchors": ["src/particle.cpp: ChargedParticle::InitVay, StepVay", "tests/teufel.loop.cpp"]}
{"id": "C04", "title": "Force-free motion is uniform", "statement": "If the field the particle sees gives no Lorentz force for its velocity (in particular if the field vanishes), Vay tracking leaves momentum unchanged and the position advances by exactly n*beta*c*dt in n steps.", "quantifier": "all initial momenta and positions, all time steps, any number of steps", "why_tests_cant": "Holds for every velocity and arbitrarily many steps; EcrossB test covers one velocity.", "anchors": ["src/particle.cpp: ChargedParticle::InitVay, StepVay", "tests/teufel.EcrossB.cpp"]}
{"id": "C05", "title": "Equidistant trajectory sampling", "statement": "Tracking for n steps from a particle holding one point yields exactly n+1 points whose times are t0, t0+dt, ..., t0+n*dt; earlier points are never altered by later steps.", "quantifier": "all start states, all fields, all n", "why_tests_cant": "Quantifies over the number of steps and all prefixes of the history.", "anchors": ["src/particle.cpp: ChargedParticle::StepVay, storeTrajectoryPoint", "src/beam.cpp: Beam::doStep"]}
{"id": "C06", "title": "Particle state message round trip", "statement": "Packing a particle for inter-node transfer and constructing a particle from that message reproduces charge, mass, time, position, momentum and acceleration of its last trajectory point and yields a one-point trajectory; a particle without trajectory is packed as zeros in these slots. Exactly 12 values are written.", "quantifier": "all particle states", "why_tests_cant": "All states including empty trajectories and arbitrarily long ones.", "anchors": ["src/particle.cpp: ChargedParticle::serialize, ChargedParticle(double*)"]}
{"id": "C07", "title": "Full trajectory message round trip", "statement": "Packing the complete trajectory writes exactly the advertised number of values, and rebuilding from it reproduces tracker state and every trajectory point for every non-empty trajectory; a message with zero trajectory points cannot be restored (the reconstruction reads past the data).", "quantifier": "all particle states, all trajectory lengths", "why_tests_cant": "Length is unbounded; layout offsets must agree for every length.", "anchors": ["src/particle.cpp: ChargedParticle::serializeTraj, TrajBufSize, ChargedParticle(double*, int)"]}
{"id": "C08", "title": "Shifting a particle moves its whole history", "statement": "After a shift by a displacement, every recorded trajectory point (and the current point) is displaced by exactly that vector and charge is scaled by the given factor while charge-to-mass behaviour is scaled consistently.", "quantifier": "all trajectories of any length, all displacements and factors", "why_tests_cant": "Must hold for every index of every trajectory length, including the last point.", "anchors": ["src/particle.cpp: ChargedParticle::Shift"]}
{"id": "C09", "title": "Mirroring a particle reflects its whole history", "statement": "After mirroring on a plane every recorded trajectory point, momentum and acceleration is the mirror image of the original, mirroring preserves distances to the plane, and mirroring twice with unit charge factor gives back the original.", "quantifier": "all trajectories of any length, all planes", "why_tests_cant": "Must hold for every index of every trajectory length, including the last point, and every plane orientation.", "anchors": ["src/particle.cpp: ChargedParticle::Mirror"]}
{"id": "C10", "title": "Coordinates at intermediate times", "statement": "For a trajectory with increasing times, querying coordinates at a time inside the recorded interval returns the linear interpolation between the two stored points bracketing that time, exactly a stored point at a stored time, and zero coordinates outside the interval or without trajectory. The search terminates for every trajectory length.", "quantifier": "all trajectories with strictly increasing times, all query times", "why_tests_cant": "Bisection correctness and termination must hold for every length and query.", "anchors": ["src/particle.cpp: ChargedParticle::CoordinatesAtTime"]}
{"id": "C11", "title": "Light-cone correctness and causality of the retarded field", "statement": "The field of a particle at an observer is evaluated at a source point on the backward light cone of the observer; a point not yet reached by any signal from the trajectory (observation before all recorded signals are emitted) sees the field continued from the straight-line motion before the first point, and a point whose signal would come from after the end of the trajectory sees zero.", "quantifier": "all trajectories, observation points and times", "why_tests_cant": "Branch selection depends on real-valued geometry over every trajectory.", "anchors": ["src/particle.cpp: ChargedParticle::RetardedField(double, Vector)"]}
{"id": "C12", "title": "Structure of the Lienard-Wiechert field", "statement": "The retarded field satisfies B = (n x E)/c, so E.B = 0 and n.B = 0; it is proportional to the charge; for a charge at rest it is exactly the Coulomb field and the acceleration part is transversal to n.", "quantifier": "all positions, momenta, accelerations, charges and observer points", "why_tests_cant": "Algebraic identities over all real inputs.", "anchors": ["src/particle.cpp: ChargedParticle::RetardedField(int, Vector)"]}
{"id": "C13", "title": "Signals arrive in emission order", "statement": "For a trajectory whose consecutive points are separated by less than c*dt (which the tracker guarantees), the arrival time at any observer is strictly increasing with the trajectory index; hence the retarded source point is unique.", "quantifier": "all subluminal trajectories, all observer positions, all index pairs", "why_tests_cant": "Universal over trajectories and observers; needs the triangle inequality, not samples.", "anchors": ["src/particle.cpp: ChargedParticle::RetardedTime", "src/particle.cpp: StepVay"]}
{"id": "C14", "title": "Field recording never leaves the time window buffer", "statement": "Recording the radiation of a particle into a field trace only ever adds to samples inside the trace: no index error is raised for any trajectory, observer, window start, width and number of samples.", "quantifier": "all trajectories with increasing arrival times, all windows", "why_tests_cant": "Index arithmetic on rounded reals over all windows.", "anchors": ["src/particle.cpp: ChargedParticle::integrateFieldTrace", "src/fieldtrace.cpp: FieldTrace::add"]}
{"id": "C15", "title": "Field recording conserves the time integral", "statement": "The sum over all samples times dt of the recorded trace increases by exactly the time integral over the observation window [t0-dt/2, t0+(n-1/2)dt] of the piecewise linear field seen by the observer.", "quantifier": "all trajectories with increasing arrival times, all windows of at least two samples", "why_tests_cant": "An exact conservation identity over arbitrary step and bucket alignments.", "anchors": ["src/particle.cpp: ChargedParticle::integrateFieldTrace", "src/particle.h: integrateFieldTrace"]}
{"id": "C16", "title": "Field trace arithmetic and its guards", "statement": "Sum, in-place sum and difference of field traces act sample by sample when length, start time and time step agree and raise IOexception in every other case leaving the operands unchanged; assignment requires equal length only and copies everything; scaling acts sample by sample.", "quantifier": "all pairs of traces", "why_tests_cant": "All lengths and all mismatching combinations.", "anchors": ["src/fieldtrace.cpp: FieldTrace::operator+, operator+=, operator-, operator=, operator*, operator/"]}
{"id": "C17", "title": "Field trace lookup by time", "statement": "Looking up a trace at a time returns the stored sample at sampling times, the linear interpolation between neighbouring samples in between, and zero outside the covered trace.", "quantifier": "all traces with positive time step, all times", "why_tests_cant": "Real-valued time argument; boundaries at both ends.", "anchors": ["src/fieldtrace.cpp: FieldTrace::get_field(double)", "src/fieldtrace.h"]}
{"id": "C18", "title": "Field trace derivative", "statement": "The time derivative of a trace has the same timing and length and is exact for every trace that is linear in time (central differences exact for quadratics); it is defined for every trace with at least two samples and must not touch memory outside the trace.", "quantifier": "all traces of length >= 2; the boundary case of shorter traces", "why_tests_cant": "Unbounded lengths; out-of-range reads for short traces are invisible to value tests.", "anchors": ["src/fieldtrace.cpp: FieldTrace::derivative"]}
{"id": "C19", "title": "Field trace index guards and bulk access", "statement": "Per-sample reads, writes, additions and time queries succeed exactly for indices below the length and raise IOexception otherwise; exporting to and importing from a buffer of equal length is the identity and any other length is rejected without modifying the trace.", "quantifier": "all traces, indices and buffers", "why_tests_cant": "All lengths and indices.", "anchors": ["src/fieldtrace.cpp: get_field, set_field, add, get_time, get_buffer, set_buffer"]}
{"id": "C20", "title": "Removal of longitudinal fields", "statement": "After cancelling longitudinal components for a (non-zero) normal direction every sample is perpendicular to that direction, transversal samples are unchanged, and repeating the operation changes nothing.", "quantifier": "all traces, all non-zero normals", "why_tests_cant": "Universal over directions and traces.", "anchors": ["src/fieldtrace.cpp: FieldTrace::cancel_long_fields"]}
{"id": "C21", "title": "Retarded transfer between traces", "statement": "Transferring a trace with delay d fills every target sample i with the source field at time(target,i)-d, leaves the target's timing unchanged, and signals an error exactly if the transferred trace carries no energy flow.", "quantifier": "all source/target traces and delays", "why_tests_cant": "All lengths and delays.", "anchors": ["src/fieldtrace.cpp: FieldTrace::retard"]}
{"id": "C22", "title": "Lattice superposition", "statement": "The field of a lattice is the sum of the fields of its elements, independent of the order in which they were added; adding, removing and indexing behave as on a list, with IOexception exactly for indices outside [0,count).", "quantifier": "all sequences of add/remove operations, all evaluation points", "why_tests_cant": "All histories and permutations.", "anchors": ["src/fields.cpp: Lattice::Field, addElement, at, remove, count"]}
{"id": "C23", "title": "Placement of localized fields", "statement": "Moving a localized element in space and time moves its field without distortion: the field at (t,X) of an element placed at (t0,X0) equals the field at (t-t0+s, X-X0+Y) of the same element placed at (s,Y).", "quantifier": "all elements, placements, times, points", "why_tests_cant": "Universal statement.", "anchors": ["src/fields.cpp: LocalizedField::Field"]}
{"id": "C24", "title": "Hard-edge dipole region", "statement": "A hard-edge dipole produces exactly its nominal magnetic field at points strictly inside both face planes and exactly zero field everywhere else (including on the faces), and never an electric field.", "quantifier": "all geometries, points and times", "why_tests_cant": "Boundary behaviour over all points.", "anchors": ["src/dipole.cpp: HardEdgeDipole::LocalField"]}
{"id": "C25", "title": "Soft-edge dipole profile", "statement": "The field of a soft-edge dipole is parallel to the nominal field with magnitude below it, approaches the nominal field deep inside, decreases monotonically when leaving through a face, and at half a transition length inside/outside a face contributes 75%/25% as documented.", "quantifier": "all geometries with positive transition lengths, all points", "why_tests_cant": "Monotonicity and bounds over all reals.", "anchors": ["src/dipole.cpp: SoftEdgeDipole::LocalField", "src/dipole.h"]}
{"id": "C26", "title": "Planar undulator field", "statement": "The planar undulator field vanishes outside its length (N+1 periods), is continuous at the ends, never exceeds the peak field times cosh of the vertical offset in magnitude on axis, and between the matching periods satisfies the static Maxwell equations (zero divergence and curl). The field integral along every straight line parallel to the axis vanishes, and so does the second field integral (at least one period), so that the undulator neither deflects nor displaces.", "quantifier": "all periods, peak fields, numbers of periods, all points", "why_tests_cant": "Differential identities and continuity over all reals.", "anchors": ["src/undulator.cpp: PlanarUndulator::LocalField, Setup"]}
{"id": "C27", "title": "Transverse gradient undulator field", "statement": "The transverse gradient undulator field satisfies the static Maxwell equations (zero divergence and curl) between the matching periods, as documented, and reduces to the planar undulator when gradient and modulation vanish. Without modulation it neither deflects nor displaces along any line parallel to its axis; a modulation deflects in proportion to the modulation and to the length of its periods.", "quantifier": "all parameters and all points", "why_tests_cant": "Differential identities over all reals.", "anchors": ["src/undulator.cpp: TransverseGradientUndulator::LocalField", "src/undulator.h"]}
{"id": "C28", "title": "Gaussian wave structure", "statement": "Gaussian waves and wave packets are transversal: E along x, B along y with B=E/c, energy flows in +z direction everywhere, the field never exceeds the given amplitude times w0/w, and the peak of a packet passes the waist at the given time.", "quantifier": "all parameters, points and times", "why_tests_cant": "Universal over real parameters.", "anchors": ["src/wave.cpp: GaussianWave::LocalField, GaussianWavePacket::LocalField"]}
{"id": "C29", "title": "Distribution container guards", "statement": "Reading and writing coordinates of a phase-space distribution affects exactly the addressed coordinate; out-of-range access never reads or writes memory outside and leaves the distribution unchanged (reads give 0); export to and import from a buffer of DIM*NOP values is the identity and any other size raises IOexception.", "quantifier": "all distributions, indices, values, buffers", "why_tests_cant": "All sizes and indices incl. negatives.", "anchors": ["src/bunch.cpp: Distribution::getCoordinate, setCoordinate, bufferData, fromBuffer, subDist"]}
{"id": "C30", "title": "Linear correlations", "statement": "Adding a linear correlation changes only the dependent coordinate, by factor times the (for bunches: mean-free) independent coordinate; for a bunch the mean of the dependent coordinate is preserved.", "quantifier": "all bunches/distributions, coordinate pairs and factors", "why_tests_cant": "Universal over particle numbers and values.", "anchors": ["src/bunch.cpp: Distribution::addCorrelation, Bunch::addCorrelation"]}
{"id": "C31", "title": "Beam and bunch accounting", "statement": "The number of particles of a beam is the sum over bunches; total charge is the sum over all particles; particle and bunch lookup returns the object exactly for valid indices and NULL otherwise; adding appends.", "quantifier": "all histories of Add/clear operations", "why_tests_cant": "All histories and indices.", "anchors": ["src/bunch.cpp: Bunch::Add, getNOP, getTotalCharge, getParticle", "src/beam.cpp: Beam::Add, getNOP, getNOB, getBunch, getTotalCharge"]}
{"id": "C32", "title": "Beam step exchange", "statement": "Writing the current step of a beam into a buffer writes exactly 10 values per particle in bunch/particle order, and loading that buffer into a beam of the same structure gives every particle that time, position, momentum and acceleration as new last point; the step counter increases by one.", "quantifier": "all beam structures (any number of bunches and particles)", "why_tests_cant": "Layout offsets for every structure.", "anchors": ["src/beam.cpp: Beam::bufferStep, setStepFromBuffer, getStepBufferSize", "src/bunch.cpp: Bunch::bufferStep, setStepFromBuffer"]}
{"id": "C33", "title": "Probe particle selection", "statement": "Buffering n probe particles takes particles round-robin from the bunches, never the same particle twice, writes exactly 16 values each, and finishes whenever the beam holds at least n particles; the probe logger never requests more than that.", "quantifier": "all beam structures, all n", "why_tests_cant": "Termination and distinctness over all structures.", "anchors": ["src/beam.cpp: Beam::bufferProbe", "src/logger.cpp: ProbeLogger"]}
{"id": "C34", "title": "Bounded coordinate buffering", "statement": "Buffering particle coordinates of a bunch into a buffer of given size never writes past it, and writes the coordinates of as many leading particles as fit.", "quantifier": "all bunches and buffer sizes", "why_tests_cant": "Memory safety over all sizes.", "anchors": ["src/bunch.cpp: Bunch::bufferCoordinates"]}
{"id": "C35", "title": "Particle distribution over nodes", "statement": "For any number of nodes the particles of the beam are partitioned among the nodes: every particle is tracked by exactly one node, in order, and no node gets more than ceil(NOP/nodes) particles.", "quantifier": "all beams, all numbers of nodes", "why_tests_cant": "Universal over beam sizes and node counts.", "anchors": ["src/teufel_hybrid.cpp: main (re-distribute all particles)"]}
{"id": "C36", "title": "Distributed tracking equals serial tracking", "statement": "After every tracking step all nodes hold the same master beam, and it equals the result of tracking the whole beam on a single node, for any number of nodes.", "quantifier": "all beams, node counts, step counts, external fields", "why_tests_cant": "Histories of arbitrary length on arbitrary node counts.", "anchors": ["src/teufel_hybrid.cpp: main (tracking loop)"]}
{"id": "C37", "title": "Radiation observation is independent of the node count", "statement": "The field stored by an observer of the beam after combining all nodes equals the field computed by a single node from all particles.", "quantifier": "all beams, observers, node counts", "why_tests_cant": "Universal over partitions.", "anchors": ["src/teufel_hybrid.cpp: main (compute all observations)"]}
{"id": "C38", "title": "Lattice observation is independent of the node count", "statement": "The field stored by an observer of the lattice equals the lattice field irrespective of the number of nodes.", "quantifier": "all lattices, observers, node counts", "why_tests_cant": "Needs reasoning over node counts; single-node tests cannot see it.", "anchors": ["src/teufel_hybrid.cpp: main (MPI_Reduce)", "src/screen.cpp: ScreenObserver<Lattice>::integrate"]}
{"id": "C39", "title": "Observer buffer size and round trip", "statement": "The buffer of a screen observer holds exactly one slot per field value of every cell and sample, writing never exceeds the allocated size, and loading a buffer obtained from an observer of equal size reproduces all fields; other sizes are rejected.", "quantifier": "all grid sizes and trace lengths", "why_tests_cant": "Size arithmetic overflows only for large sizes no unit test allocates.", "anchors": ["src/screen.h: getBufferSize", "src/screen.cpp: getBuffer, fromBuffer", "src/snapshot.cpp: getBuffer, fromBuffer", "src/point_observer.cpp: getBuffer, fromBuffer", "src/mesh.h: getBufferSize"]}
{"id": "C40", "title": "Thread schedule independence of observers", "statement": "The recorded field of every observer cell is the same for every distribution of cells to threads and every interleaving.", "quantifier": "all schedules (interleavings) of the parallel cell loop", "why_tests_cant": "Schedules cannot be enumerated by tests.", "anchors": ["src/screen.cpp: ScreenObserver::integrate", "src/snapshot.cpp: SnapshotObserver::integrate", "src/mesh.cpp: MeshedScreen::integrate"]}
{"id": "C41", "title": "Logger sampling", "statement": "During a run of n steps a logger with step size s >= 1 records exactly at steps 0, s, 2s, ... <= n, hence 1+floor(n/s) records, and all recorded columns have that length; a step size of 0 is undefined behaviour.", "quantifier": "all n and s", "why_tests_cant": "Universal over run lengths.", "anchors": ["src/logger.h: log_requested", "src/logger.cpp: ParameterLogger::update, TrajectoryLogger::update", "src/teufel_hybrid.cpp: main"]}
{"id": "C42", "title": "Watch points are written exactly once", "statement": "During a run of n steps each requested watch point with 0 <= step <= n is written exactly once, at that step; others are never written.", "quantifier": "all watch lists and run lengths", "why_tests_cant": "Universal over schedules.", "anchors": ["src/teufel_hybrid.cpp: main (handle watch points)"]}
{"id": "C43", "title": "Interaction fields are excluded from lattice observation", "statement": "Before observations are computed exactly the interaction fields are removed from the lattice, all external elements stay in their order, and the removal loop terminates.", "quantifier": "all lattices", "why_tests_cant": "Index-shifting removal loop over arbitrary lattices.", "anchors": ["src/teufel_hybrid.cpp: main (remove all interaction fields)", "src/fields.cpp: Lattice::remove"]}
{"id": "C44", "title": "FEL field advances in lockstep with the beam", "statement": "In a tracking run whose particles start at t=0 the one-dimensional FEL field never raises a time mismatch: its time and the beam time agree at every evaluation; its head position is origin + N*ds*direction; a beam out of step is rejected.", "quantifier": "all run lengths", "why_tests_cant": "Invariant over the whole run.", "anchors": ["src/fel1d.cpp: FEL_1D::init, step, Field", "src/teufel_hybrid.cpp: main"]}
{"id": "C45", "title": "FEL vacuum propagation", "statement": "Without particles a seeded radiation pulse is stationary in the co-moving grid for ever: the value in every cell always stays within the sum of the initial amplitudes of the two head cells of its initial value (so it never changes if these are zero); the head cell is zero after every step.", "quantifier": "all seeds, grid sizes and numbers of steps", "why_tests_cant": "Arbitrary many steps.", "anchors": ["src/fel1d.cpp: FEL_1D::init, step, seed"]}
{"id": "C46", "title": "FEL index safety", "statement": "Depositing the current of a particle and evaluating the field never accesses cells outside the grid; particles outside the grid are rejected by an exception.", "quantifier": "all grids with at least two cells, all particles", "why_tests_cant": "Index arithmetic over all reals.", "anchors": ["src/fel1d.cpp: FEL_1D::step, Field"]}
{"id": "C47", "title": "FEL output storage", "statement": "The recorded field and current histories always have the same number of records and every record has the grid size; records are taken exactly at multiples of the output step; without a log node the output step is undefined.", "quantifier": "all histories", "why_tests_cant": "Invariant over histories; uninitialised read.", "anchors": ["src/fel1d.cpp: FEL_1D::FEL_1D, setup, seed, step, write_output"]}
{"id": "C48", "title": "FEL linear superposition", "statement": "The propagation step is linear: the field produced by the sum of two currents and initial fields is the sum of the fields produced by each.", "quantifier": "all fields, currents, numbers of steps", "why_tests_cant": "Universal over field states.", "anchors": ["src/fel1d.cpp: FEL_1D::step"]}
{"id": "C49", "title": "Default FEL field is a plane wave", "statement": "The field returned by an FEL interaction has E transversal to the propagation direction, B = n x E / c, for every constructor.", "quantifier": "all constructions and field states", "why_tests_cant": "Universal; default constructor never tested.", "anchors": ["src/fel1d.cpp: FEL_1D::FEL_1D(double,int), FEL_1D(double,xml_node,...), Field"]}
{"id": "C50", "title": "Source screen grid is orthogonal", "statement": "For every screen file the source screen uses grid directions that together with the screen normal form an orthogonal system, preserving the cell dimensions.", "quantifier": "all grid vectors with non-degenerate normal", "why_tests_cant": "Universal over file contents.", "anchors": ["src/source_screen.cpp: SourceScreen::SourceScreen"]}
{"id": "C51", "title": "Source screen fields are given in the laboratory frame", "statement": "The field of a source screen is expressed in the laboratory frame irrespective of the orientation of the screen, and its reported total energy does not depend on a rotation of the whole arrangement.", "quantifier": "all screen orientations", "why_tests_cant": "Universal over rotations.", "anchors": ["src/source_screen.cpp: SourceScreen::SourceScreen, LocalField, totalEnergy"]}
{"id": "C52", "title": "Perfect conductor boundary conditions", "statement": "The sum of incident and reflected fields on the conductor surface has zero tangential electric and zero normal magnetic field; reflecting twice restores the fields; the energy flow normal to the surface is reversed and the tangential one kept.", "quantifier": "all fields and surface normals", "why_tests_cant": "Universal over field values.", "anchors": ["src/reflection.cpp: main (compute the surface reflected fields)"]}
{"id": "C53", "title": "Normal derivatives from Maxwell's equations", "statement": "If the fields near a source cell satisfy the vacuum Maxwell equations, the normal derivative used in the propagation equals the true directional derivative along the cell normal for every cell orientation.", "quantifier": "all field gradients consistent with Maxwell's equations, all right-handed orthonormal cell frames", "why_tests_cant": "Universal over orientations and gradients.", "anchors": ["src/propagate.cpp: main (normal derivatives)", "src/reflection.cpp: main"]}
{"id": "C54", "title": "Screen-to-screen propagation sums all contributions", "statement": "The propagated trace at a target cell is the sum of the three Kirchhoff contributions of all source cells.", "quantifier": "all source screens and targets", "why_tests_cant": "Skipped contributions depend on data.", "anchors": ["src/propagate.cpp: main (propagate the fields to the target)", "src/fieldtrace.cpp: FieldTrace::retard"]}
{"id": "C55", "title": "Command line validation of the propagation tools", "statement": "The propagation tools access a command line argument only if it was given, printing usage otherwise.", "quantifier": "all argument counts", "why_tests_cant": "Boundary value analysis over argc.", "anchors": ["src/propagate.cpp: main", "src/reflection.cpp: main"]}
{"id": "C56", "title": "Mesh cell frames", "statement": "After initialisation every non-degenerate mesh cell has a right-handed orthonormal frame (xi, eta, n) with n the cell normal, its area is half the cross product of the edges, and the total area is the sum.", "quantifier": "all triangulated meshes", "why_tests_cant": "Universal over geometries, incl. orientation special cases.", "anchors": ["src/mesh.cpp: MeshedScreen::init"]}
{"id": "C57", "title": "Mesh neighbourhood", "statement": "The neighbourhood of a cell consists of exactly the cells sharing at least one corner point with it (including itself), each once, in ascending order, and fits into the caller's buffer.", "quantifier": "all meshes and cells", "why_tests_cant": "Universal over meshes; overflow for high valence corners.", "anchors": ["src/mesh.cpp: MeshedScreen::get_Neighbourhood", "src/propagate.cpp: main"]}
{"id": "C58", "title": "Mesh time step query", "statement": "The time step reported by a meshed screen equals the sampling step of its traces.", "quantifier": "all time steps", "why_tests_cant": "Truncation depends on value ranges.", "anchors": ["src/mesh.h: MeshedScreen::get_dt"]}
{"id": "C59", "title": "Mesh energy balance", "statement": "The total energy through a mesh is additive over cells, quadratic in the fields, changes sign when every cell orientation is reversed, and equals minus the sum of normal energy flow times area.", "quantifier": "all meshes and field traces", "why_tests_cant": "Universal over meshes.", "anchors": ["src/mesh.cpp: MeshedScreen::totalEnergy"]}
{"id": "C60", "title": "Input file acceptance", "statement": "A lattice/beam/tracking/observer section is accepted only if every element is of a known kind with its mandatory parts; the returned count equals the number of elements created in file order; the first offending element raises IOexception.", "quantifier": "all input documents", "why_tests_cant": "Universal over documents.", "anchors": ["src/parser.cpp: InputParser::parseLattice, parseBeam, parseTracking, parseObservers"]}
{"id": "C61", "title": "Calculator variables", "statement": "A variable defined by a calc entry is visible with that value to everything parsed later until redefined; a failing expression evaluates to 0 and defines nothing.", "quantifier": "all documents", "why_tests_cant": "Universal over documents and positions.", "anchors": ["src/parser.cpp: InputParser::parseCalc, parseCalcChildren, parseDouble, parseInt", "doc/UserManual.tex"]}
{"id": "C62", "title": "Beam export can be re-imported", "statement": "A beam written as SDDS watch point can be re-imported, giving the same number of particles and total charge.", "quantifier": "all beams", "why_tests_cant": "Universal over beams; file round trip.", "anchors": ["src/beam.cpp: Beam::WriteWatchPointSDDS", "src/bunch.cpp: Bunch::WriteWatchPointSDDS", "src/bunch.cpp: Bunch::Bunch(const char*, Vector)"]}
{"id": "C63", "title": "SDDS import geometry", "statement": "Particles imported from an SDDS file all start at t=0, with total momentum equal to the file value, transversal coordinates mapped to an orthonormal frame perpendicular to the given direction with x in the x-z plane, displaced along their own direction by the arrival time difference.", "quantifier": "all files and directions not parallel to y", "why_tests_cant": "Universal over directions and particle coordinates.", "anchors": ["src/bunch.cpp: Bunch::Bunch(const char*, Vector)", "doc/UserManual.tex"]}
{"id": "C64", "title": "Beam input conserves charge and energy", "statement": "A bunch or particle created from the input file has exactly the requested total charge, charge-to-mass ratio and (for a particle) Lorentz factor.", "quantifier": "all input values with gamma >= 1 and n >= 1", "why_tests_cant": "Universal over inputs.", "anchors": ["src/parser.cpp: InputParser::parseBeam", "src/bunch.cpp: Bunch::Bunch(Distribution*,...)"]}
{"id": "C65", "title": "Snapshot grid and particle positions", "statement": "A snapshot stores one field per cell at positions symmetric about its centre and positions/momenta of all particles of its source at the snapshot time; storing never overflows the buffer.", "quantifier": "all grids and beams", "why_tests_cant": "Universal over sizes.", "anchors": ["src/snapshot.cpp: SnapshotObserver"]}
{"id": "C66", "title": "Screen grid geometry", "statement": "Cell (ix,iy) of a screen observer lies at origin + (ix-Nx/2) dx + (iy-Ny/2) dy so the cell (Nx/2,Ny/2) is exactly at the given position and neighbouring cells differ by the pitch vectors; the cell start times follow the same rule; the normal is a unit vector perpendicular to both pitches with (dx,dy,-n) right-handed.", "quantifier": "all grids and pitches", "why_tests_cant": "Universal over grid sizes (odd/even) and vectors.", "anchors": ["src/screen.cpp: ScreenObserver::CellPosition, CellTimeZero"]}
{"id": "C67", "title": "Vector and frame algebra", "statement": "Vector operations satisfy the laws every field computation relies on: cross product orthogonality and Lagrange identity, normalisation to unit length for every non-zero vector, and transformation into an orthonormal frame preserves scalar products.", "quantifier": "all vectors and orthonormal frames", "why_tests_cant": "Universal algebraic identities.", "anchors": ["src/vector.cpp"]}
{"id": "C68", "title": "Radiation fields follow from the true acceleration", "statement": "The field of a moving charge, computed from the recorded trajectory, is the Lienard-Wiechert field in which the acceleration term is the time derivative of the velocity.", "quantifier": "all recorded positions, momenta and accelerations", "why_tests_cant": "Real-valued identity over all directions of the acceleration relative to the velocity.", "anchors": ["src/particle.cpp: ChargedParticle::RetardedField, StepVay"]}
{"id": "C69", "title": "Bunch statistics", "statement": "Averages, RMS sizes, energy spread and bunching factor reported for a bunch are the statistics of its particles: the average position and momentum shift with the bunch, RMS sizes are non-negative, vanish exactly when all particles coincide and do not change under translation, the mean Lorentz factor is at least one, and the bunching factor has magnitude at most one, with equality to one when all particles are one wavelength apart.", "quantifier": "all non-empty bunches, frequencies and translations", "why_tests_cant": "Universal over particle numbers and real coordinates.", "anchors": ["src/bunch.cpp: Bunch::avgTime, avgPosition, rmsPosition, avgMomentum, avgGamma, delta, BunchingFactor"]}
{"id": "C70", "title": "Probe log does not depend on the number of nodes", "statement": "The probe log written by a run contains the same particles with the same data whatever the number of MPI nodes.", "quantifier": "all beams and node counts", "why_tests_cant": "Universal over beams, node counts and distribution of particles.", "anchors": ["src/teufel_hybrid.cpp: main", "src/logger.cpp: ProbeLogger", "src/beam.cpp: Beam::bufferProbe"]}
{"id": "C71", "title": "FEL current deposition conserves the current", "statement": "The current recorded by an FEL interaction, summed over the grid, is that of the particles (to one part in a million), irrespective of their positions relative to the grid cells; a particle outside the grid contributes nothing but ends the step with an exception.", "quantifier": "all beams, grids and fields", "why_tests_cant": "Universal over real particle positions.", "anchors": ["src/fel1d.cpp: FEL_1D::step"]}
{"id": "C72", "title": "Source screen file validation", "statement": "A source screen is created exactly from those files that contain all required datasets and attributes and whose field dataset has the announced dimensions; every other file is rejected with an exception.", "quantifier": "all file contents", "why_tests_cant": "Universal over file contents.", "anchors": ["src/source_screen.cpp: SourceScreen"]}
{"id": "C73", "title": "Mesh file round trip", "statement": "Writing a meshed screen to a file and reading the file back gives the same mesh: corner points, triangles, positions, start times, time step and every field sample.", "quantifier": "all meshes whose traces have the sampling of the mesh and less than 2^31 numbers in total", "why_tests_cant": "Universal over numbers of cells and samples and over field values.", "anchors": ["src/mesh.cpp: MeshedScreen::MeshedScreen, writeFile"]}
{"id": "C74", "title": "Bunches created from distributions", "statement": "A bunch created from a phase space distribution has exactly one particle per point of the distribution, each with the given charge and mass, starting with a single trajectory point at the reference time, position and momentum plus the coordinates of its point.", "quantifier": "all distributions and reference values", "why_tests_cant": "Universal over particle numbers and real coordinates.", "anchors": ["src/bunch.cpp: Bunch::Bunch(Distribution*, ...)"]}
{"id": "C75", "title": "Definitions are read once and first", "statement": "Every calc entry of a section is evaluated exactly once, and the variable it defines is known to all entries of its section (and everything nested in it), whatever the position of the calc entry in the section, as the manual says.", "quantifier": "all documents", "why_tests_cant": "Universal over nesting, order and number of definitions.", "anchors": ["src/parser.cpp: InputParser::parseCalc, parseLattice, parseBeam, parseTracking, parseObservers", "doc/UserManual.tex: calculator"]}
{"id": "C76", "title": "FEL initial field", "statement": "The field of a one-dimensional FEL interaction created from an input file is the prescribed seed: at the distance j*c*dt behind the prescribed position the electric field is E0*cos(2*pi*c/lambda*t)*exp(-t^2/(2*tau^2)) with t=j*dt-tstart along the prescribed polarization made perpendicular to the prescribed direction, with the magnetic field of a plane wave; without a seed it is zero. The field is recorded every step unless the log entry asks for another interval.", "quantifier": "all input entries, grid cells, positions within a cell and times within a quarter step", "why_tests_cant": "Universal over real parameters and positions.", "anchors": ["src/fel1d.cpp: FEL_1D::FEL_1D(double,xml_node,...), seed, Field"]}
{"id": "C77", "title": "Propagation programs as a whole", "statement": "propagate and reflection write a file with the third name given, describing the screen of the second file: same corner points, triangles, observation points and times. The result depends on no other files than the first two, and not on fields stored in the second one. The field in every cell is the sum over all source cells of Kirchhoff's integrand of the (for reflection: mirrored) fields of the first file.", "quantifier": "all command lines, source and target files and least-squares solvers", "why_tests_cant": "Composition of the whole program over arbitrary meshes and data.", "anchors": ["src/propagate.cpp: main", "src/reflection.cpp: main", "src/mesh.cpp: MeshedScreen"]}
{"id": "C78", "title": "FEL output file", "statement": "After a run of n steps with output interval d the file written by an FEL interaction has n/d+1 rows of N cells; row k of InteractionField is the field the interaction had after k*d steps, when the head of the grid was at origin + k*d*c*dt*direction; row k of CurrentDensity is what the beam deposited in that step; the attributes hold the grid size, interval, time step, optical mode, origin and the vector between neighbouring cells.", "quantifier": "all runs, grids, intervals and beams", "why_tests_cant": "History property: rows must correspond to steps for every run length.", "anchors": ["src/fel1d.cpp: FEL_1D::init, step, write_output", "tests/fel_radiation.ipynb: prop_length"]}
{"id": "C79", "title": "Observer output files", "statement": "The file an observer writes describes exactly what it holds: a screen's HDF5 file has the extent Nx*Ny*NOTS*6 and at [ix,iy,it] the six field components of that cell and sample, the positions of all cells, and the geometry and timing as attributes; a snapshot's file has the field and position of every cell and, for the beam, position and momentum of every particle at the snapshot time; a point observer's table has one row per sample with its time and field.", "quantifier": "all grids and numbers of samples that give less than 2^32 numbers per file (2^31 rows for point observers), all field values and histories of an observer", "why_tests_cant": "Universal over array extents and contents; index arithmetic cannot be settled by samples.", "anchors": ["src/screen.cpp: ScreenObserver::WriteTimeDomainFieldHDF5", "src/snapshot.cpp: SnapshotObserver::WriteFieldHDF5, storeParticlePositions", "src/point_observer.cpp: PointObserver::WriteTimeDomainFieldSDDS"]}
{"id": "C80", "title": "Recorded screens can be used as sources", "statement": "The file written by a screen observer is accepted as a source screen in another run: the source has the cells of the screen, shifted to the given position, radiating the recorded (transverse) fields at the recorded times, shifted to the given time.", "quantifier": "all screens, recorded fields and placements of the source", "why_tests_cant": "Round trip over arbitrary geometry and data.", "anchors": ["src/screen.cpp: ScreenObserver::WriteTimeDomainFieldHDF5", "src/source_screen.cpp: SourceScreen::SourceScreen, LocalField"]}
{"id": "C81", "title": "Logger output files", "statement": "After a run of k steps the file of a parameter logger with interval d has the number of particles and the total charge of its bunch as parameters and 1+k/d rows, row l holding time, averages, rms values, energy and bunching factor of the bunch after l*d steps. The file of a trajectory logger has at [l,j] position and momentum of particle j of the bunch after l*d steps; the file of a probe logger has at [l,j] time, position, momentum, acceleration and the electric and magnetic field seen by particle j of the first node after l*d steps.", "quantifier": "all runs, bunches, intervals and numbers of particles logged", "why_tests_cant": "History property: rows of a file must correspond to steps for every run length; index arithmetic over arbitrary extents.", "anchors": ["src/logger.cpp: ParameterLogger::WriteData, TrajectoryLogger::WriteData, ProbeLogger::WriteData", "src/teufel_hybrid.cpp: main"]}
{"id": "C82", "title": "The output of the program does not depend on the number of nodes", "statement": "For a given input document, libraries and random numbers of the first node, the program writes the same files - names, contents and order of watch points, logs, interaction fields and observations - or fails, for every number of nodes.", "quantifier": "all input documents, node counts, random numbers of the other nodes and contents of communication buffers", "why_tests_cant": "Requires equality of two executions with different distribution of the work, for every document.", "anchors": ["src/teufel_hybrid.cpp: main", "src/parser.cpp: InputParser", "src/logger.cpp: WriteData", "src/observer.h: generateOutput", "src/point_observer.cpp: PointObserver::generateOutput", "src/screen.cpp: ScreenObserver::generateOutput", "src/mesh.cpp: MeshedScreen::generateOutput", "src/snapshot.cpp: SnapshotObserver::generateOutput"]}
{"id": "C83", "title": "Contents of the observation files of a run", "statement": "A successful run of the program writes one file for every observer in the input, under the name and in the order given there. The file of an observer of the beam shows for every sample the sum of the fields of all particles of the beam, each moved for the given number of steps through the fields of the lattice and of the interactions (without interactions: as if it were alone); the file of an observer of the lattice shows the field of the lattice at the time and place of the sample.", "quantifier": "all input documents, numbers of nodes, random numbers and contents of communication buffers", "why_tests_cant": "End-to-end property from the document to the numbers in the files, over every document and distribution of work.", "anchors": ["src/teufel_hybrid.cpp: main", "src/parser.cpp: InputParser::parseObservers", "src/observer.h: generateOutput", "src/point_observer.cpp: PointObserver::generateOutput", "src/screen.cpp: ScreenObserver::generateOutput", "src/mesh.cpp: MeshedScreen::generateOutput", "src/snapshot.cpp: SnapshotObserver::generateOutput"]}
{"id": "C84", "title": "Names and order of the files of a run", "statement": "A successful run writes exactly these files, in this order: those of the watch points with a step from 0 to the number of steps, in order of time and for equal times in order of the input; the logs of the bunches in order of the input; the probe log if requested; the logs of the interactions which have one; the files of the observers in order of the input. No other file is written and none is missing.", "quantifier": "all input documents, numbers of nodes, steps and watch points", "why_tests_cant": "A missing or superfluous file for some document can only be excluded by a proof over all documents.", "anchors": ["src/teufel_hybrid.cpp: main", "src/parser.cpp: InputParser::parseTracking, parseBeam, parseObservers"]}
{"id": "C85", "title": "Contents of the watch point and log files of a run", "statement": "A successful run writes, for every watch point with a step k from 0 to the number of steps, a file holding the positions and momenta (for SDDS files also times, energies, slopes and the total charge in Coulomb) of all particles of the beam, in order, as they are after k steps through the fields of the lattice and of the interactions (without interactions: each of them moved as if it were alone). Row l of the parameter log of a bunch with interval d shows the statistics of its particles after l*d steps; entry [l,j] of its trajectory log shows position and momentum of particle j after l*d steps.", "quantifier": "all input documents, numbers of nodes, random numbers and contents of communication buffers", "why_tests_cant": "End-to-end property from the document to the numbers in the files, over every run length and distribution of work.", "anchors": ["src/teufel_hybrid.cpp: main", "src/beam.cpp: Beam::WriteWatchPointHDF5, WriteWatchPointSDDS", "src/logger.cpp: ParameterLogger, TrajectoryLogger"]}
{"id": "C86", "title": "Valid inputs run to completion", "statement": "A document runs to completion, without an error in any step, watch point, log, observation or file, on any number of nodes, if it can be parsed and: the number of steps is not negative, particles have a mass, the field of the lattice exists everywhere, logs have a positive interval, the sizes of files and observers are within the range of the integers the program uses, no particle passes exactly through a place of observation of the beam (and time steps are positive there), and interactions have a log with non-zero interval, at least two cells, non-zero mode parameters, the time step of the tracking (positive, particles starting at time zero) and every particle on their grid, at least two cells per step away from its end.", "quantifier": "all such documents, numbers of nodes and steps, random numbers and contents of communication buffers", "why_tests_cant": "Absence of failure at every step of every run cannot be shown by finitely many runs.", "anchors": ["src/teufel_hybrid.cpp: main", "src/parser.cpp: InputParser", "src/logger.cpp", "src/beam.cpp"]}
{"id": "C87", "title": "An output file which cannot be created costs only itself", "statement": "If some of the output files of a run cannot be created, then all others are written, with the same contents and in the same order as if nothing had failed. (As found: true for watch points, parameter logs and observers; an uncreatable trajectory log, probe log or interaction log ends the program with an exception, and exactly the files in front of it are written.)", "quantifier": "all documents which run, all sets of files which cannot be created, all numbers of nodes", "why_tests_cant": "The set of failing files and the position of the failure in the output sequence are unbounded.", "anchors": ["src/teufel_hybrid.cpp: main", "src/logger.cpp: ParameterLogger::WriteData, TrajectoryLogger::WriteData", "src/fel1d.cpp: FEL1D::write_output", "src/beam.cpp: Beam::WriteWatchPointHDF5, Beam::WriteWatchPointSDDS"]}
{"id": "C88", "title": "Particles and interactions advance together", "statement": "On any number of nodes the particles and the FEL interactions go through the states of one serial calculation: at every step each particle moves in the sum of the fields which the lattice and the interactions have at the beginning of the step, then each interaction advances with all particles at their new positions. All nodes agree on the interactions and on the recorded trajectories; the run succeeds exactly if the serial calculation does; the serial calculation succeeds if all particles start on the grids of the interactions, at least two cells per step away from their ends; the log file of an interaction shows what it recorded in the serial calculation; without interactions every particle moves as if it were alone.", "quantifier": "all beams, lattices, lists of interactions, numbers of nodes and steps, output objects and contents of communication buffers", "why_tests_cant": "Equality of a distributed and a serial calculation of a coupled system at every step, for every distribution of the particles.", "anchors": ["src/teufel_hybrid.cpp: main", "src/fel1d.cpp: FEL_1D::init, FEL_1D::step, FEL_1D::Field", "src/beam.cpp: Beam::InitVay, Beam::StepVay", "src/fields.cpp: GeneralField"]}
{"id": "C89", "title": "Rounding errors do not separate the clocks", "statement": "Particles and FEL interactions keep time by adding up time steps in floating point arithmetic, and the program is stopped if their clocks, or the clock of an interaction and the step number times the time step, differ by more than a quarter of a step. Rounding errors alone never stop a run. (Proved for runs of n steps with n squared times the unit roundoff up to 1/8, in double precision 2^25 steps; a time step is given for which a run of less than 2^27 steps is stopped.) After n steps a clock is off by at most 2 n u times the elapsed time. Clocks that agree within a quarter of a step are accepted whatever the rounding, and no step is made with clocks that differ by a third of a step or more.", "quantifier": "all rounding functions (monotone, idempotent, odd, bounded relative error), all time steps, all numbers of steps", "why_tests_cant": "Errors accumulate over the number of steps; the failing runs are too long for tests.", "anchors": ["src/particle.cpp: ChargedParticle::StepVay", "src/fel1d.cpp: FEL_1D::init, FEL_1D::step, FEL_1D::Field", "src/teufel_hybrid.cpp: main"]}
{"id": "C90", "title": "Field recording in floating point arithmetic", "statement": "Recording the field of a particle addresses only samples of the trace also if all numbers are rounded to double precision. The computed arrival time of a signal is the time of emission plus the distance divided by the speed of light up to a relative error of 9 roundoff units. (Proved for arrival times that keep a distance of a few roundoff units from both ends of the observed time; a particle resting at a distance of 0.0689372757171 m and a trace of 1300 samples of 0.1 ps starting at 100 ps violate it: the program ends with an index error.)", "quantifier": "all trajectories, observation points and traces, all rounding functions with unit roundoff up to 1/8", "why_tests_cant": "Two comparisons of rounded numbers disagree only for times within one unit in the last place.", "anchors": ["src/particle.cpp: ChargedParticle::integrateFieldTrace, ChargedParticle::RetardedTime", "src/fieldtrace.cpp: FieldTrace::add"]}
{"id": "C91", "title": "The schedule of the nodes does not matter", "statement": "Whatever the order in which the nodes of a distributed run get to work, and however long any of them is delayed: the run ends; no node waits forever in a collective operation; the collective operations of all nodes match in kind and in the number of values; if the input can be processed at all, every schedule writes the same files with the same contents in the same order, by rank 0 only; if it cannot, no schedule runs to the end as if nothing had happened.", "quantifier": "all input documents, node counts, random numbers, contents of uninitialised buffers, and all interleavings of the actions of the nodes", "why_tests_cant": "The number of interleavings is astronomical; a deadlock shows only if one node takes another path than the others.", "anchors": ["src/teufel_hybrid.cpp: main, MPI_Barrier, MPI_Bcast, MPI_Allgather, MPI_Reduce"]}
{"id": "C92", "title": "Tracked trajectories converge to the exact motion with second order", "statement": "A particle that starts on a smooth solution of the relativistic equation of motion dx/dt = beta c, dp/dt = q/(m c) (E + beta c x B) and is tracked with the Vay algorithm stays within a constant times the square of the time step of that solution, at every stored point, in position, momentum and acceleration; the constant is the same for all time steps below some limit and all numbers of steps within the time covered by the solution. No step fails as long as the field is defined near the exact path. Consequently any accuracy is reached with a small enough time step.", "quantifier": "all fields (any function of time and position that is Lipschitz across the exact path), all smooth exact motions of any duration, all charges and non-zero masses, all time steps below the limit, all numbers of steps, all stored points", "why_tests_cant": "An order of convergence is a statement about the limit of small time steps for every field; tests sample a few fields and step sizes.", "anchors": ["src/particle.cpp: ChargedParticle::InitVay, ChargedParticle::StepVay, TrajPoint, TrajMomentum, TrajAccel"]}
{"id": "C93", "title": "The recorded field converges to the Lienard-Wiechert field of the exact motion", "statement": "When a particle starts on a smooth solution of the equation of motion in magnetic fields, is tracked with the Vay algorithm and its radiation is recorded in a time trace at an observer that does not lie on the path, then what every sample gains is the average over the time of the sample of the exact Lienard-Wiechert field of the exact motion (retarded position, velocity and acceleration), up to a constant times the square of the tracking time step divided by the sampling interval. The constant is the same for all time steps below some limit, all numbers of steps, all sampling grids and all samples. Neither tracking nor recording fails. In fields with an electric part the limit is the same formula with dp/dt divided by gamma in place of the acceleration (see C68).", "quantifier": "all magnetic fields (Lipschitz across the path), all smooth exact motions, all observers off the path, all charges and non-zero masses, all time steps below the limit, all numbers of steps, all traces of at least two samples, all samples, all components of the field", "why_tests_cant": "It is a statement about the limit of small time steps, uniformly in the sampling; tests compare a few step sizes for a few motions with finite tolerances.", "anchors": ["src/particle.cpp: ChargedParticle::StepVay, ChargedParticle::RetardedTime, ChargedParticle::RetardedField, ChargedParticle::integrateFieldTrace", "src/fieldtrace.h: FieldTrace"]}
{"id": "C94", "title": "The files of a run converge to the exact solution", "statement": "Take a beam whose particles start on smooth solutions of the equation of motion in the fields of the lattice, without interactions. The files a run of the program writes converge to the exact solution with the second order of the time step of the tracking: watch point files and trajectory logs contain the exact positions and momenta of the particles up to a constant times the square of the time step; the file of an observer of the beam (point, screen or mesh) contains for every sample the sum over all particles of the Lienard-Wiechert field of the exact motion, averaged over the time of the sample, up to a constant times the square of the time step divided by the sampling interval (magnetic fields). The constants are the same for all input files with this lattice and beam, all numbers of nodes, and whatever memory and random number generators contain.", "quantifier": "all lattices that are Lipschitz near the paths, all beams, all input files with this lattice and beam and a time step below a limit, all numbers of steps, nodes, observers, samples, watch points and log entries", "why_tests_cant": "The limit of small time steps of the output of the whole program, uniformly in sampling, number of nodes and input file; tests compare single runs with finite tolerances.", "anchors": ["src/teufel_hybrid.cpp: main", "src/beam.cpp: Beam::doStep", "src/particle.cpp: ChargedParticle::StepVay, ChargedParticle::integrateFieldTrace", "src/point_observer.cpp: PointObserver", "src/screen.cpp: ScreenObserver", "src/mesh.cpp: MeshedScreen", "src/logger.cpp: TrajectoryLogger"]}
{"id": "C95", "title": "The exit status tells the caller whether the run succeeded", "statement": "The program started without the name of an input file, or with one that cannot be read as XML, ends with exit status 1 and writes nothing. Otherwise it ends with exit status 0 if and only if the run has succeeded and all files asked for are on the disk; all other cases end by an uncaught exception. Further arguments are ignored. (Proved for file systems on which all files can be created; refuted otherwise: observer files, watch points and parameter logs that cannot be created do not change the exit status.)", "quantifier": "all command lines, input files, file systems, numbers of nodes, random numbers and contents of uninitialised memory", "why_tests_cant": "It relates every way in which parsing, tracking and writing can fail to the exit status.", "anchors": ["src/teufel_hybrid.cpp: main"]}
{"id": "C96", "title": "Snapshots of the radiated field converge to the field of the exact motion", "statement": "For particles moving in magnetic fields, the field which a snapshot observer writes for a place and a time is the sum of the Lienard-Wiechert fields of the exact motions of the particles at this place and time, up to a constant times the square of the tracking time step. The constant does not depend on the number of steps or nodes. The signals seen must have been sent during the tracking and not within a time of the order of the squared time step before its end.", "quantifier": "all lattices and smooth motions in them, places and times of observation, time steps, numbers of steps, numbers of nodes, random numbers and contents of uninitialised memory", "why_tests_cant": "It bounds the difference to an exact solution for every field, every motion and all small time steps.", "anchors": ["src/particle.cpp: ChargedParticle::RetardedField, ChargedParticle::StepVay", "src/snapshot.cpp: SnapshotObserver::integrate", "src/teufel_hybrid.cpp: main"]}
{"id": "C97", "title": "Tracking and radiation do not depend on the choice of the coordinate system", "statement": "If positions, momenta, external fields, observers and start times are described in another cartesian coordinate system (shifted origin, rotated or mirrored axes, shifted zero of time, with the magnetic field as axial vector), tracking of particles and beams yields the same motion in the new system, point observers, screens and meshed screens record the same fields in the new system, and the same exceptions occur.", "quantifier": "all coordinate systems of both orientations, particles, beams, external fields, time steps, numbers of steps, observers and traces", "why_tests_cant": "It relates pairs of runs for every orthogonal transformation and every input.", "anchors": ["src/particle.cpp: ChargedParticle::InitVay, ChargedParticle::StepVay, ChargedParticle::RetardedTime, ChargedParticle::RetardedField, ChargedParticle::integrateFieldTrace", "src/beam.cpp: Beam::doStep, Beam::integrateFieldTrace", "src/screen.cpp: ScreenObserver::integrate", "src/point_observer.cpp: PointObserver::integrate", "src/mesh.cpp: MeshedScreen::integrate"]}
{"id": "C98", "title": "The field at a given time does not depend on the choice of the coordinate system", "statement": "If positions, momenta, external fields, the place and the time of a snapshot are described in another cartesian coordinate system, the snapshot shows the same field in the new system. (Proved if the zero of time is kept, or if the first signals of all particles have arrived before the time of the snapshot; refuted in general: before, the field depends on the zero of time.)", "quantifier": "all coordinate systems of both orientations, beams with arbitrary trajectories, external fields, places and times", "why_tests_cant": "It relates pairs of runs for every orthogonal transformation and every input.", "anchors": ["src/particle.cpp: ChargedParticle::RetardedField", "src/snapshot.cpp: SnapshotObserver::integrate"]}
{"id": "C99", "title": "A plane orbit stays in its plane and radiates linearly polarised light into it", "statement": "If particles start in a plane with momenta along it, and if in this plane the external electric field is along and the external magnetic field perpendicular to the plane, then all points of the trajectories are exactly in the plane, momenta and accelerations are along it, and all observers in the plane record electric fields along the plane and magnetic fields perpendicular to it. For the horizontal plane this is so for planar and transverse gradient undulators on a horizontal axis, dipoles with vertical field, light waves, and homogeneous fields of this kind, and for FEL interactions that propagate and are polarised horizontally. In the files of a run all such components of the field are exactly zero.", "quantifier": "all planes, external fields, particles, beams, time steps, numbers of steps, observers, input files, numbers of nodes", "why_tests_cant": "It is an invariant of every step in every field of a class, and holds for every trajectory and observer.", "anchors": ["src/particle.cpp: ChargedParticle::InitVay, ChargedParticle::StepVay, ChargedParticle::RetardedField, ChargedParticle::integrateFieldTrace", "src/undulator.cpp: PlanarUndulator::LocalField, TransverseGradientUndulator::LocalField", "src/dipole.cpp: HardEdgeDipole::LocalField, SoftEdgeDipole::LocalField", "src/wave.cpp: GaussianWave::LocalField, GaussianWavePacket::LocalField", "src/fel1d.cpp: FEL_1D::Field", "src/teufel_hybrid.cpp: main"]}
{"id": "C100", "title": "The energy of tracked particles changes by the work of the electric field", "statement": "The natural constants agree with the international system of units and with each other. The energy (in Joule) a tracked particle has gained since its start is the work of the electric field along the exact motion, up to a constant times the square of the time step and a relative error of 1e-8 from the constants. In static electric fields with a potential, together with any magnetic field, the sum of its energy and its potential energy stays the same within these bounds.", "quantifier": "all fields, smooth motions in them, particles of any charge and mass, time steps and numbers of steps", "why_tests_cant": "It bounds the error of a conserved quantity for every field, every motion and all small time steps.", "anchors": ["src/global.h: InvRestMass, mecsquared, SpeedOfLight, ElementaryCharge, EpsNull, MuNull", "src/particle.cpp: ChargedParticle::InitVay, ChargedParticle::StepVay", "src/fields.cpp: HomogeneousField::Field"]}
{"id": "C101", "title": "Rounding errors do not spoil the tracked trajectory", "statement": "With the rounded arithmetic of the machine, every stored point of a tracking run - position, momentum and acceleration - differs from the exact motion by at most a constant times h^2 + u/h, where h is the time step and u the unit roundoff, provided that the fields are computed up to errors of the size u; the recorded times are off by at most a constant times u/h. No step of such a run divides by zero or takes the root of a negative number. Any accuracy is reached with a small enough time step and enough digits. The term u/h is real: time steps below the resolution of the clock do not advance it.", "quantifier": "all rounding functions (any number of digits), fields, smooth motions in them, fields computed with errors, particles, time steps and numbers of steps", "why_tests_cant": "It bounds accumulated rounding errors of every operation over any number of steps, for all inputs and all ways of rounding.", "anchors": ["src/particle.cpp: ChargedParticle::InitVay, ChargedParticle::StepVay", "src/vector.cpp: Vector::operator+, Vector::operator*, Vector::operator/, Vector::abs2nd, dot, cross"]}
{"id": "C102", "title": "Files written by a source screen", "statement": "Reading a screen as a source of radiation writes two files with fixed names into the working directory. Both contain the position, the normal, the corrected pitch vectors, the numbers of cells and samples and the timing of the screen. For every cell and sample the first contains the components of the recorded field along the two directions of the screen, the second their time derivative (central differences, one-sided at the ends). The first file can be used as input in place of the original and gives the same fields. If the files cannot be created the source cannot be used.", "quantifier": "all input files, grids, orientations, positions and times", "why_tests_cant": "It covers the whole content of the files for any grid size and orientation, and the fields of the reloaded source at every place and time.", "anchors": ["src/source_screen.cpp: SourceScreen::SourceScreen, SourceScreen::WriteField, SourceScreen::getBuffer", "src/source_screen.h: SourceScreen"]}
{"id": "C103", "title": "Requests for output do not disturb the simulation", "statement": "If observers, watch points, the probe or the logs of bunches and particles are removed from an input file that runs, the result still runs, and every file it writes has the content it had before; the files are written in the same order. Asking for more output therefore never changes the physics recorded in the other files.", "quantifier": "all input files, all subsets of their output requests, all numbers of nodes, random numbers and contents of uninitialised memory", "why_tests_cant": "There are arbitrarily many input files and subsets of requests, and a disturbance could appear in any particle at any later time step.", "anchors": ["src/teufel_hybrid.cpp: main", "src/parser.cpp: InputParser::parseBeam, InputParser::parseTracking, InputParser::parseObservers", "src/logger.cpp: ParameterLogger::update, TrajectoryLogger::update, ProbeLogger::update"]}
{"id": "C104", "title": "Macro-particles may be divided", "statement": "A macro-particle may be replaced by several which start in the same state and share its charge and mass in any proportions. Each part follows the trajectory of the original, the radiation observed from all parts together is that of the original, and they act on FEL interactions like the original, so that all particles move as before. The files of every observer of the beam and of every interaction are the same for both input files, whatever the numbers of nodes.", "quantifier": "all macro-particles, divisions, fields, observers, lists of interactions, numbers of time steps, input files that differ in this way and numbers of nodes", "why_tests_cant": "The claim compares runs for every way of dividing every beam; tests can compare a few runs only.", "anchors": ["src/particle.cpp: ChargedParticle::InitVay, ChargedParticle::StepVay, ChargedParticle::RetardedField, ChargedParticle::integrateFieldTrace", "src/fel1d.cpp: FEL_1D::step", "src/teufel_hybrid.cpp: main"]}
{"id": "C105", "title": "Motion in a planar undulator", "statement": "The undulator parameter reported by an undulator is e B lambda / (2 pi m c). A particle that is tracked with the Vay algorithm through a planar undulator in its midplane oscillates horizontally with that parameter times its ratio of charge and mass as amplitude: up to a constant times the square of the time step, the stored momentum is the incoming one plus amplitude times cos(2 pi z / lambda) in the inner periods, equal to the incoming one after the undulator, without vertical momentum or offset and of unchanged magnitude. At any height in the inner periods the horizontal momentum of the exact motion follows cos(2 pi z / lambda) cosh(2 pi y / lambda).", "quantifier": "all peak fields, periods, numbers of periods (at least one) and positions of the undulator, all charges and non-zero masses, all starting points in the midplane with momenta large enough not to be turned around, all time steps below a limit, all numbers of steps, all stored points", "why_tests_cant": "The statement is about the limit of all small time steps, with constants valid for all steps and particles; a test compares single trajectories with a tolerance chosen by hand.", "anchors": ["src/undulator.cpp: PlanarUndulator::Setup, PlanarUndulator::GetKpeak, PlanarUndulator::GetKrms, PlanarUndulator::LocalField, TransverseGradientUndulator::GetKpeak, TransverseGradientUndulator::GetKrms", "src/fields.cpp: LocalizedField::Field", "src/particle.cpp: ChargedParticle::InitVay, ChargedParticle::StepVay"]}
{"id": "C106", "title": "Resonance condition of undulator radiation", "statement": "While a tracked particle passes m of the inner periods of a planar undulator, light overtakes it by m lambda/(2 gamma^2) (1 + K^2/2 + gamma^2 theta^2), the wavelength of undulator radiation, up to terms of higher order in 1/gamma^2 with an explicit bound and up to a constant times the square of the time step.", "quantifier": "all planar undulators, all charges and non-zero masses, all particles that start in the midplane in front of the undulator with a momentum large compared to the deflection, all time steps below a limit, all pairs of stored points in the inner periods", "why_tests_cant": "The statement is about the limit of all small time steps and about all energies, fields and angles; tests can check the slippage of single particles only.", "anchors": ["src/undulator.cpp: PlanarUndulator::Setup, PlanarUndulator::LocalField", "src/fields.cpp: LocalizedField::Field", "src/particle.cpp: ChargedParticle::InitVay, ChargedParticle::StepVay"]}
{"id": "C107", "title": "The interaction field is radiated by the beam", "statement": "Inside the grid of an FEL interaction the field obeys the wave equation in one dimension, driven by the rate of change of the transverse current of the beam (with a minus sign, as Maxwell's equations require), whatever the time step.", "quantifier": "all interactions, all beams handed over in all steps, all cells inside the grid, all numbers of steps and time steps", "why_tests_cant": "The statement quantifies over all beams, steps and cells; the dependence on the time step shows only in the limit of small time steps.", "anchors": ["src/fel1d.cpp: FEL_1D::step, FEL_1D::init, FEL_1D::setup", "src/fel1d.h: FEL_1D"]}
{"id": "C108", "title": "Motion in homogeneous fields", "statement": "In a homogeneous magnetic field a charged particle runs on a helix with the gyration frequency q B / (gamma m). A particle tracked with the Vay algorithm stays on this orbit for ever: every stored momentum is one the particle has in its true motion, and every stored position is one it passes, up to a displacement along the field lines; only the time at which it gets there is off, by at most the fraction (omega h)^2/4. The files of the watch points show all particles on their true orbits in this way. In a homogeneous electric field the stored momenta are exact.", "quantifier": "all homogeneous fields in any direction, all charges and non-zero masses, all starting positions and momenta, all time steps up to 1/omega, all numbers of steps; all input files with such a lattice, all watch points and numbers of nodes", "why_tests_cant": "The statement has no bound on the number of steps; a test could not tell a slow drift off the orbit from none.", "anchors": ["src/particle.cpp: ChargedParticle::InitVay, ChargedParticle::StepVay", "src/fields.cpp: HomogeneousField", "src/teufel_hybrid.cpp: main"]}
{"id": "C109", "title": "Tracked motion can be run backwards", "statement": "If a particle that has been tracked with the Vay algorithm is started again at its last stored point with the opposite momentum, in the time-reversed field (the electric field of the mirrored time, the magnetic field of the mirrored time with opposite sign), it passes all its stored points in reverse order with opposite momenta, exactly.", "quantifier": "all fields, charges, non-zero masses, starting points, time steps and numbers of steps", "why_tests_cant": "The statement is exact for all fields and all numbers of steps; a test sees rounding errors only for the fields it tries.", "anchors": ["src/particle.cpp: ChargedParticle::InitVay, ChargedParticle::StepVay"]}
{"id": "C110", "title": "The numbers reported for Gaussian waves are true", "statement": "The peak field, waist size and power that are printed when a Gaussian wave is created are true of the field it exerts: the field is nowhere larger than the peak field and reaches it in the waist, at the waist size off axis it has fallen to 1/e, and the mean power through any plane across the beam is the printed one.", "quantifier": "all wavelengths, amplitudes and Rayleigh ranges, all origins and start times, all planes across the beam", "why_tests_cant": "The power is an integral over an infinite plane; a test can sum up samples only in the planes it tries.", "anchors": ["src/wave.cpp: GaussianWave::Setup, GaussianWave::LocalField"]}
{"id": "C111", "title": "Gaussian waves obey the paraxial wave equation", "statement": "The complex amplitude of a Gaussian wave obeys the paraxial wave equation, as the beam of a laser does.", "quantifier": "all wavelengths, amplitudes and Rayleigh ranges, all positions", "why_tests_cant": "A differential equation in all points of space; tests compare with a formula at a few points.", "anchors": ["src/wave.cpp: GaussianWave::LocalField"]}
{"id": "C112", "title": "Reports on meshed screens", "statement": "The report on a meshed screen shows the total area of its cells, the total energy flowing through it along the normals, and the first of the cells with the largest energy density, with its position, energy density vector and time range; no cell is reported only if no energy flows anywhere. The energy flow vector printed by the reflection program is the sum over all cells of energy density times area.", "quantifier": "all meshes with any number of cells and samples, all fields", "why_tests_cant": "A search for a maximum over any number of cells and a sum over all samples.", "anchors": ["src/mesh.cpp: MeshedScreen::writeReport, MeshedScreen::totalEnergy", "src/reflection.cpp: main"]}
{"id": "C113", "title": "The bounding box of a screen contains all samples", "statement": "The bounding box in space and time printed by the reflection program for a screen contains the positions and times of all its field samples and touches them on all sides.", "quantifier": "all meshes with any number of cells and samples and any time step", "why_tests_cant": "Quantifies over all cells and samples of all meshes; the time step is of any size.", "anchors": ["src/reflection.cpp: main", "src/mesh.h: MeshedScreen::get_dt"]}
{"id": "C114", "title": "The radiated field obeys Maxwell's equations", "statement": "The field that is reported at the observers for particles moving through magnetic fields approaches, when the time step of the tracking is made shorter, a field that obeys all four of Maxwell's equations in vacuum everywhere off the paths of the charges; the sum over the particles of a beam does so as well. Before the first signal of a trajectory arrives the reported field itself obeys the equations exactly.", "quantifier": "all motions slower than light in magnetic fields, all times and places reached by a signal, all numbers of charges; for the field before the start all trajectories beginning at time zero", "why_tests_cant": "Differential equations in all points of space and time, for the limit of a sequence of computations.", "anchors": ["src/particle.cpp: ChargedParticle::RetardedField, ChargedParticle::RetardedTime", "src/particle.cpp: ChargedParticle::InitVay, ChargedParticle::StepVay"]}
{"id": "C115", "title": "The field of particles in uniform motion is Coulomb's, seen from a moving frame", "statement": "A particle that has not been accelerated is reported to have the field of Coulomb's law around its present position, Lorentz transformed from its rest frame. For the particles before the start of their trajectories this is exact, and the flux of the electric field through every sphere around the particle is its charge divided by the electric constant; for particles tracked without any field it holds in the limit of short time steps.", "quantifier": "all charges, velocities, observation points and times up to the arrival of the first signal (trajectories beginning at time zero), all radii and times up to zero for the flux; for tracked particles all time steps below a bound and all observation points off the path", "why_tests_cant": "An identity between two different theories in all points of space and time, and an integral over a closed surface.", "anchors": ["src/particle.cpp: ChargedParticle::RetardedField", "src/particle.cpp: ChargedParticle::InitVay, ChargedParticle::StepVay"]}
{"id": "C116", "title": "The number of nodes changes recorded fields by rounding errors only", "statement": "With rounded arithmetic the recorded fields depend on the distribution of the particles over the nodes, on their order and on the order in which MPI_Reduce adds, but only a little: every number differs from the exact sum of the contributions of all particles by at most ((1+u)^(m+N)-1) times the sum of their absolute values (u unit roundoff, m contributions, N nodes). In double precision two runs with up to a million contributions and nodes agree to nine digits of that sum. They need not be identical.", "quantifier": "all particles and contributions, all distributions over any numbers of nodes, all orders and bracketings of MPI_Reduce, all samples and components, every rounding function", "why_tests_cant": "The order of additions in MPI_Reduce is not specified and differs between installations and runs.", "anchors": ["src/fieldtrace.cpp: FieldTrace::add", "src/particle.cpp: ChargedParticle::integrateFieldTrace", "src/bunch.cpp: Bunch::integrateFieldTrace", "src/teufel_hybrid.cpp: MPI_Reduce"]}
{"id": "C117", "title": "The reported field carries the power of Lienard's formula", "statement": "The energy which the field reported for a trajectory point carries away through large spheres, per unit of the time of emission, is the power P = q^2 gamma^6 (w^2 - (beta x w)^2)/(6 pi eps0 c) of Lienard's formula, where w is the derivative of the velocity beta.", "quantifier": "all charges, positions, momenta, accelerations, hence all points of all trajectories; limit of infinite radius", "why_tests_cant": "An integral over all directions in the limit of infinite distance, for all velocities.", "anchors": ["src/particle.cpp: ChargedParticle::RetardedField", "src/particle.cpp: ChargedParticle::StepVay", "src/fields.cpp: ElMagField::Poynting"]}
{"id": "C118", "title": "Tracking converges in every beam line without hard edges", "statement": "In every lattice of homogeneous fields, undulators, soft-edge dipoles, waves and wave packets the relativistic equation of motion has exactly one solution for every start, particle and duration, and the trajectory computed with time step h deviates from it by at most a constant times h in position, momentum and acceleration. No step fails.", "quantifier": "all lattices of these elements with any parameters for which their fields are defined, all charges and masses, starts, durations, numbers of steps and sufficiently small time steps", "why_tests_cant": "A limit over all time steps, in all fields; the exact motion is known for few of them.", "anchors": ["src/particle.cpp: ChargedParticle::InitVay", "src/particle.cpp: ChargedParticle::StepVay", "src/fields.cpp: Lattice::Field", "src/undulator.cpp: PlanarUndulator::LocalField", "src/undulator.cpp: TransverseGradientUndulator::LocalField", "src/dipole.cpp: SoftEdgeDipole::LocalField", "src/wave.cpp: GaussianWave::LocalField"]}
{"id": "C119", "title": "The files of runs in beam lines without hard edges converge to the exact solution", "statement": "In every lattice of homogeneous fields, undulators, soft-edge dipoles, waves and wave packets the watch files and trajectory logs of a run contain the exact positions and momenta up to a constant times the time step; where the particles meet magnetic fields only, the files of observers contain the averages over each sample of the sum of the exact fields of all particles, up to a constant times the time step, for every input and number of nodes.", "quantifier": "all lattices of these elements, all beams, observers, samplings, numbers of nodes and sufficiently small time steps; nothing is assumed of the exact motion but the equation of motion", "why_tests_cant": "A limit over all time steps of complete runs on any number of nodes; at the ramps of undulators the motion has kinks.", "anchors": ["src/teufel_hybrid.cpp: main", "src/particle.cpp: ChargedParticle::StepVay", "src/particle.cpp: ChargedParticle::integrateFieldTrace", "src/undulator.cpp: PlanarUndulator::LocalField", "src/fields.cpp: Lattice::Field"]}
{"id": "C120", "title": "Tracking through the edges of hard-edge dipoles converges to the exact motion", "statement": "In every lattice, including those with hard-edge dipoles whose field jumps at their faces, tracking of a particle which passes the faces transversally never fails and the stored times, positions and momenta are those of the exact motion up to a constant times the time step; there is at most one such motion from a given start; the watch files and trajectory logs of a run contain it up to a constant times the time step.", "quantifier": "all lattices of homogeneous fields, undulators, soft-edge and hard-edge dipoles, waves and wave packets, any number of faces and crossings, all particles, beams, numbers of nodes and sufficiently small time steps; of the exact motion nothing is assumed but the equation of motion away from the faces, continuity of the momentum, and that the velocity is not parallel to a face while the particle is on it", "why_tests_cant": "A limit over all time steps with a discontinuous field: the step in which an edge is crossed samples the field on one side only, wherever in the step the edge happens to lie.", "anchors": ["src/particle.cpp: ChargedParticle::InitVay", "src/particle.cpp: ChargedParticle::StepVay", "src/dipole.cpp: HardEdgeDipole::LocalField", "src/fields.cpp: Lattice::Field", "src/teufel_hybrid.cpp: main", "src/logger.cpp: TrajectoryLogger"]}
{"id": "C121", "title": "The radiation recorded from particles passing hard-edge dipoles converges to the exact field", "statement": "In every lattice, including those with hard-edge dipoles, the samples recorded from a particle which passes the faces transversally through magnetic fields are the averages over the sample time of the exact Lienard-Wiechert field of the exact motion - which jumps whenever the particle passes a face - up to a constant times the time step; neither tracking nor recording fails; the files the program writes for observers of the beam contain the sum of these averages over all particles, up to a constant times the time step.", "quantifier": "all lattices of homogeneous fields, undulators, soft-edge and hard-edge dipoles, waves and wave packets, any number of faces and crossings, all particles, beams, observers off the trajectories, samplings, numbers of nodes and sufficiently small time steps; the fields on the way must be magnetic for the comparison with the exact field", "why_tests_cant": "A limit over all time steps with a discontinuous signal: the two stored points next to a crossing carry accelerations of different sides and the recording interpolates linearly between them, in whatever part of the step the edge lies.", "anchors": ["src/particle.cpp: ChargedParticle::StepVay", "src/particle.cpp: ChargedParticle::integrateFieldTrace", "src/dipole.cpp: HardEdgeDipole::LocalField", "src/fields.cpp: Lattice::Field", "src/beam.cpp: Beam::integrateFieldTrace", "src/teufel_hybrid.cpp: main", "src/point_observer.cpp: PointObserver::integrate"]}
{"id": "C122", "title": "Contents of the probe file of a run", "statement": "A run with a probe entry for num particles every st steps writes an HDF5 file of 1 + NOTS/st records for the first num particles of the beam (at most those of the first node); each record holds time, position, momentum, acceleration, electric and magnetic field, in this order, of the particle after as many steps of the coupled system as the record number times st; the recorded fields are those of the lattice and the interactions which act on the particle in that step, at the time and position in the same record, and the recorded acceleration is q/m (E/c + beta x B) with the momentum in the same record. Without interactions the recorded times are exact and positions and momenta converge to the exact motion: with the square of the time step in smooth fields, with the time step at kinks and hard edges.", "quantifier": "all input documents with a probe entry whose run succeeds, all numbers of nodes and steps, random numbers, interactions, records and particles", "why_tests_cant": "The file is written at the end of the run from a buffer filled while all particles and interactions advance; the relation between its columns must hold for every particle, step, lattice and number of nodes.", "anchors": ["src/logger.cpp: ProbeLogger::update", "src/logger.cpp: ProbeLogger::WriteData", "src/parser.cpp: InputParser::parseBeam", "src/particle.cpp: ChargedParticle::InitVay", "src/particle.cpp: ChargedParticle::StepVay", "src/particle.cpp: ChargedParticle::bufferProbe", "src/beam.cpp: Beam::bufferProbe", "src/teufel_hybrid.cpp: main"]}
{"id": "C123", "title": "Files of a run which is interrupted or fails", "statement": "When a run is killed at any moment or stops with an error, the files written so far are, up to the end of tracking, files of watch points only; each of them is complete and shows all particles after exactly the number of steps requested for it; the files of all watch points with a smaller step have been written before it. Logs, interaction logs and observers are written only after all time steps are done and after all watch points, so a run which dies during tracking leaves none of them. If the particles and interactions can be advanced by k steps and the logs can be kept, the files of all watch points up to step k are on the disk whatever happens later. A complete run which is killed leaves an initial part of the files of the complete run, with the same contents.", "quantifier": "all input documents, moments of interruption, errors in later steps, numbers of nodes, random numbers, interactions and watch points", "why_tests_cant": "The crash point is arbitrary; a test kills a run at a few moments and cannot show that every file left behind is complete and correct for every lattice, beam and number of nodes.", "anchors": ["src/teufel_hybrid.cpp: main", "src/beam.cpp: Beam::WriteWatchPointHDF5", "src/beam.cpp: Beam::WriteWatchPointSDDS", "src/fel1d.cpp: FEL_1D::step", "src/logger.cpp: ParameterLogger::WriteData"]}
{"id": "C124", "title": "A longer run continues a shorter one", "statement": "Two runs whose input files differ in the number of time steps only agree as far as the shorter one gets: a watch point reached by both writes the same file; the rows of a log of beam parameters, the recorded trajectories and the records of the probe (on the same number of nodes) of the shorter run are the first ones of the longer run; and every sample of the radiation recorded by screens, meshes and points which ends before the last signal of the shorter run has arrived from any of the particles is the same in both files, as is the field of a snapshot at every point not yet passed by these signals. The numbers of nodes of the two runs may differ.", "quantifier": "all pairs of input documents differing in the number of steps, numbers of nodes, random numbers, lattices, beams, interactions, watch points, logs and observers", "why_tests_cant": "Extending a run is a daily habit; a test compares two lengths of one input, while the claim needs that nothing computed in a step depends on the number of steps still to come.", "anchors": ["src/teufel_hybrid.cpp: main", "src/parser.cpp: InputParser::parseTracking", "src/particle.cpp: ChargedParticle::integrateFieldTrace, RetardedField", "src/logger.cpp: ParameterLogger", "src/logger.cpp: TrajectoryLogger"]}
{"id": "C125", "title": "A beam may be simulated in parts", "statement": "If the entries of a beam (single particles and imported bunches, without definitions) are given in two input files which are equal otherwise and contain no interactions, then every sample in the observation files of the run with the whole beam is the sum of the samples in the files of the two separate runs, and every watch point file holds the particles of both separate files in the same states, the first part before the second. The numbers of nodes and the random numbers of the three runs may differ.", "quantifier": "all triples of input documents which split the entries of a beam, lattices, time steps, numbers of steps, nodes, random numbers, observers and watch points", "why_tests_cant": "Splitting a beam over several jobs relies on it; a test splits one beam at one place, while the claim is about all splits, all observers and all numbers of nodes of each job.", "anchors": ["src/teufel_hybrid.cpp: main", "src/parser.cpp: InputParser::parseBeam", "src/beam.cpp: Beam::integrateFieldTrace, RetardedField, WriteWatchPointSDDS"]}
{"id": "C126", "title": "The order of the elements of the lattice does not matter", "statement": "If two input files differ in the order of the elements of the lattice only, and these elements make no definitions, then two runs with the same random numbers for the beam write the same: every observer of the beam records the same samples, every observer of the lattice the same field (times the number of nodes of its run), every watch point file and every file of an interaction is equal. The runs may use different numbers of nodes.", "quantifier": "all pairs of input documents whose lattices are permutations of each other, beams, interactions, time steps, numbers of steps, nodes, observers and watch points", "why_tests_cant": "A test reorders one lattice; the claim is about every permutation of every lattice, and in a loop of many steps any dependence on the order would be amplified.", "anchors": ["src/teufel_hybrid.cpp: main", "src/parser.cpp: InputParser::parseLattice", "src/fields.cpp: Lattice::Field"]}
{"id": "C127", "title": "Only the product of charge and field matters for the motion", "statement": "Particles of c times the charge and the same mass, in 1/c times the fields of the lattice and without interactions, pass through the same points with the same momenta and accelerations, and every observer records c times their radiation (for c = -1: antiparticles in the reversed fields). The observation files of the second run show c times the samples of the first one, the watch point files hold the same states; the numbers of nodes may differ.", "quantifier": "all factors c other than zero, all fields, particles, time steps and numbers of steps; all pairs of input documents related in this way, nodes, observers and watch points", "why_tests_cant": "A test compares one electron with one positron in one field; the symmetry must hold for every field, factor, trajectory and observer.", "anchors": ["src/particle.cpp: ChargedParticle::InitVay, StepVay, integrateFieldTrace, RetardedField", "src/teufel_hybrid.cpp: main", "src/fields.cpp: Lattice::Field"]}
{"id": "C128", "title": "Scaling laws of beams with interactions", "statement": "A beam of k c times the charge and k times the mass in 1/c times the fields of lattice and seed, with FEL interactions whose optical mode is a times as wide with a^2 = k c^2, moves in the same way as the original: all particles pass the same points, the fields and current densities of the interactions stay 1/c times the original ones, and the observed radiation is k c times the original one. So for c = 1 only the ratio of charge and mode area matters, and for c = -1, k = a = 1 particles and antiparticles in reversed fields behave alike. The files of the runs are related in this way, HDF5 watch point files are equal; the numbers of nodes may differ.", "quantifier": "all factors with a^2 = k c^2, a and c not zero, all lattices, beams, lists of interactions, time steps and numbers of steps; all pairs of input documents related in this way, nodes, observers and watch points", "why_tests_cant": "A test compares two runs for one factor; a scaling law of the coupled system of particles and fields must hold after every number of steps for all factors and setups.", "anchors": ["src/fel1d.cpp: FEL_1D::init, step, Field, write_output", "src/particle.cpp: ChargedParticle::InitVay, StepVay", "src/teufel_hybrid.cpp: main"]}
{"id": "C129", "title": "Rounding errors of fields and of the whole tracking", "statement": "In every bounded region the field of a lattice of homogeneous fields, planar and transverse gradient undulators and soft-edge dipoles, computed with rounded arithmetic and a mathematical library of finite accuracy, differs from the exact field by at most a constant times the unit roundoff u, also at the ends of undulators and ramps where rounding may decide which formula is used. So when both the tracker and the fields are rounded, every stored point of a track with a smooth exact motion is within a constant times h^2 + u/h of it, for time step h; no step fails.", "quantifier": "all lattices of these elements with positive periods and transition lengths other than zero, all regions, positions, ways of rounding and mathematical libraries of a given accuracy; all smooth motions, time steps and numbers of steps", "why_tests_cant": "A test computes with one floating-point format at some positions; that no position near an edge spoils the accuracy concerns all positions and all ways of rounding.", "anchors": ["src/undulator.cpp: PlanarUndulator::Setup, LocalField, TransverseGradientUndulator::Setup, LocalField", "src/dipole.cpp: SoftEdgeDipole::LocalField", "src/fields.cpp: HomogeneousField::Field, LocalizedField::Field, Lattice::Field", "src/particle.cpp: ChargedParticle::InitVay, StepVay"]}
{"id": "C130", "title": "Rounded tracking through beam lines converges", "statement": "In a lattice of homogeneous fields, planar and transverse gradient undulators and soft-edge dipoles there is an exact motion from every start, and every stored point of a run of the tracker - time, position, momentum and rate of change of the momentum, with rounded arithmetic in the tracker and in the fields - differs from that motion by at most a constant times h + u/h, for time step h and unit roundoff u. Any accuracy is reached with a small enough time step and then enough digits. No step fails. Nothing is assumed of the motion, which may pass the ends of undulators and ramps where the derivative of the field jumps.", "quantifier": "all lattices of these elements with positive periods and transition lengths other than zero, all starts, charge-to-mass ratios and durations, ways of rounding, mathematical libraries of a given accuracy, time steps below a bound, numbers of steps and earlier histories of the particle", "why_tests_cant": "A test compares some tracks at some steps with a reference that is itself computed; a bound by the exact motion for all steps and all ways of rounding needs a proof.", "anchors": ["src/particle.cpp: ChargedParticle::InitVay, StepVay", "src/undulator.cpp: PlanarUndulator::LocalField, TransverseGradientUndulator::LocalField", "src/dipole.cpp: SoftEdgeDipole::LocalField", "src/fields.cpp: Lattice::Field"]}
{"id": "C131", "title": "Rounding errors of hard-edge dipoles", "statement": "Whether a position is inside a hard-edge dipole is decided correctly in spite of rounding errors, so that the computed field of the dipole is the exact one, for positions, planes and normals given by machine numbers.", "quantifier": "all dipoles, positions, ways of rounding and numbers of digits", "why_tests_cant": "A test tries some positions; the positions at which rounding decides are too close to the planes to be met by chance.", "anchors": ["src/dipole.cpp: HardEdgeDipole::LocalField", "src/vector.cpp: operator-, dot", "src/fields.cpp: LocalizedField::Field"]}
{"id": "C132", "title": "Magnetic fields do no work, up to rounding", "statement": "In magnetic fields, the magnitude of the momentum and the energy of a particle tracked with rounded arithmetic, and the lengths of the steps of the stored trajectory, change by at most a constant times the number of steps times the unit roundoff, for any time step.", "quantifier": "all magnetic fields below a bound, a different one for every step, particles, time steps, numbers of steps and ways of rounding", "why_tests_cant": "A test follows some orbits for some steps; whether rounding errors can pile up faster than linearly, or the time step matters, in some field cannot be seen from them.", "anchors": ["src/particle.cpp: ChargedParticle::InitVay, StepVay"]}
{"id": "C133", "title": "Slower than light in spite of rounding", "statement": "A particle tracked with rounded arithmetic in bounded fields never fails by a division by zero or the root of a negative number, and the distance between successive stored positions is less than the speed of light times the time step, if the unit roundoff is small compared to the time step (how small depends on bounds of the momentum, the fields and the duration).", "quantifier": "all fields below bounds, a different one for every step, particles, time steps, numbers of steps and ways of rounding", "why_tests_cant": "A test tracks some particles in some fields; whether rounding errors make some fast particle exceed the limit, or some operation fail, cannot be seen from them.", "anchors": ["src/particle.cpp: ChargedParticle::InitVay, StepVay"]}
{"id": "C134", "title": "Mirror images and opposite charges are tracked alike to the last bit", "statement": "If some coordinate axes are reversed, or the signs of the charge and of all fields are reversed, the tracked positions, momenta and accelerations are the mirror images of those of the original run, without any difference due to rounding, and a call that fails does so in both runs.", "quantifier": "all particles, fields, time steps, numbers of steps, combinations of reversed axes and charge, and ways of rounding", "why_tests_cant": "A test compares a few mirrored runs; an expression evaluated in a way that breaks the symmetry by a rounding error would show only for some numbers.", "anchors": ["src/particle.cpp: ChargedParticle::InitVay, StepVay", "src/vector.cpp: cross, dot, abs2nd"]}
{"id": "C135", "title": "Macro-particles follow the path of a single particle to the last bit", "statement": "Two particles with the same ratio of charge and mass, like an electron and a macro-particle standing for many electrons, which start with the same trajectory and are tracked in the same fields with the same time step, have the same trajectory, without any difference due to rounding. Tracking does not change charge and mass.", "quantifier": "all particles, charges and masses with the same ratio, fields, time steps, numbers of steps and ways of rounding", "why_tests_cant": "A test compares a few macro-particles; whether the size of the charge enters the rounding errors of some other one cannot be seen from it.", "anchors": ["src/particle.cpp: ChargedParticle::InitVay, StepVay"]}
