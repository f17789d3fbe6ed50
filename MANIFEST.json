{
 "claims": [
  {
   "property": "C01",
   "status": "proved",
   "theorems": [
    "Teufel.C01_bookkeeping",
    "Teufel.C01_no_undefined_access",
    "Teufel.C01_store_retrieve"
   ],
   "note": ""
  },
  {
   "property": "C02",
   "status": "proved",
   "theorems": [
    "Teufel.C02_mass_shell",
    "Teufel.C02_always",
    "Teufel.C02_subluminal"
   ],
   "note": ""
  },
  {
   "property": "C03",
   "status": "proved",
   "theorems": [
    "Teufel.C03_magnetic_no_work",
    "Teufel.C03_equal_steps",
    "Teufel.C03_on_path"
   ],
   "note": ""
  },
  {
   "property": "C04",
   "status": "proved",
   "theorems": [
    "Teufel.C04_force_free",
    "Teufel.C04_on_path"
   ],
   "note": ""
  },
  {
   "property": "C05",
   "status": "proved",
   "theorems": [
    "Teufel.C05_equidistant",
    "Teufel.C05_total",
    "Teufel.C05_requires_trajectory"
   ],
   "note": ""
  },
  {
   "property": "C06",
   "status": "proved",
   "theorems": [
    "Teufel.C06_round_trip",
    "Teufel.C06_empty"
   ],
   "note": ""
  },
  {
   "property": "C07",
   "status": "proved",
   "theorems": [
    "Teufel.C07_round_trip",
    "Teufel.C07_resume",
    "Teufel.C07_empty_not_restorable"
   ],
   "note": ""
  },
  {
   "property": "C08",
   "status": "partial",
   "theorems": [
    "Teufel.C08_shift_partial",
    "Teufel.C08_last_point_stays",
    "Teufel.C08_full_statement_false",
    "Teufel.C08_shift_lost_by_tracking"
   ],
   "note": "Proved for the current point and all recorded points except the last one. The code shifts indices 0..NP-2 only, so the last recorded point stays: C08_full_statement_false gives the witness, C08_last_point_stays proves it for every particle, C08_shift_lost_by_tracking shows that tracking then restarts from the unshifted point."
  },
  {
   "property": "C09",
   "status": "partial",
   "theorems": [
    "Teufel.C09_mirror_partial",
    "Teufel.C09_reflection_geometry",
    "Teufel.C09_last_point_stays",
    "Teufel.C09_carried_momentum_stays",
    "Teufel.C09_full_statement_false"
   ],
   "note": "Proved for the current point and all recorded points except the last one; the last recorded point and the momentum carried by the Vay integrator are not mirrored by the code (C09_last_point_stays, C09_carried_momentum_stays, C09_full_statement_false)."
  },
  {
   "property": "C10",
   "status": "proved",
   "theorems": [
    "Teufel.C10_no_trajectory",
    "Teufel.C10_outside",
    "Teufel.C10_single_point",
    "Teufel.C10_interpolation",
    "Teufel.C10_defined",
    "Teufel.C10_stored_point"
   ],
   "note": ""
  },
  {
   "property": "C11",
   "status": "partial",
   "theorems": [
    "Teufel.C11_no_trajectory",
    "Teufel.C11_after_end",
    "Teufel.C11_before_start_partial",
    "Teufel.C11_interior_partial",
    "Teufel.C11_interior_converged_partial",
    "Teufel.C11_defined",
    "Teufel.C11_before_start_full_statement_false",
    "Teufel.C11_interior_full_statement_false"
   ],
   "note": "Proved: empty trajectory, observer after the end, continuation into the past for trajectories starting at t=0, interior points under a step-length condition or when the search converges. False in general: the continuation ignores the start time, and the secant search stops after 10 iterations (two full_statement_false theorems with witnesses)."
  },
  {
   "property": "C12",
   "status": "proved",
   "theorems": [
    "Teufel.C12_lienard_wiechert",
    "Teufel.C12_orthogonal",
    "Teufel.C12_charge_linear",
    "Teufel.C12_coulomb",
    "Teufel.C12_radiation_transversal"
   ],
   "note": ""
  },
  {
   "property": "C13",
   "status": "proved",
   "theorems": [
    "Teufel.C13_arrival_order",
    "Teufel.C13_tracked"
   ],
   "note": ""
  },
  {
   "property": "C14",
   "status": "proved",
   "theorems": [
    "Teufel.C14_no_index_error"
   ],
   "note": ""
  },
  {
   "property": "C15",
   "status": "proved",
   "theorems": [
    "Teufel.C15_sample_integral",
    "Teufel.C15_conservation",
    "Teufel.C15_nothing_to_record"
   ],
   "note": ""
  },
  {
   "property": "C16",
   "status": "proved",
   "theorems": [
    "Teufel.C16_add",
    "Teufel.C16_add_assign",
    "Teufel.C16_sub",
    "Teufel.C16_assign",
    "Teufel.C16_scale"
   ],
   "note": ""
  },
  {
   "property": "C17",
   "status": "partial",
   "theorems": [
    "Teufel.C17_times",
    "Teufel.C17_sampling_times",
    "Teufel.C17_interpolation",
    "Teufel.C17_outside_partial",
    "Teufel.C17_ramps",
    "Teufel.C17_outside_full_statement_false",
    "Teufel.C17_lookup_defined_partial",
    "Teufel.C17_lookup_undefined",
    "Teufel.C17_lookup_full_statement_false",
    "Teufel.C17_long_trace"
   ],
   "note": "Zero is returned at least one time step outside the trace; closer than one step the code extrapolates with a ramp (C17_ramps), so the documented zero outside is false (C17_outside_full_statement_false). The conversion of the sample index to an int is undefined 2^31 steps away from the trace (C17_lookup_undefined, C17_lookup_full_statement_false); C17_lookup_defined_partial: defined closer than that for traces of less than 2^31 samples."
  },
  {
   "property": "C18",
   "status": "partial",
   "theorems": [
    "Teufel.C18_derivative",
    "Teufel.C18_linear_exact",
    "Teufel.C18_quadratic_exact",
    "Teufel.C18_short_trace_full_statement_false"
   ],
   "note": "The derivative is the documented finite difference, exact for quadratic traces; traces with fewer than two samples make the code read outside the trace (C18_short_trace_full_statement_false)."
  },
  {
   "property": "C19",
   "status": "proved",
   "theorems": [
    "Teufel.C19_index_guards",
    "Teufel.C19_write_effect",
    "Teufel.C19_bulk_round_trip"
   ],
   "note": ""
  },
  {
   "property": "C20",
   "status": "proved",
   "theorems": [
    "Teufel.C20_perpendicular",
    "Teufel.C20_transversal_part",
    "Teufel.C20_idempotent"
   ],
   "note": ""
  },
  {
   "property": "C21",
   "status": "proved",
   "theorems": [
    "Teufel.C21_retard",
    "Teufel.C21_whole_steps"
   ],
   "note": ""
  },
  {
   "property": "C22",
   "status": "proved",
   "theorems": [
    "Teufel.C22_superposition",
    "Teufel.C22_fails_iff",
    "Teufel.C22_order_independent",
    "Teufel.C22_add_field",
    "Teufel.C22_history"
   ],
   "note": ""
  },
  {
   "property": "C23",
   "status": "proved",
   "theorems": [
    "Teufel.C23_translation",
    "Teufel.C23_origin"
   ],
   "note": ""
  },
  {
   "property": "C24",
   "status": "proved",
   "theorems": [
    "Teufel.C24_hard_edge",
    "Teufel.C24_static"
   ],
   "note": ""
  },
  {
   "property": "C25",
   "status": "proved",
   "theorems": [
    "Teufel.C25_bounded",
    "Teufel.C25_monotone",
    "Teufel.C25_deep_inside",
    "Teufel.C25_transition_length"
   ],
   "note": ""
  },
  {
   "property": "C26",
   "status": "proved",
   "theorems": [
    "Teufel.C26_no_net_offset",
    "Teufel.C26_support",
    "Teufel.C26_continuous",
    "Teufel.C26_bounded",
    "Teufel.C26_maxwell",
    "Teufel.C26_no_net_kick"
   ],
   "note": ""
  },
  {
   "property": "C27",
   "status": "partial",
   "theorems": [
    "Teufel.C27_kick",
    "Teufel.C27_no_net_offset",
    "Teufel.C27_planar_limit",
    "Teufel.C27_support",
    "Teufel.C27_maxwell_partial",
    "Teufel.C27_maxwell_full_statement_false"
   ],
   "note": "Maxwell's equations hold for every gradient without modulation; with modulation the field has a divergence (C27_maxwell_full_statement_false). The field integrals are proved in both directions and for every offset (at least one period): zero without modulation, m*N*lambda/2 times the amplitude at the offset with modulation m."
  },
  {
   "property": "C28",
   "status": "proved",
   "theorems": [
    "Teufel.C28_wave",
    "Teufel.C28_waist_phase",
    "Teufel.C28_speed_of_light",
    "Teufel.C28_power_conserved",
    "Teufel.C28_packet",
    "Teufel.C28_packet_peak"
   ],
   "note": ""
  },
  {
   "property": "C29",
   "status": "proved",
   "theorems": [
    "Teufel.C29_read_write",
    "Teufel.C29_index_safe",
    "Teufel.C29_buffers",
    "Teufel.C29_subset"
   ],
   "note": ""
  },
  {
   "property": "C30",
   "status": "proved",
   "theorems": [
    "Teufel.C30_bunch",
    "Teufel.C30_bunch_guards",
    "Teufel.C30_distribution",
    "Teufel.C30_scale"
   ],
   "note": ""
  },
  {
   "property": "C31",
   "status": "proved",
   "theorems": [
    "Teufel.C31_bunch",
    "Teufel.C31_bunch_add",
    "Teufel.C31_beam",
    "Teufel.C31_beam_add"
   ],
   "note": ""
  },
  {
   "property": "C32",
   "status": "proved",
   "theorems": [
    "Teufel.C32_buffer",
    "Teufel.C32_load"
   ],
   "note": ""
  },
  {
   "property": "C33",
   "status": "proved",
   "theorems": [
    "Teufel.C33_probe",
    "Teufel.C33_probe_excess",
    "Teufel.C33_logger"
   ],
   "note": ""
  },
  {
   "property": "C34",
   "status": "proved",
   "theorems": [
    "Teufel.C34_buffer_coordinates"
   ],
   "note": ""
  },
  {
   "property": "C35",
   "status": "proved",
   "theorems": [
    "Teufel.C35_distribution"
   ],
   "note": ""
  },
  {
   "property": "C36",
   "status": "proved",
   "theorems": [
    "Teufel.C36_nodes",
    "Teufel.C36_serial",
    "Teufel.C36_progress"
   ],
   "note": ""
  },
  {
   "property": "C37",
   "status": "proved",
   "theorems": [
    "Teufel.C37_nodes",
    "Teufel.C37_value"
   ],
   "note": ""
  },
  {
   "property": "C38",
   "status": "partial",
   "theorems": [
    "Teufel.C38_single_node_partial",
    "Teufel.C38_factor_partial",
    "Teufel.C38_witness",
    "Teufel.C38_full_statement_false"
   ],
   "note": "Proved for one node; with n nodes the recorded field is n times the lattice field (C38_factor_partial), because every node integrates the lattice and all contributions are summed (C38_full_statement_false)."
  },
  {
   "property": "C39",
   "status": "partial",
   "theorems": [
    "Teufel.C39_round_trip",
    "Teufel.C39_other_sizes",
    "Teufel.C39_overflow",
    "Teufel.C39_full_statement_false"
   ],
   "note": "Round trip proved for all observers whose buffer size fits into 32 bits; beyond that the size computation wraps around and the buffer is overrun (C39_overflow, C39_full_statement_false)."
  },
  {
   "property": "C40",
   "status": "proved",
   "theorems": [
    "Teufel.C40_screen",
    "Teufel.C40_snapshot",
    "Teufel.C40_mesh"
   ],
   "note": ""
  },
  {
   "property": "C41",
   "status": "proved",
   "theorems": [
    "Teufel.C41_parameter",
    "Teufel.C41_zero",
    "Teufel.C41_trajectory",
    "Teufel.C41_probe"
   ],
   "note": ""
  },
  {
   "property": "C42",
   "status": "proved",
   "theorems": [
    "Teufel.C42_watches",
    "Teufel.C42_file",
    "Teufel.C42_contents"
   ],
   "note": ""
  },
  {
   "property": "C43",
   "status": "proved",
   "theorems": [
    "Teufel.C43_removal",
    "Teufel.C43_elements",
    "Teufel.C43_nested_lattice"
   ],
   "note": ""
  },
  {
   "property": "C44",
   "status": "proved",
   "theorems": [
    "Teufel.C44_no_mismatch",
    "Teufel.C44_lockstep",
    "Teufel.C44_rejects"
   ],
   "note": ""
  },
  {
   "property": "C45",
   "status": "proved",
   "theorems": [
    "Teufel.FEL.C45_stationary",
    "Teufel.FEL.C45_unchanged",
    "Teufel.FEL.C45_head"
   ],
   "note": ""
  },
  {
   "property": "C46",
   "status": "partial",
   "theorems": [
    "Teufel.FEL.C46_init",
    "Teufel.FEL.C46_step",
    "Teufel.FEL.C46_Field_partial",
    "Teufel.FEL.C46_Field_full_statement_false",
    "Teufel.FEL.C46_small_grid"
   ],
   "note": "init and step proved for all inputs. Field: proved for positions whose distance to the head in cells fits an int; the conversion precedes the range check, so farther positions are undefined (C46_Field_full_statement_false). Grids with fewer than two cells are accepted but overrun (C46_small_grid)."
  },
  {
   "property": "C47",
   "status": "partial",
   "theorems": [
    "Teufel.FEL.C47_sizes",
    "Teufel.FEL.C47_records_partial",
    "Teufel.FEL.C47_records_full_statement_false",
    "Teufel.FEL.C47_no_log"
   ],
   "note": "Records are exact for all steps but the first: the step done by init is never recorded (C47_records_full_statement_false). Without a log node the output step is uninitialised (C47_no_log)."
  },
  {
   "property": "C48",
   "status": "proved",
   "theorems": [
    "Teufel.FEL.C48_step",
    "Teufel.FEL.C48_course"
   ],
   "note": ""
  },
  {
   "property": "C49",
   "status": "partial",
   "theorems": [
    "Teufel.FEL.C49_plane_wave_partial",
    "Teufel.FEL.C49_full_statement_false"
   ],
   "note": "Proved for interactions created from the input file; the other constructor leaves the magnetic field zero (C49_full_statement_false)."
  },
  {
   "property": "C50",
   "status": "partial",
   "theorems": [
    "Teufel.C50_grid_partial",
    "Teufel.C50_orthogonal_iff",
    "Teufel.C50_full_statement_false"
   ],
   "note": "The two grid directions need not be orthogonal: they are for 1 m cells or when the projections of the given directions are orthogonal; C50_full_statement_false gives a counterexample."
  },
  {
   "property": "C51",
   "status": "partial",
   "theorems": [
    "Teufel.C51_components_partial",
    "Teufel.C51_aligned",
    "Teufel.C51_energy_partial",
    "Teufel.C51_full_statement_false",
    "Teufel.C51_energy_full_statement_false"
   ],
   "note": "Field components in the file are projections on the screen's own axes, laboratory components only for aligned screens (C51_aligned); the energy is right only for the normal (0,0,-1), in general it carries the factor -n.z."
  },
  {
   "property": "C52",
   "status": "proved",
   "theorems": [
    "Teufel.C52_boundary",
    "Teufel.C52_twice"
   ],
   "note": ""
  },
  {
   "property": "C53",
   "status": "proved",
   "theorems": [
    "Teufel.C53_normal_derivative",
    "Teufel.C53_fit",
    "Teufel.C53_sample",
    "Teufel.C53_trace"
   ],
   "note": ""
  },
  {
   "property": "C54",
   "status": "partial",
   "theorems": [
    "Teufel.C54_exactly",
    "Teufel.C54_propagated_partial",
    "Teufel.C54_screen_exactly",
    "Teufel.C54_screen_partial",
    "Teufel.C54_full_statement_false"
   ],
   "note": "C54_exactly, C54_screen_exactly: what is computed for every target cell, without restriction (Kirchhoff's sum without the traces the energy flow of which vanishes). The sum of all contributions follows (C54_propagated_partial, C54_screen_partial) if no retarded trace has vanishing energy flow without vanishing itself; C54_full_statement_false shows that it does not hold otherwise."
  },
  {
   "property": "C55",
   "status": "partial",
   "theorems": [
    "Teufel.Propagate.C55_reflection",
    "Teufel.Propagate.C55_propagate_partial",
    "Teufel.Propagate.C55_full_statement_false"
   ],
   "note": "reflection checks for all three arguments; propagate accepts argc==3 and then constructs a string from the null pointer argv[3] (C55_full_statement_false)."
  },
  {
   "property": "C56",
   "status": "partial",
   "theorems": [
    "Teufel.C56_geometry",
    "Teufel.C56_frame_iff",
    "Teufel.C56_frames_partial",
    "Teufel.C56_full_statement_false"
   ],
   "note": "Areas, normals and frames are proved for all meshes except those whose average normal is close to the negative y axis; there the comparison without fabs picks an axis parallel to the normals and the frame is NaN (C56_full_statement_false). C56_frame_iff is the exact criterion."
  },
  {
   "property": "C57",
   "status": "partial",
   "theorems": [
    "Teufel.C57_neighbourhood",
    "Teufel.C57_fits_partial",
    "Teufel.C57_full_statement_false"
   ],
   "note": "The returned list is exactly the set of touching cells; it fits the buffer iff there are at most as many as the buffer has room for. The fixed buffer of 24 is overrun by a fan of 25 triangles (C57_full_statement_false)."
  },
  {
   "property": "C58",
   "status": "partial",
   "theorems": [
    "Teufel.C58_time_step_partial",
    "Teufel.C58_full_statement_false"
   ],
   "note": "get_dt returns the time step truncated to an int, so it is right only for integral time steps (C58_full_statement_false: for every step between 0 and 1 s it returns 0)."
  },
  {
   "property": "C59",
   "status": "proved",
   "theorems": [
    "Teufel.C59_energy",
    "Teufel.C59_symmetry"
   ],
   "note": ""
  },
  {
   "property": "C60",
   "status": "proved",
   "theorems": [
    "Teufel.Input.C60_beam",
    "Teufel.Input.C60_beam_only",
    "Teufel.Input.C60_beam_all",
    "Teufel.Input.C60_beam_first",
    "Teufel.Input.C60_lattice",
    "Teufel.Input.C60_lattice_only",
    "Teufel.Input.C60_lattice_all",
    "Teufel.Input.C60_lattice_first",
    "Teufel.Input.C60_lattice_order",
    "Teufel.Input.C60_observers",
    "Teufel.Input.C60_observers_only",
    "Teufel.Input.C60_observers_all",
    "Teufel.Input.C60_observers_first",
    "Teufel.Input.C60_document",
    "Teufel.Input.C60_tracking",
    "Teufel.Input.C60_tracking_only",
    "Teufel.Input.C60_tracking_all",
    "Teufel.Input.C60_tracking_first"
   ],
   "note": ""
  },
  {
   "property": "C61",
   "status": "proved",
   "theorems": [
    "Teufel.Input.C61_value",
    "Teufel.Input.C61_failing",
    "Teufel.Input.C61_document",
    "Teufel.Input.C61_children",
    "Teufel.Input.C61_attributes",
    "Teufel.Input.C61_integers",
    "Teufel.Input.C61_constants",
    "Teufel.Input.C61_first",
    "Teufel.Input.C61_column"
   ],
   "note": ""
  },
  {
   "property": "C62",
   "status": "partial",
   "theorems": [
    "Teufel.C62_reimport_empty",
    "Teufel.C62_full_statement_false",
    "Teufel.C62_renamed_partial",
    "Teufel.C62_bunch_file",
    "Teufel.C62_beam_columns",
    "Teufel.C62_bunch_columns",
    "Teufel.C62_bunch_reimport_empty"
   ],
   "note": "The property fails: the count is written as NumberOfParticles and read as Particles, so every re-import gives an empty bunch (C62_reimport_empty, C62_full_statement_false).  C62_renamed_partial: with the name corrected the count agrees but the charge is multiplied by -e. The export of single bunches is modelled as well: its particle count and rows are stated by C62_bunch_file, and C62_bunch_reimport_empty shows that its file cannot be re-imported as more than an empty bunch either. C62_beam_columns and C62_bunch_columns state which quantity is found under which column name."
  },
  {
   "property": "C63",
   "status": "partial",
   "theorems": [
    "Teufel.C63_import_partial",
    "Teufel.C63_horizontal",
    "Teufel.C63_left_handed",
    "Teufel.C63_full_statement_false",
    "Teufel.C63_reachable",
    "Teufel.C63_short",
    "Teufel.C63_incomplete"
   ],
   "note": "x is in the x-z plane only for horizontal beams (C63_horizontal); in general it is not (C63_full_statement_false), and the frame is left-handed (C63_left_handed).  Everything else of the property is proved for all files and directions."
  },
  {
   "property": "C64",
   "status": "partial",
   "theorems": [
    "Teufel.C64_particle_partial",
    "Teufel.C64_full_statement_false",
    "Teufel.C64_bunch_partial",
    "Teufel.C64_cold_partial"
   ],
   "note": "Proved for non-zero charge and non-zero charge-to-mass ratio (and, for particles, a non-zero direction): charge, charge-to-mass ratio, Lorentz factor, start time and phase space coordinates including correlations. The full statement is refuted: a particle of charge 0 has an undefined charge-to-mass ratio."
  },
  {
   "property": "C65",
   "status": "proved",
   "theorems": [
    "Teufel.C65_grid",
    "Teufel.C65_particles"
   ],
   "note": ""
  },
  {
   "property": "C66",
   "status": "proved",
   "theorems": [
    "Teufel.C66_grid",
    "Teufel.C66_normal"
   ],
   "note": ""
  },
  {
   "property": "C67",
   "status": "proved",
   "theorems": [
    "Teufel.C67_cross_orthogonal",
    "Teufel.C67_lagrange",
    "Teufel.C67_norm_spec",
    "Teufel.C67_normalize",
    "Teufel.C67_frame_isometry"
   ],
   "note": ""
  },
  {
   "property": "C68",
   "status": "partial",
   "theorems": [
    "Teufel.C68_true_acceleration_partial",
    "Teufel.C68_magnetic_tracking",
    "Teufel.C68_full_statement_false"
   ],
   "note": "Proved for accelerations perpendicular to the velocity; the code uses (d(beta gamma)/dt)/gamma as velocity derivative, which is wrong for longitudinal components (C68_full_statement_false)."
  },
  {
   "property": "C69",
   "status": "proved",
   "theorems": [
    "Teufel.C69_averages",
    "Teufel.C69_rms",
    "Teufel.C69_delta",
    "Teufel.C69_bunching",
    "Teufel.C69_translation",
    "Teufel.C69_empty"
   ],
   "note": ""
  },
  {
   "property": "C70",
   "status": "partial",
   "theorems": [
    "Teufel.C70_nodes_partial",
    "Teufel.C70_full_statement_false"
   ],
   "note": "Proved for requests of no more particles than the first node tracks (all output of the run is that of a run on one node). Refuted otherwise: the probe logger only sees the particles tracked by the first node, so a log of three particles contains two of them when there are two nodes."
  },
  {
   "property": "C71",
   "status": "partial",
   "theorems": [
    "Teufel.FEL.C71_conserved_partial",
    "Teufel.FEL.C71_lost_at_head",
    "Teufel.FEL.C71_outside",
    "Teufel.FEL.C71_full_statement_false"
   ],
   "note": "Proved (Poisson summation) for particles at least ten cells away from both ends of the grid. Refuted near the ends: the part of the Gaussian outside the grid is lost; at least 15 percent for a particle at the head. Particles outside the grid end the step with an exception."
  },
  {
   "property": "C72",
   "status": "partial",
   "theorems": [
    "Teufel.C72_accepts_partial",
    "Teufel.C72_rejects",
    "Teufel.C72_exactly",
    "Teufel.C72_full_statement_false"
   ],
   "note": "Refuted for files with a single sample per cell (C72_full_statement_false). C72_exactly: which of the files with all attributes are usable; C72_accepts_partial, C72_rejects."
  },
  {
   "property": "C73",
   "status": "proved",
   "theorems": [
    "Teufel.C73_round_trip",
    "Teufel.C73_created"
   ],
   "note": ""
  },
  {
   "property": "C74",
   "status": "proved",
   "theorems": [
    "Teufel.C74_distribution",
    "Teufel.C74_start_time"
   ],
   "note": ""
  },
  {
   "property": "C75",
   "status": "partial",
   "theorems": [
    "Teufel.Input.C75_position_full_statement_false",
    "Teufel.Input.C75_once_full_statement_false",
    "Teufel.Input.C75_top_level_partial"
   ],
   "note": "Refuted: the position of calc entries matters inside sections, and calc children of undulators and dipoles are evaluated twice. Proved: definitions at the top level are known everywhere in the sections."
  },
  {
   "property": "C76",
   "status": "proved",
   "theorems": [
    "Teufel.FEL.C76_initial_field",
    "Teufel.FEL.C76_log_step"
   ],
   "note": "From the input entry as the calculator returns it; seeds with zero wavelength or duration give NaN and are excluded by the constructor having succeeded."
  },
  {
   "property": "C77",
   "status": "partial",
   "theorems": [
    "Teufel.Propagate.C77_files",
    "Teufel.Propagate.C77_inputs",
    "Teufel.Propagate.C77_target_fields",
    "Teufel.Propagate.C77_result_exactly",
    "Teufel.Propagate.C77_result_partial",
    "Teufel.Propagate.C77_full_statement_false"
   ],
   "note": "Proved for files, inputs and target fields. C77_result_exactly: what is written for every cell, without restriction (Kirchhoff's sum without the traces the energy flow of which vanishes); C77_result_partial: all contributions, if no retarded trace has vanishing energy flow without vanishing itself; C77_full_statement_false. The least-squares solver is a parameter."
  },
  {
   "property": "C78",
   "status": "partial",
   "theorems": [
    "Teufel.FEL.C78_file_partial",
    "Teufel.FEL.C78_size",
    "Teufel.FEL.C78_every_step",
    "Teufel.FEL.C78_full_statement_false"
   ],
   "note": "Proved for every interval of two or more steps. Refuted for interval 1 (the default): the first step is never recorded, so row k>=1 is the field after k+1 steps and there are n rows (C78_every_step)."
  },
  {
   "property": "C79",
   "status": "proved",
   "theorems": [
    "Teufel.C79_screen",
    "Teufel.C79_screen_overflow",
    "Teufel.C79_snapshot",
    "Teufel.C79_particles",
    "Teufel.C79_point"
   ],
   "note": "Screen, snapshot and point observer after any history, for grids whose buffers fit into 32 bits; beyond that the screen's writer overruns its buffer (C79_screen_overflow). Mesh files are covered by C73. Failures of HDF5/SDDS calls are not modelled."
  },
  {
   "property": "C80",
   "status": "partial",
   "theorems": [
    "Teufel.C80_reload_partial",
    "Teufel.C80_full_statement_false"
   ],
   "note": "Proved for screens with perpendicular pitch vectors. Refuted otherwise: the source screen turns the second pitch vector (and by a formula that mixes lengths), so cells move."
  },
  {
   "property": "C81",
   "status": "partial",
   "theorems": [
    "Teufel.C81_parameter",
    "Teufel.C81_trajectory_partial",
    "Teufel.C81_trajectory_overflow",
    "Teufel.C81_full_statement_false",
    "Teufel.C81_probe_partial",
    "Teufel.C81_probe_overflow"
   ],
   "note": "Proved for parameter loggers without restriction and for trajectory and probe loggers whose files hold fewer than 2^32 numbers. Refuted beyond: the buffer size is computed with 32-bit numbers and the writer overruns it (C81_trajectory_overflow, C81_probe_overflow)."
  },
  {
   "property": "C82",
   "status": "partial",
   "theorems": [
    "Teufel.Lib.C82_nodes_partial",
    "Teufel.Lib.C82_random_numbers",
    "Teufel.Lib.C82_full_statement_false"
   ],
   "note": "Proved for documents whose observers observe the beam and whose probe log has no more particles than the first node tracks. Refuted for observers of the lattice: the file holds the field times the number of nodes (see C38). For larger probe logs see C70."
  },
  {
   "property": "C83",
   "status": "partial",
   "theorems": [
    "Teufel.Lib.C83_coupled_partial",
    "Teufel.Lib.C83_observers_partial",
    "Teufel.Lib.C83_full_statement_false"
   ],
   "note": "Names and order proved without restriction. Contents for observers of the beam: C83_coupled_partial with interactions (particles of the serial calculation Coupled.after), C83_observers_partial without (each particle moved alone). For observers of the lattice the theorem shows what is actually written, the field times the number of nodes; the intended statement is refuted for more than one node (C38, C82_full_statement_false). C83_full_statement_false."
  },
  {
   "property": "C84",
   "status": "proved",
   "theorems": [
    "Teufel.Lib.C84_names"
   ],
   "note": "For every document for which the program succeeds. Whether a file with an existing name is replaced is left to the file system."
  },
  {
   "property": "C85",
   "status": "partial",
   "theorems": [
    "Teufel.Lib.C85_watches_coupled_partial",
    "Teufel.Lib.C85_parameter_coupled",
    "Teufel.Lib.C85_trajectory_coupled",
    "Teufel.Lib.C85_watches_partial",
    "Teufel.Lib.C85_parameter",
    "Teufel.Lib.C85_trajectory",
    "Teufel.Lib.C85_full_statement_false"
   ],
   "note": "Watch points (HDF5 and SDDS), parameter logs, trajectory logs (files of 2^32 numbers or more make the run fail), with interactions (…_coupled) and in terms of particles moved alone without them. The parameter Charge of SDDS watch files is the total charge multiplied by the elementary charge once more: the statement with the charge in Coulomb is refuted (C85_full_statement_false)."
  },
  {
   "property": "C86",
   "status": "proved",
   "theorems": [
    "Teufel.Lib.C86_coupled",
    "Teufel.Lib.C86_complete",
    "Teufel.Lib.C86_without_interactions",
    "Teufel.Lib.C86_runs"
   ],
   "note": "C86_complete is the statement; C86_coupled replaces the static conditions on interactions by success of the serial calculation; C86_without_interactions and C86_runs are simpler forms with fewer conditions on times. Conditions on sizes: LogFits, ProbeFits, ObserverFits."
  },
  {
   "property": "C87",
   "status": "partial",
   "theorems": [
    "Teufel.Lib.C87_others_partial",
    "Teufel.Lib.C87_stops",
    "Teufel.Lib.C87_full_statement_false",
    "Teufel.Lib.C87_stops_probe",
    "Teufel.Lib.C87_stops_interaction"
   ],
   "note": "Proved if trajectory, probe and interaction logs can be created (others may fail). The full statement is false: an exception of such a log ends the program (`C87_stops`, `C87_stops_probe` and `C87_stops_interaction` say exactly what is written then)."
  },
  {
   "property": "C88",
   "status": "proved",
   "theorems": [
    "Teufel.C88_run",
    "Teufel.C88_succeeds",
    "Teufel.C88_alone",
    "Teufel.Lib.C88_file",
    "Teufel.C88_stays_on_grid"
   ],
   "note": "Serial calculation: Coupled.after in Spec/Coupled. C88_succeeds is for output objects that do not fail; C88_stays_on_grid gives conditions on the input under which the serial calculation succeeds."
  },
  {
   "property": "C89",
   "status": "partial",
   "theorems": [
    "Teufel.Rounded.C89_clock_error",
    "Teufel.Rounded.C89_no_mismatch_partial",
    "Teufel.Rounded.C89_double",
    "Teufel.Rounded.C89_accepts",
    "Teufel.Rounded.C89_detects",
    "Teufel.Rounded.C89_full_statement_false"
   ],
   "note": "C89_no_mismatch_partial: up to n^2 u <= 1/8 (2^25 steps in double precision, C89_double). Refuted beyond: with a time step of 1+2^-27 s a run of 2^27-1 steps is stopped (C89_full_statement_false). Particles starting at time zero."
  },
  {
   "property": "C90",
   "status": "partial",
   "theorems": [
    "Teufel.Rounded.C90_record_partial",
    "Teufel.Rounded.C90_overflow",
    "Teufel.Rounded.C90_arrival",
    "Teufel.Rounded.C90_record_exact_partial",
    "Teufel.Rounded.C90_full_statement_false"
   ],
   "note": "C90_record_partial: retarded times at least 8u(|t0|+N dt) away from both ends of the trace. C90_record_exact_partial: the same in terms of exact arrival times (C90_arrival bounds the error of the computed ones). Refuted in general by a concrete double precision case (C90_full_statement_false); C90_overflow: the conversion to int precedes the comparison with the length."
  },
  {
   "property": "C91",
   "status": "proved",
   "theorems": [
    "Teufel.C91_every_schedule",
    "Teufel.C91_failure",
    "Teufel.C91_ends",
    "Teufel.C91_completes"
   ],
   "note": "Nodes as concurrent processes with all collective operations of main in their places (Model/MPI, Model/Nodes); C91_every_schedule and C91_completes for inputs the lockstep program accepts, C91_failure for the others, C91_ends for all."
  },
  {
   "property": "C92",
   "status": "proved",
   "theorems": [
    "Teufel.C92_second_order",
    "Teufel.C92_converges"
   ],
   "note": "Exact arithmetic. The exact motion (Spec/Motion) is given as differentiable functions with a smooth momentum; C118 proves that it exists and is unique in fields without jumps. C92_second_order gives the order, C92_converges the limit; the example is an electron circulating in a uniform magnetic field."
  },
  {
   "property": "C93",
   "status": "proved",
   "theorems": [
    "Teufel.C93_limit",
    "Teufel.C93_second_order",
    "Teufel.C93_converges",
    "Teufel.C93_signal"
   ],
   "note": "Exact arithmetic; existence of the exact motion is a hypothesis (as in C92), existence of the exact signal at the observer is proved (C93_signal). C93_second_order and C93_converges are for magnetic fields, where the acceleration used by the code is the true one (C68); C93_limit gives the limit in all fields. The particle has no stored history before the start of the tracking."
  },
  {
   "property": "C94",
   "status": "proved",
   "theorems": [
    "Teufel.Lib.C94_observation",
    "Teufel.Lib.C94_watches",
    "Teufel.Lib.C94_trajectories"
   ],
   "note": "Exact arithmetic, no interactions; the exact motion of each particle is a hypothesis (Charge.Moves), as in C92 and C93. Observers: magnetic fields (C68), traces of at least two samples; snapshots are not covered. The example runs the program for all small time steps on any number of nodes."
  },
  {
   "property": "C95",
   "status": "partial",
   "theorems": [
    "Teufel.Lib.C95_usage",
    "Teufel.Lib.C95_arguments",
    "Teufel.Lib.C95_status_partial",
    "Teufel.Lib.C95_full_statement_false"
   ],
   "note": "C95_status_partial: file systems on which all files can be created. C95_full_statement_false: a parameter log that cannot be created is lost with exit status 0 (see C87 for what is written then)."
  },
  {
   "property": "C96",
   "status": "proved",
   "theorems": [
    "Teufel.C96_limit",
    "Teufel.C96_second_order",
    "Teufel.Lib.C96_snapshots"
   ],
   "note": "C96_limit (also electric fields, limit expressed by the acceleration the code stores: rate of momentum over gamma), C96_second_order (magnetic fields: the exact Lienard-Wiechert field), C96_snapshots (files of a run)."
  },
  {
   "property": "C97",
   "status": "proved",
   "theorems": [
    "Teufel.Frame.C97_reading",
    "Teufel.Frame.C97_particle",
    "Teufel.Frame.C97_beam",
    "Teufel.Frame.C97_signal",
    "Teufel.Frame.C97_point",
    "Teufel.Frame.C97_screen",
    "Teufel.Frame.C97_mesh"
   ],
   "note": "C97_reading, C97_particle, C97_beam, C97_signal, C97_point, C97_screen, C97_mesh."
  },
  {
   "property": "C98",
   "status": "partial",
   "theorems": [
    "Teufel.Frame.C98_snapshot_partial",
    "Teufel.Frame.C98_particle_partial",
    "Teufel.Frame.C98_full_statement_false"
   ],
   "note": "C98_snapshot_partial, C98_particle_partial: zero of time kept, or first signals arrived. C98_full_statement_false: before the first signal the charge is extrapolated backwards with the absolute time of observation instead of the time since the start of the trajectory (src/particle.cpp:652), so the field depends on the zero of time."
  },
  {
   "property": "C99",
   "status": "proved",
   "theorems": [
    "Teufel.Plane.C99_motion",
    "Teufel.Plane.C99_polarisation",
    "Teufel.Plane.C99_snapshot",
    "Teufel.Plane.C99_lattice",
    "Teufel.Plane.C99_interaction",
    "Teufel.Lib.C99_files"
   ],
   "note": "C99_motion, C99_polarisation, C99_snapshot, C99_lattice, C99_interaction, C99_files."
  },
  {
   "property": "C100",
   "status": "proved",
   "theorems": [
    "Teufel.C100_constants",
    "Teufel.C100_work",
    "Teufel.C100_energy",
    "Teufel.C100_homogeneous"
   ],
   "note": "C100_constants (constants of Spec/Energy), C100_work, C100_energy; C100_homogeneous gives the potential of homogeneous fields. Exact arithmetic; the exact motion is a hypothesis as in C92."
  },
  {
   "property": "C101",
   "status": "proved",
   "theorems": [
    "Teufel.C101_without_rounding",
    "Teufel.C101_rounded_tracking",
    "Teufel.C101_precision",
    "Teufel.C101_clock_stops"
   ],
   "note": "C101_rounded_tracking (error bound, no undefined operation), C101_precision (convergence), C101_clock_stops (the term u/h is needed), C101_without_rounding (same tracker as C92). No overflow and underflow; computed fields are a hypothesis (Spec/Computed), discharged for lattices of magnets by C129."
  },
  {
   "property": "C102",
   "status": "partial",
   "theorems": [
    "Teufel.SourceScreen.C102_debug_files",
    "Teufel.SourceScreen.C102_not_creatable",
    "Teufel.SourceScreen.C102_reload_partial",
    "Teufel.SourceScreen.C102_full_statement_false"
   ],
   "note": "C102_debug_files gives the content of both files, C102_not_creatable the failure. Using the file as input: C102_reload_partial for screens along the axes x and y; false for other orientations (C102_full_statement_false): the file contains components along the directions of the screen and reading it projects them again."
  },
  {
   "property": "C103",
   "status": "proved",
   "theorems": [
    "Teufel.C103_passive"
   ],
   "note": "Fewer (Spec/Requests) says which requests may be removed; observers containing definitions of variables are kept because later entries may use the variables. Which files remain follows from C84_names. The model has no memory corruption and no exhaustion of resources by output."
  },
  {
   "property": "C104",
   "status": "proved",
   "theorems": [
    "Teufel.C104_motion",
    "Teufel.C104_radiation",
    "Teufel.C104_observed",
    "Teufel.C104_coupled",
    "Teufel.Lib.C104_files"
   ],
   "note": "Divided (Spec/Shares) says how the macro-particles of two beams correspond; a part may have any non-zero share, also a negative one. Logged bunch statistics are not covered: they count macro-particles without regard to their charge (C69), so they do change when only some macro-particles are divided."
  },
  {
   "property": "C105",
   "status": "proved",
   "theorems": [
    "Teufel.C105_parameter",
    "Teufel.C105_oscillation",
    "Teufel.C105_any_height",
    "Teufel.C105_shape",
    "Teufel.C105_tracked",
    "Teufel.C105_no_net_deflection",
    "Teufel.C105_amplitude"
   ],
   "note": "C105_tracked and C105_no_net_deflection have no hypothesis about an exact motion: its existence and smoothness are proved (Und.exists_motion). swing (Spec/Undulator) describes the oscillation including the matching periods, C105_shape says what it looks like. The matching periods are covered in the midplane only, because above it their field is not free of divergence."
  },
  {
   "property": "C106",
   "status": "proved",
   "theorems": [
    "Teufel.C106_resonance",
    "Teufel.C106_tracked",
    "Teufel.C106_wavelength"
   ],
   "note": "C106_tracked is end to end (the exact motion is constructed in the proof), C106_resonance is the statement for exact motions over whole periods, C106_wavelength connects the two."
  },
  {
   "property": "C107",
   "status": "partial",
   "theorems": [
    "Teufel.FEL.C107_computed",
    "Teufel.FEL.C107_solution",
    "Teufel.FEL.C107_vanishes",
    "Teufel.FEL.C107_opposite",
    "Teufel.FEL.C107_full_statement_false"
   ],
   "note": "Refuted (C107_full_statement_false). C107_computed: the source of the equation the code solves is the difference of the deposited currents of two consecutive steps at the same place, with a plus sign. C107_solution: closed form of the field for all runs starting without field. C107_vanishes: after a given time the field is proportional to the time step. C107_opposite: the field of an accelerated charge points opposite to its Lienard-Wiechert field."
  },
  {
   "property": "C108",
   "status": "proved",
   "theorems": [
    "Teufel.C108_helix",
    "Teufel.C108_on_orbit",
    "Teufel.C108_exists",
    "Teufel.C108_electric",
    "Teufel.Lib.C108_watches"
   ],
   "note": "C108_helix: every motion in a homogeneous magnetic field is the helix; C108_exists: it exists for all starting points; C108_on_orbit: the stored points; C108_watches: the files of the program; C108_electric: the homogeneous electric field (momenta)."
  },
  {
   "property": "C109",
   "status": "proved",
   "theorems": [
    "Teufel.C109_retraced"
   ],
   "note": "C109_retraced; in real arithmetic."
  },
  {
   "property": "C110",
   "status": "proved",
   "theorems": [
    "Teufel.C110_reported"
   ],
   "note": "C110_reported; the power agrees within 1e-9 because the code uses decimal values for both vacuum constants."
  },
  {
   "property": "C111",
   "status": "partial",
   "theorems": [
    "Teufel.C111_paraxial_partial",
    "Teufel.C111_never",
    "Teufel.C111_full_statement_false"
   ],
   "note": "Refuted (C111_full_statement_false; C111_never: for no Gaussian wave at all). C111_paraxial_partial: the amplitude times exp(i arctan(z/zR)) obeys the equation, i.e. the Gouy phase is missing."
  },
  {
   "property": "C112",
   "status": "proved",
   "theorems": [
    "Teufel.C112_report",
    "Teufel.C112_flow"
   ],
   "note": "C112_report, C112_flow."
  },
  {
   "property": "C113",
   "status": "partial",
   "theorems": [
    "Teufel.C113_box_partial",
    "Teufel.C113_full_statement_false"
   ],
   "note": "Refuted (C113_full_statement_false): get_dt() returns an int, so the box ends at the latest start time. C113_box_partial: positions, start of the time range, whole-second time steps."
  },
  {
   "property": "C114",
   "status": "proved",
   "theorems": [
    "Teufel.C114_field_exists",
    "Teufel.C114_radiation",
    "Teufel.C114_beam",
    "Teufel.C114_limit",
    "Teufel.C114_before_start"
   ],
   "note": "C114_limit (existence of the limit field, Maxwell, second order convergence), C114_radiation, C114_beam (superposition), C114_field_exists (uniqueness), C114_before_start (exact)."
  },
  {
   "property": "C115",
   "status": "proved",
   "theorems": [
    "Teufel.C115_before_start",
    "Teufel.C115_gauss",
    "Teufel.C115_tracked"
   ],
   "note": "C115_before_start (exact), C115_gauss (flux through all spheres), C115_tracked (second order convergence after the start)."
  },
  {
   "property": "C116",
   "status": "proved",
   "theorems": [
    "Teufel.C116_sum",
    "Teufel.C116_nodes_agree",
    "Teufel.C116_double",
    "Teufel.C116_not_identical",
    "Teufel.C116_exact_reduce",
    "Teufel.C116_exact_node",
    "Teufel.C116_exact_recorded"
   ],
   "note": "C116_sum (error bound), C116_nodes_agree and C116_double (two runs), C116_not_identical (runs on one and two nodes that differ), C116_exact_reduce, C116_exact_node and C116_exact_recorded (without rounding the model is the one of the other claims). How the contributions of a particle are computed in rounded arithmetic is not modelled: they are arbitrary functions of the particle."
  },
  {
   "property": "C117",
   "status": "partial",
   "theorems": [
    "Teufel.C117_power_partial",
    "Teufel.C117_constants",
    "Teufel.C117_transverse",
    "Teufel.C117_magnetic_tracking",
    "Teufel.C117_longitudinal",
    "Teufel.C117_full_statement_false"
   ],
   "note": "The power agrees with the formula evaluated with the stored acceleration divided by gamma (C117_power_partial), hence with the true one for transverse acceleration (C117_transverse), in particular for all particles tracked in magnetic fields (C117_magnetic_tracking). For acceleration along the velocity it is too large by gamma^4 (C117_longitudinal, C117_full_statement_false). The factor eps0 mu0 c^2 is 1 within 1e-9 (C117_constants)."
  },
  {
   "property": "C118",
   "status": "proved",
   "theorems": [
    "Teufel.C118_motion_exists",
    "Teufel.C118_motion_unique",
    "Teufel.C118_first_order",
    "Teufel.C118_lattice"
   ],
   "note": "Exact arithmetic. C118_lattice: the fields of these lattices are Lipschitz continuous in bounded regions (undulators with a period or a number of periods that is not negative); C118_motion_exists, C118_motion_unique, C118_first_order hold in all such fields. Hard-edge dipoles, whose fields jump, are the subject of C120. Order two holds where the exact motion is smooth (C92)."
  },
  {
   "property": "C119",
   "status": "proved",
   "theorems": [
    "Teufel.C119_limit",
    "Teufel.C119_recorded",
    "Teufel.C119_signal",
    "Teufel.Lib.C119_observation",
    "Teufel.Lib.C119_watches",
    "Teufel.Lib.C119_trajectories"
   ],
   "note": "Exact arithmetic. Extends C93 and C94, which need a smooth momentum, to motions with kinks; the order of convergence is one instead of two. C119_limit says what the samples converge to where there are electric fields. Hard-edge dipoles are the subject of C120. The example is a run with a particle entering an undulator; its exact motion comes from C118."
  },
  {
   "property": "C120",
   "status": "proved",
   "theorems": [
    "Teufel.Lib.C120_watches",
    "Teufel.Lib.C120_trajectories",
    "Teufel.C120_first_order",
    "Teufel.C120_unique"
   ],
   "note": "Exact arithmetic. Extends C118 and the watch files and logs of C119 to lattices with hard-edge dipoles. A motion that touches a face tangentially is excluded: there the exact motion need not depend continuously on the start. The plane of a face counts as a face over its whole extent, also where the other face already cuts the field off. Files of observers are the subject of C121. Examples: an electron flying into a dipole and circulating in it, and a run of the program with a particle starting on the entrance face."
  },
  {
   "property": "C121",
   "status": "proved",
   "theorems": [
    "Teufel.C121_limit",
    "Teufel.C121_recorded",
    "Teufel.C121_signal",
    "Teufel.Lib.C121_observation"
   ],
   "note": "Exact arithmetic. Extends C93 and the observer files of C119 to lattices with hard-edge dipoles, with the faces, motions and exclusions of C120. With electric fields on the way the samples converge to the field formula with dp/dt over gamma in place of the acceleration (C121_limit), which is the program's own formula and not the exact field. Examples: an electron flying into a dipole, and a run of the program with a particle starting on the entrance face."
  },
  {
   "property": "C122",
   "status": "proved",
   "theorems": [
    "Teufel.Lib.C122_second_order",
    "Teufel.Lib.C122_first_order",
    "Teufel.Lib.C122_edges",
    "Teufel.Lib.C122_probe",
    "Teufel.Lib.C122_lattice_field"
   ],
   "note": "Exact arithmetic. With interactions the acting field is that of the interaction state before the step (Coupled.Acting); without them it is the field of the lattice (C122_lattice_field). A file of 2^32 numbers or more makes the run fail (C81_probe_overflow), so the theorem needs no size condition. Example: the probe file of a particle in a homogeneous electric field on three nodes."
  },
  {
   "property": "C123",
   "status": "proved",
   "theorems": [
    "Teufel.Lib.C123_complete",
    "Teufel.Lib.C123_watches",
    "Teufel.Lib.C123_logs_lost",
    "Teufel.Lib.C123_progress"
   ],
   "note": "Exact arithmetic; a single file is written at once (the HDF5 and SDDS libraries are not modelled), all files can be created (C87 treats the other case). The total charge in SDDS files is left open here (C85). Example: an interaction whose log has step size 0 stops the program in its first step; the watch point at step 0 is on the disk and nothing else."
  },
  {
   "property": "C124",
   "status": "proved",
   "theorems": [
    "Teufel.Lib.C124_watches",
    "Teufel.Lib.C124_parameter",
    "Teufel.Lib.C124_trajectory",
    "Teufel.Lib.C124_probe",
    "Teufel.Lib.C124_observers",
    "Teufel.Lib.C124_snapshots"
   ],
   "note": "Exact arithmetic. For recorded radiation the time steps are positive and (except for snapshots) no particle hits the observer. The random numbers of the first node are the same in both runs. Example: one and two steps of a free particle with watch point, log, probe, observer and snapshot on different numbers of nodes."
  },
  {
   "property": "C125",
   "status": "proved",
   "theorems": [
    "Teufel.Lib.C125_radiation",
    "Teufel.Lib.C125_watches"
   ],
   "note": "Exact arithmetic. All three runs succeed. Bunches created from random numbers are left out, because their coordinates depend on the position of the entry in the file. Example: two particles on five nodes, and each of them alone on three nodes or on one."
  },
  {
   "property": "C126",
   "status": "proved",
   "theorems": [
    "Teufel.Lib.C126_observers",
    "Teufel.Lib.C126_watches",
    "Teufel.Lib.C126_interactions"
   ],
   "note": "Exact arithmetic: the sums over the elements are equal, not their roundings. Both runs succeed. Elements with definitions are left out, because a definition may be used by the elements behind it. Example: an electric and a magnetic background in either order, on five and on three nodes."
  },
  {
   "property": "C127",
   "status": "proved",
   "theorems": [
    "Teufel.C127_motion",
    "Teufel.C127_radiation",
    "Teufel.Lib.C127_files"
   ],
   "note": "Exact arithmetic. Without interactions, which are not scaled by the same factor as the lattice. For the files both runs succeed. Example: a particle in a field of 2 V/m on five nodes, and one of twice the charge in 1 V/m on three nodes."
  },
  {
   "property": "C128",
   "status": "proved",
   "theorems": [
    "Teufel.C128_coupled",
    "Teufel.C128_radiation",
    "Teufel.Lib.C128_files"
   ],
   "note": "Exact arithmetic. For the files both runs succeed, and the relation of charges, masses, lattices and interactions is stated for what is read from the input files. Example: a particle in 2 V/m on five nodes and one of twice the charge in 1 V/m on three nodes with an interaction of twice the width."
  },
  {
   "property": "C129",
   "status": "proved",
   "theorems": [
    "Teufel.C129_exact",
    "Teufel.C129_lattice",
    "Teufel.C129_tracking"
   ],
   "note": "No overflow, underflow or fused multiply-add, as in C89, C90 and C101. The accuracy of sin, cos, sinh, cosh and atan is a hypothesis; waves and hard-edge dipoles are not in this rounded model (the latter have jumps, so rounding may matter there). C129_tracking discharges the hypothesis of C101 about the computed field. With exact arithmetic the rounded model is the exact one (C129_exact)."
  },
  {
   "property": "C130",
   "status": "proved",
   "theorems": [
    "Teufel.C130_first_order",
    "Teufel.C130_magnets",
    "Teufel.C130_precision"
   ],
   "note": "Removes the assumption of a smooth motion from C101 and C129, at the price of one order in the time step (C118 does the same for exact arithmetic). No overflow, underflow or fused multiply-add; the accuracy of the mathematical library is a hypothesis. The constants are not computed."
  },
  {
   "property": "C131",
   "status": "partial",
   "theorems": [
    "Teufel.C131_exact",
    "Teufel.C131_values",
    "Teufel.C131_away_partial",
    "Teufel.C131_axis_partial",
    "Teufel.C131_full_statement_false"
   ],
   "note": "C131_away_partial: the computed field is exactly the exact one everywhere except possibly within a constant times the unit roundoff from the limiting planes. C131_axis_partial: no exception if the planes are perpendicular to coordinate axes. C131_values: it is always the full field or zero. Refuted for tilted planes with any number of digits (C131_full_statement_false). So the bound of C129, an error of the order of the unit roundoff everywhere, cannot hold for lattices with hard-edge dipoles. No overflow, underflow or fused multiply-add."
  },
  {
   "property": "C132",
   "status": "proved",
   "theorems": [
    "Teufel.C132_no_work",
    "Teufel.C132_magnets",
    "Teufel.C132_hardEdge"
   ],
   "note": "C132_no_work: the rounded version of C03, for arbitrary magnetic fields, which need not be continuous; the constants depend only on the charge-to-mass ratio and bounds of momentum, field and region. C132_magnets and C132_hardEdge: in the fields of lattices and hard-edge dipoles as computed with rounding. Time steps up to one second; the number of steps times the unit roundoff must be below a constant. No overflow or underflow."
  },
  {
   "property": "C133",
   "status": "proved",
   "theorems": [
    "Teufel.C133_slower_than_light",
    "Teufel.C133_unbounded_momentum_false"
   ],
   "note": "The rounded version of C02 and C05. The bound of the unit roundoff depends only on the charge-to-mass ratio, bounds of start position, momentum and fields, and the duration of the run. The fields need not be continuous. Time steps up to one second. No overflow or underflow. C133_unbounded_momentum_false: with any number of digits there is a particle so fast that it moves exactly by c times the time step, so the bound of the momentum cannot be left out."
  },
  {
   "property": "C134",
   "status": "proved",
   "theorems": [
    "Teufel.C134_step",
    "Teufel.C134_start",
    "Teufel.C134_mirror"
   ],
   "note": "Bitwise version of the reflection and charge symmetry. `C134_start` and `C134_step` cover every call, also those that fail; `C134_mirror` a whole run. `Spec/MirrorImage` says what the mirror image is: magnetic fields are axial vectors. The sign of zero is not modelled. No overflow or underflow."
  },
  {
   "property": "C135",
   "status": "proved",
   "theorems": [
    "Teufel.C135_macro_particles"
   ],
   "note": "Bitwise version of the first part of C104. The ratio means the exact quotient of the two stored numbers; the code divides them first. No hypothesis on the rounding function is needed. No overflow or underflow."
  }
 ]
}